import Verif.Model.PyApi
import Verif.Spec.Text
import Verif.Spec.File

/-
  C86 - C90: what the calls of the Python bindings on a file object have to do.
-/

namespace Olecf.Spec
open Olecf

/-- Contract of the UTF-8 conversions of CPython: a string of characters is encoded, one with a surrogate
  is refused; the encodings of strings of characters are decoded. -/
structure IsPyCodec (py : PyCodec) : Prop where
  encode : ∀ cs, (∀ c ∈ cs, Scalar c) → py.encode cs = some (cs.flatMap encode8)
  refuse : ∀ cs, ¬ (∀ c ∈ cs, Scalar c) → py.encode cs = none
  decode : ∀ cs, (∀ c ∈ cs, Scalar c) → py.decode (cs.flatMap encode8) = some cs

/-- The bytes a `str` or `bytes` object stands for. -/
inductive Denotes : PyText → Bytes → Prop
  | str {cs : List Nat} : (∀ c ∈ cs, Scalar c) → Denotes (.str cs) (cs.flatMap encode8)
  | bytes {b : Bytes} : Denotes (.bytes b) b

/-- Modes in which a file can be opened: none is given, or a `str` that starts with `r`. -/
inductive ReadMode : Option PyText → Prop
  | missing : ReadMode none
  | given {cs : List Nat} : (∀ c ∈ cs, Scalar c) → 0 ∉ cs → ReadMode (some (.str (114 :: cs)))

/-- The content can be loaded. -/
def Loads (env : PyEnv) (dev : Dev) : Prop :=
  ∃ l, (openCore (env.u.cmp8 (fileOrder dev)) dev .cleared).1.res = .ok l

/-- The calls a program makes on one file object. -/
inductive PyOp where
  | openName (files : Bytes → Dev × Faults) (name : PyText) (mode : Option PyText)
  | openObject (obj : PyFileArg) (mode : Option PyText)
  | close (flt : Faults)
  | setCodepage (arg : PyText)
  | assignCodepage (arg : PyText)
  | signalAbort

def PyOp.run (env : PyEnv) (st : PyFile) : PyOp → Res Unit × PyFile
  | .openName files name mode => pyOpen env files name mode st
  | .openObject obj mode => pyOpenObject env obj mode st
  | .close flt => pyClose flt st
  | .setCodepage arg => pySetCodepage env arg st
  | .assignCodepage arg => pyAssignCodepage env (some arg) st
  | .signalAbort => (.ok (), pySignalAbort st)

/-- The state after a history of calls. -/
def pyRun (env : PyEnv) (ops : List PyOp) : PyFile :=
  ops.foldl (fun st op => (op.run env st).2) .new

/-- What the calls of a history returned, from a state on. -/
def pyOutcomes (env : PyEnv) : PyFile → List PyOp → List (Res Unit)
  | _, [] => []
  | st, op :: ops => (op.run env st).1 :: pyOutcomes env (op.run env st).2 ops

/-- A state after some history of calls on a new file object. -/
def PyReachable (env : PyEnv) (st : PyFile) : Prop := ∃ ops, st = pyRun env ops

/-- Whether the file is open, from the calls and what they returned. -/
def pyOpenAfter : Bool → List (PyOp × Res Unit) → Bool
  | b, [] => b
  | _, (.openName _ _ _, .ok _) :: rest => pyOpenAfter true rest
  | _, (.openObject _ _, .ok _) :: rest => pyOpenAfter true rest
  | _, (.close _, _) :: rest => pyOpenAfter false rest
  | b, _ :: rest => pyOpenAfter b rest

/-- The file is open. -/
def _root_.Olecf.PyFile.isOpen (st : PyFile) : Prop := st.lib.file.handle.isSome

/-- The content of the open file is what `dev` delivers. -/
def _root_.Olecf.PyFile.Has (st : PyFile) (dev : Dev) : Prop :=
  ∃ h, st.lib.file.handle = some h ∧ st.lib.world.dev h = dev

/-! ### Code pages -/

/-- The code pages and their names. -/
def pageNames : List (Int × String) :=
  [(20127, "ascii"), (874, "cp874"), (932, "cp932"), (936, "cp936"), (949, "cp949"), (950, "cp950"),
   (1250, "cp1250"), (1251, "cp1251"), (1252, "cp1252"), (1253, "cp1253"), (1254, "cp1254"),
   (1255, "cp1255"), (1256, "cp1256"), (1257, "cp1257"), (1258, "cp1258")]

/-- Contract of libclocale: it knows the names of these code pages. -/
def KnowsPages (codepageOf : Bytes → Option Int) : Prop :=
  ∀ x ∈ pageNames, codepageOf (ascii x.2) = some x.1

/-- The code page a history leads to, together with whether the file is open.  A successful set or
  assignment changes it, closing an open file resets it. -/
def pyPageAfter (env : PyEnv) : Bool × Int → List (PyOp × Res Unit) → Bool × Int
  | s, [] => s
  | s, (.openName _ _ _, .ok _) :: rest => pyPageAfter env (true, s.2) rest
  | s, (.openObject _ _, .ok _) :: rest => pyPageAfter env (true, s.2) rest
  | s, (.close _, _) :: rest => pyPageAfter env (false, if s.1 then 1252 else s.2) rest
  | s, (.setCodepage arg, .ok _) :: rest => pyPageAfter env (s.1, page env arg s.2) rest
  | s, (.assignCodepage arg, .ok _) :: rest => pyPageAfter env (s.1, page env arg s.2) rest
  | s, _ :: rest => pyPageAfter env s rest
where
  /-- The code page libclocale knows under the text, up to a null byte. -/
  page (env : PyEnv) (arg : PyText) (dflt : Int) : Int :=
    match arg with
    | .str cs => (env.codepageOf ((cs.flatMap encode8).takeWhile (· ≠ 0))).getD dflt
    | .bytes b => (env.codepageOf (b.takeWhile (· ≠ 0))).getD dflt
    | .other => dflt

end Olecf.Spec
