import Verif.Model.File

/-
  Specification of the life of a file object: histories of calls, and what the library may do with
  handles.
-/

namespace Olecf.Spec

/-- A call on a file object, or something the caller does with one of their own handles.  Every call
  carries the libbfio calls that fail during it. -/
inductive FileOp where
  /-- `libolecf_file_open_file_io_handle` with handle number `n` of the caller -/
  | openHandle (n : Nat) (flags : Nat) (flt : Faults)
  /-- `libolecf_file_open` of a file that delivers `dev` -/
  | openName (dev : Dev) (flags : Nat) (flt : Faults)
  | close (flt : Faults)
  | setCodepage (cp : Int)
  | signalAbort
  /-- The caller opens or closes handle number `n`, or lets it refer to something else.  Nothing
    happens when the file object is using the handle: callers have to leave it alone then. -/
  | caller (n : Nat) (isOpen : Bool) (dev : Dev)

/-- One step of a history. -/
def FileOp.run (cmp : Bytes → Bytes → Option Bool) (st : FileState) :
    FileOp → Res Unit × FileState
  | .openHandle n flags flt => Olecf.openHandle cmp (.user n) flags flt st
  | .openName dev flags flt => Olecf.openName cmp dev flags flt st
  | .close flt => closeFile flt st
  | .setCodepage cp => ((Olecf.setCodepage st.file cp).1, ⟨(Olecf.setCodepage st.file cp).2, st.world⟩)
  | .signalAbort => (.ok (), ⟨Olecf.signalAbort st.file, st.world⟩)
  | .caller n b dev =>
    (.ok (), if st.file.handle = some (.user n) then st
      else ⟨st.file, { st.world with
        isOpen := fun k => if k = .user n then b else st.world.isOpen k
        dev := fun k => if k = .user n then dev else st.world.dev k }⟩)

/-- The state after a history. -/
def runOps (cmp : Bytes → Bytes → Option Bool) (st : FileState) (ops : List FileOp) : FileState :=
  ops.foldl (fun st op => (op.run cmp st).2) st

/-- The outcomes of the calls of a history. -/
def outcomes (cmp : Bytes → Bytes → Option Bool) : FileState → List FileOp → List (Res Unit)
  | _, [] => []
  | st, op :: ops => (op.run cmp st).1 :: outcomes cmp (op.run cmp st).2 ops

/-- The start of a history: a new file object; the caller has any handles in any state. -/
def Initial (st : FileState) : Prop :=
  st.file = OleFile.new ∧ st.world.events = []

/-- The two-state machine: a successful open opens, a close (successful or not) closes. -/
def openAfter : Bool → List (FileOp × Res Unit) → Bool
  | b, [] => b
  | b, (.openHandle _ _ _, .ok _) :: rest => openAfter true rest
  | b, (.openName _ _ _, .ok _) :: rest => openAfter true rest
  | _, (.close _, _) :: rest => openAfter false rest
  | b, _ :: rest => openAfter b rest

/-- Whether the library has to close `h`: from its events, `none` if it opened `h` twice, or closed
  it without having opened it.  A close that libbfio reports as failed counts as a close: there is
  nothing else the library can do.  The end of a handle ends this too. -/
def owesClose (h : HandleId) : List HandleEvent → Option Bool :=
  List.foldl (fun s e => match s with
    | none => none
    | some b => match e with
      | .created _ => some b
      | .opened k => if k = h then (if b then none else some true) else some b
      | .closed k => if k = h then (if b then some false else none) else some b
      | .closeFailed k => if k = h then (if b then some false else none) else some b
      | .freed k => if k = h then some false else some b) (some false)

/-- Whether `h` exists: a handle of the caller does from the start, a handle of the library from its
  creation to its end.  `none` if the library used or freed a handle that does not exist, or created
  one that does. -/
def existsAfter (h : HandleId) : List HandleEvent → Option Bool :=
  List.foldl (fun s e => match s with
    | none => none
    | some b => match e with
      | .created k => if k = h then (if b then none else some true) else some b
      | .opened k => if k = h then (if b then some true else none) else some b
      | .closed k => if k = h then (if b then some true else none) else some b
      | .closeFailed k => if k = h then (if b then some true else none) else some b
      | .freed k => if k = h then (if b then some false else none) else some b)
    (some (match h with | .user _ => true | .lib _ => false))

end Olecf.Spec

namespace Olecf.Spec

/-- The code page of a file object, together with whether it is open: a successful set changes it,
  closing an open file resets it to 1252. -/
def codepageAfter : Bool × Int → List (FileOp × Res Unit) → Bool × Int
  | s, [] => s
  | s, (.setCodepage cp, .ok _) :: rest => codepageAfter (s.1, cp) rest
  | s, (.openHandle _ _ _, .ok _) :: rest => codepageAfter (true, s.2) rest
  | s, (.openName _ _ _, .ok _) :: rest => codepageAfter (true, s.2) rest
  | s, (.close _, _) :: rest => codepageAfter (false, if s.1 then 1252 else s.2) rest
  | s, _ :: rest => codepageAfter s rest

/-- Two states are the same to a user who does not ask a closed file for its properties.  A handle
  the library made may have another number.  While the files are open the IO handles agree; if the
  file has no item hierarchy, the start of the short stream container, which only items use, may
  differ. -/
structure SameToUser (a b : FileState) : Prop where
  isOpen : a.file.handle.isSome = b.file.handle.isSome
  userHandle : ∀ n, a.file.handle = some (.user n) ↔ b.file.handle = some (.user n)
  openedInLibrary : a.file.openedInLibrary = b.file.openedInLibrary
  createdInLibrary : a.file.createdInLibrary = b.file.createdInLibrary
  abort : a.file.abort = b.file.abort
  msat : a.file.msat = b.file.msat
  sat : a.file.sat = b.file.sat
  ssat : a.file.ssat = b.file.ssat
  tree : a.file.tree = b.file.tree
  codepage : getCodepage a.file = getCodepage b.file
  sectorSize : a.file.handle.isSome → getSectorSize a.file = getSectorSize b.file
  shortSectorSize : a.file.handle.isSome → getShortSectorSize a.file = getShortSectorSize b.file
  version : a.file.handle.isSome → getFormatVersion a.file = getFormatVersion b.file
  data : ∀ h h', a.file.handle = some h → b.file.handle = some h' → a.file.tree.isSome →
    a.file.ctx (a.world.dev h) = b.file.ctx (b.world.dev h')
  handles : ∀ n, a.world.isOpen (.user n) = b.world.isOpen (.user n)
  devices : ∀ n, a.world.dev (.user n) = b.world.dev (.user n)

/-- The states a file object and the handles can be in. -/
def Reachable (cmp : Bytes → Bytes → Option Bool) (st : FileState) : Prop :=
  ∃ st0 ops, Initial st0 ∧ st = runOps cmp st0 ops

end Olecf.Spec
