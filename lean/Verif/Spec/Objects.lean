import Verif.Spec.File

/-
  Specification: a program with any number of file objects.
-/

namespace Olecf.Spec

/-- What a program does with one file object. -/
inductive ObjectOp where
  /-- An operation of a history, see `FileOp`. -/
  | call (op : FileOp)
  /-- `libolecf_file_free` and `libolecf_file_initialize`: a new object takes the place of the old. -/
  | renew (flt : Faults)
  /-- `libolecf_check_file_signature_file_io_handle` with handle number `n` of the caller. -/
  | check (n : Nat) (flt : Faults)
  /-- `libolecf_check_file_signature` of a file that delivers `dev`. -/
  | checkName (dev : Dev) (flt : Faults)

/-- The handles of the caller that an operation uses. -/
def ObjectOp.uses : ObjectOp → Nat → Prop
  | .call (.openHandle n _ _), k => k = n
  | .call (.caller n _ _), k => k = n
  | .check n _, k => k = n
  | _, _ => False

/-- The operation with an object: the reply (`true` for success, or the answer of a signature check) and the state
  afterwards. -/
def ObjectOp.run (cmp : Bytes → Bytes → Option Bool) (st : FileState) : ObjectOp → Res Bool × FileState
  | .call op => ((op.run cmp st).1.bind fun _ => .ok true, (op.run cmp st).2)
  | .renew flt => ((freeFile flt st).1.bind fun _ => .ok true, ⟨OleFile.new, (freeFile flt st).2⟩)
  | .check n flt => ((checkSignature (.user n) flt st.world).1, ⟨st.file, (checkSignature (.user n) flt st.world).2⟩)
  | .checkName dev flt => ((checkSignatureName dev flt st.world).1, ⟨st.file, (checkSignatureName dev flt st.world).2⟩)

/-- The replies to the operations on one object, and the state afterwards. -/
def runObject (cmp : Bytes → Bytes → Option Bool) : FileState → List ObjectOp → List (Res Bool) × FileState
  | st, [] => ([], st)
  | st, op :: ops =>
    ((op.run cmp st).1 :: (runObject cmp (op.run cmp st).2 ops).1, (runObject cmp (op.run cmp st).2 ops).2)

/-- Any number of file objects, and the handles. -/
structure Objects where
  file : Nat → OleFile
  world : World

/-- The replies to operations on the objects, each with the number of its object, and the objects afterwards. -/
def runObjects (cmp : Bytes → Bytes → Option Bool) :
    Objects → List (Nat × ObjectOp) → List (Nat × Res Bool) × Objects
  | s, [] => ([], s)
  | s, (i, op) :: ops =>
    let r := op.run cmp ⟨s.file i, s.world⟩
    let rest := runObjects cmp ⟨fun j => if j = i then r.2.file else s.file j, r.2.world⟩ ops
    ((i, r.1) :: rest.1, rest.2)

/-- What belongs to object `i`. -/
def ofObject {α : Type} (i : Nat) (l : List (Nat × α)) : List α := l.filterMap fun x => if x.1 = i then some x.2 else none

end Olecf.Spec
