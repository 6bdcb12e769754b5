import Verif.Model.PyThreads
import Verif.Spec.PyStream

/-
  Specification of threads of a Python program.
-/

namespace Olecf.Spec

/-- All calls of a program are on objects of a set. -/
def PyUses (S : Nat → Prop) : PyProgram → Prop
  | .done => True
  | .call i _ k => S i ∧ ∀ a, PyUses S (k a)

/-- No object is used by two of the threads. -/
def PySeparate (program : Nat → PyProgram) : Prop :=
  ∃ S : Nat → Nat → Prop, (∀ t, PyUses (S t) (program t)) ∧ ∀ t u i, t ≠ u → S t i → ¬ S u i

/-- The answers to a program that has files with the contents `data` for itself, which are at the positions `pos`. -/
def programOnFiles (data : Nat → Bytes) (pos : Nat → Nat) : PyProgram → List StreamAnswer
  | .done => []
  | .call i op k =>
    (fileCall (data i) (pos i) op).1 ::
      programOnFiles data (fun j => if j = i then (fileCall (data i) (pos i) op).2 else pos j)
        (k (fileCall (data i) (pos i) op).1)

/-- No seek of a program that has the files for itself goes to 2^63 or beyond. -/
def ProgramInReach (data : Nat → Bytes) (pos : Nat → Nat) : PyProgram → Prop
  | .done => True
  | .call i op k =>
    (∀ offset whence p, op = .seek offset whence → seeks (data i) (pos i) offset whence = some p → p < 2 ^ 63) ∧
      ProgramInReach data (fun j => if j = i then (fileCall (data i) (pos i) op).2 else pos j)
        (k (fileCall (data i) (pos i) op).1)

end Olecf.Spec
