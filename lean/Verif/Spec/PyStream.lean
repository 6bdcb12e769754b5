import Verif.Model.PyStream

/-
  Specification of a stream object of Python: it is used like a file that was opened with mode "rb".
  Nothing of the library occurs here, only the content `data` and the position `pos`.
-/

namespace Olecf.Spec

/-- The number of bytes that a call asks for: all there are without a size; sizes are below 2 GiB. -/
def asked (data : Bytes) : PyArg → Option Nat
  | .int n => if 0 ≤ n ∧ n < 2 ^ 31 then some n.toNat else none
  | .missing => if data.length < 2 ^ 31 then some data.length else none
  | .none => if data.length < 2 ^ 31 then some data.length else none
  | .other => none

/-- Where a seek goes to: from the begin, from the position or from the end. -/
def seeks (data : Bytes) (pos : Nat) (offset whence : Int) : Option Int :=
  if offset < -2 ^ 63 ∨ 2 ^ 63 ≤ offset then none
  else if whence = 0 then some offset
  else if whence = 1 then some (pos + offset)
  else if whence = 2 then some (data.length + offset)
  else none

/-- A call on a file with content `data` at `pos`: the answer and the position afterwards. -/
def fileCall (data : Bytes) (pos : Nat) : PyStreamOp → StreamAnswer × Nat
  | .read size =>
    match asked data size with
    | some n => (.bytes ((data.drop pos).take n), pos + ((data.drop pos).take n).length)
    | none => (.raised, pos)
  | .readAt (.int n) offset =>
    if offset < -2 ^ 63 ∨ 2 ^ 63 ≤ offset ∨ n < 0 ∨ 2 ^ 31 ≤ n then (.raised, pos)
    else if n = 0 then (.bytes [], pos)
    else if offset < 0 then (.raised, pos)
    else (.bytes ((data.drop offset.toNat).take n.toNat),
      offset.toNat + ((data.drop offset.toNat).take n.toNat).length)
  | .readAt _ _ => (.raised, pos)
  | .seek offset whence =>
    match seeks data pos offset whence with
    | some p => if p < 0 then (.raised, pos) else (.nothing, p.toNat)
    | none => (.raised, pos)
  | .tell => (.int pos, pos)

def fileCalls (data : Bytes) : Nat → List PyStreamOp → List StreamAnswer
  | _, [] => []
  | pos, op :: ops => (fileCall data pos op).1 :: fileCalls data (fileCall data pos op).2 ops

/-- No seek of the history goes to 2^63 or beyond. -/
def InReach64 (data : Bytes) : Nat → List PyStreamOp → Prop
  | _, [] => True
  | pos, op :: ops =>
    (∀ offset whence p, op = .seek offset whence → seeks data pos offset whence = some p → p < 2 ^ 63) ∧
      InReach64 data (fileCall data pos op).2 ops

end Olecf.Spec
