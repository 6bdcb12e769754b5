import Verif.Model.PyFile

/-
  Specification: a Python file object over a sequence of bytes.
-/

namespace Olecf.Spec

/-- The object behaves like a binary file with the given content, such as `io.BytesIO`: `pos` is the
  position in a state. -/
structure LikeFile (o : FileObject σ) (content : Bytes) (pos : σ → Nat) : Prop where
  read : ∀ s n, (o.read s n).1 = .bytes ((content.drop (pos s)).take n)
  seekSet : ∀ s (p : Nat), (o.seek s p 0).1 ≠ .raised ∧ pos (o.seek s p 0).2 = p
  seekEnd : ∀ s, (o.seek s 0 2).1 ≠ .raised ∧ pos (o.seek s 0 2).2 = content.length
  tell : ∀ s, (o.tell s).1 = .int (pos s) ∧ pos (o.tell s).2 = pos s
  getOffset : ∀ g, o.getOffset = some g → ∀ s, (g s).1 = .int (pos s) ∧ pos (g s).2 = pos s
  getSize : ∀ g, o.getSize = some g →
    ∀ s, (g s).1 = .int content.length ∧ pos (g s).2 = pos s

/-- `io.BytesIO`: the state is the position. -/
def bytesIO (content : Bytes) : FileObject Nat where
  read s n := (.bytes ((content.drop s).take n), s + ((content.drop s).take n).length)
  seek s offset whence :=
    let p := offset + (if whence = 0 then 0 else if whence = 1 then s else content.length)
    if p < 0 then (.raised, s) else (.int p, p.toNat)
  tell s := (.int s, s)
  getOffset := none
  getSize := none

end Olecf.Spec
