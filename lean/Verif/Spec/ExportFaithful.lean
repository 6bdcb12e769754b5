import Verif.Spec.Text

/-
  Specification of what the export of a document keeps of it.
-/

namespace Olecf.Spec

/-- The document has a part at the path of the texts `names`, whose data is `x`; `e` is the byte order in which the
  names are stored.  What kind of part it is, is not said. -/
def TextPart (e : Endian) (doc : Doc) (names : List (List Nat)) (x : Bytes) : Prop :=
  ∃ d, DocAt doc (names.map (storedName e)) d ∧ d.data = x

end Olecf.Spec
