import Verif.Model.ExportLog

/-
  Specification of the messages of an export.
-/

namespace Olecf.Spec

/-- The directories that the messages name as created, in their order. -/
def createdIn (l : List ExportMessage) : List Path :=
  l.filterMap fun
    | .created p => some p
    | _ => none

/-- No message tells that an item could not be exported. -/
def NoUnable (l : List ExportMessage) : Prop := ∀ i n, .unable i n ∉ l

end Olecf.Spec
