import Verif.Model.PyError

/-
  Specification of the errors that the Python bindings tell.
-/

namespace Olecf.Spec

/-- The objects of an exception and those that the bindings own exist: they are not the next new one, nor one
  after it. -/
def Exist (s : PyErrState) (e : PyExc) : Prop :=
  (∀ o ∈ s.owned, o < s.next) ∧ e.type < s.next ∧ (∀ o ∈ e.value, o < s.next) ∧ (∀ o ∈ e.traceback, o < s.next)

/-- The message that tells `text`, which may end in a point, and the text of an exception. -/
def told (text exception : Bytes) : Bytes := text ++ " with error: ".toUTF8.toList ++ exception ++ ".".toUTF8.toList

/-- The text without line breaks. -/
def onOneLine (s : Bytes) : Bytes := s.map fun c => if c = '\n'.toUInt8 ∨ c = '\r'.toUInt8 then ' '.toUInt8 else c

/-- How many references to an object there are in a list. -/
def references (o : Nat) (l : List Nat) : Nat := l.count o

end Olecf.Spec
