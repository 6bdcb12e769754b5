import Verif.Model.PyModule
import Verif.Spec.PyApi

/-
  C120: what pyolecf.open and pyolecf.open_file_object have to leave.
-/

namespace Olecf.Spec
open Olecf

/-- The call returns a file object that is open and has the content that `dev` delivers.  It is an object like
  those made with `pyolecf.file()` and opened: what is proved of their histories holds for it. -/
structure Gives (env : PyEnv) (m : PyMade) (dev : Dev) (st : PyFile) : Prop where
  returned : m = .file st
  usual : PyReachable env st
  isOpen : st.isOpen
  content : st.Has dev

/-- The call raises an exception and leaves nothing behind: no reference to a Python object, no open handle,
  no handle of the library. -/
def RaisesClean (m : PyMade) : Prop :=
  ∃ world, m = .raised world [] ∧ (∀ h, owesClose h world.events = some false) ∧
    ∀ n, existsAfter (.lib n) world.events = some false

/-- No call of libbfio fails that opening a file by its name needs. -/
structure Opens (flt : Faults) : Prop where
  create : flt.create = false
  setName : flt.setName = false
  isOpen : flt.isOpen = false
  opening : flt.opening = false

end Olecf.Spec
