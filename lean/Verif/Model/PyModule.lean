import Verif.Model.PyApi

/-
  The functions of the module pyolecf that make a file object and open it: pyolecf/pyolecf.c,
  pyolecf.open and pyolecf.open_file_object.

  Left out is the reference to `None` that the inner open returns: it is not released (pyolecf.c:472-478 and
  523-529).
-/

namespace Olecf

/-- What a call leaves: the new file object that it returns; or an exception, with the handles of the
  library and the references to Python objects that are left when the new object is gone. -/
inductive PyMade where
  | file (st : PyFile)
  | raised (world : World) (refs : List Nat)
  | ub
  | hang

/-- The requests for memory that fail: the one for the Python object (`PyObject_New`), those of
  `libolecf_file_initialize`. -/
structure NoMemory where
  object : Bool := false
  file : Bool := false

/-- pyolecf.c:444-490 (pyolecf_open_new_file) and 495-541 (pyolecf_open_new_file_with_file_object), with the
  function that opens the new object.  An object of which the file could not be made has none
  (pyolecf_file.c:287-305): freeing it does nothing.  `flt`: what fails in libbfio while the object is
  freed. -/
def pyMake (mem : NoMemory) (flt : Faults) (opening : PyFile → Res Unit × PyFile) : PyMade :=
  if mem.object then .raised .fresh []
  else if mem.file then .raised .fresh []
  else
    match opening (pyInit .new) with
    | (.ok _, st) => .file st
    | (.err, st) => .raised (pyFree flt st).1 (pyFree flt st).2
    | (.ub, _) => .ub
    | (.hang, _) => .hang

/-- pyolecf.c:444-490 (pyolecf_open_new_file): `pyolecf.open(name, mode)`. -/
def pyModuleOpen (env : PyEnv) (mem : NoMemory) (flt : Faults) (files : Bytes → Dev × Faults) (name : PyText)
    (mode : Option PyText) : PyMade :=
  pyMake mem flt (pyOpen env files name mode)

/-- pyolecf.c:495-541 (pyolecf_open_new_file_with_file_object): `pyolecf.open_file_object(obj, mode)`. -/
def pyModuleOpenObject (env : PyEnv) (mem : NoMemory) (flt : Faults) (obj : PyFileArg)
    (mode : Option PyText) : PyMade :=
  pyMake mem flt (pyOpenObject env obj mode)

end Olecf
