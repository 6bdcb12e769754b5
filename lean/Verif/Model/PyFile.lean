import Verif.Model.Py

/-
  Model of a file opened through a Python file object
  (pyolecf/pyolecf_file_object_io_handle.c).
-/

namespace Olecf

/-- What a method of a Python object answers, as far as the bindings tell answers apart. -/
inductive PyAnswer where
  | raised
  | bytes (b : Bytes)
  | int (n : Int)
  | other
  deriving Repr, DecidableEq

/-- A Python file object: its methods, on a state.  `get_offset` and `get_size` need not exist. -/
structure FileObject (σ : Type) where
  read : σ → Nat → PyAnswer × σ
  seek : σ → Int → Int → PyAnswer × σ
  tell : σ → PyAnswer × σ
  getOffset : Option (σ → PyAnswer × σ)
  getSize : Option (σ → PyAnswer × σ)

/-- pyolecf/pyolecf_file_object_io_handle.c:416-614 (pyolecf_file_object_read_buffer), into a buffer
  of `n` bytes.  All bytes of the answer are copied: undefined if there are more than `n`. -/
def fobjRead (o : FileObject σ) (s : σ) (n : Nat) : Res Bytes × σ :=
  if n > SSIZE_MAX then (.err, s)
  else if n = 0 then (.ok [], s)
  else match o.read s n with
    | (.bytes b, s) => (if b.length ≤ n then .ok b else .ub, s)
    | (_, s) => (.err, s)

/-- pyolecf/pyolecf_file_object_io_handle.c:860-1000 (pyolecf_file_object_seek_offset).  The answer
  of the method is not looked at, unless it is an exception. -/
def fobjSeek (o : FileObject σ) (s : σ) (offset whence : Int) : Res Unit × σ :=
  if whence ≠ 0 ∧ whence ≠ 1 ∧ whence ≠ 2 then (.err, s)
  else match o.seek s offset whence with
    | (.raised, s) => (.err, s)
    | (_, s) => (.ok (), s)

/-- pyolecf/pyolecf_file_object_io_handle.c:1005-1130 (pyolecf_file_object_get_offset), with
  pyolecf_integer.c:108-244 (pyolecf_integer_signed_copy_to_64bit). -/
def fobjGetOffset (o : FileObject σ) (s : σ) : Res Int × σ :=
  match (o.getOffset.getD o.tell) s with
  | (.int n, s) => (if inOff64 n then .ok n else .err, s)
  | (_, s) => (.err, s)

/-- pyolecf/pyolecf_file_object_io_handle.c:1135-1196 (pyolecf_file_object_io_handle_seek_offset). -/
def fobjIoSeek (o : FileObject σ) (s : σ) (offset whence : Int) : Res Int × σ :=
  match fobjSeek o s offset whence with
  | (.ok _, s) => fobjGetOffset o s
  | (_, s) => (.err, s)

/-- A read of the library from a file opened through a file object:
  `libbfio_handle_read_buffer_at_offset` (libbfio, contract: a seek from the start of the file, which
  fails for the return value -1, and a read) with the functions of the bindings. -/
def fobjReadAt (o : FileObject σ) (s : σ) (offset n : Nat) : Res Bytes × σ :=
  match fobjIoSeek o s offset 0 with
  | (.ok p, s) => if p = -1 then (.err, s) else fobjRead o s n
  | (_, s) => (.err, s)

/-- A sequence of reads of the library, each with its answer. -/
def fobjReads (o : FileObject σ) : σ → List (Nat × Nat) → List (Res Bytes)
  | _, [] => []
  | s, (offset, n) :: l =>
    let (r, s) := fobjReadAt o s offset n
    r :: fobjReads o s l

/-- The size found by pyolecf_file_object_io_handle_get_size, `none`: no value is written. -/
def fobjSize (o : FileObject σ) (s : σ) : Option Nat × σ :=
  match o.getSize with
  | some g =>
    -- lines 1424-1439, and 1265-1366 (pyolecf_file_object_get_size)
    match g s with
    | (.int n, s) => (match pyUnsigned64 n with | .ok v => some v | _ => none, s)
    | (_, s) => (none, s)
  | none =>
    match fobjGetOffset o s with
    | (.ok cur, s) =>
      match fobjSeek o s 0 2 with
      | (.ok _, s) =>
        match fobjGetOffset o s with
        | (.ok p, s) => (some (toUnsigned64 p), (fobjSeek o s cur 0).2)
        | (_, s) => (none, (fobjSeek o s cur 0).2)
      | (_, s) => (none, s)
    | (_, s) => (none, s)

/-- pyolecf/pyolecf_file_object_io_handle.c:1371-1524 (pyolecf_file_object_io_handle_get_size): the
  return value and the size.  The error path has the return value of success. -/
def fobjIoGetSize (o : FileObject σ) (s : σ) : Int × Option Nat × σ := (1, fobjSize o s)

end Olecf
