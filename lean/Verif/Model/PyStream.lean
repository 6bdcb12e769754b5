import Verif.Model.Py

/-
  Model of a Python program that uses one stream object of pyolecf: any history of calls of its methods.
  The synonyms `read`, `seek` and `tell` are the same functions (pyolecf/pyolecf_stream.c:38-97).
-/

namespace Olecf

/-- A call of a method of a stream object. -/
inductive PyStreamOp where
  | read (size : PyArg)
  | readAt (size : PyArg) (offset : Int)
  | seek (offset whence : Int)
  | tell
  deriving Repr, DecidableEq

/-- What a program gets for a call: a bytes object, `None`, an integer or an exception.  The last two are
  no answers: the behaviour is undefined, or the call does not return. -/
inductive StreamAnswer where
  | bytes (b : Bytes)
  | nothing
  | int (n : Int)
  | raised
  | undefined
  | endless
  deriving Repr, DecidableEq

/-- The object that a binding makes of the result of the library. -/
def StreamAnswer.of (g : α → StreamAnswer) : Res α → StreamAnswer
  | .ok a => g a
  | .err => .raised
  | .ub => .undefined
  | .hang => .endless

/-- pyolecf/pyolecf_stream.c:679-726 (pyolecf_stream_get_offset).  The integer object is made by
  pyolecf_integer_signed_new_from_64bit (pyolecf/pyolecf_integer.c:33-66). -/
def pyTell (d : DirEntry) (cur : Int) : StreamAnswer := .of .int (streamGetOffset d cur)

/-- One call on the object of an item with the current offset `cur`: the answer and the new offset. -/
def PyStreamOp.run (f : FileCtx) (d : DirEntry) (cur : Int) : PyStreamOp → StreamAnswer × Int
  | .read size => (.of .bytes (pyRead f d cur size).1, (pyRead f d cur size).2)
  | .readAt size offset => (.of .bytes (pyReadAt f d cur size offset).1, (pyReadAt f d cur size offset).2)
  | .seek offset whence => (.of (fun _ => .nothing) (pySeek d cur offset whence).1, (pySeek d cur offset whence).2)
  | .tell => (pyTell d cur, cur)

/-- The answers to the calls of a program. -/
def pyAnswers (f : FileCtx) (d : DirEntry) : Int → List PyStreamOp → List StreamAnswer
  | _, [] => []
  | cur, op :: ops => (op.run f d cur).1 :: pyAnswers f d (op.run f d cur).2 ops

/-- A program that copies a stream: it reads pieces of the given size until a piece is empty.  The bytes that it
  has if it ends without an exception; `fuel` bounds the number of rounds. -/
def pyCopy (f : FileCtx) (d : DirEntry) (size : Int) : Nat → Int → Res Bytes
  | 0, _ => .hang
  | fuel + 1, cur =>
    match pyRead f d cur (.int size) with
    | (.ok b, cur) =>
      if b = [] then .ok []
      else match pyCopy f d size fuel cur with
        | .ok rest => .ok (b ++ rest)
        | r => r
    | (r, _) => r

end Olecf
