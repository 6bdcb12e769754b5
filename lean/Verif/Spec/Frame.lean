import Verif.Model.Stream

/-
  Specification of independent items: what a user sees of one item.
-/

namespace Olecf.Spec

/-- An operation on one item. -/
inductive ItemOp where
  | read (size : Nat)
  | readAt (size : Nat) (offset : Int)
  | seek (offset : Int) (whence : Whence)
  | getOffset
  | getSize
  deriving DecidableEq

/-- What an operation returns. -/
inductive Answer where
  | data (r : Res Bytes)
  | number (r : Res Int)
  deriving DecidableEq

/-- One operation on an item at offset `cur` of an open file: the answer and the new offset. -/
def ItemOp.run (f : FileCtx) (d : DirEntry) (cur : Int) : ItemOp → Answer × Int
  | .read size => (.data (streamRead f d cur size).1.res, (streamRead f d cur size).2)
  | .readAt size o => (.data (streamReadAt f d cur size o).1.res, (streamReadAt f d cur size o).2)
  | .seek o w => (.number (streamSeek d cur o w).1, (streamSeek d cur o w).2)
  | .getOffset => (.number (streamGetOffset d cur), cur)
  | .getSize => (.number (.ok d.size), cur)

/-- The answers to a sequence of operations on one item, which nobody else uses. -/
def alone (f : FileCtx) (d : DirEntry) : Int → List ItemOp → List Answer
  | _, [] => []
  | cur, op :: ops => (op.run f d cur).1 :: alone f d (op.run f d cur).2 ops

/-- The answers to a sequence of operations on any number of items of an open file: item `k` is a
  handle on the directory entry `items k` and has the offset `st k`. -/
def together (f : FileCtx) (items : Nat → DirEntry) :
    (Nat → Int) → List (Nat × ItemOp) → List (Nat × Answer)
  | _, [] => []
  | st, (i, op) :: ops =>
    (i, (op.run f (items i) (st i)).1) ::
      together f items (fun k => if k = i then (op.run f (items i) (st i)).2 else st k) ops

/-- What belongs to one item. -/
def only (i : Nat) (l : List (Nat × α)) : List α := (l.filter (·.1 = i)).map (·.2)

end Olecf.Spec
