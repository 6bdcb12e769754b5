import Verif.Model.PyStream
import Verif.Model.Threads

/-
  Threads of a Python program that use stream objects of pyolecf.

  The methods of a stream object check their arguments while they hold the lock of the interpreter, and release it for
  the call of the library (pyolecf/pyolecf_stream.c:301-308, 373-381, 567-576, 647-655 and 700-707), so that the steps
  of Model/Threads of several threads take place in any order.  What is done with the lock held uses the arguments
  and objects of the call only; `libolecf_item_get_size`, which a read without size calls, reads the directory entry,
  that nobody changes.
-/

namespace Olecf

/-- The call of the library that a method makes, or what it answers without one: the parts of `pyRead`, `pyReadAt`,
  `pySeek` and `pyTell` before the call. -/
def PyStreamOp.before (d : DirEntry) : PyStreamOp → StreamCall ⊕ StreamAnswer
  | .read size =>
    match pyReadSize d size with
    | .ok n =>
      if n = 0 then .inr (.bytes [])
      else if n > INT_MAX ∨ n > SSIZE_MAX then .inr .raised
      else .inl (.read n)
    | .err => .inr .raised
    | .ub => .inr .undefined
    | .hang => .inr .endless
  | .readAt size offset =>
    if ¬ inOff64 offset then .inr .raised
    else match size with
      | .int v =>
        match pyUnsigned64 v with
        | .ok n =>
          if n = 0 then .inr (.bytes [])
          else if n > INT_MAX ∨ n > SSIZE_MAX then .inr .raised
          else .inl (.readAt n offset)
        | _ => .inr .raised
      | _ => .inr .raised
  | .seek offset whence =>
    if ¬ inOff64 offset ∨ whence < -(2 ^ 31) ∨ 2 ^ 31 ≤ whence then .inr .raised
    else .inl (.seek offset (if whence = 0 then .set else if whence = 1 then .cur
      else if whence = 2 then .fromEnd else .other))
  | .tell => .inl .getOffset

/-- The object that a method makes of what the library returned: the parts of the functions after the call. -/
def PyStreamOp.after : PyStreamOp → StreamReply → StreamAnswer
  | .seek _ _, .pos r => .of (fun _ => .nothing) r
  | _, .pos r => .of .int r
  | _, .data r => .of .bytes r

/-- A program of a thread: calls of methods of stream objects, which may depend on the answers before. -/
inductive PyProgram where
  | done
  | call (i : Nat) (op : PyStreamOp) (k : StreamAnswer → PyProgram)

/-- The calls of the library that a program makes; object `i` is of an item with the directory entry `entry i`. -/
def PyProgram.client (entry : Nat → DirEntry) : PyProgram → Client
  | .done => .done
  | .call i op k =>
    match op.before (entry i) with
    | .inr a => (k a).client entry
    | .inl c => .call i c fun r => (k (op.after r)).client entry

/-- The answers to the calls of a program, for what the library returned. -/
def PyProgram.answers (entry : Nat → DirEntry) : PyProgram → List StreamReply → List StreamAnswer
  | .done, _ => []
  | .call i op k, rs =>
    match op.before (entry i) with
    | .inr a => a :: (k a).answers entry rs
    | .inl _ =>
      match rs with
      | [] => []
      | r :: rs => op.after r :: (k (op.after r)).answers entry rs

/-- Threads at their start: thread `t` runs the program `program t`. -/
def pyThreads (f : FileCtx) (entry : Nat → DirEntry) (cur : Nat → Int) (program : Nat → PyProgram) : Threads :=
  .start f entry cur fun t => (program t).client entry

end Olecf
