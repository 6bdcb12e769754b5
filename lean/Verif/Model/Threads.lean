import Verif.Model.Stream

/-
  libolecf/libolecf_stream.c and libolecf_io_handle_read_stream, one access to memory that is shared at a time.

  The field `current_offset` of an item is the only memory that the calls on streams change (but for the buffer, which
  belongs to the caller): the fields `directory_entry`, `io_handle`, `file_io_handle` and `file` of an item, the
  allocation tables and the IO handle are only read.  A load or store of `current_offset` is one step, and so is
  `libbfio_handle_read_buffer_at_offset` (contract: libbfio locks the handle, so that the position that it
  seeks is the one that it reads from).  Steps of different threads take place in some order.

  The Python bindings release the lock of the interpreter around every call modelled here, pyolecf_stream.c:373-381,
  567-576, 647-655 and 700-707: two threads of a Python program may be in them at the same time.
-/

namespace Olecf

/-- What a thread still does: the steps, with what it goes on with. -/
inductive Act (α : Type) where
  | ret (a : α)
  | load (i : Nat) (k : Int → Act α)
  | store (i : Nat) (v : Int) (k : Act α)
  | get (off size : Nat) (k : Option Bytes → Act α)

/-- One after the other. -/
def Act.bind : Act α → (α → Act β) → Act β
  | .ret a, g => g a
  | .load i k, g => .load i fun v => (k v).bind g
  | .store i v k, g => .store i v (k.bind g)
  | .get off size k, g => .get off size fun d => (k d).bind g

/-- The `while` loop of `libolecf_io_handle_read_stream`, libolecf_io_handle.c:1601-1733, see `streamLoop`.
  `room` is what is left of the buffer: libbfio writes behind its end if more is read. -/
def loopSteps (io : IoHandle) (sat table : AllocTable) (short : Bool) (ss : Nat) :
    Nat → Nat → Nat → Nat → Nat → Nat → Act (Res (Bytes × Nat))
  | fuel, room, index, id, off, size =>
    if size = 0 then .ret (.ok ([], off))
    else match fuel with
      | 0 => .ret .hang
      | fuel + 1 =>
        if id = EOC then .ret .err
        else match streamSectorOffset io sat short id with
          | .ok pos =>
            let boundary := index * ss
            let skip := if off > boundary then off - boundary else 0
            let len := (ss + 2 ^ 64 - skip) % 2 ^ 64
            let len := if len > size then size else len
            if pos + skip ≥ 2 ^ 63 ∨ off + len ≥ 2 ^ 63 then .ret .ub
            else .get (pos + skip) len fun
              | none => .ret .err
              | some d =>
                if len > room then .ret .ub
                else match table.next id with
                | .ok id =>
                  if index + 1 > INT_MAX then .ret .ub
                  else (loopSteps io sat table short ss fuel (room - len) (index + 1) id (off + len)
                    (size - len)).bind fun
                    | .ok (rest, off) => .ret (.ok (d ++ rest, off))
                    | .err => .ret .err
                    | .ub => .ret .ub
                    | .hang => .ret .hang
                | .err => .ret .err
                | .ub => .ret .ub
                | .hang => .ret .hang
          | .err => .ret .err
          | .ub => .ret .ub
          | .hang => .ret .hang

/-- `libolecf_io_handle_read_stream`, libolecf_io_handle.c:1413-1737, for the `current_offset` of item `i` and a buffer
  of `room` bytes: the offset is loaded in line 1471 and stored in line 1734. -/
def readStreamSteps (f : FileCtx) (d : DirEntry) (i room size : Nat) : Act (Res Bytes) :=
  .load i fun offset =>
    if offset < 0 then .ret .err
    else if size > SSIZE_MAX then .ret .err
    else if f.unit d = 0 then .ret .ub
    else
      let index := toInt32 (offset.toNat / f.unit d)
      if index < 0 ∨ index ≥ (f.table d).n then .ret .err
      else match chainPos (f.table d) index.toNat d.start with
        | .ok id =>
          (loopSteps f.io f.sat (f.table d) (f.short d) (f.unit d) size room index.toNat id
            offset.toNat size).bind fun
            | .ok (data, off) => .store i off (.ret (.ok data))
            | .err => .ret .err
            | .ub => .ret .ub
            | .hang => .ret .hang
        | .err => .ret .err
        | .ub => .ret .ub
        | .hang => .ret .hang

/-- The rest of `libolecf_stream_read_buffer`, libolecf_stream.c:135-157, with the size to read. -/
def readRestSteps (f : FileCtx) (d : DirEntry) (i room size : Nat) : Act (Res Bytes) :=
  (readStreamSteps f d i room size).bind fun
    | .ok data => if data.length ≠ size then .ret .err else .ret (.ok data)
    | .err => .ret .err
    | .ub => .ret .ub
    | .hang => .ret .hang

/-- `libolecf_stream_read_buffer`, libolecf_stream.c:36-158: `current_offset` is loaded for the comparisons of
  lines 93, 126 and 131 (the second operand), and in line 133, where the size is computed in 64 bits. -/
def readSteps (f : FileCtx) (d : DirEntry) (i size : Nat) : Act (Res Bytes) :=
  if d.type ≠ typeStream then .ret .err
  else .load i fun c =>
    if c < 0 then .ret .err
    else if size > SSIZE_MAX then .ret .err
    else .load i fun c =>
      if c ≥ d.size then .ret (.ok [])
      else
        let clamped : Act (Res Bytes) := .load i fun c =>
          let n : Int := d.size - c
          readRestSteps f d i size (if n < 0 then (n + 2 ^ 64).toNat else n.toNat)
        if size > d.size then clamped
        else .load i fun c =>
          if c.toNat > d.size - size then clamped else readRestSteps f d i size size

/-- `libolecf_stream_seek_offset`, libolecf_stream.c:211-302: `current_offset` is loaded in lines 256 and 282 and
  stored in line 299. -/
def seekSteps (d : DirEntry) (i : Nat) (offset : Int) (whence : Whence) : Act (Res Int) :=
  if d.type ≠ typeStream then .ret .err
  else .load i fun c =>
    if c < 0 then .ret .err
    else if whence = .other then .ret .err
    else
      let set (sum : Int) : Act (Res Int) :=
        if ¬ inOff64 sum then .ret .ub
        else if sum < 0 then .ret .err
        else .store i sum (.ret (.ok sum))
      match whence with
      | .cur => .load i fun c => set (offset + c)
      | .fromEnd => set (offset + d.size)
      | _ => set offset

/-- `libolecf_stream_get_offset`, libolecf_stream.c:307-365. -/
def offsetSteps (d : DirEntry) (i : Nat) : Act (Res Int) :=
  if d.type ≠ typeStream then .ret .err else .load i fun c => .ret (.ok c)

/-- `libolecf_stream_read_buffer_at_offset`, libolecf_stream.c:163-206. -/
def readAtSteps (f : FileCtx) (d : DirEntry) (i size : Nat) (offset : Int) : Act (Res Bytes) :=
  (seekSteps d i offset .set).bind fun
    | .ok _ => readSteps f d i size
    | .err => .ret .err
    | .ub => .ret .ub
    | .hang => .ret .hang

/-- A call on a stream. -/
inductive StreamCall where
  | read (size : Nat)
  | readAt (size : Nat) (offset : Int)
  | seek (offset : Int) (whence : Whence)
  | getOffset
  deriving Repr, DecidableEq

/-- What a call returns: bytes in the buffer or an offset. -/
inductive StreamReply where
  | data (r : Res Bytes)
  | pos (r : Res Int)
  deriving Repr, DecidableEq

/-- The steps of a call on item `i`, whose directory entry is `d`. -/
def callSteps (f : FileCtx) (d : DirEntry) (i : Nat) : StreamCall → Act StreamReply
  | .read size => (readSteps f d i size).bind fun r => .ret (.data r)
  | .readAt size offset => (readAtSteps f d i size offset).bind fun r => .ret (.data r)
  | .seek offset whence => (seekSteps d i offset whence).bind fun r => .ret (.pos r)
  | .getOffset => (offsetSteps d i).bind fun r => .ret (.pos r)

/-- A program of a thread: its calls may depend on the replies before. -/
inductive Client where
  | done
  | call (i : Nat) (c : StreamCall) (k : StreamReply → Client)

/-- The steps of a program on items with the directory entries `entry`; the result is the list of replies. -/
def Client.steps (f : FileCtx) (entry : Nat → DirEntry) : Client → Act (List StreamReply)
  | .done => .ret []
  | .call i c k => (callSteps f (entry i) i c).bind fun r =>
      ((k r).steps f entry).bind fun rs => .ret (r :: rs)

/-- The `current_offset` of every item, and what every thread still does. -/
structure Threads where
  cur : Nat → Int
  act : Nat → Act (List StreamReply)

/-- A step of thread `t`, if it is not at its end. -/
def Threads.step (dev : Dev) (s : Threads) (t : Nat) : Threads :=
  let next (a : Act (List StreamReply)) := fun u => if u = t then a else s.act u
  match s.act t with
  | .ret _ => s
  | .load i k => { s with act := next (k (s.cur i)) }
  | .store i v k => ⟨fun j => if j = i then v else s.cur j, next k⟩
  | .get off size k => { s with act := next (k (dev.get off size)) }

/-- The threads after a schedule: the threads that make the steps, in order. -/
def Threads.run (dev : Dev) (s : Threads) (schedule : List Nat) : Threads := schedule.foldl (·.step dev) s

/-- The threads at their start: thread `t` runs the program `client t`. -/
def Threads.start (f : FileCtx) (entry : Nat → DirEntry) (cur : Nat → Int) (client : Nat → Client) : Threads :=
  ⟨cur, fun t => (client t).steps f entry⟩

end Olecf
