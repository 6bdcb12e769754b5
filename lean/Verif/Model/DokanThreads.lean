import Verif.Model.Dokan
import Verif.Model.Threads

/-
  olecftools/mount_dokan.c with the threads of libdokan.

  olecfmount asks for one thread with libdokan 2.0 and later; with earlier versions it leaves `ThreadCount` at 0
  (olecfmount.c:492-496), for which libdokan takes several threads, that call the operations at the same time.
  Requests to read are modelled, with the steps of Model/Threads.  What `mount_dokan_ReadFile` and
  `mount_file_entry_read_buffer_at_offset` do around the read of the stream (the checks of the arguments, and of the
  type of the item) uses no memory that changes.  The other operations make and free objects of their own.
-/

namespace Olecf

/-- A call of `mount_dokan_ReadFile`: the context, by its number, the size and the offset. -/
structure DriveRead where
  handle : Nat
  size : Nat
  offset : Int
  deriving Repr, DecidableEq

/-- The calls of a thread on streams, for the requests that it is given: `mount_dokan_ReadFile`,
  mount_dokan.c:791-935, with `mount_file_entry_read_buffer_at_offset`, mount_file_entry.c:851-919.  An item that is not
  a stream is refused before the call; the call refuses it as well, with the same answer. -/
def serve : List DriveRead → Client
  | [] => .done
  | r :: rs => if r.size > 2 ^ 31 - 1 then serve rs else .call r.handle (.readAt r.size r.offset) fun _ => serve rs

/-- The answer to a request, from what the stream replied, see `dokanRead`. -/
def driveAnswer : StreamReply → DokanRes Bytes
  | .data (.ok data) => if data.length > 2 ^ 31 - 1 then .ok (.error .readFault) else .ok (.ok data)
  | .data .ub => .ub
  | .data .hang => .hang
  | _ => .ok (.error .readFault)

/-- The answers of a thread. -/
def driveAnswers : List DriveRead → List StreamReply → List (DokanRes Bytes)
  | [], _ => []
  | r :: rs, replies =>
    if r.size > 2 ^ 31 - 1 then .ok (.error .badArguments) :: driveAnswers rs replies
    else match replies with
      | [] => []
      | x :: xs => driveAnswer x :: driveAnswers rs xs

/-- The threads of a drive with the contexts `handle`; thread `u` is given the requests `requests u`. -/
def driveThreads (env : DokanEnv) (handle : Nat → DokanHandle) (requests : Nat → List DriveRead) : Threads :=
  .start env.ctx (fun i => (handle i).entry.item.entry) (fun i => (handle i).cur) fun u => serve (requests u)

end Olecf
