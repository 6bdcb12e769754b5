import Verif.Spec.Encode
import Verif.Spec.Text
import Verif.Spec.Fuse
import Verif.Spec.PyItems

/-
  Specification: the positions of the parts of a document, and with them the times stored for the
  parts.
-/

namespace Olecf.Spec

/-- The part of a document at a path of names, and its position when the document is read from the top
  down: a part comes after what contains it and after the parts before it there. -/
inductive PlacedAt (root : Doc) : List Bytes → Doc → Nat → Prop
  | here : PlacedAt root [] root 0
  | sub {path : List Bytes} {pre post : List (Bytes × Doc)} {n : Bytes} {d : Doc} {i : Nat} :
      PlacedAt root path (.storage (pre ++ (n, d) :: post)) i →
      PlacedAt root (path ++ [n]) d (i + 1 + countKids pre)

/-- A modification time in the attributes of a mounted file: the start of 1970 if it is not set, and for
  an instant from 1970 on that instant, to the nanosecond or, where there are no nanoseconds, the second
  that it lies in. -/
structure ShowsInstant (nsec : Bool) (time : Int × Int) (filetime : Nat) : Prop where
  unset : filetime = 0 → time = (0, 0)
  valid : filetime ≠ 0 → 0 ≤ filetimeNanoseconds filetime → ValidTime time
  nanoseconds : filetime ≠ 0 → 0 ≤ filetimeNanoseconds filetime → nsec = true →
    instant time = filetimeNanoseconds filetime
  seconds : filetime ≠ 0 → 0 ≤ filetimeNanoseconds filetime → nsec = false →
    instant time ≤ filetimeNanoseconds filetime ∧
      filetimeNanoseconds filetime < instant time + 1000000000

/-- The attributes of the mounted parts of a document have the modification times of the parts and, for
  the times of access and of change, the time of the mount. -/
def PresentsTimes (env : FuseEnv) (mname : Bytes → Bytes) (doc : Doc) (modified : Nat → Nat) : Prop :=
  ∀ path d i, PlacedAt doc path d i → ∃ s,
    fuseGetattr env (mountPath (path.map mname)) = .ok (.ok s) ∧
    s.atime = timeSpec env.nsec env.mounted ∧ s.ctime = timeSpec env.nsec env.mounted ∧
    ShowsInstant env.nsec s.mtime (modified i)

/-- A time as a datetime object: the one of the instant, where there is one (a datetime of 31 December 1699 is
  left open, C68), and never another. -/
structure PyShowsInstant (time : Res PyDateTime) (filetime : Nat) : Prop where
  shown : ∀ t, ValidDateTime t → microsOf t = filetimeMicros filetime →
    dayNumber 1601 1 1 + filetime / 864000000000 ≠ dayNumber 1699 12 31 → time = .ok t
  only : ∀ t, time = .ok t → ValidDateTime t ∧ microsOf t = filetimeMicros filetime

/-- The times that a program sees of an item object. -/
structure PySeesTimes (api : DateTimeApi) (it : Item) (marks : EntryMarks) : Prop where
  created : pyItemCreation it = marks.created
  modified : pyItemModification it = marks.modified
  createdTime : PyShowsInstant (pyItemCreationTime api it) marks.created
  modifiedTime : PyShowsInstant (pyItemModificationTime api it) marks.modified

end Olecf.Spec
