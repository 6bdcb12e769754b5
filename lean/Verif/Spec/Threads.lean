import Verif.Model.Threads

/-
  Specification of threads that use the streams of a file.
-/

namespace Olecf.Spec

/-- All calls of a program are on items of a set. -/
def Uses (S : Nat → Prop) : Client → Prop
  | .done => True
  | .call i _ k => S i ∧ ∀ r, Uses S (k r)

/-- No item is used by two of the threads. -/
def Separate (client : Nat → Client) : Prop :=
  ∃ S : Nat → Nat → Prop, (∀ t, Uses (S t) (client t)) ∧ ∀ t u i, t ≠ u → S t i → ¬ S u i

/-- Where a seek goes to. -/
def goesTo (data : Bytes) (pos : Nat) (offset : Int) : Whence → Int
  | .cur => pos + offset
  | .fromEnd => data.length + offset
  | _ => offset

/-- A call on a file with this content and position: the reply and the position afterwards. -/
def onFile (data : Bytes) (pos : Nat) : StreamCall → StreamReply × Nat
  | .read n => (.data (.ok ((data.drop pos).take n)), pos + ((data.drop pos).take n).length)
  | .readAt n o =>
    if o < 0 then (.data .err, pos)
    else (.data (.ok ((data.drop o.toNat).take n)), o.toNat + ((data.drop o.toNat).take n).length)
  | .seek o w =>
    if goesTo data pos o w < 0 then (.pos .err, pos)
    else (.pos (.ok (goesTo data pos o w)), (goesTo data pos o w).toNat)
  | .getOffset => (.pos (.ok pos), pos)

/-- The sizes and offsets of a call are in the range of `ssize_t` and `off64_t`, also when they are added. -/
def InReach (data : Bytes) (pos : Nat) : StreamCall → Prop
  | .read n => n < 2 ^ 63
  | .readAt n o => n < 2 ^ 63 ∧ -2 ^ 63 ≤ o ∧ o < 2 ^ 63
  | .seek o w => w ≠ .other ∧ -2 ^ 63 ≤ goesTo data pos o w ∧ goesTo data pos o w < 2 ^ 63
  | .getOffset => True

/-- The replies to a program that has the files for itself. -/
def onFiles (data : Nat → Bytes) (pos : Nat → Nat) : Client → List StreamReply
  | .done => []
  | .call i c k =>
    (onFile (data i) (pos i) c).1 ::
      onFiles data (fun j => if j = i then (onFile (data i) (pos i) c).2 else pos j)
        (k (onFile (data i) (pos i) c).1)

/-- All calls of a program that has the files for itself are in reach. -/
def AllInReach (data : Nat → Bytes) (pos : Nat → Nat) : Client → Prop
  | .done => True
  | .call i c k =>
    InReach (data i) (pos i) c ∧
      AllInReach data (fun j => if j = i then (onFile (data i) (pos i) c).2 else pos j)
        (k (onFile (data i) (pos i) c).1)

/-- The item that a thread loads from or stores to next, and whether it stores. -/
def next : Act α → Option (Nat × Bool)
  | .ret _ => none
  | .load i _ => some (i, false)
  | .store i _ _ => some (i, true)
  | .get _ _ _ => none

/-- A data race: two threads access the offset of one item next, and one of them stores. -/
def Race (s : Threads) (t u : Nat) : Prop :=
  t ≠ u ∧ ∃ i a b, next (s.act t) = some (i, a) ∧ next (s.act u) = some (i, b) ∧ (a = true ∨ b = true)

end Olecf.Spec
