import Verif.Model.Py
import Verif.Spec.Layout

/-
  Specification: what a Python program sees of sequences and documents.
-/

namespace Olecf.Spec

/-- A use of a sequence object. -/
inductive SeqUse where
  | next
  | index (i : Int)
  | length

/-- What a use gives. -/
inductive SeqAnswer (α : Type) where
  | next (r : PyNext α)
  | index (r : Res α)
  | length (n : Int)

def SeqUse.run (s : PySeq α) : SeqUse → SeqAnswer α × PySeq α
  | .next => (.next s.next.1, s.next.2)
  | .index i => (.index (s.getitem i), s)
  | .length => (.length s.len, s)

/-- The answers to a sequence of uses of one sequence object. -/
def seqAnswers : PySeq α → List SeqUse → List (SeqAnswer α)
  | _, [] => []
  | s, u :: us => (u.run s).1 :: seqAnswers (u.run s).2 us

/-- How often `next()` was called. -/
def nextCalls (us : List SeqUse) : Nat :=
  us.countP fun u => match u with | .next => true | _ => false

/-- The answers to the calls of `next()`. -/
def nextAnswers (l : List (SeqAnswer α)) : List (PyNext α) :=
  l.filterMap fun a => match a with | .next r => some r | _ => none

/-- `get` gives the elements of the list by index. -/
def Enumerates (get : Int → Res α) (l : List α) : Prop :=
  ∀ (i : Nat) (a : α), l[i]? = some a → get i = .ok a

/-- All streams of the document are smaller than 2 GiB. -/
inductive SmallStreams : Doc → Prop
  | stream {data : Bytes} : data.length < 2 ^ 31 → SmallStreams (.stream data)
  | storage {kids : List (Bytes × Doc)} : (∀ k ∈ kids, SmallStreams k.2) →
      SmallStreams (.storage kids)

/-- What a Python program sees that walks the items from an item object on: of a stream, all its
  data with one call without arguments; of a storage, its parts with one loop. -/
inductive PySees (utf8Name : DirEntry → Option Bytes) (t : Tree) (f : FileCtx) :
    PyItem → Doc → Prop
  | stream {p : PyItem} {data : Bytes} : p.cls ≠ .item →
      (pyRead f p.item.entry 0 .missing).1 = .ok data →
      PySees utf8Name t f p (.stream data)
  | storage {p : PyItem} {kids kids' : List (Bytes × Doc)} {items : List PyItem} : p.cls = .item →
      (∃ n s, (pySubItems utf8Name t p).forLoop n = (items, .ok (), s)) →
      kids'.Perm kids → items.length = kids'.length →
      (∀ (i : Nat) (c : PyItem) (k : Bytes × Doc), items[i]? = some c → kids'[i]? = some k →
        c.item.entry.name = k.1) →
      (∀ (i : Nat) (c : PyItem) (k : Bytes × Doc), items[i]? = some c → kids'[i]? = some k →
        PySees utf8Name t f c k.2) →
      PySees utf8Name t f p (.storage kids)

/-- The value type of a property with a 16, 32 or 64-bit integer: its size in bytes and whether it
  is signed (MS-OLEPS: VT_I2, VT_UI2, VT_I4, VT_UI4, VT_I8, VT_UI8, VT_FILETIME). -/
def integerTypes : List (Nat × Nat × Bool) :=
  [(0x2, 2, true), (0x12, 2, false), (0x3, 4, true), (0x13, 4, false), (0x14, 8, true),
    (0x15, 8, false), (0x40, 8, false)]

/-- The integers that `size` bytes can hold. -/
def HeldIn (size : Nat) (signed : Bool) (z : Int) : Prop :=
  if signed then -(2 ^ (8 * size - 1)) ≤ z ∧ z < 2 ^ (8 * size - 1) else 0 ≤ z ∧ z < 2 ^ (8 * size)

/-- The bytes of an integer, in two's complement. -/
def leBytes : Nat → Int → Bytes
  | 0, _ => []
  | n + 1, z => UInt8.ofNat (z % 256).toNat :: leBytes n (z / 256)

def integerBytes (e : Endian) (size : Nat) (z : Int) : Bytes :=
  match e with
  | .little => leBytes size z
  | .big => (leBytes size z).reverse

end Olecf.Spec
