import Verif.Model.Mount
import Verif.Spec.Path

/-
  Specification of mounted names and paths.
-/

namespace Olecf.Spec

/-- The Unicode scalar values: the characters that UTF-8 encodes. -/
def Scalar (c : Nat) : Prop := c < 0xd800 ∨ (0xdfff < c ∧ c < 0x110000)

instance (c) : Decidable (Scalar c) := inferInstanceAs (Decidable (_ ∨ _))

/-- The UTF-8 encoding of a string of characters. -/
def utf8 (k : Codec) (cs : List Nat) : Bytes := cs.flatMap fun c => (k.enc c).getD []

/-- What is assumed of libuna: it encodes and decodes UTF-8.  Nothing is assumed of bytes that
  are not UTF-8, nor of characters that UTF-8 cannot encode. -/
structure IsUtf8 (k : Codec) : Prop where
  sep : k.sep = 0x5c
  ascii_enc : ∀ c < 0x80, k.enc c = some [UInt8.ofNat c]
  enc_size : ∀ c, Scalar c → ∃ u, k.enc c = some u ∧ u ≠ [] ∧ u.length ≤ 4
  enc_high : ∀ c u, Scalar c → 0x80 ≤ c → k.enc c = some u → ∀ b ∈ u, 0x80 ≤ b.toNat
  dec_enc : ∀ c u rest, Scalar c → k.enc c = some u → k.step (u ++ rest) = some (c, u.length)

/-- A string of characters that a name can consist of: at least one, none of them the end of
  string character. -/
def NameChars (cs : List Nat) : Prop := cs ≠ [] ∧ ∀ c ∈ cs, Scalar c ∧ c ≠ 0

instance (cs) : Decidable (NameChars cs) := inferInstanceAs (Decidable (_ ∧ _))

/-- Control characters: C0, DEL and C1. -/
def Control (c : Nat) : Prop := c ≤ 0x1f ∨ (0x7f ≤ c ∧ c ≤ 0x9f)

instance (c) : Decidable (Control c) := inferInstanceAs (Decidable (_ ∨ _))

/-- The path `p`, made of the names that the listings from the root on give, leads to the entry
  `e` by items whose names are the given strings of characters, where every item is the only one
  of its siblings that its name is equal to. -/
inductive ListedAt (k : Codec) (utf8Name : DirEntry → Option Bytes)
    (cmp : Bytes → Bytes → Option Bool) (t : Tree) : Bytes → List (List Nat) → MountEntry → Prop
  | root : ListedAt k utf8Name cmp t [] [] ⟨[], ⟨none, t.root⟩⟩
  | sub {p : Bytes} {names : List (List Nat)} {e s : MountEntry} {i : Nat} {cs : List Nat} :
      ListedAt k utf8Name cmp t p names e →
      mountSubEntry k utf8Name t e i = .ok s →
      utf8Name s.item.entry = some (utf8 k cs) →
      cmp (utf8 k cs) s.item.entry.name = some true →
      (∀ (j : Nat) d, j ≠ i → getSubItem t e.item j = .ok d →
        cmp (utf8 k cs) d.entry.name = some false) →
      ListedAt k utf8Name cmp t (p ++ 0x2f :: s.name) (names ++ [cs]) s

/-- The instant of a FILETIME in nanoseconds since 1970: intervals of 100 nanoseconds since 1601,
  which is 11644473600 seconds before. -/
def filetimeNanoseconds (filetime : Nat) : Int :=
  (filetime : Int) * 100 - 11644473600 * 1000000000

end Olecf.Spec
