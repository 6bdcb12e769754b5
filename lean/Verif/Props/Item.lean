import Verif.Lemmas.Path
import Verif.Props.Tree

/-
  C21, C22: lookup by name and by path.

  `α` is the type of code units (8 or 16 bits), `cmp` the name comparison of libuna (`none`: it
  failed), `dec` its character decoder.
-/

namespace Olecf.Props
open Olecf Olecf.Spec

/-! ### C21 -/

theorem getSubItemByName_cases (cmp : List α → Bytes → Option Bool) (t : Tree) (it : Item)
    (name : List α) :
    (∃ before after c, t.kids it.node = before ++ c :: after ∧
      (∀ x ∈ before, cmp name x.name = some false) ∧ cmp name c.name = some true ∧
      getSubItemByName cmp t it name = .ok (some (.ofEntry c))) ∨
    ((∀ x ∈ t.kids it.node, cmp name x.name = some false) ∧
      getSubItemByName cmp t it name = .ok none) ∨
    (∃ before after c, t.kids it.node = before ++ c :: after ∧
      (∀ x ∈ before, cmp name x.name = some false) ∧ cmp name c.name = none ∧
      getSubItemByName cmp t it name = .err) := by
  unfold getSubItemByName
  have h := nameLoop_firstMatch cmp name (t.kids it.node)
  generalize hl : t.kids it.node = l at h
  generalize hr : nameLoop cmp name l = r at h
  cases h with
  | found h1 h2 => exact Or.inl ⟨_, _, _, rfl, h1, h2, rfl⟩
  | missing h1 => exact Or.inr (Or.inl ⟨h1, rfl⟩)
  | failed h1 h2 => exact Or.inr (Or.inr ⟨_, _, _, rfl, h1, h2, rfl⟩)

/-- Lookup by name: the first sub item, in the order of enumeration, whose name equals the given
  one; 0 exactly when the comparison says "different" for all sub items; an error exactly when the
  comparison fails for a sub item before the first equal one. -/
theorem C21_name_lookup (cmp : List α → Bytes → Option Bool) (t : Tree) (it : Item)
    (name : List α) :
    (∀ c, getSubItemByName cmp t it name = .ok (some c) ↔
      ∃ i : Nat, getSubItem t it i = .ok c ∧ cmp name c.entry.name = some true ∧
        ∀ j : Nat, j < i → ∀ d, getSubItem t it j = .ok d → cmp name d.entry.name = some false) ∧
    (getSubItemByName cmp t it name = .ok none ↔
      ∀ (i : Nat) d, getSubItem t it i = .ok d → cmp name d.entry.name = some false) ∧
    (getSubItemByName cmp t it name = .err ↔
      ∃ (i : Nat) (c : Item), getSubItem t it i = .ok c ∧ cmp name c.entry.name = none ∧
        ∀ j : Nat, j < i → ∀ d, getSubItem t it j = .ok d → cmp name d.entry.name = some false) := by
  have split : ∀ before after (c : DirEntry), t.kids it.node = before ++ c :: after →
      (∀ x ∈ before, cmp name x.name = some false) →
      getSubItem t it before.length = .ok (.ofEntry c) ∧
      ∀ j : Nat, j < before.length → ∀ d, getSubItem t it j = .ok d →
        cmp name d.entry.name = some false := by
    intro before after c hk hb
    constructor
    · exact getSubItem_ok.2 ⟨c, by rw [hk]; simp, rfl⟩
    · intro j hj d hd
      obtain ⟨e, he, rfl⟩ := getSubItem_ok.1 hd
      rw [hk, List.getElem?_append_left hj] at he
      exact hb e (List.mem_of_getElem? he)
  have uniq : ∀ (i j : Nat) (a b : Item),
      getSubItem t it i = .ok a → cmp name a.entry.name ≠ some false →
      (∀ k : Nat, k < i → ∀ d, getSubItem t it k = .ok d → cmp name d.entry.name = some false) →
      getSubItem t it j = .ok b → cmp name b.entry.name ≠ some false →
      (∀ k : Nat, k < j → ∀ d, getSubItem t it k = .ok d → cmp name d.entry.name = some false) →
      a = b := by
    intro i j a b ha1 ha2 ha3 hb1 hb2 hb3
    rcases Nat.lt_trichotomy i j with h | h | h
    · exact absurd (hb3 i h a ha1) ha2
    · subst h; rw [ha1] at hb1; cases hb1; rfl
    · exact absurd (ha3 j h b hb1) hb2
  rcases getSubItemByName_cases cmp t it name with
    ⟨b, a, c, hk, hb, hc, hr⟩ | ⟨hall, hr⟩ | ⟨b, a, c, hk, hb, hc, hr⟩
  · obtain ⟨hs1, hs2⟩ := split b a c hk hb
    rw [hr]
    refine ⟨fun d => ⟨?_, ?_⟩, ⟨?_, ?_⟩, ⟨?_, ?_⟩⟩
    · intro h; cases h; exact ⟨b.length, hs1, hc, hs2⟩
    · rintro ⟨i, h1, h2, h3⟩
      rw [uniq i b.length d _ h1 (by simp [h2]) h3 hs1 (by simp [Item.ofEntry, hc]) hs2]
    · intro h; cases h
    · intro h
      have := h _ _ hs1
      rw [show (Item.ofEntry c).entry = c from rfl, hc] at this
      cases this
    · intro h; cases h
    · rintro ⟨i, d, h1, h2, h3⟩
      have := uniq i b.length d _ h1 (by simp [h2]) h3 hs1 (by simp [Item.ofEntry, hc]) hs2
      subst this
      rw [show (Item.ofEntry c).entry = c from rfl, hc] at h2
      cases h2
  · have hall' : ∀ (i : Nat) d, getSubItem t it i = .ok d → cmp name d.entry.name = some false := by
      intro i d hd
      obtain ⟨e, he, rfl⟩ := getSubItem_ok.1 hd
      exact hall e (List.mem_of_getElem? he)
    rw [hr]
    refine ⟨fun d => ⟨?_, ?_⟩, ⟨fun _ => hall', fun _ => rfl⟩, ⟨?_, ?_⟩⟩
    · intro h; cases h
    · rintro ⟨i, h1, h2, h3⟩
      rw [hall' i d h1] at h2; cases h2
    · intro h; cases h
    · rintro ⟨i, d, h1, h2, h3⟩
      rw [hall' i d h1] at h2; cases h2
  · obtain ⟨hs1, hs2⟩ := split b a c hk hb
    rw [hr]
    refine ⟨fun d => ⟨?_, ?_⟩, ⟨?_, ?_⟩, ⟨fun _ => ⟨b.length, _, hs1, hc, hs2⟩, fun _ => rfl⟩⟩
    · intro h; cases h
    · rintro ⟨i, h1, h2, h3⟩
      have := uniq i b.length d _ h1 (by simp [h2]) h3 hs1 (by simp [Item.ofEntry, hc]) hs2
      subst this
      rw [show (Item.ofEntry c).entry = c from rfl, hc] at h2
      cases h2
    · intro h; cases h
    · intro h
      have := h _ _ hs1
      rw [show (Item.ofEntry c).entry = c from rfl, hc] at this
      cases this

/-! ### C22 -/

/-- The path after an optional leading separator. -/
def afterLeading (dec : Decoder α) [DecidableEq α] (s : List α) : List α :=
  match s with
  | [] => []
  | u :: rest => if u = dec.sep then rest else u :: rest

theorem afterLeading_drop (dec : Decoder α) [DecidableEq α] (s : List α) :
    afterLeading dec s = s.drop (if s.head? = some dec.sep then 1 else 0) := by
  cases s with
  | nil => simp [afterLeading]
  | cons u rest =>
    by_cases h : u = dec.sep <;> simp [afterLeading, h]

/-- Lookup by path is repeated lookup by name, for every path that decodes, except for the paths of
  one code unit other than the separator (see `C22_one_character_violated`).  In the decoding the
  separator and the end of string character take one code unit. -/
theorem C22_path_lookup_partial [DecidableEq α] (dec : Decoder α)
    (cmp : List α → Bytes → Option Bool) (t : Tree) (item : Item) (s : List α)
    (cs : List (Nat × List α)) (hlen : s.length ≠ 1 ∨ s = [dec.sep])
    (hdec : Decodes dec (afterLeading dec s) cs)
    (hsep : ∀ x ∈ cs, EndsComponent x.1 → x.2.length = 1) :
    itemByPath dec cmp (some t) (some item) s =
      walk (getSubItemByName cmp t) item (components cs) := by
  unfold itemByPath
  rw [afterLeading_drop] at hdec
  simp only []
  by_cases h01 : s.length = 0 ∨ s.length = 1
  · rw [if_pos h01]
    have hnil : s.drop (if s.head? = some dec.sep then 1 else 0) = [] := by
      rcases h01 with h | h
      · have : s = [] := List.length_eq_zero_iff.1 h
        subst this; simp
      · rcases hlen with h' | h'
        · exact absurd h h'
        · subst h'; simp
    rw [hnil] at hdec
    have hcs : cs = [] := List.length_eq_zero_iff.1 (Nat.le_zero.1 (Decodes_length hdec).1)
    subst hcs
    simp [components, walk]
  · rw [if_neg h01]
    have hl2 : 2 ≤ s.length := by omega
    have hcl := (Decodes_length hdec).1
    simp only [List.length_drop] at hcl
    refine pathLoop_eq t s s.length _ item false cs ?_ hdec hsep (by omega) ?_
    · split <;> omega
    · intro _; split <;> omega

/-- Paths that do not decode: the components before the failure are looked up; when one is
  missing the result is 0, otherwise the lookup fails. -/
theorem C22_undecodable [DecidableEq α] (dec : Decoder α)
    (cmp : List α → Bytes → Option Bool) (t : Tree) (item : Item) (s : List α)
    (cs : List (Nat × List α)) (hlen : 2 ≤ s.length)
    (hdec : DecodesBad dec (afterLeading dec s) cs)
    (hsep : ∀ x ∈ cs, EndsComponent x.1 → x.2.length = 1) :
    itemByPath dec cmp (some t) (some item) s =
      match walk (getSubItemByName cmp t) item (closedComponents cs) with
      | .ok (some _) => .err
      | r => r := by
  unfold itemByPath
  rw [afterLeading_drop] at hdec
  simp only []
  rw [if_neg (by omega)]
  have hcl := DecodesBad_length hdec
  simp only [List.length_drop] at hcl
  refine (pathLoop_bad t s s.length _ item false cs ?_ hdec hsep (by omega)).trans ?_
  · split <;> omega
  · unfold thenFail; rfl

theorem walk_defined {lookup : Item → List α → Res (Option Item)}
    (h : ∀ i n, (lookup i n).Defined) : ∀ (cs : List (List α)) (i : Item),
    (walk lookup i cs).Defined
  | [], i => trivial
  | n :: cs, i => by
    rw [walk]
    split
    · trivial
    · have := h i n
      cases hl : lookup i n with
      | ok o =>
        cases o with
        | none => trivial
        | some c => exact walk_defined h cs c
      | err => trivial
      | ub => rw [hl] at this; exact this
      | hang => rw [hl] at this; exact this

/-- The lookup always ends, for every string, when the decoder of libuna uses at least one and at
  most the remaining code units. -/
theorem C22_terminates [DecidableEq α] (dec : Decoder α) (cmp : List α → Bytes → Option Bool)
    (t : Tree) (item : Item) (s : List α)
    (hdec : ∀ s c n, s ≠ [] → dec.step s = some (c, n) →
      0 < n ∧ n ≤ s.length ∧ (EndsComponent c → n = 1)) :
    (itemByPath dec cmp (some t) (some item) s).Defined := by
  have hdef : ∀ i n, (getSubItemByName cmp t i n).Defined := by
    intro i n
    rcases getSubItemByName_cases cmp t i n with ⟨_, _, _, _, _, _, h⟩ | ⟨_, h⟩ | ⟨_, _, _, _, _, _, h⟩ <;>
      rw [h] <;> trivial
  have hd1 : ∀ s c n, s ≠ [] → dec.step s = some (c, n) → 0 < n ∧ n ≤ s.length := by
    intro s c n h1 h2; exact ⟨(hdec s c n h1 h2).1, (hdec s c n h1 h2).2.1⟩
  have sep1 : ∀ {r cs}, Decodes dec r cs → ∀ x ∈ cs, EndsComponent x.1 → x.2.length = 1 := by
    intro r cs h
    induction h with
    | nil => simp
    | @cons c u rest cs hu hst _ ih =>
      intro x hx hc
      rcases List.mem_cons.1 hx with rfl | hx
      · exact (hdec _ _ _ (by simp [hu]) hst).2.2 hc
      · exact ih x hx hc
  have sep2 : ∀ {r cs}, DecodesBad dec r cs → ∀ x ∈ cs, EndsComponent x.1 → x.2.length = 1 := by
    intro r cs h
    induction h with
    | bad => simp
    | @cons c u rest cs hu hst _ ih =>
      intro x hx hc
      rcases List.mem_cons.1 hx with rfl | hx
      · exact (hdec _ _ _ (by simp [hu]) hst).2.2 hc
      · exact ih x hx hc
  by_cases h1 : s.length = 1
  · unfold itemByPath
    simp only []
    rw [if_pos (Or.inr h1)]
    trivial
  · obtain ⟨cs, h | h⟩ := decodes_total hd1 _ (afterLeading dec s) (Nat.le_refl _)
    · rw [C22_path_lookup_partial dec cmp t item s cs (Or.inl h1) h (sep1 h)]
      exact walk_defined hdef _ _
    · by_cases h0 : s.length = 0
      · have : s = [] := List.length_eq_zero_iff.1 h0
        subst this
        trivial
      · rw [C22_undecodable dec cmp t item s cs (by omega) h (sep2 h)]
        have := walk_defined hdef (closedComponents cs) item
        generalize walk (getSubItemByName cmp t) item (closedComponents cs) = r at this
        cases r with
        | ok o => cases o <;> trivial
        | err => trivial
        | ub => exact this
        | hang => exact this

/-- Without a hierarchy no path leads to an item. -/
theorem C22_no_tree [DecidableEq α] (dec : Decoder α) (cmp : List α → Bytes → Option Bool)
    (s : List α) (c : Item) : itemByPath dec cmp none (rootItem none) s ≠ .ok (some c) := by
  unfold itemByPath rootItem
  simp only []
  split
  · simp
  · generalize (if s.head? = some dec.sep then 1 else 0) = i
    unfold pathLoop
    intro h
    split at h
    · split at h
      · cases h
      · split at h
        · simp only [] at h
          split at h <;> split at h <;> cases h
        · cases h
        · cases h
        · cases h
    · simp at h

/-! ### Instances and the violation -/

/-- A decoder for 7-bit strings, and the comparison of such a name with a little-endian name
  that ends with a zero character. -/
def asciiDec : Decoder UInt8 where
  sep := 0x5c
  step
    | [] => none
    | b :: _ => if b < 128 then some (b.toNat, 1) else none

def asciiCmp (name : List UInt8) (stored : Bytes) : Option Bool :=
  some (stored == name.flatMap (fun b => [b, 0]) ++ [0, 0])

def named (e : DirEntry) (name : List UInt8) : DirEntry :=
  { e with name := name.flatMap (fun b => [b, 0]) ++ [0, 0] }

/-- Root storage, storage `ab` with the stream `c`, and a stream `d`. -/
def pathDir : List DirEntry :=
  [entry 0 5 UNUSED UNUSED 1, named (entry 1 1 UNUSED 3 2) [97, 98],
   named (entry 2 2 UNUSED UNUSED UNUSED) [99], named (entry 3 2 UNUSED UNUSED UNUSED) [100]]

def lookupId (s : List UInt8) : Option (Option Nat) :=
  match (createTree pathDir cmpNone).res with
  | .ok (some (t, _)) =>
    match itemByPath asciiDec asciiCmp (some t) (rootItem (some t)) s with
    | .ok (some c) => some (some c.entry.id)
    | .ok none => some none
    | _ => none
  | _ => none

/-- `\ab\c`, `ab\c\`, `ab\x` and the root. -/
example : lookupId [92, 97, 98, 92, 99] = some (some 2) ∧
    lookupId [97, 98, 92, 99, 92] = some (some 2) ∧ lookupId [97, 98, 92, 120] = some none ∧
    lookupId [92] = some (some 0) := by decide

example : Decodes asciiDec (afterLeading asciiDec [92, 97, 98, 92, 99])
    [(97, [97]), (98, [98]), (92, [92]), (99, [99])] :=
  .cons (u := [97]) (by decide) (by decide) (.cons (u := [98]) (by decide) (by decide)
    (.cons (u := [92]) (by decide) (by decide) (.cons (u := [99]) (by decide) (by decide) .nil)))
example : components [(97, [(97 : UInt8)]), (98, [98]), (92, [92]), (99, [99])] = [[97, 98], [99]] := by
  decide
/-- `a\` followed by a byte that does not decode. -/
example : DecodesBad asciiDec (afterLeading asciiDec [97, 92, 200]) [(97, [97]), (92, [92])] :=
  .cons (u := [97]) (by decide) (by decide) (.cons (u := [92]) (by decide) (by decide)
    (.bad (by decide) (by decide)))
example : ∀ s c n, s ≠ [] → asciiDec.step s = some (c, n) →
    0 < n ∧ n ≤ s.length ∧ (EndsComponent c → n = 1) := by
  intro s c n hs h
  cases s with
  | nil => exact absurd rfl hs
  | cons b rest =>
    simp only [asciiDec] at h
    split at h
    · cases h; simp
    · cases h

/-- The claim of C22 does not hold for names of one character: the item `d` exists and lookup by
  name finds it, the path `d` gives the start item instead. -/
theorem C22_one_character_violated :
    ∃ (t : Tree) (m : List Nat) (c : Item), (createTree pathDir cmpNone).res = .ok (some (t, m)) ∧
      getSubItemByName asciiCmp t ⟨none, t.root⟩ [100] = .ok (some c) ∧ c.entry.id = 3 ∧
      itemByPath asciiDec asciiCmp (some t) (rootItem (some t)) [100] =
        .ok (some ⟨none, t.root⟩) := by
  refine ⟨_, _, .ofEntry (named (entry 3 2 UNUSED UNUSED UNUSED) [100]), rfl, rfl, rfl, rfl⟩

/-- In general: every path of one code unit gives the start item. -/
theorem C22_one_character_general [DecidableEq α] (dec : Decoder α)
    (cmp : List α → Bytes → Option Bool) (t : Tree) (item : Item) (u : α) :
    itemByPath dec cmp (some t) (some item) [u] = .ok (some item) := by
  simp [itemByPath]

end Olecf.Props
