import Verif.Spec.Info
import Verif.Lemmas.Mount
import Verif.Lemmas.Export

/-
  The text that olecfinfo prints for an item, and what can be read back from it.
-/

namespace Olecf
open Olecf.Spec

theorem numberText_eq (n : Nat) : decimal n = numberText n := by
  induction n using Nat.strongRecOn with
  | ind n ih =>
    have hd : ∀ k, k < 10 → [UInt8.ofNat (48 + k)] =
        [Nat.digitChar k].map fun c => UInt8.ofNat c.toNat := by
      intro k hk
      have : ∀ k < 10, [UInt8.ofNat (48 + k)] = [Nat.digitChar k].map fun c => UInt8.ofNat c.toNat := by
        decide +kernel
      exact this k hk
    rw [decimal]
    unfold numberText
    split
    · rename_i h
      rw [Nat.toDigits_of_lt_base h]
      exact hd n h
    · rename_i h
      rw [Nat.toDigits_of_base_le (by decide) (by omega), List.map_append, ih _ (by omega),
        hd _ (Nat.mod_lt _ (by decide))]
      rfl

theorem infoChar_eq (s : Bool) (c : UInt8) : infoChar s c = charText s c := by
  have : ∀ s : Bool, ∀ n < 256, infoChar s (UInt8.ofNat n) = charText s (UInt8.ofNat n) := by
    decide +kernel
  have h := this s c.toNat c.toNat_lt
  rwa [UInt8.ofNat_toNat] at h

theorem split_first {a : α} : ∀ {x y r r' : List α}, a ∉ x → a ∉ y → x ++ a :: r = y ++ a :: r' →
    x = y ∧ r = r'
  | [], [], _, _, _, _, h => ⟨rfl, (List.cons.inj h).2⟩
  | [], b :: y, _, _, _, hy, h => by
    have := (List.cons.inj h).1
    subst this
    exact absurd List.mem_cons_self hy
  | b :: x, [], _, _, hx, _, h => by
    have := (List.cons.inj h).1
    subst this
    exact absurd List.mem_cons_self hx
  | b :: x, c :: y, _, _, hx, hy, h => by
    obtain ⟨h1, h2⟩ := List.cons.inj h
    subst h1
    obtain ⟨h3, h4⟩ := split_first (fun hm => hx (List.mem_cons_of_mem _ hm))
      (fun hm => hy (List.mem_cons_of_mem _ hm)) h2
    exact ⟨by rw [h3], h4⟩

theorem split_last {a : α} {x y r r' : List α} (hr : a ∉ r) (hr' : a ∉ r')
    (h : x ++ a :: r = y ++ a :: r') : x = y ∧ r = r' := by
  have := congrArg List.reverse h
  simp only [List.reverse_append, List.reverse_cons, List.append_assoc, List.singleton_append] at this
  obtain ⟨h1, h2⟩ := split_first (by simpa using hr) (by simpa using hr') this
  exact ⟨List.reverse_inj.1 h2, List.reverse_inj.1 h1⟩

theorem decimal_ne (n : Nat) : decimal n ≠ [] := by
  rw [decimal]
  split <;> simp

theorem decimal_inj : ∀ {m n : Nat}, decimal m = decimal n → m = n := by
  intro m
  induction m using Nat.strongRecOn with
  | ind m ih =>
    intro n h
    have hd : ∀ {a b}, a < 10 → b < 10 → UInt8.ofNat (48 + a) = UInt8.ofNat (48 + b) → a = b := by
      intro a b ha hb hab
      have := congrArg UInt8.toNat hab
      rw [UInt8.toNat_ofNat', UInt8.toNat_ofNat'] at this
      omega
    rw [decimal, decimal.eq_def n] at h
    have hne := decimal_ne (m / 10)
    have hne' := decimal_ne (n / 10)
    split at h <;> rename_i hm <;> split at h <;> rename_i hn
    · exact hd hm hn (List.cons.inj h).1
    · have := congrArg List.length h
      simp only [List.length_append, List.length_singleton] at this
      exact absurd (List.length_eq_zero_iff.1 (by omega)) hne'
    · have := congrArg List.length h
      simp only [List.length_append, List.length_singleton] at this
      exact absurd (List.length_eq_zero_iff.1 (by omega)) hne
    · obtain ⟨h1, h2⟩ := List.append_inj' h rfl
      have h3 := ih (m / 10) (by omega) h1
      have h4 := hd (Nat.mod_lt _ (by decide)) (Nat.mod_lt _ (by decide)) (List.cons.inj h2).1
      omega

/-! ### The bytes of a name -/

theorem charText_cases (s : Bool) (c : UInt8) :
    charText s c = [c] ∨ charText s c = 0x5c :: 0x78 :: hexFixed 2 c.toNat := by
  rw [← infoChar_eq]
  unfold infoChar
  split
  · exact Or.inr rfl
  · exact Or.inl rfl

theorem charText_noNewline (s : Bool) (c : UInt8) : (0x0a : UInt8) ∉ charText s c := by
  have : ∀ s : Bool, ∀ n < 256, (0x0a : UInt8) ∉ charText s (UInt8.ofNat n) := by decide +kernel
  have h := this s c.toNat c.toNat_lt
  rwa [UInt8.ofNat_toNat] at h

theorem charText_first {s : Bool} {c : UInt8} (h : c ≠ 0x20) : (charText s c).head? ≠ some 0x20 := by
  rcases charText_cases s c with hc | hc <;> rw [hc]
  · simpa using h
  · show some (0x5c : UInt8) ≠ some 0x20
    decide

theorem charText_append {s : Bool} {a b : UInt8} (ha : a ≠ 0x5c) (hb : b ≠ 0x5c) {x y : Bytes}
    (h : charText s a ++ x = charText s b ++ y) : a = b ∧ x = y := by
  rcases charText_cases s a with h1 | h1 <;> rcases charText_cases s b with h2 | h2 <;>
    rw [h1, h2] at h
  · exact List.cons.inj h
  · exact absurd (List.cons.inj h).1 ha
  · exact absurd (List.cons.inj h).1.symm hb
  · have h := (List.cons.inj (List.cons.inj h).2).2
    obtain ⟨h3, h4⟩ := List.append_inj h (by rw [hexFixed_length, hexFixed_length])
    have ka := hexValue_hexFixed 2 a.toNat (by decide) a.toNat_lt
    rw [h3, hexValue_hexFixed 2 b.toNat (by decide) b.toNat_lt] at ka
    exact ⟨UInt8.toNat_inj.1 (Option.some.inj ka).symm, h4⟩

theorem charText_ne (s : Bool) (c : UInt8) : charText s c ≠ [] := by
  rcases charText_cases s c with h | h <;> rw [h] <;> exact List.cons_ne_nil _ _

theorem nameText_inj {s : Bool} : ∀ {a b : Bytes}, (0x5c : UInt8) ∉ a → (0x5c : UInt8) ∉ b →
    a.flatMap (charText s) = b.flatMap (charText s) → a = b
  | [], [], _, _, _ => rfl
  | [], c :: b, _, _, h => by
    rw [List.flatMap_cons] at h
    exact absurd (List.append_eq_nil_iff.1 h.symm).1 (charText_ne s c)
  | c :: a, [], _, _, h => by
    rw [List.flatMap_cons] at h
    exact absurd (List.append_eq_nil_iff.1 h).1 (charText_ne s c)
  | c :: a, d :: b, ha, hb, h => by
    rw [List.flatMap_cons, List.flatMap_cons] at h
    obtain ⟨h1, h2⟩ := charText_append (fun e => ha (e ▸ List.mem_cons_self))
      (fun e => hb (e ▸ List.mem_cons_self)) h
    rw [h1, nameText_inj (fun hm => ha (List.mem_cons_of_mem _ hm))
      (fun hm => hb (List.mem_cons_of_mem _ hm)) h2]

/-! ### Lines -/

/-- A name of which a line shows where it starts and what it is. -/
def ReadableName (n : Bytes) : Prop := n ≠ [] ∧ n.head? ≠ some 0x20 ∧ (0x5c : UInt8) ∉ n

theorem spaces_inj {c : UInt8} : ∀ {j k : Nat} {x y : List UInt8}, x ≠ [] → y ≠ [] →
    x.head? ≠ some c → y.head? ≠ some c →
    List.replicate j c ++ x = List.replicate k c ++ y → j = k ∧ x = y
  | 0, 0, _, _, _, _, _, _, h => ⟨rfl, h⟩
  | 0, k + 1, x, _, _, _, hx, _, h => by
    have h : x = c :: (List.replicate k c ++ _) := h
    exact absurd (by rw [h]; rfl) hx
  | j + 1, 0, _, y, _, _, _, hy, h => by
    have h : c :: (List.replicate j c ++ _) = y := h
    exact absurd (by rw [← h]; rfl) hy
  | j + 1, k + 1, _, _, h1, h2, h3, h4, h => by
    obtain ⟨h5, h6⟩ := spaces_inj h1 h2 h3 h4 (List.cons.inj h).2
    exact ⟨by rw [h5], h6⟩

/-- A line without its end. -/
def lineBody (s : Bool) (l : Line) : Bytes :=
  (List.replicate (2 * l.1) 0x20 ++ l.2.1.flatMap (charText s) ++ [0x20]) ++
    0x28 :: (decimal l.2.2 ++ [0x20, 0x62, 0x79, 0x74, 0x65, 0x73, 0x29])

theorem lineText_eq (s : Bool) (l : Line) : lineText s l = lineBody s l ++ [0x0a] := by
  have h1 : ascii " (" = ([0x20, 0x28] : Bytes) := by decide +kernel
  have h2 : ascii " bytes)\n" =
      ([0x20, 0x62, 0x79, 0x74, 0x65, 0x73, 0x29, 0x0a] : Bytes) := by decide +kernel
  unfold lineText lineBody
  rw [h1, h2, ← numberText_eq]
  simp

theorem not_digit {n : Nat} {c : UInt8} (h : c.toNat < 48 ∨ 57 < c.toNat) : c ∉ decimal n := by
  intro hm
  have := decimal_digit n c hm
  omega

theorem lineBody_noNewline (s : Bool) (l : Line) : (0x0a : UInt8) ∉ lineBody s l := by
  unfold lineBody
  intro h
  rcases List.mem_append.1 h with h | h
  · rcases List.mem_append.1 h with h | h
    · rcases List.mem_append.1 h with h | h
      · exact absurd (List.mem_replicate.1 h).2 (by decide)
      · obtain ⟨c, _, hc⟩ := List.mem_flatMap.1 h
        exact charText_noNewline s c hc
    · exact absurd h (by decide)
  · rcases List.mem_cons.1 h with h | h
    · exact absurd h (by decide)
    · rcases List.mem_append.1 h with h | h
      · exact not_digit (Or.inl (by decide)) h
      · exact absurd h (by decide)

theorem lineBody_inj {s : Bool} {l m : Line} (hl : ReadableName l.2.1) (hm : ReadableName m.2.1)
    (h : lineBody s l = lineBody s m) : l = m := by
  obtain ⟨lv, ln, lz⟩ := l
  obtain ⟨mv, mn, mz⟩ := m
  unfold lineBody at h
  dsimp only at h hl hm
  have hno : ∀ n : Nat, (0x28 : UInt8) ∉ decimal n ++ [0x20, 0x62, 0x79, 0x74, 0x65, 0x73, 0x29] := by
    intro n hx
    rcases List.mem_append.1 hx with hx | hx
    · exact not_digit (Or.inl (by decide)) hx
    · exact absurd hx (by decide)
  obtain ⟨h1, h2⟩ := split_last (hno _) (hno _) h
  have h3 := decimal_inj (List.append_cancel_right h2)
  have hfst : ∀ {n : Bytes}, ReadableName n → n.flatMap (charText s) ≠ [] ∧
      (n.flatMap (charText s)).head? ≠ some 0x20 := by
    intro n hn
    match n, hn with
    | [], hn => exact absurd rfl hn.1
    | c :: n, hn =>
      rw [List.flatMap_cons]
      refine ⟨fun e => charText_ne s c (List.append_eq_nil_iff.1 e).1, ?_⟩
      rw [List.head?_append]
      have := charText_first (s := s) (c := c) (fun e => hn.2.1 (by rw [e]; rfl))
      have hne := charText_ne s c
      cases hc : charText s c with
      | nil => exact absurd hc hne
      | cons d r => rw [hc] at this; simpa using this
  obtain ⟨h4, h5⟩ := spaces_inj (hfst hl).1 (hfst hm).1 (hfst hl).2 (hfst hm).2
    (List.append_cancel_right h1)
  have h6 := nameText_inj hl.2.2 hm.2.2 h5
  have : lv = mv := by omega
  rw [this, h6, h3]

theorem listText_inj {s : Bool} : ∀ {ls ms : List Line}, (∀ l ∈ ls, ReadableName l.2.1) →
    (∀ l ∈ ms, ReadableName l.2.1) → listText s ls = listText s ms → ls = ms
  | [], [], _, _, _ => rfl
  | [], m :: ms, _, _, h => by
    unfold listText at h
    rw [List.flatMap_cons, lineText_eq] at h
    simp at h
  | l :: ls, [], _, _, h => by
    unfold listText at h
    rw [List.flatMap_cons, lineText_eq] at h
    simp at h
  | l :: ls, m :: ms, hl, hm, h => by
    have h' : lineText s l ++ listText s ls = lineText s m ++ listText s ms := by
      simpa only [listText, List.flatMap_cons] using h
    rw [lineText_eq, lineText_eq, List.append_assoc, List.append_assoc] at h'
    obtain ⟨h1, h2⟩ := split_first (lineBody_noNewline s l) (lineBody_noNewline s m) h'
    rw [lineBody_inj (hl l List.mem_cons_self) (hm m List.mem_cons_self) h1,
      listText_inj (fun x hx => hl x (List.mem_cons_of_mem _ hx))
        (fun x hx => hm x (List.mem_cons_of_mem _ hx)) h2]

/-! ### Hierarchies -/

/-- Lines that do not go on with the sub items of an item at the level. -/
def Above (level : Nat) (ls : List Line) : Prop := ∀ l, ls.head? = some l → l.1 ≤ level

theorem above_append {level : Nat} (o : List Outline) {ls : List Line} (h : Above level ls) :
    Above level (linesOf level o ++ ls) := by
  match o with
  | [] => rw [linesOf]; exact h
  | .node name size kids :: r =>
    rw [linesOf, Outline.lines]
    intro l hl
    cases hl
    exact Nat.le_refl _

mutual
theorem lines_inj : ∀ (o p : Outline) (level : Nat) (x y : List Line), Above level x → Above level y →
    o.lines level ++ x = p.lines level ++ y → o = p ∧ x = y
  | .node n z kids, .node n' z' kids', level, x, y, hx, hy, h => by
    rw [Outline.lines, Outline.lines, List.cons_append, List.cons_append] at h
    obtain ⟨h1, h2⟩ := List.cons.inj h
    have hup : ∀ {x : List Line}, Above level x → ∀ l, x.head? = some l → l.1 < level + 1 :=
      fun hx l hl => Nat.lt_succ_of_le (hx l hl)
    obtain ⟨h3, h4⟩ := linesOf_inj kids kids' (level + 1) x y (hup hx) (hup hy) h2
    cases h1
    rw [h3, h4]
    exact ⟨rfl, rfl⟩

theorem linesOf_inj : ∀ (o p : List Outline) (level : Nat) (x y : List Line),
    (∀ l, x.head? = some l → l.1 < level) → (∀ l, y.head? = some l → l.1 < level) →
    linesOf level o ++ x = linesOf level p ++ y → o = p ∧ x = y
  | [], [], level, x, y, _, _, h => by
    rw [linesOf, List.nil_append, List.nil_append] at h
    exact ⟨rfl, h⟩
  | [], .node n z kids :: p, level, x, y, hx, _, h => by
    rw [linesOf, linesOf, Outline.lines, List.nil_append, List.cons_append, List.cons_append] at h
    have := hx (level, n, z) (by rw [h]; rfl)
    dsimp only at this
    omega
  | .node n z kids :: o, [], level, x, y, _, hy, h => by
    rw [linesOf, linesOf, Outline.lines, List.nil_append, List.cons_append, List.cons_append] at h
    have := hy (level, n, z) (by rw [← h]; rfl)
    dsimp only at this
    omega
  | a :: o, b :: p, level, x, y, hx, hy, h => by
    have hx' : Above level x := fun l hl => Nat.le_of_lt (hx l hl)
    have hy' : Above level y := fun l hl => Nat.le_of_lt (hy l hl)
    rw [linesOf, linesOf, List.append_assoc, List.append_assoc] at h
    obtain ⟨h1, h2⟩ := lines_inj a b level _ _ (above_append o hx') (above_append p hy') h
    obtain ⟨h3, h4⟩ := linesOf_inj o p level x y hx hy h2
    rw [h1, h3]
    exact ⟨rfl, h4⟩
end

mutual
theorem lines_names : ∀ (o : Outline) (level : Nat), ∀ l ∈ o.lines level, InOutline l.2.1 o
  | .node n z kids, level, l, h => by
    rw [Outline.lines] at h
    rcases List.mem_cons.1 h with rfl | h
    · exact .here
    · obtain ⟨o, h1, h2⟩ := linesOf_names kids (level + 1) l h
      exact .sub h1 h2
theorem linesOf_names : ∀ (os : List Outline) (level : Nat), ∀ l ∈ linesOf level os,
    ∃ o ∈ os, InOutline l.2.1 o
  | [], level, l, h => by rw [linesOf] at h; cases h
  | o :: r, level, l, h => by
    rw [linesOf] at h
    rcases List.mem_append.1 h with h | h
    · exact ⟨o, List.mem_cons_self, lines_names o level l h⟩
    · obtain ⟨p, h1, h2⟩ := linesOf_names r level l h
      exact ⟨p, List.mem_cons_of_mem _ h1, h2⟩
end

end Olecf
