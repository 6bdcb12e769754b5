import Verif.Spec.InfoSet
import Verif.Lemmas.Info
import Verif.Lemmas.PropSet

/-
  Lemmas about the text that olecfinfo prints of a property set.
-/

namespace Olecf
open Olecf.Spec

/-! ### Pieces -/

theorem printThen_assoc (p : Printed α) (f : α → Printed β) (g : β → Printed γ) :
    printThen (printThen p f) g = printThen p fun a => printThen (f a) g := by
  rcases p with ⟨out, a | _ | _ | _⟩
  · simp only [printThen]
    rcases f a with ⟨out', b | _ | _ | _⟩ <;> simp
  all_goals rfl

theorem printThen_printed (s : Bytes) (f : Unit → Printed β) :
    printThen (printed s) f = (s ++ (f ()).1, (f ()).2) := rfl

theorem printThen_quiet (a : α) (f : α → Printed β) : printThen (quiet (.ok a)) f = f a := by
  simp [printThen, quiet]

theorem printThen_nil (f : Unit → Printed β) : printThen (printed []) f = f () := by
  simp [printThen, printed]

theorem shown_append (xs ys : List (Option Bytes)) :
    shown (xs ++ ys) = printThen (shown xs) fun _ => shown ys := by
  induction xs with
  | nil => simp [shown, printThen]
  | cons x xs ih =>
    cases x with
    | none => rfl
    | some b =>
      show (b ++ (shown (xs ++ ys)).1, (shown (xs ++ ys)).2) = _
      rw [ih]
      show _ = printThen (b ++ (shown xs).1, (shown xs).2) _
      generalize shown xs = p
      rcases p with ⟨out, a | _ | _ | _⟩ <;> simp [printThen]

theorem shown_some (b : Bytes) (r : List (Option Bytes)) :
    shown (some b :: r) = printThen (printed b) fun _ => shown r := rfl

/-- All pieces can be shown: the text is that of all pieces. -/
theorem shown_all : ∀ {l : List (Option Bytes)}, none ∉ l →
    shown l = (l.flatMap fun o => o.getD [], .ok ())
  | [], _ => rfl
  | none :: _, h => absurd (List.mem_cons_self) h
  | some b :: r, h => by
    have ih := shown_all (l := r) fun h' => h (List.mem_cons_of_mem _ h')
    show (b ++ (shown r).1, (shown r).2) = _
    rw [ih]
    rfl

/-- A piece that cannot be shown: what is before the first one is printed, and the call fails. -/
theorem shown_stops : ∀ {l r : List (Option Bytes)}, none ∉ l →
    shown (l ++ none :: r) = (l.flatMap fun o => o.getD [], .err)
  | [], _, _ => rfl
  | none :: _, _, h => absurd (List.mem_cons_self) h
  | some b :: l, r, h => by
    have ih := shown_stops (l := l) (r := r) fun h' => h (List.mem_cons_of_mem _ h')
    show (b ++ (shown (l ++ none :: r)).1, (shown (l ++ none :: r)).2) = _
    rw [ih]
    rfl

theorem shown_ok {l : List (Option Bytes)} : (shown l).2 = .ok () ↔ none ∉ l := by
  constructor
  · intro h hn
    obtain ⟨a, b, rfl, ha⟩ := List.append_of_mem hn |>.imp fun a h => h.imp fun b h => (⟨h, trivial⟩ : _ ∧ True)
    induction a with
    | nil => cases h
    | cons x a ih =>
      cases x with
      | none => cases h
      | some x => exact ih h (by simp)
  · intro h
    rw [shown_all h]

theorem shown_safe (l : List (Option Bytes)) : (shown l).2 = .ok () ∨ (shown l).2 = .err := by
  induction l with
  | nil => exact .inl rfl
  | cons x l ih =>
    cases x with
    | none => exact .inr rfl
    | some b => exact ih

theorem infoElements_shown {title : Bytes} {get : Int → Res α} {f : α → Printed Unit} :
    ∀ (l : List α) (k : Nat) (P : Nat → α → List (Option Bytes)),
      (∀ i a, l[i]? = some a → get ((k + i : Nat) : Int) = .ok a) →
      (∀ i a, l[i]? = some a → printThen (printed (title ++ decimal (k + i + 1) ++ ascii "\n"))
        (fun _ => f a) = shown (P i a)) →
      infoElements title get f l.length k = shown (l.mapIdx P).flatten
  | [], k, P, _, _ => rfl
  | a :: l, k, P, hg, hf => by
    have h0 := hg 0 a rfl
    have f0 := hf 0 a rfl
    have ih := infoElements_shown (title := title) (get := get) (f := f) l (k + 1) (fun i => P (i + 1))
      (fun i b hb => by
        have := hg (i + 1) b hb
        rwa [show k + (i + 1) = k + 1 + i by omega] at this)
      (fun i b hb => by
        have := hf (i + 1) b hb
        rwa [show k + (i + 1) = k + 1 + i by omega] at this)
    rw [List.mapIdx_cons, List.flatten_cons, shown_append, ← f0, ← ih]
    show printThen _ (fun _ => printThen (quiet (get k)) _) = _
    rw [show get (k : Int) = .ok a from h0, printThen_quiet, printThen_assoc]

/-! ### Numbers -/

theorem hexDigit_text (n : Nat) : hexDigit (n % 16) = hexDigitText n := by
  have : ∀ k < 16, hexDigit k = hexDigits.getD k 0 := by decide +kernel
  exact this _ (Nat.mod_lt _ (by decide))

theorem hex32_eq (n : Nat) : hexFixed 8 n = hex32 n := by
  simp only [hexFixed, hexDigit_text, hex32, List.map_cons, List.map_nil, Nat.div_div_eq_div_mul]
  simp

theorem signedText_eq {bits v : Nat} (hb : 0 < bits) (hv : v < 2 ^ bits) :
    signedText bits v = intText (BitVec.ofNat bits v).toInt := by
  have h2 : 2 ^ bits = 2 * 2 ^ (bits - 1) := by
    rw [← Nat.pow_succ']; congr 1; omega
  unfold signedText
  rw [BitVec.toInt_eq_toNat_cond, BitVec.toNat_ofNat, Nat.mod_eq_of_lt hv]
  by_cases h : v < 2 ^ (bits - 1)
  · rw [if_pos h, if_pos (by omega), numberText_eq]
    rfl
  · rw [if_neg h, if_neg (by omega)]
    have : (v : Int) - ((2 ^ bits : Nat) : Int) = Int.negSucc (2 ^ bits - v - 1) := by
      omega
    rw [this]
    show 0x2d :: decimal _ = [0x2d] ++ numberText (2 ^ bits - v - 1 + 1)
    rw [numberText_eq, show 2 ^ bits - v - 1 + 1 = 2 ^ bits - v by omega]
    rfl

/-! ### GUIDs and names -/

theorem hexDigitText_inj {m n : Nat} (h : hexDigitText m = hexDigitText n) : m % 16 = n % 16 := by
  have : ∀ a < 16, ∀ b < 16, hexDigits.getD a 0 = hexDigits.getD b 0 → a = b := by decide +kernel
  exact this _ (Nat.mod_lt _ (by decide)) _ (Nat.mod_lt _ (by decide)) h

theorem hexPair_inj {a b : UInt8} (h1 : hexDigitText (a.toNat / 16) = hexDigitText (b.toNat / 16))
    (h2 : hexDigitText a.toNat = hexDigitText b.toNat) : a = b := by
  have h1 := hexDigitText_inj h1
  have h2 := hexDigitText_inj h2
  have ha := a.toNat_lt
  have hb := b.toNat_lt
  exact UInt8.toNat_inj.1 (by omega)

theorem dash : ascii "-" = [0x2d] := by decide +kernel

/-- The 16 bytes of a GUID can be read off its text. -/
theorem guidText_inj {a b : Bytes} (ha : a.length = 16) (hb : b.length = 16)
    (h : guidText a = guidText b) : a = b := by
  simp only [guidText, dash, List.flatMap_cons, List.flatMap_nil, List.cons_append, List.nil_append,
    List.append_nil, List.cons.injEq, true_and, and_true] at h
  obtain ⟨a0, b0, a1, b1, a2, b2, a3, b3, a4, b4, a5, b5, a6, b6, a7, b7, a8, b8, a9, b9, a10, b10, a11,
    b11, a12, b12, a13, b13, a14, b14, a15, b15⟩ := h
  have h0 := hexPair_inj a0 b0
  have h1 := hexPair_inj a1 b1
  have h2 := hexPair_inj a2 b2
  have h3 := hexPair_inj a3 b3
  have h4 := hexPair_inj a4 b4
  have h5 := hexPair_inj a5 b5
  have h6 := hexPair_inj a6 b6
  have h7 := hexPair_inj a7 b7
  have h8 := hexPair_inj a8 b8
  have h9 := hexPair_inj a9 b9
  have h10 := hexPair_inj a10 b10
  have h11 := hexPair_inj a11 b11
  have h12 := hexPair_inj a12 b12
  have h13 := hexPair_inj a13 b13
  have h14 := hexPair_inj a14 b14
  have h15 := hexPair_inj a15 b15
  clear a0 b0 a1 b1 a2 b2 a3 b3 a4 b4 a5 b5 a6 b6 a7 b7 a8 b8 a9 b9 a10 b10 a11 b11 a12 b12 a13 b13
    a14 b14 a15 b15
  refine List.ext_getElem (by omega) fun i hi1 hi2 => ?_
  have hi : a.getD i 0 = b.getD i 0 := by
    have hi16 : i = 0 ∨ i = 1 ∨ i = 2 ∨ i = 3 ∨ i = 4 ∨ i = 5 ∨ i = 6 ∨ i = 7 ∨ i = 8 ∨ i = 9 ∨
      i = 10 ∨ i = 11 ∨ i = 12 ∨ i = 13 ∨ i = 14 ∨ i = 15 := by omega
    rcases hi16 with rfl | rfl | rfl | rfl | rfl | rfl | rfl | rfl | rfl | rfl | rfl | rfl | rfl | rfl |
      rfl | rfl <;> assumption
  simpa [List.getD_eq_getElem?_getD, List.getElem?_eq_getElem hi1, List.getElem?_eq_getElem hi2] using hi

/-- The types of the properties that have names. -/
def namedTypes : List Nat := [0x02, 0x03, 0x0b, 0x1e, 0x1f, 0x40, 0x47, 0x100c, 0x101e, 0x101f]

theorem find_none {l : List (Bytes × List Nat × Nat × String)} {fmt : Bytes} {type id : Nat}
    (hl : ∀ k ∈ l, (∀ t ∈ k.2.1, t ∈ namedTypes) ∧ k.2.2.1 < 20) (h : type ∉ namedTypes ∨ 20 ≤ id) :
    (l.find? fun k => k.1 = fmt ∧ type ∈ k.2.1 ∧ k.2.2.1 = id).map (·.2.2.2) = none := by
  rw [Option.map_eq_none_iff, List.find?_eq_none]
  intro k hk hd
  obtain ⟨-, h2, h3⟩ := of_decide_eq_true hd
  obtain ⟨h4, h5⟩ := hl k hk
  rcases h with h | h
  · exact h (h4 _ h2)
  · omega

theorem namedProperties_bounds :
    ∀ k ∈ namedProperties, (∀ t ∈ k.2.1, t ∈ namedTypes) ∧ k.2.2.1 < 20 := by
  decide +kernel

theorem documentSummaryProperty_none {type id : Nat} (h : type ∉ namedTypes ∨ 20 ≤ id) :
    documentSummaryProperty type id = none := by
  unfold documentSummaryProperty
  split <;> first
    | rfl
    | (rcases h with h | h
       · exact absurd (by decide) h
       · split <;> first | rfl | omega)

theorem summaryProperty_none {type id : Nat} (h : type ∉ namedTypes ∨ 20 ≤ id) :
    summaryProperty type id = none := by
  unfold summaryProperty
  split <;> first
    | rfl
    | (rcases h with h | h
       · exact absurd (by decide) h
       · split <;> first | rfl | omega)

theorem documentSummaryProperty_eq (type id : Nat) : documentSummaryProperty type id =
    (namedProperties.find? fun k => k.1 = documentSummaryFormat ∧ type ∈ k.2.1 ∧ k.2.2.1 = id).map
      (·.2.2.2) := by
  by_cases h : type ∉ namedTypes ∨ 20 ≤ id
  · rw [documentSummaryProperty_none h, find_none namedProperties_bounds h]
  · have : ∀ type ∈ namedTypes, ∀ id < 20, documentSummaryProperty type id =
        (namedProperties.find? fun k => k.1 = documentSummaryFormat ∧ type ∈ k.2.1 ∧
          k.2.2.1 = id).map (·.2.2.2) := by decide +kernel
    exact this _ (Classical.not_not.1 fun h' => h (.inl h')) _ (by omega)

theorem summaryProperty_eq (type id : Nat) : summaryProperty type id =
    (namedProperties.find? fun k => k.1 = summaryFormat ∧ type ∈ k.2.1 ∧ k.2.2.1 = id).map
      (·.2.2.2) := by
  by_cases h : type ∉ namedTypes ∨ 20 ≤ id
  · rw [summaryProperty_none h, find_none namedProperties_bounds h]
  · have : ∀ type ∈ namedTypes, ∀ id < 20, summaryProperty type id =
        (namedProperties.find? fun k => k.1 = summaryFormat ∧ type ∈ k.2.1 ∧
          k.2.2.1 = id).map (·.2.2.2) := by decide +kernel
    exact this _ (Classical.not_not.1 fun h' => h (.inl h')) _ (by omega)

theorem namedProperties_formats :
    ∀ k ∈ namedProperties, k.1 = summaryFormat ∨ k.1 = documentSummaryFormat := by
  decide +kernel

/-- The tool knows exactly the properties of the two formats by name. -/
theorem identifierName_eq {cls : Bytes} (hc : cls.length = 16) (type id : Nat) :
    identifierName cls type id = propertyName cls type id := by
  have h1 : guidText documentSummaryClass = documentSummaryFormat := by decide +kernel
  have h2 : guidText summaryClass = summaryFormat := by decide +kernel
  unfold identifierName propertyName
  rw [List.take_of_length_le (by omega)]
  by_cases hd : cls = documentSummaryClass
  · rw [if_pos hd, hd, h1, documentSummaryProperty_eq]
  · rw [if_neg hd]
    by_cases hs : cls = summaryClass
    · rw [if_pos hs, hs, h2, summaryProperty_eq]
    · rw [if_neg hs]
      symm
      rw [Option.map_eq_none_iff, List.find?_eq_none]
      intro k hk hh
      obtain ⟨h3, -⟩ := of_decide_eq_true hh
      rcases namedProperties_formats k hk with h | h
      · exact hs (guidText_inj hc (by decide) (by rw [← h3, h, h2]))
      · exact hd (guidText_inj hc (by decide) (by rw [← h3, h, h1]))

theorem printString_text (s : Bytes) : printString (s ++ [0]) = .ok (s.takeWhile (· ≠ 0)) := by
  induction s with
  | nil => rfl
  | cons c s ih =>
    rw [List.cons_append, printString]
    by_cases h : c = 0
    · simp [h]
    · rw [if_neg h, ih, List.takeWhile_cons_of_pos (by simpa using h)]
      rfl

end Olecf
