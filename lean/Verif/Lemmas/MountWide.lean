import Verif.Spec.MountWide
import Verif.Lemmas.Mount

/-
  Lemmas about mounted names and paths on Windows.
-/

namespace Olecf

open Spec

/-! ### Hexadecimal digits -/

theorem hexFixedW_length : ∀ w c, (hexFixedW w c).length = w
  | 0, _ => rfl
  | w + 1, c => by simp [hexFixedW, hexFixedW_length w]

theorem hexDigitW_toNat {d : Nat} (h : d < 16) :
    (hexDigitW d).toNat = if d < 10 then 48 + d else 87 + d := by
  unfold hexDigitW
  rw [UInt16.toNat_ofNat']
  split <;> omega

theorem hexStepW_digit {v d : Nat} (hd : d < 16) (hv : v * 16 < 2 ^ 32) :
    hexStepW (some v) (hexDigitW d) = some (v * 16 + d) := by
  unfold hexStepW
  simp only [hexDigitW_toNat hd, Option.bind_eq_bind, Option.bind_some]
  rw [Nat.mod_eq_of_lt hv]
  by_cases h : d < 10
  · rw [if_pos h, if_pos (by omega)]
    show some _ = some _
    congr 1; omega
  · rw [if_neg h, if_neg (by omega), if_neg (by omega), if_pos (by omega)]
    show some _ = some _
    congr 1; omega

theorem hexValueW_hexFixedW : ∀ (w c : Nat), w ≤ 8 → c < 16 ^ w → hexValueW (hexFixedW w c) = some c
  | 0, c, _, h => by
    have : c = 0 := by simpa using h
    subst this; rfl
  | w + 1, c, hw, h => by
    have h16 : c / 16 < 16 ^ w := by
      rw [Nat.pow_succ] at h; omega
    have hle : 16 ^ w ≤ 16 ^ 7 := Nat.pow_le_pow_right (by decide) (by omega)
    unfold hexValueW
    rw [hexFixedW, List.foldl_append]
    show List.foldl hexStepW (hexValueW (hexFixedW w (c / 16))) [hexDigitW (c % 16)] = some c
    rw [hexValueW_hexFixedW w (c / 16) (by omega) h16]
    show hexStepW (some (c / 16)) (hexDigitW (c % 16)) = some c
    rw [hexStepW_digit (Nat.mod_lt _ (by decide)) (by omega)]
    congr 1; omega

theorem hexFixedW_range : ∀ (w c : Nat), ∀ b ∈ hexFixedW w c,
    (48 ≤ b.toNat ∧ b.toNat ≤ 57) ∨ (97 ≤ b.toNat ∧ b.toNat ≤ 102)
  | 0, _, b, h => by simp [hexFixedW] at h
  | w + 1, c, b, h => by
    rw [hexFixedW, List.mem_append] at h
    rcases h with h | h
    · exact hexFixedW_range w _ b h
    · rw [List.mem_singleton.1 h, hexDigitW_toNat (Nat.mod_lt _ (by decide))]
      split <;> omega

/-! ### UTF-16 -/

theorem encode16_length (c : Nat) : 1 ≤ (encode16 c).length ∧ (encode16 c).length ≤ 2 := by
  unfold encode16
  split <;> simp

theorem encode16_ascii {c : Nat} (hc : c < 0x80) : encode16 c = [UInt16.ofNat c] := by
  unfold encode16
  rw [if_pos (by omega)]

/-- A code unit below 0x80 stands for itself. -/
theorem encode16_low {c x : Nat} (hc : Scalar c) (hx : x < 0x80) (hne : c ≠ x) :
    ∀ u ∈ encode16 c, u.toNat ≠ x := by
  unfold Scalar at hc
  intro u hu
  unfold encode16 at hu
  split at hu
  · rw [List.mem_singleton.1 hu, UInt16.toNat_ofNat']
    omega
  · rcases List.mem_cons.1 hu with rfl | hu
    · rw [UInt16.toNat_ofNat']; omega
    · rw [List.mem_singleton.1 hu, UInt16.toNat_ofNat']; omega

theorem wide_cons (c : Nat) (cs : List Nat) : wide (c :: cs) = encode16 c ++ wide cs := by
  simp [wide]

theorem wide_append (a b : List Nat) : wide (a ++ b) = wide a ++ wide b := by
  simp [wide]

theorem wide_length (cs : List Nat) : cs.length ≤ (wide cs).length := by
  induction cs with
  | nil => simp
  | cons c cs ih =>
    have := encode16_length c
    rw [wide_cons, List.length_append, List.length_cons]; omega

theorem wide_units {ds : List Nat} {x : Nat} (hx : x < 0x80) (h : ∀ d ∈ ds, Scalar d ∧ d ≠ x) :
    ∀ u ∈ wide ds, u.toNat ≠ x := by
  intro u hu
  obtain ⟨d, hd, hu⟩ := List.mem_flatMap.1 hu
  exact encode16_low (h d hd).1 hx (h d hd).2 u hu

variable {k : WideCodec}

theorem dec_asciiW (hk : IsUtf16 k) (b : UInt16) (rest : Wide) (hb : b.toNat < 0x80) :
    k.step (b :: rest) = some (b.toNat, 1) := by
  have h := hk.step b.toNat rest (.inl (by omega))
  rw [encode16_ascii hb] at h
  simpa using h

/-! ### The text of a character -/

/-- The text that `escapeCharW` writes. -/
def escTextW (c : Nat) : Wide :=
  if EscapedXW c then 0x5e :: 0x78 :: hexFixedW 2 c
  else if EscapedU c then 0x5e :: 0x55 :: hexFixedW 8 c
  else if c = 0x5e then [0x5e, 0x5e]
  else encode16 c

theorem escTextW_length (c : Nat) : 1 ≤ (escTextW c).length ∧ (escTextW c).length ≤ 10 := by
  unfold escTextW
  have := encode16_length c
  split
  · simp [hexFixedW_length]
  · split
    · simp [hexFixedW_length]
    · split
      · simp
      · omega

theorem putTextW_ok {size : Nat} {out text : Wide} (h : out.length + text.length < size) :
    putTextW size out text = .ok (out ++ text) := by
  unfold putTextW; rw [if_pos h]

theorem escapeCharW_ok (hk : IsUtf16 k) {c size : Nat} {out : Wide} (hc : Scalar c)
    (h : out.length + 10 < size) : escapeCharW k size out c = .ok (out ++ escTextW c) := by
  have hl := (escTextW_length c).2
  unfold escapeCharW escTextW at *
  split
  · rename_i hx; rw [if_pos hx] at hl
    exact putTextW_ok (by omega)
  · rename_i hx; rw [if_neg hx] at hl
    split
    · rename_i hu; rw [if_pos hu] at hl
      exact putTextW_ok (by omega)
    · split
      · rw [if_neg (by omega)]
      · unfold putCharW
        rw [hk.enc c hc]
        have := encode16_length c
        dsimp only
        rw [if_pos (by omega)]

theorem fromLoopW_ok (hk : IsUtf16 k) (s : Wide) : ∀ (cs : List Nat) (fuel i : Nat) (out : Wide),
    (∀ c ∈ cs, Scalar c ∧ c ≠ 0) → i ≤ s.length → s.drop i = wide cs → out.length ≤ 10 * i →
    s.length - i ≤ fuel →
    fromLoopW k s (s.length * 10 + 1) fuel i out = .ok (out ++ cs.flatMap escTextW)
  | [], fuel, i, out, _, hi, hd, ho, _ => by
    have hlen : s.length ≤ i := List.drop_eq_nil_iff.1 hd
    unfold fromLoopW
    rw [if_neg (by omega), if_pos (by omega)]
    simp
  | c :: cs, fuel, i, out, hcs, hi, hd, ho, hf => by
    obtain ⟨hc, hc0⟩ := hcs c (by simp)
    have hl := encode16_length c
    have he := escTextW_length c
    have hlen := congrArg List.length hd
    rw [wide_cons, List.length_append, List.length_drop] at hlen
    have hstep : k.step (s.drop i) = some (c, (encode16 c).length) := by
      rw [hd, wide_cons]; exact hk.step c _ hc
    unfold fromLoopW
    rw [if_pos (by omega)]
    match fuel, hf with
    | 0, hf => omega
    | fuel + 1, hf =>
      simp only [hstep]
      rw [if_neg hc0, escapeCharW_ok hk hc (by omega)]
      simp only []
      rw [fromLoopW_ok hk s cs fuel _ _ (fun x hx => hcs x (by simp [hx])) (by omega) (by
        rw [← List.drop_drop, hd, wide_cons, List.drop_append_of_le_length (Nat.le_refl _)]
        simp) (by rw [List.length_append]; omega) (by omega)]
      simp [List.append_assoc]

theorem fromItemPathW_ok (hk : IsUtf16 k) {cs : List Nat} (hcs : NameChars cs)
    (hlen : (wide cs).length ≤ (ssizeMax - 1) / 20) :
    fromItemPathW k (wide cs) = .ok (cs.flatMap escTextW) := by
  have h1 := wide_length cs
  have h0 := List.length_pos_iff.2 hcs.1
  unfold fromItemPathW
  rw [if_neg (by unfold ssizeMax at *; omega), if_neg (by omega),
    fromLoopW_ok hk _ cs _ _ _ hcs.2 (by omega) (by simp) (by simp) (by omega)]
  simp

/-! ### Back to the item path -/

/-- The text in the mounted path. -/
def Tok.textW : Tok → Wide
  | .sep => [0x5c]
  | .char c => escTextW c

theorem drop_add_of_dropW {p a b : Wide} {i : Nat} (h : p.drop i = a ++ b) :
    p.drop (i + a.length) = b := by
  rw [← List.drop_drop, h, List.drop_append_of_le_length (Nat.le_refl _)]; simp

theorem rdUnit_of_drop {p b : Wide} {i : Nat} {x : UInt16} (h : p.drop i = x :: b) :
    rdUnit p i = .ok x ∧ i < p.length ∧ p.drop (i + 1) = b := by
  have hl := congrArg List.length h
  rw [List.length_drop, List.length_cons] at hl
  refine ⟨?_, by omega, ?_⟩
  · have h0 : (p.drop i)[0]? = some x := by rw [h]; rfl
    rw [List.getElem?_drop] at h0
    simp only [Nat.add_zero] at h0
    unfold rdUnit
    rw [h0]
  · rw [← List.drop_drop, h]; rfl

theorem rdUnits_hex {p rest : Wide} {i w c : Nat} (h : p.drop i = hexFixedW w c ++ rest) (hi : i ≤ p.length) :
    i + w ≤ p.length ∧ rdUnits p i w = .ok (hexFixedW w c) := by
  have hl := congrArg List.length h
  rw [List.length_drop, List.length_append, hexFixedW_length] at hl
  refine ⟨by omega, ?_⟩
  unfold rdUnits
  rw [if_pos (by omega), h,
    List.take_append_of_le_length (Nat.le_of_eq (hexFixedW_length ..).symm),
    List.take_of_length_le (Nat.le_of_eq (hexFixedW_length ..))]

theorem escapedXW_lt {c : Nat} (h : EscapedXW c) : c < 0x100 := by
  unfold EscapedXW WindowsOnly at h; omega

theorem tok_stepW (hk : IsUtf16 k) {p rest : Wide} {i : Nat} {t : Tok} (ht : t.Ok)
    (hd : p.drop i = t.textW ++ rest) :
    ∃ c n, k.step (p.drop i) = some (c, n) ∧
      pathCharW p c (i + n) = .ok (t.item, i + t.textW.length) ∧
      (encode16 t.item).length ≤ t.textW.length := by
  cases t with
  | sep =>
    refine ⟨0x5c, 1, ?_, rfl, ?_⟩
    · rw [hd]; exact dec_asciiW hk 0x5c rest (by decide)
    · decide
  | char c =>
    obtain ⟨hc, hc0⟩ := ht
    have hle := encode16_length c
    change p.drop i = escTextW c ++ rest at hd
    show ∃ c' n, _ ∧ pathCharW p c' (i + n) = .ok (c, i + (escTextW c).length) ∧
      (encode16 c).length ≤ (escTextW c).length
    unfold escTextW at *
    by_cases hx : EscapedXW c
    · rw [if_pos hx] at *
      have hlen : ((0x5e : UInt16) :: 0x78 :: hexFixedW 2 c).length = 4 := by simp [hexFixedW_length]
      rw [hlen]
      refine ⟨0x5e, 1, by rw [hd]; exact dec_asciiW hk 0x5e _ (by decide), ?_, by omega⟩
      have hd1 := drop_add_of_dropW (a := [0x5e]) (b := 0x78 :: (hexFixedW 2 c ++ rest)) hd
      change p.drop (i + 1) = _ at hd1
      obtain ⟨hg, hi, hd2⟩ := rdUnit_of_drop hd1
      obtain ⟨hl2, hr⟩ := rdUnits_hex hd2 (by omega)
      unfold pathCharW
      rw [if_neg (by decide), if_pos rfl]
      unfold unescapeW
      rw [if_neg (by omega), hg]
      dsimp only
      rw [if_neg (by decide), if_pos (by decide)]
      unfold unescapeX
      rw [if_neg (by omega), hr]
      dsimp only
      rw [hexValueW_hexFixedW 2 c (by decide) (escapedXW_lt hx)]
      dsimp only
      rw [if_pos (by
        unfold EscapedXW at hx
        rcases hx with h | h
        · exact .inl (by omega)
        · exact .inr h)]
    · rw [if_neg hx] at *
      by_cases hu : EscapedU c
      · rw [if_pos hu] at *
        have hlen : ((0x5e : UInt16) :: 0x55 :: hexFixedW 8 c).length = 10 := by
          simp [hexFixedW_length]
        rw [hlen]
        refine ⟨0x5e, 1, by rw [hd]; exact dec_asciiW hk 0x5e _ (by decide), ?_, by omega⟩
        have hd1 := drop_add_of_dropW (a := [0x5e]) (b := 0x55 :: (hexFixedW 8 c ++ rest)) hd
        change p.drop (i + 1) = _ at hd1
        obtain ⟨hg, hi, hd2⟩ := rdUnit_of_drop hd1
        obtain ⟨hl2, hr⟩ := rdUnits_hex hd2 (by omega)
        unfold pathCharW
        rw [if_neg (by decide), if_pos rfl]
        unfold unescapeW
        rw [if_neg (by omega), hg]
        dsimp only
        rw [if_neg (by decide), if_neg (by decide), if_pos (by decide)]
        unfold unescapeU
        rw [if_neg (by omega), hr]
        dsimp only
        rw [hexValueW_hexFixedW 8 c (by decide) (by unfold Scalar at hc; omega)]
        dsimp only
        rw [if_pos hu]
      · rw [if_neg hu] at *
        by_cases hb : c = 0x5e
        · subst hb
          rw [if_pos rfl] at *
          refine ⟨0x5e, 1, by rw [hd]; exact dec_asciiW hk 0x5e _ (by decide), ?_, by decide⟩
          have hd1 := drop_add_of_dropW (a := [0x5e]) (b := 0x5e :: rest) hd
          change p.drop (i + 1) = _ at hd1
          obtain ⟨hg, hi, hd2⟩ := rdUnit_of_drop hd1
          unfold pathCharW
          rw [if_neg (by decide), if_pos rfl]
          unfold unescapeW
          rw [if_neg (by omega), hg]
          dsimp only
          rw [if_pos rfl]
          rfl
        · rw [if_neg hb] at *
          refine ⟨c, _, by rw [hd]; exact hk.step c _ hc, ?_, Nat.le_refl _⟩
          unfold pathCharW
          rw [if_neg (by unfold EscapedXW at hx; omega), if_neg hb]

theorem tok_text_posW (t : Tok) : 1 ≤ t.textW.length := by
  cases t with
  | sep => exact Nat.le_refl 1
  | char c => exact (escTextW_length c).1

theorem toLoopW_ok (hk : IsUtf16 k) (p : Wide) : ∀ (ts : List Tok) (fuel i : Nat) (out : Wide),
    (∀ t ∈ ts, t.Ok) → i ≤ p.length → p.drop i = ts.flatMap Tok.textW → out.length ≤ i →
    p.length - i ≤ fuel →
    toLoopW k p (p.length + 1) fuel i out = .ok (out ++ wide (ts.map Tok.item))
  | [], fuel, i, out, _, hi, hd, ho, _ => by
    have hlen : p.length ≤ i := List.drop_eq_nil_iff.1 hd
    unfold toLoopW
    rw [if_neg (by omega), if_pos (by omega)]
    simp [wide]
  | t :: ts, fuel, i, out, hts, hi, hd, ho, hf => by
    have ht := hts t (by simp)
    have hpos := tok_text_posW t
    rw [List.flatMap_cons] at hd
    obtain ⟨c, n, hstep, hpc, hle⟩ := tok_stepW hk ht hd
    have hlen := congrArg List.length hd
    rw [List.length_append, List.length_drop] at hlen
    unfold toLoopW
    rw [if_pos (by omega)]
    match fuel, hf with
    | 0, hf => omega
    | fuel + 1, hf =>
      simp only [hstep, hpc]
      have hput : putCharW k (p.length + 1) out t.item = .ok (out ++ encode16 t.item) := by
        unfold putCharW
        rw [hk.enc _ (Tok.item_scalar ht)]
        dsimp only
        rw [if_pos (by omega)]
      rw [hput]
      simp only []
      rw [toLoopW_ok hk p ts fuel _ _ (fun x hx => hts x (by simp [hx])) (by omega)
        (drop_add_of_dropW hd) (by rw [List.length_append]; omega) (by omega)]
      rw [List.map_cons, wide_cons, List.append_assoc]

theorem toItemPathW_ok (hk : IsUtf16 k) {ts : List Tok} (hts : ∀ t ∈ ts, t.Ok)
    (hlen : ((Tok.sep :: ts).flatMap Tok.textW).length < 2 ^ 62 - 1) :
    toItemPathW k ((Tok.sep :: ts).flatMap Tok.textW) = .ok (wide (0x5c :: ts.map Tok.item)) := by
  have h0 : ((Tok.sep :: ts).flatMap Tok.textW) = 0x5c :: ts.flatMap Tok.textW := rfl
  unfold toItemPathW
  have h1 : ((Tok.sep :: ts).flatMap Tok.textW).length ≠ 0 := by rw [h0]; simp
  rw [if_neg (by unfold ssizeMax at *; omega), if_neg (by rw [h0]; simp),
    if_neg (by unfold ssizeMax; omega),
    toLoopW_ok hk _ (Tok.sep :: ts) _ _ _ (by
      intro t ht
      rcases List.mem_cons.1 ht with rfl | ht
      · trivial
      · exact hts t ht) (by omega) (by simp) (by simp) (by omega)]
  rfl

/-! ### The specification of the text -/

theorem hexTextW_eq : ∀ w c, hexFixedW w c = hexTextW w c
  | 0, _ => rfl
  | w + 1, c => by
    rw [hexFixedW, hexTextW, hexTextW_eq w]
    congr 2
    unfold hexDigitW
    split
    · rfl
    · congr 1
      omega

theorem escTextW_mounted {c : Nat} (hc : Scalar c) : escTextW c = mountedCharW c := by
  unfold escTextW mountedCharW
  rw [hexTextW_eq, hexTextW_eq]
  have h1 : EscapedXW c ↔ Forbidden c := by
    unfold EscapedXW WindowsOnly Forbidden Control
    simp only [List.mem_cons, List.not_mem_nil, or_false]
    omega
  have h2 : EscapedU c ↔ Unshown c := by unfold EscapedU Unshown; unfold Scalar at hc; omega
  simp only [h1, h2]

end Olecf
