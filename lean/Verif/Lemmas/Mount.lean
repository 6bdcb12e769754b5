import Verif.Spec.Mount
import Verif.Lemmas.Path
import Verif.Lemmas.Directory

/-
  Lemmas about mounted names and paths.
-/

namespace Olecf

open Spec

/-! ### Hexadecimal digits -/

theorem hexFixed_length : ∀ w c, (hexFixed w c).length = w
  | 0, _ => rfl
  | w + 1, c => by simp [hexFixed, hexFixed_length w]

theorem hexDigit_toNat {d : Nat} (h : d < 16) :
    (hexDigit d).toNat = if d < 10 then 48 + d else 87 + d := by
  unfold hexDigit
  rw [UInt8.toNat_ofNat']
  split <;> omega

theorem hexStep_digit {v d : Nat} (hd : d < 16) (hv : v * 16 < 2 ^ 32) :
    hexStep (some v) (hexDigit d) = some (v * 16 + d) := by
  unfold hexStep
  simp only [hexDigit_toNat hd, Option.bind_eq_bind, Option.bind_some]
  rw [Nat.mod_eq_of_lt hv]
  by_cases h : d < 10
  · rw [if_pos h, if_pos (by omega)]
    show some _ = some _
    congr 1; omega
  · rw [if_neg h, if_neg (by omega), if_pos (by omega)]
    show some _ = some _
    congr 1; omega

theorem hexValue_hexFixed : ∀ (w c : Nat), w ≤ 8 → c < 16 ^ w → hexValue (hexFixed w c) = some c
  | 0, c, _, h => by
    have : c = 0 := by simpa using h
    subst this; rfl
  | w + 1, c, hw, h => by
    have h16 : c / 16 < 16 ^ w := by
      rw [Nat.pow_succ] at h; omega
    have hle : 16 ^ w ≤ 16 ^ 7 := Nat.pow_le_pow_right (by decide) (by omega)
    unfold hexValue
    rw [hexFixed, List.foldl_append]
    show List.foldl hexStep (hexValue (hexFixed w (c / 16))) [hexDigit (c % 16)] = some c
    rw [hexValue_hexFixed w (c / 16) (by omega) h16]
    show hexStep (some (c / 16)) (hexDigit (c % 16)) = some c
    rw [hexStep_digit (Nat.mod_lt _ (by decide)) (by omega)]
    congr 1; omega

theorem hexDigit_range {d : Nat} (h : d < 16) :
    (48 ≤ (hexDigit d).toNat ∧ (hexDigit d).toNat ≤ 57) ∨
    (97 ≤ (hexDigit d).toNat ∧ (hexDigit d).toNat ≤ 102) := by
  rw [hexDigit_toNat h]; split <;> omega

theorem hexFixed_range : ∀ (w c : Nat), ∀ b ∈ hexFixed w c,
    (48 ≤ b.toNat ∧ b.toNat ≤ 57) ∨ (97 ≤ b.toNat ∧ b.toNat ≤ 102)
  | 0, _, b, h => by simp [hexFixed] at h
  | w + 1, c, b, h => by
    rw [hexFixed, List.mem_append] at h
    rcases h with h | h
    · exact hexFixed_range w _ b h
    · rw [List.mem_singleton.1 h]; exact hexDigit_range (Nat.mod_lt _ (by decide))

/-! ### The text of a character -/

/-- The text that `escapeChar` writes. -/
def escText (k : Codec) (c : Nat) : Bytes :=
  if EscapedX c then 0x5c :: 0x78 :: hexFixed 2 c
  else if EscapedU c then 0x5c :: 0x55 :: hexFixed 8 c
  else if c = 0x5c then [0x5c, 0x5c]
  else (k.enc c).getD []

variable {k : Codec}

theorem enc_get (hk : IsUtf8 k) {c : Nat} (hc : Scalar c) :
    k.enc c = some ((k.enc c).getD []) ∧ (k.enc c).getD [] ≠ [] ∧
      ((k.enc c).getD []).length ≤ 4 := by
  obtain ⟨u, hu, h1, h2⟩ := hk.enc_size c hc
  rw [hu]; exact ⟨rfl, h1, h2⟩

theorem enc_ascii (hk : IsUtf8 k) {c : Nat} (hc : c < 0x80) :
    (k.enc c).getD [] = [UInt8.ofNat c] := by rw [hk.ascii_enc c hc]; rfl

theorem dec_ascii (hk : IsUtf8 k) (b : UInt8) (rest : Bytes) (hb : b.toNat < 0x80) :
    k.step (b :: rest) = some (b.toNat, 1) := by
  have h := hk.dec_enc b.toNat [b] rest (.inl (by omega)) (by
    rw [hk.ascii_enc _ hb]; simp)
  simpa using h

theorem escText_length (hk : IsUtf8 k) {c : Nat} (hc : Scalar c) :
    1 ≤ (escText k c).length ∧ (escText k c).length ≤ 10 := by
  unfold escText
  obtain ⟨_, h2, h3⟩ := enc_get hk hc
  have := List.length_pos_iff.2 h2
  split
  · simp [hexFixed_length]
  · split
    · simp [hexFixed_length]
    · split
      · simp
      · omega

theorem utf8_cons (c : Nat) (cs : List Nat) : utf8 k (c :: cs) = (k.enc c).getD [] ++ utf8 k cs := by
  simp [utf8]

theorem utf8_append (a b : List Nat) : utf8 k (a ++ b) = utf8 k a ++ utf8 k b := by
  simp [utf8]

theorem putText_ok {size : Nat} {out text : Bytes} (h : out.length + text.length < size) :
    putText size out text = .ok (out ++ text) := by
  unfold putText; rw [if_pos h]

theorem escapeChar_ok (hk : IsUtf8 k) {c size : Nat} {out : Bytes} (hc : Scalar c)
    (h : out.length + 10 < size) : escapeChar k size out c = .ok (out ++ escText k c) := by
  obtain ⟨h1, h2, h3⟩ := enc_get hk hc
  have hl := (escText_length hk hc).2
  unfold escapeChar escText at *
  split
  · rename_i hx; rw [if_pos hx] at hl
    exact putText_ok (by omega)
  · rename_i hx; rw [if_neg hx] at hl
    split
    · rename_i hu; rw [if_pos hu] at hl
      exact putText_ok (by omega)
    · split
      · rw [if_neg (by omega)]
      · unfold putChar
        rw [h1]
        simp only [Option.getD_some]
        rw [if_pos (by omega)]

theorem fromLoop_ok (hk : IsUtf8 k) (s : Bytes) : ∀ (cs : List Nat) (fuel i : Nat) (out : Bytes),
    (∀ c ∈ cs, Scalar c ∧ c ≠ 0) → i ≤ s.length → s.drop i = utf8 k cs → out.length ≤ 10 * i →
    s.length - i ≤ fuel →
    fromLoop k s (s.length * 10 + 1) fuel i out = .ok (out ++ cs.flatMap (escText k))
  | [], fuel, i, out, _, hi, hd, ho, _ => by
    have hlen : s.length ≤ i := List.drop_eq_nil_iff.1 hd
    unfold fromLoop
    rw [if_neg (by omega), if_pos (by omega)]
    simp
  | c :: cs, fuel, i, out, hcs, hi, hd, ho, hf => by
    obtain ⟨hc, hc0⟩ := hcs c (by simp)
    obtain ⟨h1, h2, h3⟩ := enc_get hk hc
    have hl := List.length_pos_iff.2 h2
    have he := escText_length hk hc
    have hlen := congrArg List.length hd
    rw [utf8_cons, List.length_append, List.length_drop] at hlen
    have hstep : k.step (s.drop i) = some (c, ((k.enc c).getD []).length) := by
      rw [hd, utf8_cons]; exact hk.dec_enc c _ _ hc h1
    unfold fromLoop
    rw [if_pos (by omega)]
    match fuel, hf with
    | 0, hf => omega
    | fuel + 1, hf =>
      simp only [hstep]
      rw [if_neg hc0, escapeChar_ok hk hc (by omega)]
      simp only []
      rw [fromLoop_ok hk s cs fuel _ _ (fun x hx => hcs x (by simp [hx])) (by omega) (by
        rw [← List.drop_drop, hd, utf8_cons, List.drop_append_of_le_length (Nat.le_refl _)]
        simp) (by rw [List.length_append]; omega) (by omega)]
      simp [List.append_assoc]

theorem utf8_length (hk : IsUtf8 k) {cs : List Nat} (hcs : ∀ c ∈ cs, Scalar c ∧ c ≠ 0) :
    cs.length ≤ (utf8 k cs).length := by
  induction cs with
  | nil => simp
  | cons c cs ih =>
    have := List.length_pos_iff.2 (enc_get hk (hcs c (by simp)).1).2.1
    have := ih fun x hx => hcs x (by simp [hx])
    rw [utf8_cons, List.length_append, List.length_cons]; omega

theorem fromItemPath_ok (hk : IsUtf8 k) {cs : List Nat} (hcs : NameChars cs)
    (hlen : (utf8 k cs).length ≤ (ssizeMax - 1) / 10) :
    fromItemPath k (utf8 k cs) = .ok (cs.flatMap (escText k)) := by
  have h1 := utf8_length hk hcs.2
  have h0 := List.length_pos_iff.2 hcs.1
  unfold fromItemPath
  rw [if_neg (by unfold ssizeMax at *; omega), if_neg (by omega),
    fromLoop_ok hk _ cs _ _ _ hcs.2 (by omega) (by simp) (by simp) (by omega)]
  simp

/-! ### Back to the item path -/

/-- The parts of a path: a separator or a character of a name. -/
inductive Tok where
  | sep
  | char (c : Nat)

def Tok.Ok : Tok → Prop
  | .sep => True
  | .char c => Scalar c ∧ c ≠ 0

/-- The text in the mounted path. -/
def Tok.text (k : Codec) : Tok → Bytes
  | .sep => [0x2f]
  | .char c => escText k c

/-- The character in the item path. -/
def Tok.item : Tok → Nat
  | .sep => 0x5c
  | .char c => c

theorem Tok.item_scalar {t : Tok} (h : t.Ok) : Scalar t.item := by
  cases t with
  | sep => exact .inl (by show 0x5c < 0xd800; omega)
  | char c => exact h.1

theorem drop_add_of_drop {p a b : Bytes} {i : Nat} (h : p.drop i = a ++ b) :
    p.drop (i + a.length) = b := by
  rw [← List.drop_drop, h, List.drop_append_of_le_length (Nat.le_refl _)]; simp

theorem getD_of_drop {p b : Bytes} {i : Nat} {x : UInt8} (h : p.drop i = x :: b) :
    p.getD i 0 = x ∧ i < p.length ∧ p.drop (i + 1) = b := by
  have hl := congrArg List.length h
  rw [List.length_drop, List.length_cons] at hl
  refine ⟨?_, by omega, ?_⟩
  · have h0 : (p.drop i)[0]? = some x := by rw [h]; rfl
    rw [List.getElem?_drop] at h0
    simp only [Nat.add_zero] at h0
    rw [List.getD_eq_getElem?_getD, h0]; rfl
  · rw [← List.drop_drop, h]; rfl

theorem rdByte_getD {p : Bytes} {i : Nat} (h : i < p.length) :
    rdByte p i = .ok (p.getD i 0).toNat := by
  rw [List.getD_eq_getElem?_getD]
  unfold rdByte
  rw [List.getElem?_eq_getElem h]; rfl

theorem tok_step (hk : IsUtf8 k) {p rest : Bytes} {i : Nat} {t : Tok} (ht : t.Ok)
    (hd : p.drop i = t.text k ++ rest) :
    ∃ c n, k.step (p.drop i) = some (c, n) ∧
      pathChar p c (i + n) = .ok (t.item, i + (t.text k).length) ∧
      ((k.enc t.item).getD []).length ≤ (t.text k).length := by
  cases t with
  | sep =>
    refine ⟨0x2f, 1, ?_, rfl, ?_⟩
    · rw [hd]; exact dec_ascii hk 0x2f rest (by decide)
    · rw [show Tok.sep.item = 0x5c from rfl, enc_ascii hk (by decide)]; exact Nat.le_refl _
  | char c =>
    obtain ⟨hc, hc0⟩ := ht
    obtain ⟨h1, h2, h3⟩ := enc_get hk hc
    have hdl := congrArg List.length hd
    rw [List.length_append, List.length_drop] at hdl
    change p.drop i = escText k c ++ rest at hd
    change p.length - i = (escText k c).length + rest.length at hdl
    show ∃ c' n, _ ∧ pathChar p c' (i + n) = .ok (c, i + (escText k c).length) ∧
      ((k.enc c).getD []).length ≤ (escText k c).length
    unfold escText at *
    by_cases hx : EscapedX c
    · rw [if_pos hx] at *
      have hlen : ((0x5c : UInt8) :: 0x78 :: hexFixed 2 c).length = 4 := by simp [hexFixed_length]
      rw [hlen] at hdl ⊢
      refine ⟨0x5c, 1, by rw [hd]; exact dec_ascii hk 0x5c _ (by decide), ?_, by omega⟩
      have hd1 := drop_add_of_drop (a := [0x5c]) (b := 0x78 :: (hexFixed 2 c ++ rest)) hd
      change p.drop (i + 1) = _ at hd1
      obtain ⟨hg, hi, hd2⟩ := getD_of_drop hd1
      unfold pathChar
      rw [if_neg (by decide), if_pos rfl]
      unfold unescape
      rw [if_neg (by omega), rdByte_getD hi, hg]
      simp only [Res.ok_bind]
      rw [if_neg (by decide), if_pos (by decide), if_neg (by omega), rdBytes_ok (by omega)]
      simp only [Res.ok_bind]
      rw [hd2,
        List.take_append_of_le_length (Nat.le_of_eq (hexFixed_length ..).symm),
        List.take_of_length_le (Nat.le_of_eq (hexFixed_length ..)),
        hexValue_hexFixed 2 c (by decide) (by unfold EscapedX at hx; omega)]
      simp only []
      rw [if_pos (by unfold EscapedX at hx; omega)]
    · rw [if_neg hx] at *
      by_cases hu : EscapedU c
      · rw [if_pos hu] at *
        have hlen : ((0x5c : UInt8) :: 0x55 :: hexFixed 8 c).length = 10 := by
          simp [hexFixed_length]
        rw [hlen] at hdl ⊢
        refine ⟨0x5c, 1, by rw [hd]; exact dec_ascii hk 0x5c _ (by decide), ?_, by omega⟩
        have hd1 := drop_add_of_drop (a := [0x5c]) (b := 0x55 :: (hexFixed 8 c ++ rest)) hd
        change p.drop (i + 1) = _ at hd1
        obtain ⟨hg, hi, hd2⟩ := getD_of_drop hd1
        unfold pathChar
        rw [if_neg (by decide), if_pos rfl]
        unfold unescape
        rw [if_neg (by omega), rdByte_getD hi, hg]
        simp only [Res.ok_bind]
        rw [if_neg (by decide), if_neg (by decide), if_pos (by decide), if_neg (by omega),
          rdBytes_ok (by omega)]
        simp only [Res.ok_bind]
        rw [hd2,
          List.take_append_of_le_length (Nat.le_of_eq (hexFixed_length ..).symm),
          List.take_of_length_le (Nat.le_of_eq (hexFixed_length ..)),
          hexValue_hexFixed 8 c (by decide) (by unfold Scalar at hc; omega)]
        simp only []
        rw [if_pos hu]
      · rw [if_neg hu] at *
        by_cases hb : c = 0x5c
        · subst hb
          rw [if_pos rfl] at *
          refine ⟨0x5c, 1, by rw [hd]; exact dec_ascii hk 0x5c _ (by decide), ?_, ?_⟩
          · have hd1 := drop_add_of_drop (a := [0x5c]) (b := 0x5c :: rest) hd
            change p.drop (i + 1) = _ at hd1
            obtain ⟨hg, hi, hd2⟩ := getD_of_drop hd1
            unfold pathChar
            rw [if_neg (by decide), if_pos rfl]
            unfold unescape
            rw [if_neg (by omega), rdByte_getD hi, hg]
            simp only [Res.ok_bind]
            rw [if_pos (by decide)]; rfl
          · rw [enc_ascii hk (by decide)]; decide
        · rw [if_neg hb] at *
          refine ⟨c, _, by rw [hd]; exact hk.dec_enc c _ _ hc h1, ?_, Nat.le_refl _⟩
          unfold pathChar
          rw [if_neg (by unfold EscapedX at hx; omega), if_neg hb]

theorem tok_text_pos (hk : IsUtf8 k) {t : Tok} (ht : t.Ok) : 1 ≤ (t.text k).length := by
  cases t with
  | sep => exact Nat.le_refl 1
  | char c => exact (escText_length hk ht.1).1

theorem toLoop_ok (hk : IsUtf8 k) (p : Bytes) : ∀ (ts : List Tok) (fuel i : Nat) (out : Bytes),
    (∀ t ∈ ts, t.Ok) → i ≤ p.length → p.drop i = ts.flatMap (Tok.text k) → out.length ≤ i →
    p.length - i ≤ fuel →
    toLoop k p (p.length + 1) fuel i out = .ok (out ++ utf8 k (ts.map Tok.item))
  | [], fuel, i, out, _, hi, hd, ho, _ => by
    have hlen : p.length ≤ i := List.drop_eq_nil_iff.1 hd
    unfold toLoop
    rw [if_neg (by omega), if_pos (by omega)]
    simp [utf8]
  | t :: ts, fuel, i, out, hts, hi, hd, ho, hf => by
    have ht := hts t (by simp)
    have hpos := tok_text_pos hk ht
    rw [List.flatMap_cons] at hd
    obtain ⟨c, n, hstep, hpc, hle⟩ := tok_step hk ht hd
    obtain ⟨h1, h2, h3⟩ := enc_get hk (Tok.item_scalar ht)
    have hlen := congrArg List.length hd
    rw [List.length_append, List.length_drop] at hlen
    unfold toLoop
    rw [if_pos (by omega)]
    match fuel, hf with
    | 0, hf => omega
    | fuel + 1, hf =>
      simp only [hstep, hpc]
      have hput : putChar k (p.length + 1) out t.item =
          .ok (out ++ (k.enc t.item).getD []) := by
        unfold putChar
        rw [h1]
        simp only [Option.getD_some]
        rw [if_pos (by omega)]
      rw [hput]
      simp only []
      rw [toLoop_ok hk p ts fuel _ _ (fun x hx => hts x (by simp [hx])) (by omega)
        (drop_add_of_drop hd) (by rw [List.length_append]; omega) (by omega)]
      rw [List.map_cons, utf8_cons, List.append_assoc]

theorem toItemPath_ok (hk : IsUtf8 k) {ts : List Tok} (hts : ∀ t ∈ ts, t.Ok)
    (hlen : ((Tok.sep :: ts).flatMap (Tok.text k)).length < ssizeMax) :
    toItemPath k ((Tok.sep :: ts).flatMap (Tok.text k)) =
      .ok (utf8 k (0x5c :: ts.map Tok.item)) := by
  have h0 : ((Tok.sep :: ts).flatMap (Tok.text k)) = 0x2f :: ts.flatMap (Tok.text k) := rfl
  unfold toItemPath
  have h1 : ((Tok.sep :: ts).flatMap (Tok.text k)).length ≠ 0 := by rw [h0]; simp
  rw [if_neg (by unfold ssizeMax at *; omega), if_neg (by rw [h0]; simp), if_neg (by omega),
    toLoop_ok hk _ (Tok.sep :: ts) _ _ _ (by
      intro t ht
      rcases List.mem_cons.1 ht with rfl | ht
      · trivial
      · exact hts t ht) (by omega) (by simp) (by simp) (by omega)]
  rfl

end Olecf
