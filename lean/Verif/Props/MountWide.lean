import Verif.Lemmas.MountWide
import Verif.Lemmas.Text
import Verif.Props.Mount

/-
  C103: the names and paths of a file mounted on Windows.

  `k` is the UTF-16 encoding of libuna; what is assumed of it is `IsUtf16 k`.  Names are UTF-16 strings, that is
  `wide cs` for a string of characters `cs`.
-/

namespace Olecf.Props
open Olecf Olecf.Spec

variable {k : WideCodec}

/-! ### Round trip -/

theorem flatMap_escTextW (cs : List Nat) :
    (cs.map Tok.char).flatMap Tok.textW = cs.flatMap escTextW := by
  induction cs with
  | nil => rfl
  | cons c cs ih => simp only [List.map_cons, List.flatMap_cons, ih]; rfl

theorem flatMap_escTextW_length : ∀ cs : List Nat, (cs.flatMap escTextW).length ≤ 10 * (wide cs).length
  | [] => by simp
  | c :: cs => by
    have h1 := (escTextW_length c).2
    have h2 := (encode16_length c).1
    have h3 := flatMap_escTextW_length cs
    rw [List.flatMap_cons, wide_cons, List.length_append, List.length_append]; omega

theorem flatMap_fileNameW {cs : List Nat} (h : ∀ c ∈ cs, Scalar c) : cs.flatMap escTextW = fileNameW cs := by
  unfold fileNameW
  induction cs with
  | nil => rfl
  | cons c cs ih =>
    rw [List.flatMap_cons, List.flatMap_cons, escTextW_mounted (h c (by simp)),
      ih fun x hx => h x (by simp [hx])]

theorem toItemPathW_name (hk : IsUtf16 k) {cs : List Nat} (hcs : NameChars cs)
    (hlen : (cs.flatMap escTextW).length < 2 ^ 62 - 2) :
    toItemPathW k (0x5c :: cs.flatMap escTextW) = .ok (0x5c :: wide cs) := by
  have h := toItemPathW_ok (k := k) (ts := cs.map Tok.char) hk (by
    intro t ht
    obtain ⟨c, hc, rfl⟩ := List.mem_map.1 ht
    exact hcs.2 c hc) (by
    rw [List.flatMap_cons, flatMap_escTextW]
    show (0x5c :: cs.flatMap escTextW).length < 2 ^ 62 - 1
    rw [List.length_cons]; omega)
  rw [List.flatMap_cons, flatMap_escTextW, wide_cons, List.map_map] at h
  have hm : cs.map (Tok.item ∘ Tok.char) = cs := by
    rw [show (Tok.item ∘ Tok.char) = id from rfl, List.map_id]
  rw [hm] at h
  exact h

/-- Every name of encodable characters other than the end of string character has a file name, in which the
  characters that Windows does not allow are replaced; the path made of it converts back to the path made of
  the name.

  Missing for the full property: names that have an end of string character inside (`C103_nul_violated`),
  and the empty name, which cannot be mounted (`C103_empty_name`). -/
theorem C103_file_name_partial (hk : IsUtf16 k) (cs : List Nat) (hcs : NameChars cs)
    (hlen : (wide cs).length < 2 ^ 58) :
    fromItemPathW k (wide cs) = .ok (fileNameW cs) ∧
      toItemPathW k (0x5c :: fileNameW cs) = .ok (0x5c :: wide cs) := by
  have hl := flatMap_escTextW_length cs
  rw [← flatMap_fileNameW fun c hc => (hcs.2 c hc).1]
  exact ⟨fromItemPathW_ok hk hcs (by unfold ssizeMax; omega), toItemPathW_name hk hcs (by omega)⟩

theorem fromItemPathW_eq (hk : IsUtf16 k) {cs : List Nat} (hcs : NameChars cs) {m : Wide}
    (hm : fromItemPathW k (wide cs) = .ok m) :
    (wide cs).length ≤ (ssizeMax - 1) / 20 ∧ m = cs.flatMap escTextW := by
  have hlen : (wide cs).length ≤ (ssizeMax - 1) / 20 := by
    unfold fromItemPathW at hm
    split at hm
    · cases hm
    · split at hm
      · cases hm
      · omega
  rw [fromItemPathW_ok hk hcs hlen] at hm
  cases hm
  exact ⟨hlen, rfl⟩

theorem wide_inj (hk : IsUtf16 k) {a b : List Nat} (ha : ∀ c ∈ a, Scalar c) (hb : ∀ c ∈ b, Scalar c)
    (h : wide a = wide b) : a = b := by
  induction a generalizing b with
  | nil =>
    cases b with
    | nil => rfl
    | cons c b =>
      have := (encode16_length c).1
      have h := congrArg List.length h
      rw [wide_cons, List.length_append] at h
      simp [wide] at h
      omega
  | cons x a ih =>
    cases b with
    | nil =>
      have := (encode16_length x).1
      have h := congrArg List.length h
      rw [wide_cons, List.length_append] at h
      have : (wide []).length = 0 := rfl
      omega
    | cons y b =>
      rw [wide_cons, wide_cons] at h
      have e1 := hk.step x (wide a) (ha x (by simp))
      have e2 := hk.step y (wide b) (hb y (by simp))
      rw [h, e2] at e1
      cases (Prod.mk.inj (Option.some.inj e1)).1
      rw [ih (fun c hc => ha c (by simp [hc])) (fun c hc => hb c (by simp [hc]))
        (List.append_cancel_left h)]

theorem fileNameW_inj (hk : IsUtf16 k) (cs ds : List Nat) (hcs : NameChars cs) (hds : NameChars ds)
    (hlen : (wide cs).length < 2 ^ 58) (h : fileNameW cs = fileNameW ds) : cs = ds := by
  have hl := flatMap_escTextW_length cs
  rw [← flatMap_fileNameW fun c hc => (hcs.2 c hc).1,
    ← flatMap_fileNameW fun c hc => (hds.2 c hc).1] at h
  have h1 := toItemPathW_name hk hcs (by omega)
  have h2 := toItemPathW_name hk hds (by rw [← h]; omega)
  rw [← h, h1] at h2
  exact wide_inj hk (fun c hc => (hcs.2 c hc).1) (fun c hc => (hds.2 c hc).1)
    (List.cons.inj (Res.ok.inj h2)).2

/-- Different names (of encodable characters other than the end of string character) are mounted as different file
  names. -/
theorem C103_distinct (hk : IsUtf16 k) (cs ds : List Nat) (hcs : NameChars cs) (hds : NameChars ds) (m : Wide)
    (h1 : fromItemPathW k (wide cs) = .ok m) (h2 : fromItemPathW k (wide ds) = .ok m) : cs = ds := by
  obtain ⟨l1, rfl⟩ := fromItemPathW_eq hk hcs h1
  obtain ⟨l2, e⟩ := fromItemPathW_eq hk hds h2
  have k1 := flatMap_escTextW_length cs
  have k2 := flatMap_escTextW_length ds
  unfold ssizeMax at l1 l2
  have g1 := toItemPathW_name hk hcs (by omega)
  have g2 := toItemPathW_name hk hds (by omega)
  rw [e, g2] at g1
  exact wide_inj hk (fun c hc => (hcs.2 c hc).1) (fun c hc => (hds.2 c hc).1)
    (List.cons.inj (Res.ok.inj g1)).2.symm

/-! ### Valid names -/

/-- The characters of the text of a character. -/
def escChars (c : Nat) : List Nat :=
  if EscapedXW c then 0x5e :: 0x78 :: (hexFixedW 2 c).map UInt16.toNat
  else if EscapedU c then 0x5e :: 0x55 :: (hexFixedW 8 c).map UInt16.toNat
  else if c = 0x5e then [0x5e, 0x5e]
  else [c]

theorem wide_ascii : ∀ {u : Wide}, (∀ b ∈ u, b.toNat < 0x80) → u = wide (u.map UInt16.toNat)
  | [], _ => rfl
  | b :: u, h => by
    rw [List.map_cons, wide_cons, encode16_ascii (h b (by simp)),
      ← wide_ascii fun x hx => h x (by simp [hx])]
    simp

theorem escTextW_wide (c : Nat) : escTextW c = wide (escChars c) := by
  have hex : ∀ w, hexFixedW w c = wide ((hexFixedW w c).map UInt16.toNat) := fun w =>
    wide_ascii fun b hb => by have := hexFixedW_range w c b hb; omega
  unfold escTextW escChars
  split
  · rw [wide_cons, wide_cons, ← hex]; rfl
  · split
    · rw [wide_cons, wide_cons, ← hex]; rfl
    · split
      · decide
      · simp [wide]

theorem flatMap_escChars (cs : List Nat) : cs.flatMap escTextW = wide (cs.flatMap escChars) := by
  induction cs with
  | nil => rfl
  | cons c cs ih => rw [List.flatMap_cons, List.flatMap_cons, wide_append, ← ih, escTextW_wide]

/-- The characters of an escaped character: the escape character, letters and digits. -/
theorem escChars_cases (c : Nat) :
    (escChars c = [c] ∧ ¬ EscapedXW c ∧ ¬ EscapedU c ∧ c ≠ 0x5e) ∨
    (0x5e ∈ escChars c ∧ c ≠ 0x2e ∧ ∀ d ∈ escChars c, d = 0x5e ∨ (0x30 ≤ d ∧ d ≤ 0x39) ∨
      d = 0x55 ∨ d = 0x78 ∨ (0x61 ≤ d ∧ d ≤ 0x66)) := by
  have hex : ∀ w x, x ∈ (hexFixedW w c).map UInt16.toNat →
      (0x30 ≤ x ∧ x ≤ 0x39) ∨ (0x61 ≤ x ∧ x ≤ 0x66) := by
    intro w x hx
    obtain ⟨b, hb, rfl⟩ := List.mem_map.1 hx
    exact hexFixedW_range w c b hb
  unfold escChars
  split
  · rename_i h
    refine .inr ⟨List.mem_cons_self, by unfold EscapedXW WindowsOnly at h; omega, ?_⟩
    intro d hd
    rcases List.mem_cons.1 hd with rfl | hd
    · exact .inl rfl
    · rcases List.mem_cons.1 hd with rfl | hd
      · omega
      · have := hex 2 d hd; omega
  · rename_i hx
    split
    · rename_i h
      refine .inr ⟨List.mem_cons_self, by unfold EscapedU at h; omega, ?_⟩
      intro d hd
      rcases List.mem_cons.1 hd with rfl | hd
      · exact .inl rfl
      · rcases List.mem_cons.1 hd with rfl | hd
        · omega
        · have := hex 8 d hd; omega
    · rename_i hu
      split
      · rename_i h
        refine .inr ⟨List.mem_cons_self, by omega, ?_⟩
        intro d hd
        simp only [List.mem_cons, List.not_mem_nil, or_false, or_self] at hd
        exact .inl hd
      · rename_i h
        exact .inl ⟨rfl, hx, hu, h⟩

theorem escChars_ne (c : Nat) : escChars c ≠ [] := by
  rcases escChars_cases c with ⟨h, -⟩ | ⟨h, -⟩
  · rw [h]; simp
  · intro h0; rw [h0] at h; cases h

theorem escChars_allowed {c : Nat} (hc : Scalar c) (h0 : c ≠ 0) :
    ∀ d ∈ escChars c, Scalar d ∧ d ≠ 0 ∧ ¬ Forbidden d := by
  intro d hd
  rcases escChars_cases c with ⟨h, hx, -⟩ | ⟨-, -, h⟩
  · rw [h, List.mem_singleton] at hd
    subst hd
    refine ⟨hc, h0, ?_⟩
    unfold EscapedXW WindowsOnly at hx
    unfold Forbidden Control
    simp only [List.mem_cons, List.not_mem_nil, or_false]
    omega
  · have := h d hd
    unfold Scalar Forbidden Control
    simp only [List.mem_cons, List.not_mem_nil, or_false]
    omega

theorem escChars_last {cs : List Nat} {x : Nat} (hx : x = 0x2e ∨ x = 0x20)
    (h : (cs.flatMap escChars).getLast? = some x) : cs.getLast? = some x := by
  rcases List.eq_nil_or_concat cs with rfl | ⟨l, c, rfl⟩
  · cases h
  · rw [List.concat_eq_append] at h ⊢
    rw [List.flatMap_append, List.getLast?_append] at h
    simp only [List.flatMap_cons, List.flatMap_nil, List.append_nil] at h
    rw [List.getLast?_concat]
    rcases escChars_cases c with ⟨h1, -⟩ | ⟨-, -, h1⟩
    · rw [h1] at h
      exact h
    · cases hl : (escChars c).getLast? with
      | none => exact absurd (List.getLast?_eq_none_iff.1 hl) (escChars_ne c)
      | some y =>
        rw [hl] at h
        cases h
        have := h1 x (List.mem_of_getLast? hl)
        omega

theorem escChars_base : ∀ cs : List Nat,
    (cs.flatMap escChars).takeWhile (· ≠ 0x2e) = (cs.takeWhile (· ≠ 0x2e)).flatMap escChars
  | [] => rfl
  | c :: cs => by
    by_cases hc : c = 0x2e
    · subst hc; rfl
    · have hno : ∀ d ∈ escChars c, decide (d ≠ 0x2e) = true := by
        intro d hd
        rcases escChars_cases c with ⟨h1, -⟩ | ⟨-, -, h1⟩
        · rw [h1, List.mem_singleton] at hd
          simpa [hd] using hc
        · have := h1 d hd
          simp only [decide_eq_true_eq]; omega
      rw [List.flatMap_cons, List.takeWhile_append_of_pos hno,
        List.takeWhile_cons_of_pos (by simpa using hc), List.flatMap_cons, escChars_base cs]

theorem device_chars : ∀ n ∈ devices, ∀ c ∈ n, (0x31 ≤ c ∧ c ≤ 0x39) ∨ (0x41 ≤ c ∧ c ≤ 0x5a) := by
  decide +kernel

theorem escChars_device {cs : List Nat} (h : Device (cs.flatMap escChars)) : Device cs := by
  unfold Device at *
  rw [escChars_base] at h
  generalize cs.takeWhile (· ≠ 0x2e) = xs at *
  have key : ∀ c ∈ xs, escChars c = [c] := by
    intro c hc
    rcases escChars_cases c with ⟨h1, -⟩ | ⟨h1, -⟩
    · exact h1
    · have hm : upper 0x5e ∈ (xs.flatMap escChars).map upper :=
        List.mem_map_of_mem (List.mem_flatMap.2 ⟨c, hc, h1⟩)
      have := device_chars _ h _ hm
      rw [show upper 0x5e = 0x5e from rfl] at this
      omega
  have : xs.flatMap escChars = xs := by
    clear h
    induction xs with
    | nil => rfl
    | cons x xs ih =>
      rw [List.flatMap_cons, key x (by simp), ih fun c hc => key c (by simp [hc])]
      rfl
  rwa [this] at h

/-- The file name of a name of encodable characters other than the end of string character, that does not end
  with a dot or a space and is not that of a device, is one that a file of Windows can have.

  Missing for the full property: names that are not `Ordinary` (`C103_ordinary_violated`). -/
theorem C103_valid_partial (cs : List Nat) (hcs : NameChars cs) (ho : Ordinary cs) :
    ∃ ds, WindowsName (fileNameW cs) ds := by
  refine ⟨cs.flatMap escChars, ?_, ⟨?_, ?_⟩, ?_, ?_, ?_, ?_⟩
  · rw [← flatMap_fileNameW fun c hc => (hcs.2 c hc).1, flatMap_escChars]
  · intro h
    obtain ⟨c, l, rfl⟩ := List.exists_cons_of_ne_nil hcs.1
    rw [List.flatMap_cons] at h
    exact escChars_ne c (List.append_eq_nil_iff.1 h).1
  · intro d hd
    obtain ⟨c, hc, hd⟩ := List.mem_flatMap.1 hd
    have := escChars_allowed (hcs.2 c hc).1 (hcs.2 c hc).2 d hd
    exact ⟨this.1, this.2.1⟩
  · intro d hd
    obtain ⟨c, hc, hd⟩ := List.mem_flatMap.1 hd
    exact (escChars_allowed (hcs.2 c hc).1 (hcs.2 c hc).2 d hd).2.2
  · exact fun h => ho.1 (escChars_last (.inl rfl) h)
  · exact fun h => ho.2.1 (escChars_last (.inr rfl) h)
  · exact fun h => ho.2.2 (escChars_device h)

/-- Whatever the name, its file name has neither a separator nor an end of string character. -/
theorem fileNameW_units {cs : List Nat} (hcs : ∀ c ∈ cs, Scalar c ∧ c ≠ 0) :
    ∀ u ∈ cs.flatMap escTextW, u ≠ 0 ∧ u ≠ 0x5c := by
  rw [flatMap_escChars]
  have hall : ∀ d ∈ cs.flatMap escChars, Scalar d ∧ d ≠ 0 ∧ ¬ Forbidden d := by
    intro d hd
    obtain ⟨c, hc, hd⟩ := List.mem_flatMap.1 hd
    exact escChars_allowed (hcs c hc).1 (hcs c hc).2 d hd
  intro u hu
  constructor
  · intro h
    exact wide_units (x := 0) (by decide) (fun d hd => ⟨(hall d hd).1, (hall d hd).2.1⟩) u hu (by rw [h]; rfl)
  · intro h
    refine wide_units (x := 0x5c) (by decide) (fun d hd => ⟨(hall d hd).1, ?_⟩) u hu (by rw [h]; rfl)
    intro hd'
    exact (hall d hd).2.2 (by rw [hd']; decide)

theorem escTextW_ne {cs : List Nat} (h : cs ≠ []) : 0 < (cs.flatMap escTextW).length := by
  obtain ⟨c, l, rfl⟩ := List.exists_cons_of_ne_nil h
  have := (escTextW_length c).1
  rw [List.flatMap_cons, List.length_append]; omega

/-! ### libuna of the examples -/

/-- UTF-16. -/
def libWide : WideCodec := ⟨plainUna.dec16, fun c => if Scalar c then some (encode16 c) else none⟩

theorem wideCodec_isUtf16 {u : Libuna} (hu : IsLibuna u) {enc : Nat → Option Wide}
    (henc : ∀ c, Scalar c → enc c = some (encode16 c)) : IsUtf16 ⟨u.dec16, enc⟩ where
  sep := by
    have h1 := hu.dec16.sep
    have h2 : encode16 0x5c = [0x5c] := by decide
    rw [h2] at h1
    exact (List.cons.inj h1).1.symm
  enc := henc
  step c rest hc := hu.dec16.step c rest hc

theorem libWide_isUtf16 : IsUtf16 libWide :=
  wideCodec_isUtf16 plainUna_isLibuna fun _ hc => if_pos hc

/-- Non-vacuity: the name of the summary information stream, U+5 and `SummaryInformation`, is mounted as
  `^x05SummaryInformation`. -/
example : fromItemPathW libWide (wide (0x05 :: [0x53, 0x75, 0x6d])) =
    .ok [0x5e, 0x78, 0x30, 0x35, 0x53, 0x75, 0x6d] ∧ Ordinary (0x05 :: [0x53, 0x75, 0x6d]) := by
  decide +kernel

/-- Non-vacuity: the name `a\b/^` followed by U+1, U+20AC, U+2028 and U+1F600. -/
example : NameChars [0x61, 0x5c, 0x62, 0x2f, 0x5e, 0x1, 0x20ac, 0x2028, 0x1f600] ∧
    Ordinary [0x61, 0x5c, 0x62, 0x2f, 0x5e, 0x1, 0x20ac, 0x2028, 0x1f600] := by decide +kernel

/-- A name with an end of string character inside loses what comes after it. -/
theorem C103_nul_violated :
    ∃ m, fromItemPathW libWide [0x61, 0x00, 0x62] = .ok m ∧
      toItemPathW libWide (0x5c :: m) = .ok [0x5c, 0x61] :=
  ⟨[0x61], by decide +kernel, by decide +kernel⟩

/-- The empty name has no file name. -/
theorem C103_empty_name (k : WideCodec) : fromItemPathW k [] = .err := rfl

/-- Names that end with dots or spaces and the names of devices are mounted as they are: `..`, `a.`, `a ` and
  `con.txt`. -/
theorem C103_ordinary_violated :
    fromItemPathW libWide [0x2e, 0x2e] = .ok [0x2e, 0x2e] ∧
    fromItemPathW libWide [0x61, 0x2e] = .ok [0x61, 0x2e] ∧
    fromItemPathW libWide [0x61, 0x20] = .ok [0x61, 0x20] ∧
    fromItemPathW libWide [0x63, 0x6f, 0x6e, 0x2e, 0x74, 0x78, 0x74] =
      .ok [0x63, 0x6f, 0x6e, 0x2e, 0x74, 0x78, 0x74] ∧
    Device [0x63, 0x6f, 0x6e, 0x2e, 0x74, 0x78, 0x74] := by decide +kernel

/-! ### Opening by path -/

/-- The characters with their encodings. -/
def withUnitsW (cs : List Nat) : List (Nat × Wide) := cs.map fun c => (c, encode16 c)

theorem wide_decodes (hk : IsUtf16 k) : ∀ {cs : List Nat}, (∀ c ∈ cs, Scalar c) →
    Decodes k.toDecoder (wide cs) (withUnitsW cs)
  | [], _ => .nil
  | c :: cs, h => by
    rw [wide_cons]
    refine .cons ?_ (hk.step c _ (h c (by simp))) (wide_decodes hk fun x hx => h x (by simp [hx]))
    intro h0
    have := (encode16_length c).1
    rw [h0] at this
    simp at this

theorem components_nameW : ∀ (cs rest : List Nat) (cur : Wide), (∀ c ∈ cs, ¬ EndsComponent c) →
    Spec.components (withUnitsW (cs ++ rest)) cur = Spec.components (withUnitsW rest) (cur ++ wide cs)
  | [], rest, cur, _ => by simp [wide]
  | c :: cs, rest, cur, h => by
    show Spec.components ((c, encode16 c) :: withUnitsW (cs ++ rest)) cur = _
    rw [Spec.components, if_neg (h c (by simp)), components_nameW cs rest _ fun x hx =>
      h x (by simp [hx]), wide_cons, List.append_assoc]

theorem components_namesW : ∀ (names : List (List Nat)) (n : List Nat),
    (∀ m ∈ n :: names, wide m ≠ [] ∧ ∀ c ∈ m, ¬ EndsComponent c) →
    Spec.components (withUnitsW (n ++ pathChars names)) = (n :: names).map wide
  | [], n, h => by
    have hn := h n (by simp)
    show Spec.components (withUnitsW (n ++ [])) = _
    rw [components_nameW n [] [] hn.2]
    show (if ([] ++ wide n).length = 0 then [] else _) = _
    rw [if_neg (by simpa using hn.1)]; rfl
  | m :: names, n, h => by
    have hn := h n (by simp)
    have ih := components_namesW names m fun x hx => h x (List.mem_cons_of_mem _ hx)
    rw [components_nameW n _ [] hn.2]
    show Spec.components ((0x5c, _) :: withUnitsW (m ++ pathChars names)) _ = _
    rw [Spec.components, if_pos (.inl rfl), ih]; rfl

theorem wString_self : ∀ {s : Wide}, (∀ b ∈ s, b ≠ 0) → wString s = s
  | [], _ => rfl
  | b :: s, h => by
    unfold wString
    rw [List.takeWhile_cons_of_pos (by simpa using h b (by simp))]
    congr 1
    exact wString_self fun x hx => h x (by simp [hx])

theorem wide_ne {cs : List Nat} (h : cs ≠ []) : wide cs ≠ [] := by
  intro h0
  have := wide_length cs
  rw [h0] at this
  exact h (List.length_eq_zero_iff.1 (Nat.le_zero.1 this))

theorem subEntryW_ok (hk : IsUtf16 k) {name16 : DirEntry → Option Wide} {t : Tree}
    {e s : WideEntry} {i : Int} {cs : List Nat} (hcs : NameChars cs)
    (h : mountSubEntryW k name16 t e i = .ok s)
    (hn : name16 s.item.entry = some (wide cs)) :
    getSubItem t e.item i = .ok s.item ∧ s.name = cs.flatMap escTextW ∧
      s.nameSize = (wide cs).length * 10 + 1 := by
  unfold mountSubEntryW at h
  split at h
  · rename_i item hitem
    split at h
    · rename_i name size hname
      cases h
      unfold mountFilenameW at hname
      rw [hn] at hname
      simp only [] at hname
      split at hname
      · rename_i m hm
        cases hname
        obtain ⟨_, rfl⟩ := fromItemPathW_eq hk hcs hm
        refine ⟨hitem, ?_, rfl⟩
        show wString _ = _
        exact wString_self fun b hb => (fileNameW_units hcs.2 b hb).1
      all_goals cases hname
    all_goals cases h
  all_goals cases h

theorem listedW_spec (hk : IsUtf16 k) {name16 : DirEntry → Option Wide}
    {cmp : Wide → Bytes → Option Bool} {t : Tree} {p : Wide} {names : List (List Nat)}
    {e : WideEntry} (h : ListedAtW k name16 cmp t p names e)
    (hn : ∀ n ∈ names, NameChars n) :
    p = (pathToks names).flatMap Tok.textW ∧
    (∀ rest, Spec.walk (getSubItemByName cmp t) ⟨none, t.root⟩ (names.map wide ++ rest) =
      Spec.walk (getSubItemByName cmp t) e.item rest) := by
  induction h with
  | root => exact ⟨rfl, fun _ => rfl⟩
  | @sub p names e s i cs _ hs hname heq hothers ih =>
    obtain ⟨ih1, ih2⟩ := ih fun n hn' => hn n (by simp [hn'])
    have hcs := hn cs (by simp)
    obtain ⟨hsub, hsn, -⟩ := subEntryW_ok hk hcs hs hname
    constructor
    · rw [pathToks_append, List.flatMap_append, ← ih1, hsn]
      congr 1
      show _ = ((Tok.sep :: cs.map Tok.char) ++ []).flatMap Tok.textW
      rw [List.append_nil, List.flatMap_cons, flatMap_escTextW]; rfl
    · intro rest
      rw [List.map_append, List.append_assoc, ih2]
      show Spec.walk _ _ (wide cs :: rest) = _
      have hlook : getSubItemByName cmp t e.item (wide cs) = .ok (some s.item) := by
        refine ((C21_name_lookup cmp t e.item (wide cs)).1 s.item).2 ⟨i, hsub, heq, ?_⟩
        intro j hj d hd
        exact hothers j d (by omega) hd
      have hl := wide_length cs
      have := List.length_pos_iff.2 hcs.1
      rw [Spec.walk, if_neg (by omega), hlook]

theorem lastSeparatorW_eq {p0 m : Wide} (hm : ∀ b ∈ m, b ≠ 0x5c) : ∀ j, j ≤ m.length + 1 →
    lastSeparatorW (p0 ++ 0x5c :: m) (p0.length + j) = p0.length
  | 0, _ => by
    cases hl : p0.length with
    | zero => rfl
    | succ n =>
      show lastSeparatorW _ (n + 1) = _
      rw [lastSeparatorW, if_pos]
      rw [← hl, List.getD_eq_getElem?_getD, List.getElem?_append_right (Nat.le_refl _)]
      simp
  | j + 1, h => by
    show lastSeparatorW _ (p0.length + j + 1) = _
    rw [lastSeparatorW, if_neg, lastSeparatorW_eq hm j (by omega)]
    rw [List.getD_eq_getElem?_getD, List.getElem?_append_right (by omega)]
    have : p0.length + j + 1 - p0.length = j + 1 := by omega
    rw [this, List.getElem?_cons_succ]
    cases hg : m[j]? with
    | none => simp
    | some b =>
      have := hm b (List.mem_of_getElem? hg)
      simpa using this

/-- The path made of the names that the listings from the root on give opens the entry: by name and by item,
  provided that no name contains a separator of item paths (`\`).

  Missing for the full property: names that contain `\` (`C103_backslash_violated`). -/
theorem C103_open_by_path_partial (hk : IsUtf16 k) (name16 : DirEntry → Option Wide)
    (cmp : Wide → Bytes → Option Bool) (t : Tree) (p : Wide) (names : List (List Nat))
    (e : WideEntry) (h : ListedAtW k name16 cmp t p names e) (hne : names ≠ [])
    (hn : ∀ n ∈ names, NameChars n ∧ 0x5c ∉ n) (hlen : p.length < 2 ^ 61) :
    mountEntryByPathW k cmp (some t) p = .ok (some ⟨e.name, e.name.length + 1, e.item⟩) := by
  obtain ⟨hp, hwalk⟩ := listedW_spec hk h fun n hn' => (hn n hn').1
  -- the item
  have hitem : mountItemByPathW k cmp (some t) p = .ok (some e.item) := by
    obtain ⟨n, ns, rfl⟩ := List.exists_cons_of_ne_nil hne
    have htoks : pathToks (n :: ns) = Tok.sep :: (n.map Tok.char ++ pathToks ns) := rfl
    have hto := toItemPathW_ok (k := k) (ts := n.map Tok.char ++ pathToks ns) hk (by
      intro x hx
      have hmem : x ∈ pathToks (n :: ns) := by rw [htoks]; simp [hx]
      obtain ⟨m, hm, hx⟩ := List.mem_flatMap.1 hmem
      rcases List.mem_cons.1 hx with rfl | hx
      · trivial
      · obtain ⟨c, hc, rfl⟩ := List.mem_map.1 hx
        exact (hn m hm).1.2 c hc) (by
      rw [← htoks, ← hp]; omega)
    rw [← htoks, ← hp] at hto
    have hchars : 0x5c :: (n.map Tok.char ++ pathToks ns).map Tok.item =
        0x5c :: (n ++ pathChars ns) := by
      rw [List.map_append, pathToks_item, List.map_map, show (Tok.item ∘ Tok.char) = id from rfl,
        List.map_id]
    rw [hchars] at hto
    have hall : ∀ c ∈ n ++ pathChars ns, Scalar c ∧ c ≠ 0 := by
      intro c hc
      rcases List.mem_append.1 hc with hc | hc
      · exact (hn n (by simp)).1.2 c hc
      · obtain ⟨m, hm, hc⟩ := List.mem_flatMap.1 hc
        rcases List.mem_cons.1 hc with rfl | hc
        · exact ⟨.inl (by omega), by omega⟩
        · exact (hn m (by simp [hm])).1.2 c hc
    have hc0 : wString (wide (0x5c :: (n ++ pathChars ns))) = wide (0x5c :: (n ++ pathChars ns)) := by
      refine wString_self ?_
      intro b hb
      have := wide_units (x := 0) (by decide) (ds := 0x5c :: (n ++ pathChars ns)) (by
        intro d hd
        rcases List.mem_cons.1 hd with rfl | hd
        · exact ⟨.inl (by omega), by omega⟩
        · exact hall d hd) b hb
      intro h0; exact this (by rw [h0]; rfl)
    unfold mountItemByPathW
    rw [hto]
    simp only []
    rw [hc0]
    have hs : wide (0x5c :: (n ++ pathChars ns)) = k.sep :: wide (n ++ pathChars ns) := by
      rw [wide_cons, encode16_ascii (by decide), hk.sep]; rfl
    have hpos : 0 < (wide (n ++ pathChars ns)).length := by
      have h1 := wide_length (n ++ pathChars ns)
      have h2 := List.length_pos_iff.2 (hn n (by simp)).1.1
      rw [List.length_append] at h1
      omega
    rw [hs]
    show itemByPath _ cmp (some t) (some ⟨none, t.root⟩) _ = _
    rw [C22_path_lookup_partial k.toDecoder cmp t _ _ (withUnitsW (n ++ pathChars ns))
      (.inl (by rw [List.length_cons]; omega)) (by
        show Decodes _ (if k.sep = k.toDecoder.sep then _ else _) _
        rw [if_pos rfl]
        exact wide_decodes hk fun c hc => (hall c hc).1) (by
        intro x hx hends
        obtain ⟨c, hc, rfl⟩ := List.mem_map.1 hx
        have hlt : c < 0x80 := by
          rcases hends with h | h
          · change c = 0x5c at h; omega
          · change c = 0 at h; omega
        show (encode16 c).length = 1
        rw [encode16_ascii hlt]; rfl),
      components_namesW ns n (by
        intro m hm
        have hmn := hn m hm
        refine ⟨wide_ne hmn.1.1, ?_⟩
        intro c hc hends
        rcases hends with h | h
        · subst h; exact hmn.2 hc
        · exact (hmn.1.2 c hc).2 h)]
    have := hwalk []
    rw [List.append_nil] at this
    rw [this]; rfl
  -- the name
  cases h with
  | root => exact absurd rfl hne
  | @sub p0 names0 e0 _ i cs h0 hs hname _ _ =>
    have hcs := (hn cs (by simp)).1
    obtain ⟨_, hsn, -⟩ := subEntryW_ok hk hcs hs hname
    have hmb : ∀ b ∈ e.name, b ≠ 0x5c := by
      rw [hsn]
      exact fun b hb => (fileNameW_units hcs.2 b hb).2
    have hmpos : 0 < e.name.length := by
      rw [hsn]
      exact escTextW_ne hcs.1
    have hplen : (p0 ++ 0x5c :: e.name).length = p0.length + (e.name.length + 1) := by simp
    have hlast : (p0 ++ 0x5c :: e.name).getD ((p0 ++ 0x5c :: e.name).length - 1) 0 ≠ 0x5c := by
      rw [List.getD_eq_getElem?_getD, List.getElem?_append_right (by omega)]
      have : (p0 ++ 0x5c :: e.name).length - 1 - p0.length = (e.name.length - 1) + 1 := by omega
      rw [this, List.getElem?_cons_succ]
      cases hg : e.name[e.name.length - 1]? with
      | none => simp
      | some b => simpa using hmb b (List.mem_of_getElem? hg)
    unfold mountEntryByPathW
    rw [if_neg (by omega)]
    simp only []
    rw [if_neg (by rintro ⟨_, h⟩; exact hlast h), List.take_length, hitem]
    simp only []
    have hls : lastSeparatorW (p0 ++ 0x5c :: e.name) (p0 ++ 0x5c :: e.name).length = p0.length := by
      rw [hplen]; exact lastSeparatorW_eq hmb _ (by omega)
    rw [hls, hplen]
    have hmod : (p0.length + (e.name.length + 1) + 2 ^ 64 - (p0.length + 1)) % 2 ^ 64 =
        e.name.length := by
      rw [hplen] at hlen; omega
    rw [hmod, if_neg (by rw [hplen] at hlen; unfold ssizeMax; omega)]
    have hdrop : (p0 ++ 0x5c :: e.name).drop (p0.length + 1) = e.name := by
      rw [← List.drop_drop, List.drop_append_of_le_length (Nat.le_refl _)]; simp
    rw [hdrop, List.take_length]

/-- The root is opened by the separator alone. -/
theorem C103_root (hk : IsUtf16 k) (cmp : Wide → Bytes → Option Bool) (t : Tree) :
    mountEntryByPathW k cmp (some t) [0x5c] = .ok (some ⟨[], 1, ⟨none, t.root⟩⟩) := by
  have hto := toItemPathW_ok (k := k) (ts := []) hk (by simp) (by simp [Tok.textW])
  change toItemPathW k [0x5c] = .ok [0x5c] at hto
  unfold mountEntryByPathW
  rw [if_neg (by decide)]
  simp only []
  rw [if_neg (by decide)]
  have hitem : mountItemByPathW k cmp (some t) [0x5c] = .ok (some ⟨none, t.root⟩) := by
    unfold mountItemByPathW
    rw [hto]
    rfl
  rw [List.take_length, hitem]
  rfl

/-- A path that ends with a separator never opens an entry, except the root's own path. -/
theorem C103_trailing_separator_violated (k : WideCodec) (cmp : Wide → Bytes → Option Bool)
    (t : Option Tree) (p : Wide) (hp : p ≠ []) (hlen : p.length < 2 ^ 62) (e : WideEntry) :
    mountEntryByPathW k cmp t (p ++ [0x5c]) ≠ .ok (some e) := by
  have hpos := List.length_pos_iff.2 hp
  have hl : (p ++ [0x5c]).length = p.length + 1 := by simp
  unfold mountEntryByPathW
  rw [if_neg (by omega)]
  simp only []
  have hlast : (p ++ [0x5c]).getD p.length 0 = 0x5c := by simp
  rw [hl, if_pos ⟨by omega, by simp⟩]
  have hsep : lastSeparatorW (p ++ [0x5c]) (p.length + 1 - 1) = p.length := by
    obtain ⟨n, hn⟩ : ∃ n, p.length = n + 1 := ⟨p.length - 1, by omega⟩
    rw [show p.length + 1 - 1 = n + 1 by omega, lastSeparatorW, ← hn, if_pos hlast]
  rw [hsep]
  split
  · rw [if_pos (by unfold ssizeMax; omega)]
    simp
  all_goals simp

/-- The name of an entry of `mountDir` as a UTF-16 string. -/
def asciiNameW (e : DirEntry) : Option Wide := (asciiName e).map fun s => s.map fun b => UInt16.ofNat b.toNat

def asciiCmpW (a : Wide) (b : Bytes) : Option Bool := asciiCmp (a.map fun u => UInt8.ofNat u.toNat) b

/-- A name that contains `\`: the directory lists `ab` and `ab\c` (as `ab^x5cc`), no two names are equal, and
  the path of the latter opens the stream `c` of `ab`. -/
theorem C103_backslash_violated :
    ∃ m s c, (createTree mountDir cmpNone).res = .ok (some (mountTree, m)) ∧
      mountSubEntryW libWide asciiNameW mountTree ⟨[], 1, ⟨none, mountTree.root⟩⟩ 1 = .ok s ∧
      s.item.entry.id = 3 ∧
      mountEntryByPathW libWide asciiCmpW (some mountTree) (0x5c :: s.name) = .ok (some c) ∧
      c.item.entry.id = 2 := by
  refine ⟨_,
    ⟨[97, 98, 0x5e, 0x78, 0x35, 0x63, 99], 41,
      .ofEntry (named (entry 3 2 UNUSED UNUSED UNUSED) [97, 98, 92, 99])⟩,
    ⟨[97, 98, 0x5e, 0x78, 0x35, 0x63, 99], 8, .ofEntry (named (entry 2 2 UNUSED UNUSED UNUSED) [99])⟩,
    rfl, ?_, rfl, ?_, rfl⟩
  · decide +kernel
  · decide +kernel

/-- Non-vacuity: the path `\ab` made of a listed name. -/
theorem listedW_ab : ListedAtW libWide asciiNameW asciiCmpW mountTree [0x5c, 97, 98] [[97, 98]]
    ⟨[97, 98], 21, .ofEntry (named (entry 1 1 UNUSED 3 2) [97, 98])⟩ := by
  refine .sub (p := []) (names := []) (i := 0) (cs := [97, 98])
    (s := ⟨[97, 98], 21, .ofEntry (named (entry 1 1 UNUSED 3 2) [97, 98])⟩) .root ?_ ?_ ?_ ?_
  · decide +kernel
  · decide +kernel
  · decide +kernel
  · intro j d hj h
    obtain ⟨c, hc, rfl⟩ := getSubItem_ok.1 h
    match j, hj with
    | 1, _ =>
      have : c = named (entry 3 2 UNUSED UNUSED UNUSED) [97, 98, 92, 99] :=
        (Option.some.inj hc).symm
      subst this
      decide +kernel
    | j + 2, _ => cases hc

example : mountEntryByPathW libWide asciiCmpW (some mountTree) [0x5c, 97, 98] =
    .ok (some ⟨[97, 98], 3, .ofEntry (named (entry 1 1 UNUSED 3 2) [97, 98])⟩) :=
  C103_open_by_path_partial libWide_isUtf16 _ _ _ _ _ _ listedW_ab (by simp)
    (by decide +kernel) (by decide)

/-! ### Any names and paths -/

theorem escapeCharW_defined (henc : ∀ c u, k.enc c = some u → u.length ≤ 10) {size c : Nat}
    {out : Wide} (h : out.length + 10 < size) :
    (escapeCharW k size out c).Defined ∧
      ∀ r, escapeCharW k size out c = .ok r → r.length ≤ out.length + 10 := by
  unfold escapeCharW
  split
  · rw [putTextW_ok (by simp only [List.length_cons, hexFixedW_length]; omega)]
    refine ⟨trivial, ?_⟩
    intro r hr; cases hr
    simp only [List.length_append, List.length_cons, hexFixedW_length]; omega
  · split
    · rw [putTextW_ok (by simp only [List.length_cons, hexFixedW_length]; omega)]
      refine ⟨trivial, ?_⟩
      intro r hr; cases hr
      simp only [List.length_append, List.length_cons, hexFixedW_length]; omega
    · split
      · rw [if_neg (by omega)]
        refine ⟨trivial, ?_⟩
        intro r hr; cases hr
        simp
      · unfold putCharW
        split
        · exact ⟨trivial, by simp⟩
        · rename_i u hu
          have := henc c u hu
          split
          · refine ⟨trivial, ?_⟩
            intro r hr; cases hr
            rw [List.length_append]; omega
          · exact ⟨trivial, by simp⟩

theorem fromLoopW_defined (henc : ∀ c u, k.enc c = some u → u.length ≤ 10)
    (hstep : ∀ s c n, s ≠ [] → k.step s = some (c, n) → 0 < n) (s : Wide) :
    ∀ (fuel i : Nat) (out : Wide), out.length ≤ 10 * i → s.length - i ≤ fuel →
      (fromLoopW k s (s.length * 10 + 1) fuel i out).Defined
  | fuel, i, out, ho, hf => by
    unfold fromLoopW
    split
    · rename_i hi
      match fuel, hf with
      | 0, hf => omega
      | fuel + 1, hf =>
        simp only []
        split
        · trivial
        · rename_i c n hc
          have hn := hstep _ _ _ (by
            intro h0
            have := List.drop_eq_nil_iff.1 h0
            omega) hc
          split
          · split <;> trivial
          · obtain ⟨hd, hl⟩ := escapeCharW_defined henc (size := s.length * 10 + 1) (c := c)
              (out := out) (by omega)
            generalize escapeCharW k (s.length * 10 + 1) out c = r at hd hl
            match r with
            | .ok out' =>
              have := hl out' rfl
              exact fromLoopW_defined henc hstep s fuel (i + n) out' (by omega) (by omega)
            | .err => trivial
            | .ub => exact hd.elim
            | .hang => exact hd.elim
    · split <;> trivial

/-- Making a file name of any code units ends with a name or an error, without writing outside of the buffer, if
  libuna decodes at least one code unit and encodes at most ten for a character. -/
theorem C103_file_name_safe (k : WideCodec) (henc : ∀ c u, k.enc c = some u → u.length ≤ 10)
    (hstep : ∀ s c n, s ≠ [] → k.step s = some (c, n) → 0 < n) (s : Wide) :
    (fromItemPathW k s).Defined := by
  unfold fromItemPathW
  split
  · trivial
  · split
    · trivial
    · exact fromLoopW_defined henc hstep s _ _ _ (by simp) (by omega)

theorem rdUnits_defined {p : Wide} {i n : Nat} (h : i + n ≤ p.length) :
    rdUnits p i n = .ok ((p.drop i).take n) := by
  unfold rdUnits; rw [if_pos h]

theorem unescapeX_defined (p : Wide) (i : Nat) : (unescapeX p i).Defined ∧
    ∀ v j, unescapeX p i = .ok (v, j) → i < j := by
  unfold unescapeX
  split
  · exact ⟨trivial, by simp⟩
  · rw [rdUnits_defined (by omega)]
    dsimp only
    split
    · exact ⟨trivial, by simp⟩
    · split
      · exact ⟨trivial, by intro v j h; cases h; omega⟩
      · exact ⟨trivial, by simp⟩

theorem unescapeU_defined (p : Wide) (i : Nat) : (unescapeU p i).Defined ∧
    ∀ v j, unescapeU p i = .ok (v, j) → i < j := by
  unfold unescapeU
  split
  · exact ⟨trivial, by simp⟩
  · rw [rdUnits_defined (by omega)]
    dsimp only
    split
    · exact ⟨trivial, by simp⟩
    · split
      · exact ⟨trivial, by intro v j h; cases h; omega⟩
      · exact ⟨trivial, by simp⟩

theorem unescapeW_defined (p : Wide) (i : Nat) : (unescapeW p i).Defined ∧
    ∀ v j, unescapeW p i = .ok (v, j) → i < j := by
  unfold unescapeW
  split
  · exact ⟨trivial, by simp⟩
  · rename_i h
    have hr : rdUnit p i = .ok (p[i]'(by omega)) := by
      unfold rdUnit
      rw [List.getElem?_eq_getElem (by omega)]
    rw [hr]
    dsimp only
    split
    · exact ⟨trivial, by intro v j h; cases h; omega⟩
    · split
      · obtain ⟨h1, h2⟩ := unescapeX_defined p (i + 1)
        exact ⟨h1, fun v j h => by have := h2 v j h; omega⟩
      · split
        · obtain ⟨h1, h2⟩ := unescapeU_defined p (i + 1)
          exact ⟨h1, fun v j h => by have := h2 v j h; omega⟩
        · exact ⟨trivial, by simp⟩

theorem pathCharW_defined (p : Wide) (c i : Nat) : (pathCharW p c i).Defined ∧
    ∀ v j, pathCharW p c i = .ok (v, j) → i ≤ j := by
  unfold pathCharW
  split
  · exact ⟨trivial, by intro v j h; cases h; omega⟩
  · split
    · obtain ⟨h1, h2⟩ := unescapeW_defined p i
      exact ⟨h1, fun v j h => Nat.le_of_lt (h2 v j h)⟩
    · exact ⟨trivial, by intro v j h; cases h; omega⟩

theorem toLoopW_defined (hstep : ∀ s c n, s ≠ [] → k.step s = some (c, n) → 0 < n) (p : Wide)
    (size : Nat) : ∀ (fuel i : Nat) (out : Wide), p.length - i ≤ fuel →
      (toLoopW k p size fuel i out).Defined
  | fuel, i, out, hf => by
    unfold toLoopW
    split
    · rename_i hi
      match fuel, hf with
      | 0, hf => omega
      | fuel + 1, hf =>
        simp only []
        split
        · trivial
        · rename_i c n hc
          have hn := hstep _ _ _ (by
            intro h0
            have := List.drop_eq_nil_iff.1 h0
            omega) hc
          obtain ⟨hd, hl⟩ := pathCharW_defined p c (i + n)
          generalize pathCharW p c (i + n) = r at hd hl
          match r with
          | .ok (v, j) =>
            have := hl v j rfl
            simp only []
            have hp : (putCharW k size out v).Defined := by
              unfold putCharW
              split
              · trivial
              · split <;> trivial
            generalize putCharW k size out v = q at hp
            match q with
            | .ok out' => exact toLoopW_defined hstep p size fuel j out' (by omega)
            | .err => trivial
            | .ub => exact hp.elim
            | .hang => exact hp.elim
          | .err => trivial
          | .ub => exact hd.elim
          | .hang => exact hd.elim
    · split <;> trivial

/-- Converting any path to an item path ends with a path or an error, without reading outside of the path or
  writing outside of the buffer. -/
theorem C103_item_path_safe (k : WideCodec)
    (hstep : ∀ s c n, s ≠ [] → k.step s = some (c, n) → 0 < n) (p : Wide) :
    (toItemPathW k p).Defined := by
  unfold toItemPathW
  split
  · trivial
  · split
    · trivial
    · split
      · trivial
      · exact toLoopW_defined hstep p _ _ _ _ (by omega)

/-- Opening any path in a mounted file ends with an entry, with no entry or an error. -/
theorem C103_open_any_path (k : WideCodec) (cmp : Wide → Bytes → Option Bool) (t : Tree)
    (hstep : ∀ s c n, s ≠ [] → k.step s = some (c, n) →
      0 < n ∧ n ≤ s.length ∧ (EndsComponent c → n = 1)) (p : Wide) :
    (mountEntryByPathW k cmp (some t) p).Defined := by
  unfold mountEntryByPathW
  split
  · trivial
  · simp only []
    generalize (if 2 ≤ p.length ∧ p.getD (p.length - 1) 0 = 0x5c then p.length - 1
      else p.length) = len
    have hd : (mountItemByPathW k cmp (some t) (p.take len)).Defined := by
      unfold mountItemByPathW
      have h1 := C103_item_path_safe k (fun s c n hs h => (hstep s c n hs h).1) (p.take len)
      generalize toItemPathW k (p.take len) = r at h1
      match r with
      | .ok ip => exact C22_terminates k.toDecoder cmp t _ _ hstep
      | .err => trivial
      | .ub => exact h1.elim
      | .hang => exact h1.elim
    generalize mountItemByPathW k cmp (some t) (p.take len) = r at hd
    match r with
    | .ok (some item) => simp only []; split <;> trivial
    | .ok none => trivial
    | .err => trivial
    | .ub => exact hd.elim
    | .hang => exact hd.elim

/-- Non-vacuity: the encoding of the examples has the assumed sizes. -/
example : ∀ c u, libWide.enc c = some u → u.length ≤ 10 := by
  intro c u h
  change (if Scalar c then _ else _) = _ at h
  split at h
  · cases h
    have := (encode16_length c).2
    omega
  · cases h

end Olecf.Props
