import Verif.Lemmas.Mount
import Verif.Lemmas.Utf8
import Verif.Props.Item

/-
  C42 to C44, C54 to C57: the mounted file system.

  `k` is the UTF-8 encoding of libuna; what is assumed of it is `IsUtf8 k`, which the UTF-8
  encoding of Lean's library meets (`libUtf8_isUtf8`).  Names are UTF-8 strings, that is
  `utf8 k cs` for a string of characters `cs`.
-/

namespace Olecf.Props
open Olecf Olecf.Spec

variable {k : Codec}

/-! ### C42 -/

theorem flatMap_escText (cs : List Nat) :
    (cs.map Tok.char).flatMap (Tok.text k) = cs.flatMap (escText k) := by
  induction cs with
  | nil => rfl
  | cons c cs ih => simp only [List.map_cons, List.flatMap_cons, ih]; rfl

theorem flatMap_escText_length (hk : IsUtf8 k) : ∀ {cs : List Nat}, (∀ c ∈ cs, Scalar c ∧ c ≠ 0) →
    (cs.flatMap (escText k)).length ≤ 10 * (utf8 k cs).length
  | [], _ => by simp
  | c :: cs, h => by
    have h1 := (escText_length hk (h c (by simp)).1).2
    have h2 := List.length_pos_iff.2 (enc_get hk (h c (by simp)).1).2.1
    have h3 := flatMap_escText_length hk (cs := cs) fun x hx => h x (by simp [hx])
    rw [List.flatMap_cons, utf8_cons, List.length_append, List.length_append]; omega

/-- Every name of encodable characters other than the end of string character has a mounted
  name; the path made of it converts back to the path made of the name.

  Missing for the full property: names that have an end of string character inside
  (`C42_nul_violated`), and the empty name, which cannot be mounted (`C42_empty_name`). -/
theorem C42_mounted_name_round_trip_partial (hk : IsUtf8 k) (cs : List Nat) (hcs : NameChars cs)
    (hlen : (utf8 k cs).length < 2 ^ 59) :
    ∃ m, fromItemPath k (utf8 k cs) = .ok m ∧
      toItemPath k (0x2f :: m) = .ok (0x5c :: utf8 k cs) := by
  refine ⟨_, fromItemPath_ok hk hcs (by unfold ssizeMax; omega), ?_⟩
  have hl := flatMap_escText_length hk hcs.2
  have h := toItemPath_ok (k := k) (ts := cs.map Tok.char) hk (by
    intro t ht
    obtain ⟨c, hc, rfl⟩ := List.mem_map.1 ht
    exact hcs.2 c hc) (by
    rw [List.flatMap_cons, flatMap_escText]
    show (0x2f :: cs.flatMap (escText k)).length < ssizeMax
    rw [List.length_cons]; unfold ssizeMax; omega)
  rw [List.flatMap_cons, flatMap_escText, utf8_cons, List.map_map] at h
  have hm : cs.map (Tok.item ∘ Tok.char) = cs := by
    rw [show (Tok.item ∘ Tok.char) = id from rfl, List.map_id]
  rw [hm, enc_ascii hk (by decide)] at h
  exact h

/-- Non-vacuity: the name `a\b/` followed by U+1, U+20AC, U+2028 and U+1F600. -/
example : NameChars [0x61, 0x5c, 0x62, 0x2f, 0x1, 0x20ac, 0x2028, 0x1f600] := by decide +kernel

example : (utf8 libUtf8 [0x61, 0x5c, 0x62, 0x2f, 0x1, 0x20ac, 0x2028, 0x1f600]).length = 15 := by
  decide +kernel

/-- A name with an end of string character inside loses what comes after it. -/
theorem C42_nul_violated :
    ∃ m, fromItemPath libUtf8 [0x61, 0x00, 0x62] = .ok m ∧
      toItemPath libUtf8 (0x2f :: m) = .ok [0x5c, 0x61] := by
  exact ⟨[0x61], by decide +kernel, by decide +kernel⟩

/-- The empty name has no mounted name. -/
theorem C42_empty_name (k : Codec) : fromItemPath k [] = .err := rfl

/-! ### C43 -/

/-- The characters of the text of a character. -/
theorem escText_chars (hk : IsUtf8 k) {c : Nat} (hc : Scalar c) (hc0 : c ≠ 0) :
    ∃ ds, escText k c = utf8 k ds ∧ ds ≠ [] ∧
      ∀ d ∈ ds, Scalar d ∧ d ≠ 0 ∧ ¬ Control d ∧ d ≠ 0x2f := by
  have asc : ∀ bs : Bytes, (∀ b ∈ bs, b.toNat < 0x80) → bs = utf8 k (bs.map UInt8.toNat) := by
    intro bs
    induction bs with
    | nil => intro _; rfl
    | cons b bs ih =>
      intro h
      rw [List.map_cons, utf8_cons, enc_ascii hk (h b (by simp)),
        ← ih fun x hx => h x (by simp [hx])]
      simp
  have esc : ∀ (x : UInt8) (w : Nat), x = 0x78 ∨ x = 0x55 →
      ∀ b ∈ (0x5c :: x :: hexFixed w c : Bytes), 0x2f < b.toNat ∧ b.toNat < 0x7f := by
    intro x w hx b hb
    rcases List.mem_cons.1 hb with rfl | hb
    · decide
    · rcases List.mem_cons.1 hb with rfl | hb
      · rcases hx with rfl | rfl <;> decide
      · have := hexFixed_range w c b hb
        omega
  have fin : ∀ bs : Bytes, bs ≠ [] → (∀ b ∈ bs, 0x2f < b.toNat ∧ b.toNat < 0x7f) →
      ∃ ds, bs = utf8 k ds ∧ ds ≠ [] ∧ ∀ d ∈ ds, Scalar d ∧ d ≠ 0 ∧ ¬ Control d ∧ d ≠ 0x2f := by
    intro bs hne h
    refine ⟨_, asc bs fun b hb => by have := h b hb; omega, by simpa using hne, ?_⟩
    intro d hd
    obtain ⟨b, hb, rfl⟩ := List.mem_map.1 hd
    have := h b hb
    unfold Scalar Control
    omega
  unfold escText
  split
  · exact fin _ (by simp) (esc 0x78 2 (.inl rfl))
  · rename_i hx
    split
    · exact fin _ (by simp) (esc 0x55 8 (.inr rfl))
    · split
      · refine fin _ (by simp) ?_
        intro b hb
        simp only [List.mem_cons, List.not_mem_nil, or_false, or_self] at hb
        subst hb; decide
      · refine ⟨[c], by simp [utf8], by simp, ?_⟩
        intro d hd
        rw [List.mem_singleton.1 hd]
        unfold EscapedX at hx
        unfold Control
        exact ⟨hc, hc0, by omega, by omega⟩

theorem flatMap_escText_chars (hk : IsUtf8 k) : ∀ {cs : List Nat}, (∀ c ∈ cs, Scalar c ∧ c ≠ 0) →
    ∃ ds, cs.flatMap (escText k) = utf8 k ds ∧ (cs ≠ [] → ds ≠ []) ∧
      ∀ d ∈ ds, Scalar d ∧ d ≠ 0 ∧ ¬ Control d ∧ d ≠ 0x2f
  | [], _ => ⟨[], rfl, fun h => h, by simp⟩
  | c :: cs, h => by
    obtain ⟨d1, h1, hne, h2⟩ := escText_chars hk (h c (by simp)).1 (h c (by simp)).2
    obtain ⟨d2, h3, _, h4⟩ := flatMap_escText_chars hk (cs := cs) fun x hx => h x (by simp [hx])
    refine ⟨d1 ++ d2, by rw [List.flatMap_cons, h1, h3, utf8_append], ?_, ?_⟩
    · intro _; simp [hne]
    · intro d hd
      rcases List.mem_append.1 hd with hd | hd
      · exact h2 d hd
      · exact h4 d hd

theorem utf8_bytes (hk : IsUtf8 k) {ds : List Nat} {x : Nat} (hx : x < 0x80)
    (h : ∀ d ∈ ds, Scalar d ∧ d ≠ x) : ∀ b ∈ utf8 k ds, b.toNat ≠ x := by
  intro b hb
  obtain ⟨d, hd, hb⟩ := List.mem_flatMap.1 hb
  by_cases hs : d < 0x80
  · rw [enc_ascii hk hs, List.mem_singleton] at hb
    rw [hb, UInt8.toNat_ofNat']
    have := (h d hd).2
    omega
  · have := hk.enc_high d _ (h d hd).1 (by omega) (enc_get hk (h d hd).1).1 b hb
    omega

theorem fromItemPath_eq (hk : IsUtf8 k) {cs : List Nat} (hcs : NameChars cs) {m : Bytes}
    (hm : fromItemPath k (utf8 k cs) = .ok m) :
    (utf8 k cs).length ≤ (ssizeMax - 1) / 10 ∧ m = cs.flatMap (escText k) := by
  have hlen : (utf8 k cs).length ≤ (ssizeMax - 1) / 10 := by
    unfold fromItemPath at hm
    split at hm
    · cases hm
    · split at hm
      · cases hm
      · omega
  rw [fromItemPath_ok hk hcs hlen] at hm
  cases hm
  exact ⟨hlen, rfl⟩

/-- The mounted name of a name of encodable characters other than the end of string character is
  not empty and consists of encodable characters, none of them a control character, the end of
  string character or the path separator; so neither of its bytes is NUL or the separator. -/
theorem C43_mounted_name_valid_partial (hk : IsUtf8 k) (cs : List Nat) (hcs : NameChars cs)
    (m : Bytes) (hm : fromItemPath k (utf8 k cs) = .ok m) :
    (∃ ds, m = utf8 k ds ∧ NameChars ds ∧ ∀ d ∈ ds, ¬ Control d ∧ d ≠ 0x2f) ∧
      m ≠ [] ∧ ∀ b ∈ m, b ≠ 0 ∧ b ≠ 0x2f := by
  obtain ⟨_, rfl⟩ := fromItemPath_eq hk hcs hm
  obtain ⟨ds, h1, h2, h3⟩ := flatMap_escText_chars hk hcs.2
  have hne := h2 hcs.1
  refine ⟨⟨ds, h1, ⟨hne, fun d hd => ⟨(h3 d hd).1, (h3 d hd).2.1⟩⟩,
    fun d hd => (h3 d hd).2.2⟩, ?_, ?_⟩
  · intro h
    have hl := utf8_length hk (cs := ds) fun d hd => ⟨(h3 d hd).1, (h3 d hd).2.1⟩
    have := List.length_pos_iff.2 hne
    rw [← h1, h] at hl
    simp at hl
    exact hne hl
  · intro b hb
    rw [h1] at hb
    constructor
    · intro h
      exact utf8_bytes hk (x := 0) (by decide) (fun d hd => ⟨(h3 d hd).1, (h3 d hd).2.1⟩) b hb
        (by rw [h]; rfl)
    · intro h
      exact utf8_bytes hk (x := 0x2f) (by decide) (fun d hd => ⟨(h3 d hd).1, (h3 d hd).2.2.2⟩) b hb
        (by rw [h]; rfl)

/-- Different names (of encodable characters other than the end of string character) have
  different mounted names. -/
theorem C43_mounted_names_distinct_partial (hk : IsUtf8 k) (cs ds : List Nat) (hcs : NameChars cs)
    (hds : NameChars ds) (hlen : (utf8 k cs).length < 2 ^ 59) (m : Bytes)
    (h1 : fromItemPath k (utf8 k cs) = .ok m) (h2 : fromItemPath k (utf8 k ds) = .ok m) :
    utf8 k cs = utf8 k ds := by
  obtain ⟨m1, e1, r1⟩ := C42_mounted_name_round_trip_partial hk cs hcs hlen
  rw [e1] at h1
  cases h1
  obtain ⟨_, hm1⟩ := fromItemPath_eq hk hcs e1
  obtain ⟨hl2, hm2⟩ := fromItemPath_eq hk hds h2
  have hml := flatMap_escText_length hk hcs.2
  have h := toItemPath_ok (k := k) (ts := ds.map Tok.char) hk (by
    intro t ht
    obtain ⟨c, hc, rfl⟩ := List.mem_map.1 ht
    exact hds.2 c hc) (by
    rw [List.flatMap_cons, flatMap_escText, ← hm2, hm1]
    show (0x2f :: cs.flatMap (escText k)).length < ssizeMax
    rw [List.length_cons]; unfold ssizeMax; omega)
  rw [List.flatMap_cons, flatMap_escText, ← hm2, utf8_cons, List.map_map] at h
  have hm : ds.map (Tok.item ∘ Tok.char) = ds := by
    rw [show (Tok.item ∘ Tok.char) = id from rfl, List.map_id]
  rw [hm, enc_ascii hk (by decide)] at h
  rw [show (Tok.sep.text k ++ m) = 0x2f :: m from rfl, r1] at h
  have := Res.ok.inj h
  exact (List.cons.inj this).2

/-- Two names that differ only after an end of string character have the same mounted name. -/
theorem C43_nul_violated :
    fromItemPath libUtf8 [0x61, 0x00, 0x62] = fromItemPath libUtf8 [0x61, 0x00, 0x63] ∧
      fromItemPath libUtf8 [0x61, 0x00, 0x62] = .ok [0x61] := by decide +kernel

/-- The names `.` and `..` are mounted as they are: not as the names of files. -/
theorem C43_dot_dot_violated :
    fromItemPath libUtf8 [0x2e] = .ok [0x2e] ∧
      fromItemPath libUtf8 [0x2e, 0x2e] = .ok [0x2e, 0x2e] := by decide +kernel

example : fromItemPath libUtf8 [0x61, 0x5c, 0x62, 0x2f, 0x01] =
    .ok [0x61, 0x5c, 0x5c, 0x62, 0x5c, 0x78, 0x32, 0x66, 0x5c, 0x78, 0x30, 0x31] := by
  decide +kernel

/-! ### C44 -/

/-- The characters with their encodings. -/
def withUnits (k : Codec) (cs : List Nat) : List (Nat × Bytes) :=
  cs.map fun c => (c, (k.enc c).getD [])

theorem utf8_decodes (hk : IsUtf8 k) : ∀ {cs : List Nat}, (∀ c ∈ cs, Scalar c) →
    Decodes k.toDecoder (utf8 k cs) (withUnits k cs)
  | [], _ => .nil
  | c :: cs, h => by
    obtain ⟨h1, h2, _⟩ := enc_get hk (h c (by simp))
    rw [utf8_cons]
    exact .cons h2 (hk.dec_enc c _ _ (h c (by simp)) h1)
      (utf8_decodes hk fun x hx => h x (by simp [hx]))

theorem components_name (k : Codec) : ∀ (cs rest : List Nat) (cur : Bytes),
    (∀ c ∈ cs, ¬ EndsComponent c) →
    components (withUnits k (cs ++ rest)) cur = components (withUnits k rest) (cur ++ utf8 k cs)
  | [], rest, cur, _ => by simp [utf8]
  | c :: cs, rest, cur, h => by
    show components ((c, (k.enc c).getD []) :: withUnits k (cs ++ rest)) cur = _
    rw [components, if_neg (h c (by simp)), components_name k cs rest _ fun x hx =>
      h x (by simp [hx]), utf8_cons, List.append_assoc]

/-- The characters of the item path made of names. -/
def pathChars (names : List (List Nat)) : List Nat := names.flatMap (0x5c :: ·)

theorem components_names (k : Codec) : ∀ (names : List (List Nat)) (n : List Nat),
    (∀ m ∈ n :: names, utf8 k m ≠ [] ∧ ∀ c ∈ m, ¬ EndsComponent c) →
    components (withUnits k (n ++ pathChars names)) = (n :: names).map (utf8 k)
  | [], n, h => by
    have hn := h n (by simp)
    show components (withUnits k (n ++ [])) = _
    rw [components_name k n [] [] hn.2]
    show (if ([] ++ utf8 k n).length = 0 then [] else _) = _
    rw [if_neg (by simpa using hn.1)]; rfl
  | m :: names, n, h => by
    have hn := h n (by simp)
    have ih := components_names k names m fun x hx => h x (List.mem_cons_of_mem _ hx)
    rw [components_name k n _ [] hn.2]
    show components ((0x5c, _) :: withUnits k (m ++ pathChars names)) _ = _
    rw [components, if_pos (.inl rfl), ih]; rfl

theorem cString_self : ∀ {s : Bytes}, (∀ b ∈ s, b ≠ 0) → cString s = s
  | [], _ => rfl
  | b :: s, h => by
    unfold cString
    rw [List.takeWhile_cons_of_pos (by simpa using h b (by simp))]
    congr 1
    exact cString_self fun x hx => h x (by simp [hx])

/-- The parts of the mounted path made of names. -/
def pathToks (names : List (List Nat)) : List Tok :=
  names.flatMap fun n => Tok.sep :: n.map Tok.char

theorem pathToks_item (names : List (List Nat)) :
    (pathToks names).map Tok.item = pathChars names := by
  induction names with
  | nil => rfl
  | cons n ns ih =>
    unfold pathToks pathChars at *
    rw [List.flatMap_cons, List.flatMap_cons, List.map_append, ih, List.map_cons, List.map_map,
      show (Tok.item ∘ Tok.char) = id from rfl, List.map_id]
    rfl

theorem pathToks_append (a b : List (List Nat)) :
    pathToks (a ++ b) = pathToks a ++ pathToks b := by simp [pathToks]

theorem subEntry_ok (hk : IsUtf8 k) {utf8Name : DirEntry → Option Bytes} {t : Tree}
    {e s : MountEntry} {i : Int} {cs : List Nat} (hcs : NameChars cs)
    (h : mountSubEntry k utf8Name t e i = .ok s)
    (hn : utf8Name s.item.entry = some (utf8 k cs)) :
    getSubItem t e.item i = .ok s.item ∧ s.name = cs.flatMap (escText k) := by
  unfold mountSubEntry at h
  split at h
  · rename_i item hitem
    split at h
    · rename_i name hname
      cases h
      unfold mountFilename at hname
      rw [hn] at hname
      simp only [] at hname
      split at hname
      · cases hname
      · obtain ⟨_, rfl⟩ := fromItemPath_eq hk hcs hname
        refine ⟨hitem, ?_⟩
        have hv := (C43_mounted_name_valid_partial hk cs hcs _ hname).2.2
        show cString _ = _
        exact cString_self fun b hb => (hv b hb).1
    all_goals cases h
  all_goals cases h

theorem listed_spec (hk : IsUtf8 k) {utf8Name : DirEntry → Option Bytes}
    {cmp : Bytes → Bytes → Option Bool} {t : Tree} {p : Bytes} {names : List (List Nat)}
    {e : MountEntry} (h : ListedAt k utf8Name cmp t p names e)
    (hn : ∀ n ∈ names, NameChars n) :
    p = (pathToks names).flatMap (Tok.text k) ∧
    (∀ rest, walk (getSubItemByName cmp t) ⟨none, t.root⟩ (names.map (utf8 k) ++ rest) =
      walk (getSubItemByName cmp t) e.item rest) := by
  induction h with
  | root => exact ⟨rfl, fun _ => rfl⟩
  | @sub p names e s i cs _ hs hname heq hothers ih =>
    obtain ⟨ih1, ih2⟩ := ih fun n hn' => hn n (by simp [hn'])
    have hcs := hn cs (by simp)
    obtain ⟨hsub, hsn⟩ := subEntry_ok hk hcs hs hname
    constructor
    · rw [pathToks_append, List.flatMap_append, ← ih1, hsn]
      congr 1
      show _ = ((Tok.sep :: cs.map Tok.char) ++ []).flatMap (Tok.text k)
      rw [List.append_nil, List.flatMap_cons, flatMap_escText]; rfl
    · intro rest
      rw [List.map_append, List.append_assoc, ih2]
      show walk _ _ (utf8 k cs :: rest) = _
      have hlook : getSubItemByName cmp t e.item (utf8 k cs) = .ok (some s.item) := by
        refine ((C21_name_lookup cmp t e.item (utf8 k cs)).1 s.item).2 ⟨i, hsub, heq, ?_⟩
        intro j hj d hd
        exact hothers j d (by omega) hd
      have hl := utf8_length hk hcs.2
      have := List.length_pos_iff.2 hcs.1
      rw [walk, if_neg (by omega), hlook]

theorem lastSeparator_eq {p0 m : Bytes} (hm : ∀ b ∈ m, b ≠ 0x2f) : ∀ j, j ≤ m.length + 1 →
    lastSeparator (p0 ++ 0x2f :: m) (p0.length + j) = p0.length
  | 0, _ => by
    cases hl : p0.length with
    | zero => rfl
    | succ n =>
      show lastSeparator _ (n + 1) = _
      rw [lastSeparator, if_pos]
      rw [← hl, List.getD_eq_getElem?_getD, List.getElem?_append_right (Nat.le_refl _)]
      simp
  | j + 1, h => by
    show lastSeparator _ (p0.length + j + 1) = _
    rw [lastSeparator, if_neg, lastSeparator_eq hm j (by omega)]
    rw [List.getD_eq_getElem?_getD, List.getElem?_append_right (by omega)]
    have : p0.length + j + 1 - p0.length = j + 1 := by omega
    rw [this, List.getElem?_cons_succ]
    cases hg : m[j]? with
    | none => simp
    | some b =>
      have := hm b (List.mem_of_getElem? hg)
      simpa using this

/-- The path made of the names that the listings from the root on give opens the entry: by name
  and by item, provided that no name contains a separator of item paths (`\\`).

  Missing for the full property: names that contain `\\` (`C44_backslash_violated`). -/
theorem C44_open_by_mounted_path_partial (hk : IsUtf8 k) (utf8Name : DirEntry → Option Bytes)
    (cmp : Bytes → Bytes → Option Bool) (t : Tree) (p : Bytes) (names : List (List Nat))
    (e : MountEntry) (h : ListedAt k utf8Name cmp t p names e) (hne : names ≠ [])
    (hn : ∀ n ∈ names, NameChars n ∧ 0x5c ∉ n) (hlen : p.length < 2 ^ 62) :
    mountEntryByPath k cmp (some t) p = .ok (some e) := by
  obtain ⟨hp, hwalk⟩ := listed_spec hk h fun n hn' => (hn n hn').1
  -- the item
  have hitem : mountItemByPath k cmp (some t) p = .ok (some e.item) := by
    obtain ⟨n, ns, rfl⟩ := List.exists_cons_of_ne_nil hne
    have htoks : pathToks (n :: ns) = Tok.sep :: (n.map Tok.char ++ pathToks ns) := rfl
    have hto := toItemPath_ok (k := k) (ts := n.map Tok.char ++ pathToks ns) hk (by
      intro x hx
      have hmem : x ∈ pathToks (n :: ns) := by rw [htoks]; simp [hx]
      obtain ⟨m, hm, hx⟩ := List.mem_flatMap.1 hmem
      rcases List.mem_cons.1 hx with rfl | hx
      · trivial
      · obtain ⟨c, hc, rfl⟩ := List.mem_map.1 hx
        exact (hn m hm).1.2 c hc) (by
      rw [← htoks, ← hp]; unfold ssizeMax; omega)
    rw [← htoks, ← hp] at hto
    have hchars : 0x5c :: (n.map Tok.char ++ pathToks ns).map Tok.item =
        0x5c :: (n ++ pathChars ns) := by
      rw [List.map_append, pathToks_item, List.map_map, show (Tok.item ∘ Tok.char) = id from rfl,
        List.map_id]
    rw [hchars] at hto
    have hall : ∀ c ∈ n ++ pathChars ns, Scalar c ∧ c ≠ 0 := by
      intro c hc
      rcases List.mem_append.1 hc with hc | hc
      · exact (hn n (by simp)).1.2 c hc
      · obtain ⟨m, hm, hc⟩ := List.mem_flatMap.1 hc
        rcases List.mem_cons.1 hc with rfl | hc
        · exact ⟨.inl (by omega), by omega⟩
        · exact (hn m (by simp [hm])).1.2 c hc
    have hc0 : cString (utf8 k (0x5c :: (n ++ pathChars ns))) =
        utf8 k (0x5c :: (n ++ pathChars ns)) := by
      refine cString_self ?_
      intro b hb
      have := utf8_bytes hk (x := 0) (by decide) (ds := 0x5c :: (n ++ pathChars ns)) (by
        intro d hd
        rcases List.mem_cons.1 hd with rfl | hd
        · exact ⟨.inl (by omega), by omega⟩
        · exact hall d hd) b hb
      intro h0; exact this (by rw [h0]; rfl)
    unfold mountItemByPath
    rw [hto]
    simp only []
    rw [hc0]
    have hs : utf8 k (0x5c :: (n ++ pathChars ns)) = k.sep :: utf8 k (n ++ pathChars ns) := by
      rw [utf8_cons, enc_ascii hk (by decide), hk.sep]; rfl
    have hpos : 0 < (utf8 k (n ++ pathChars ns)).length := by
      have h1 := utf8_length hk (cs := n ++ pathChars ns) hall
      have h2 := List.length_pos_iff.2 (hn n (by simp)).1.1
      rw [List.length_append] at h1
      omega
    rw [hs]
    show itemByPath _ cmp (some t) (some ⟨none, t.root⟩) _ = _
    rw [C22_path_lookup_partial k.toDecoder cmp t _ _ (withUnits k (n ++ pathChars ns))
      (.inl (by rw [List.length_cons]; omega)) (by
        show Decodes _ (if k.sep = k.toDecoder.sep then _ else _) _
        rw [if_pos rfl]
        exact utf8_decodes hk fun c hc => (hall c hc).1) (by
        intro x hx hends
        obtain ⟨c, hc, rfl⟩ := List.mem_map.1 hx
        have hlt : c < 0x80 := by
          rcases hends with h | h
          · change c = 0x5c at h; omega
          · change c = 0 at h; omega
        show ((k.enc c).getD []).length = 1
        rw [enc_ascii hk hlt]; rfl),
      components_names k ns n (by
        intro m hm
        have hmn := hn m hm
        constructor
        · intro h0
          have h1 := utf8_length hk hmn.1.2
          rw [h0] at h1
          exact hmn.1.1 (List.length_eq_zero_iff.1 (Nat.le_zero.1 h1))
        · intro c hc hends
          rcases hends with h | h
          · subst h; exact hmn.2 hc
          · exact (hmn.1.2 c hc).2 h)]
    have := hwalk []
    rw [List.append_nil] at this
    rw [this]; rfl
  -- the name
  cases h with
  | root => exact absurd rfl hne
  | @sub p0 names0 e0 _ i cs h0 hs hname _ _ =>
    have hcs := (hn cs (by simp)).1
    obtain ⟨_, hsn⟩ := subEntry_ok hk hcs hs hname
    obtain ⟨ds, hds, hdne, hdc⟩ := flatMap_escText_chars hk hcs.2
    have hmb : ∀ b ∈ e.name, b ≠ 0x2f := by
      intro b hb hbs
      rw [hsn, hds] at hb
      exact utf8_bytes hk (x := 0x2f) (by decide)
        (fun d hd => ⟨(hdc d hd).1, (hdc d hd).2.2.2⟩) b hb (by rw [hbs]; rfl)
    have hmpos : 0 < e.name.length := by
      rw [hsn, hds]
      have := utf8_length hk (cs := ds) fun d hd => ⟨(hdc d hd).1, (hdc d hd).2.1⟩
      have := List.length_pos_iff.2 (hdne hcs.1)
      omega
    have hplen : (p0 ++ 0x2f :: e.name).length = p0.length + (e.name.length + 1) := by simp
    have hlast : (p0 ++ 0x2f :: e.name).getD ((p0 ++ 0x2f :: e.name).length - 1) 0 ≠ 0x2f := by
      rw [List.getD_eq_getElem?_getD, List.getElem?_append_right (by omega)]
      have : (p0 ++ 0x2f :: e.name).length - 1 - p0.length = (e.name.length - 1) + 1 := by omega
      rw [this, List.getElem?_cons_succ]
      cases hg : e.name[e.name.length - 1]? with
      | none => simp
      | some b => simpa using hmb b (List.mem_of_getElem? hg)
    unfold mountEntryByPath
    rw [if_neg (by omega)]
    simp only []
    rw [if_neg (by rintro ⟨_, h⟩; exact hlast h), List.take_length, hitem]
    simp only []
    have hls : lastSeparator (p0 ++ 0x2f :: e.name) (p0 ++ 0x2f :: e.name).length = p0.length := by
      rw [hplen]; exact lastSeparator_eq hmb _ (by omega)
    rw [hls, hplen]
    have hmod : (p0.length + (e.name.length + 1) + 2 ^ 64 - (p0.length + 1)) % 2 ^ 64 =
        e.name.length := by
      rw [hplen] at hlen; omega
    rw [hmod, if_neg (by rw [hplen] at hlen; unfold ssizeMax; omega)]
    have hdrop : (p0 ++ 0x2f :: e.name).drop (p0.length + 1) = e.name := by
      rw [← List.drop_drop, List.drop_append_of_le_length (Nat.le_refl _)]; simp
    rw [hdrop, List.take_length]

/-- The root is opened by the separator alone. -/
theorem C44_root (hk : IsUtf8 k) (cmp : Bytes → Bytes → Option Bool) (t : Tree) :
    mountEntryByPath k cmp (some t) [0x2f] = .ok (some ⟨[], ⟨none, t.root⟩⟩) := by
  have hto := toItemPath_ok (k := k) (ts := []) hk (by simp) (by simp [Tok.text])
  change toItemPath k [0x2f] = _ at hto
  have hs : utf8 k (0x5c :: List.map Tok.item []) = [0x5c] := by
    rw [utf8_cons, enc_ascii hk (by decide)]; rfl
  rw [hs] at hto
  unfold mountEntryByPath
  rw [if_neg (by decide)]
  simp only []
  rw [if_neg (by decide)]
  have hitem : mountItemByPath k cmp (some t) [0x2f] = .ok (some ⟨none, t.root⟩) := by
    unfold mountItemByPath
    rw [hto]
    rfl
  rw [List.take_length, hitem]
  rfl

/-- The name of an entry of `mountDir` as a UTF-8 string. -/
def asciiName (e : DirEntry) : Option Bytes := some (go e.name).dropLast
where go : Bytes → Bytes
  | a :: _ :: rest => a :: go rest
  | _ => []

/-- Root storage, storage `ab` with the stream `c`, and a stream `ab\\c`. -/
def mountDir : List DirEntry :=
  [entry 0 5 UNUSED UNUSED 1, named (entry 1 1 UNUSED 3 2) [97, 98],
   named (entry 2 2 UNUSED UNUSED UNUSED) [99],
   named (entry 3 2 UNUSED UNUSED UNUSED) [97, 98, 92, 99]]

def rootEntry (t : Tree) : MountEntry := ⟨[], ⟨none, t.root⟩⟩

def mountTree : Tree :=
  match (createTree mountDir cmpNone).res with
  | .ok (some (t, _)) => t
  | _ => ⟨entry 0 5 UNUSED UNUSED UNUSED, fun _ => []⟩

/-- The claim of C44 does not hold for a name that contains `\\`: the directory lists `ab` and
  `ab\\c` (as `ab\\\\c`), no two names are equal, and the path of the latter opens the stream `c` of
  `ab`. -/
theorem C44_backslash_violated :
    ∃ m l s c, (createTree mountDir cmpNone).res = .ok (some (mountTree, m)) ∧
      mountList libUtf8 asciiName mountTree (rootEntry mountTree) = .ok l ∧
      l[1]? = some s ∧ s.item.entry.id = 3 ∧
      mountEntryByPath libUtf8 asciiCmp (some mountTree) (0x2f :: s.name) = .ok (some c) ∧
      c.item.entry.id = 2 := by
  refine ⟨_, [⟨[97, 98], .ofEntry (named (entry 1 1 UNUSED 3 2) [97, 98])⟩,
      ⟨[97, 98, 92, 92, 99], .ofEntry (named (entry 3 2 UNUSED UNUSED UNUSED) [97, 98, 92, 99])⟩],
    ⟨[97, 98, 92, 92, 99], .ofEntry (named (entry 3 2 UNUSED UNUSED UNUSED) [97, 98, 92, 99])⟩,
    ⟨[97, 98, 92, 92, 99], .ofEntry (named (entry 2 2 UNUSED UNUSED UNUSED) [99])⟩,
    rfl, ?_, rfl, rfl, ?_, rfl⟩
  · decide +kernel
  · decide +kernel

/-- Non-vacuity: the path `/ab/c` made of listed names. -/
theorem listed_ab : ListedAt libUtf8 asciiName asciiCmp mountTree [0x2f, 97, 98] [[97, 98]]
    ⟨[97, 98], .ofEntry (named (entry 1 1 UNUSED 3 2) [97, 98])⟩ := by
  refine .sub (p := []) (names := []) (i := 0) (cs := [97, 98])
    (s := ⟨[97, 98], .ofEntry (named (entry 1 1 UNUSED 3 2) [97, 98])⟩) .root ?_ ?_ ?_ ?_
  · decide +kernel
  · decide +kernel
  · decide +kernel
  · intro j d hj h
    obtain ⟨c, hc, rfl⟩ := getSubItem_ok.1 h
    match j, hj with
    | 1, _ =>
      have : c = named (entry 3 2 UNUSED UNUSED UNUSED) [97, 98, 92, 99] :=
        (Option.some.inj hc).symm
      subst this
      decide +kernel
    | j + 2, _ => cases hc

theorem listed_ab_c : ListedAt libUtf8 asciiName asciiCmp mountTree [0x2f, 97, 98, 0x2f, 99]
    [[97, 98], [99]] ⟨[99], .ofEntry (named (entry 2 2 UNUSED UNUSED UNUSED) [99])⟩ := by
  refine .sub (p := [0x2f, 97, 98]) (names := [[97, 98]]) (i := 0) (cs := [99])
    (s := ⟨[99], .ofEntry (named (entry 2 2 UNUSED UNUSED UNUSED) [99])⟩) listed_ab ?_ ?_ ?_ ?_
  · decide +kernel
  · decide +kernel
  · decide +kernel
  · intro j d hj h
    obtain ⟨c, hc, rfl⟩ := getSubItem_ok.1 h
    match j, hj with
    | j + 1, _ => cases hc

example : mountEntryByPath libUtf8 asciiCmp (some mountTree) [0x2f, 97, 98, 0x2f, 99] =
    .ok (some ⟨[99], .ofEntry (named (entry 2 2 UNUSED UNUSED UNUSED) [99])⟩) :=
  C44_open_by_mounted_path_partial libUtf8_isUtf8 _ _ _ _ _ _ listed_ab_c (by simp)
    (by decide +kernel) (by decide)

/-! ### C54 -/

/-- The mounted time is that of the FILETIME, for instants whose distance from 1970 in
  nanoseconds fits in 64 bits (the years 1678 to 2261), and 0 for a FILETIME that is not set.

  Missing for the full property: other instants (`C54_early_time_violated`,
  `C54_late_time_violated`). -/
theorem C54_mounted_time_partial (filetime : Nat) (h64 : filetime < 2 ^ 64) (h0 : filetime ≠ 0)
    (hlo : -2 ^ 63 ≤ filetimeNanoseconds filetime) (hhi : filetimeNanoseconds filetime < 2 ^ 63) :
    mountTime filetime = .ok (filetimeNanoseconds filetime) := by
  unfold filetimeNanoseconds at *
  unfold mountTime
  rw [if_neg h0]
  simp only []
  rw [if_pos (show filetime < 2 ^ 63 by omega), if_neg (by omega), if_neg (by omega)]
  congr 1
  omega

theorem C54_unset_time : mountTime 0 = .ok 0 := rfl

/-- 2020-01-01. -/
example : mountTime 132223104000000000 = .ok 1577836800000000000 ∧
    filetimeNanoseconds 132223104000000000 = 1577836800000000000 := by decide +kernel

/-- Exactly the set FILETIMEs outside of that range overflow. -/
theorem C54_overflow (filetime : Nat) (h64 : filetime < 2 ^ 64) (h0 : filetime ≠ 0)
    (hout : ¬ (-2 ^ 63 ≤ filetimeNanoseconds filetime ∧ filetimeNanoseconds filetime < 2 ^ 63)) :
    mountTime filetime = .ub := by
  unfold filetimeNanoseconds at *
  unfold mountTime
  rw [if_neg h0]
  simp only []
  by_cases h63 : filetime < 2 ^ 63
  · rw [if_pos h63]
    split
    · rfl
    · rw [if_pos (by omega)]
  · rw [if_neg h63]
    split
    · rfl
    · rw [if_pos (by omega)]

/-- The first instant of a FILETIME, in 1601. -/
theorem C54_early_time_violated : mountTime 1 = .ub := by decide +kernel

/-- An instant in 2262. -/
theorem C54_late_time_violated : mountTime 208678456368547760 = .ub := by decide +kernel

/-! ### C55 -/

/-- A path that ends with a separator never opens an entry, except the root's own path. -/
theorem C55_trailing_separator_violated (k : Codec) (cmp : Bytes → Bytes → Option Bool)
    (t : Option Tree) (p : Bytes) (hp : p ≠ []) (hlen : p.length < 2 ^ 62) (e : MountEntry) :
    mountEntryByPath k cmp t (p ++ [0x2f]) ≠ .ok (some e) := by
  have hpos := List.length_pos_iff.2 hp
  have hl : (p ++ [0x2f]).length = p.length + 1 := by simp
  unfold mountEntryByPath
  rw [if_neg (by omega)]
  simp only []
  have hlast : (p ++ [0x2f]).getD p.length 0 = 0x2f := by simp
  rw [hl, if_pos ⟨by omega, by simp⟩]
  have hsep : lastSeparator (p ++ [0x2f]) (p.length + 1 - 1) = p.length := by
    obtain ⟨n, hn⟩ : ∃ n, p.length = n + 1 := ⟨p.length - 1, by omega⟩
    rw [show p.length + 1 - 1 = n + 1 by omega, lastSeparator, ← hn, if_pos hlast]
  rw [hsep]
  split
  · rw [if_pos (by unfold ssizeMax; omega)]
    simp
  all_goals simp

/-- The path without the separator opens it. -/
example : mountEntryByPath libUtf8 asciiCmp (some mountTree) [0x2f, 97, 98] =
      .ok (some ⟨[97, 98], .ofEntry (named (entry 1 1 UNUSED 3 2) [97, 98])⟩) ∧
    mountEntryByPath libUtf8 asciiCmp (some mountTree) [0x2f, 97, 98, 0x2f] = .err := by
  decide +kernel

/-! ### C56 -/

theorem listLoop_ok (k : Codec) (utf8Name : DirEntry → Option Bytes) (t : Tree) (e : MountEntry) :
    ∀ (n index : Nat) (l : List MountEntry), listLoop k utf8Name t e n index = .ok l →
      l.length = n ∧ ∀ (i : Nat) s, l[i]? = some s →
        mountSubEntry k utf8Name t e (index + i : Nat) = .ok s
  | 0, index, l, h => by
    cases h; simp
  | n + 1, index, l, h => by
    rw [listLoop] at h
    split at h
    · rename_i s hs
      split at h
      · rename_i rest hrest
        cases h
        obtain ⟨h1, h2⟩ := listLoop_ok k utf8Name t e n (index + 1) rest hrest
        refine ⟨by simp [h1], ?_⟩
        intro i x hx
        cases i with
        | zero =>
          have : s = x := by simpa using hx
          subst this; exact hs
        | succ i =>
          have := h2 i x (by simpa using hx)
          rw [show index + (i + 1) = index + 1 + i by omega]; exact this
      all_goals cases h
    all_goals cases h

theorem listLoop_all (k : Codec) (utf8Name : DirEntry → Option Bytes) (t : Tree) (e : MountEntry) :
    ∀ (n index : Nat), (∀ i : Nat, index ≤ i → i < index + n →
      ∃ s, mountSubEntry k utf8Name t e i = .ok s) →
      ∃ l, listLoop k utf8Name t e n index = .ok l
  | 0, index, _ => ⟨_, rfl⟩
  | n + 1, index, h => by
    obtain ⟨s, hs⟩ := h index (by omega) (by omega)
    obtain ⟨l, hl⟩ := listLoop_all k utf8Name t e n (index + 1) fun i h1 h2 =>
      h i (by omega) (by omega)
    exact ⟨s :: l, by rw [listLoop, hs, hl]⟩

/-- A successful listing has one entry for every sub item, in order: the item itself, with the
  mounted name of the name of the item. -/
theorem C56_listing_is_sub_items (k : Codec) (utf8Name : DirEntry → Option Bytes) (t : Tree)
    (e : MountEntry) (l : List MountEntry) (h : mountList k utf8Name t e = .ok l) :
    l.length = numberOfSubItems t e.item ∧
      ∀ (i : Nat) s, l[i]? = some s → getSubItem t e.item i = .ok s.item ∧
        ∃ name m, utf8Name s.item.entry = some name ∧ fromItemPath k name = .ok m ∧
          s.name = m.takeWhile (· ≠ 0) := by
  obtain ⟨h1, h2⟩ := listLoop_ok k utf8Name t e _ _ l h
  refine ⟨h1, ?_⟩
  intro i s hs
  have := h2 i s hs
  rw [Nat.zero_add] at this
  unfold mountSubEntry at this
  split at this
  · rename_i item hitem
    split at this
    · rename_i m hm
      cases this
      refine ⟨hitem, ?_⟩
      unfold mountFilename at hm
      split at hm
      · cases hm
      · rename_i name hname
        split at hm
        · cases hm
        · exact ⟨name, m, hname, hm, rfl⟩
    all_goals cases this
  all_goals cases this

/-- The listing of a directory whose sub items have names of encodable characters, not empty and
  without end of string characters, succeeds. -/
theorem C56_listing_succeeds (hk : IsUtf8 k) (utf8Name : DirEntry → Option Bytes) (t : Tree)
    (e : MountEntry)
    (hn : ∀ (i : Nat) c, getSubItem t e.item i = .ok c → ∃ cs, NameChars cs ∧
      (utf8 k cs).length < 2 ^ 59 ∧ utf8Name c.entry = some (utf8 k cs)) :
    ∃ l, mountList k utf8Name t e = .ok l := by
  refine listLoop_all k utf8Name t e _ _ ?_
  intro i _ hi
  unfold numberOfSubItems at hi
  rw [Nat.zero_add] at hi
  have hitem : getSubItem t e.item i = .ok (.ofEntry (t.kids e.item.node)[i]) :=
    getSubItem_ok.2 ⟨_, List.getElem?_eq_getElem hi, rfl⟩
  obtain ⟨cs, h1, h2, h3⟩ := hn i _ hitem
  unfold mountSubEntry
  rw [hitem]
  simp only []
  unfold mountFilename
  rw [h3]
  simp only []
  rw [if_neg (by unfold ssizeMax; omega), fromItemPath_ok hk h1 (by unfold ssizeMax; omega)]
  exact ⟨_, rfl⟩

/-- The names of a listing differ when the names of the sub items do. -/
theorem C56_names_distinct (hk : IsUtf8 k) (utf8Name : DirEntry → Option Bytes) (t : Tree)
    (e : MountEntry) (l : List MountEntry) (h : mountList k utf8Name t e = .ok l)
    (i j : Nat) (a b : MountEntry) (ha : l[i]? = some a) (hb : l[j]? = some b) (cs ds : List Nat)
    (hcs : NameChars cs) (hds : NameChars ds) (hlen : (utf8 k cs).length < 2 ^ 59)
    (ea : utf8Name a.item.entry = some (utf8 k cs))
    (eb : utf8Name b.item.entry = some (utf8 k ds)) (hne : utf8 k cs ≠ utf8 k ds) :
    a.name ≠ b.name := by
  obtain ⟨_, hl⟩ := C56_listing_is_sub_items k utf8Name t e l h
  obtain ⟨_, n1, m1, hn1, hm1, hs1⟩ := hl i a ha
  obtain ⟨_, n2, m2, hn2, hm2, hs2⟩ := hl j b hb
  rw [ea] at hn1; rw [eb] at hn2
  cases hn1; cases hn2
  have c1 : m1.takeWhile (· ≠ 0) = m1 := cString_self fun x hx =>
    ((C43_mounted_name_valid_partial hk cs hcs m1 hm1).2.2 x hx).1
  have c2 : m2.takeWhile (· ≠ 0) = m2 := cString_self fun x hx =>
    ((C43_mounted_name_valid_partial hk ds hds m2 hm2).2.2 x hx).1
  intro heq
  rw [hs1, hs2, c1, c2] at heq
  subst heq
  exact hne (C43_mounted_names_distinct_partial hk cs ds hcs hds hlen m1 hm1 hm2)

example : ∃ l, mountList libUtf8 asciiName mountTree (rootEntry mountTree) = .ok l ∧
    l.length = 2 := by
  refine ⟨[⟨[97, 98], .ofEntry (named (entry 1 1 UNUSED 3 2) [97, 98])⟩,
      ⟨[97, 98, 92, 92, 99], .ofEntry (named (entry 3 2 UNUSED UNUSED UNUSED) [97, 98, 92, 99])⟩],
    ?_, rfl⟩
  decide +kernel

/-! ### C57 -/

theorem escapeChar_defined (henc : ∀ c u, k.enc c = some u → u.length ≤ 10) {size c : Nat}
    {out : Bytes} (h : out.length + 10 < size) :
    (escapeChar k size out c).Defined ∧
      ∀ r, escapeChar k size out c = .ok r → r.length ≤ out.length + 10 := by
  unfold escapeChar
  split
  · rw [putText_ok (by simp only [List.length_cons, hexFixed_length]; omega)]
    refine ⟨trivial, ?_⟩
    intro r hr; cases hr
    simp only [List.length_append, List.length_cons, hexFixed_length]; omega
  · split
    · rw [putText_ok (by simp only [List.length_cons, hexFixed_length]; omega)]
      refine ⟨trivial, ?_⟩
      intro r hr; cases hr
      simp only [List.length_append, List.length_cons, hexFixed_length]; omega
    · split
      · rw [if_neg (by omega)]
        refine ⟨trivial, ?_⟩
        intro r hr; cases hr
        simp
      · unfold putChar
        split
        · exact ⟨trivial, by simp⟩
        · rename_i u hu
          have := henc c u hu
          split
          · refine ⟨trivial, ?_⟩
            intro r hr; cases hr
            rw [List.length_append]; omega
          · exact ⟨trivial, by simp⟩

theorem fromLoop_defined (henc : ∀ c u, k.enc c = some u → u.length ≤ 10)
    (hstep : ∀ s c n, s ≠ [] → k.step s = some (c, n) → 0 < n) (s : Bytes) :
    ∀ (fuel i : Nat) (out : Bytes), out.length ≤ 10 * i → s.length - i ≤ fuel →
      (fromLoop k s (s.length * 10 + 1) fuel i out).Defined
  | fuel, i, out, ho, hf => by
    unfold fromLoop
    split
    · rename_i hi
      match fuel, hf with
      | 0, hf => omega
      | fuel + 1, hf =>
        simp only []
        split
        · trivial
        · rename_i c n hc
          have hn := hstep _ _ _ (by
            intro h0
            have := List.drop_eq_nil_iff.1 h0
            omega) hc
          split
          · split <;> trivial
          · obtain ⟨hd, hl⟩ := escapeChar_defined henc (size := s.length * 10 + 1) (c := c)
              (out := out) (by omega)
            generalize escapeChar k (s.length * 10 + 1) out c = r at hd hl
            match r with
            | .ok out' =>
              have := hl out' rfl
              exact fromLoop_defined henc hstep s fuel (i + n) out' (by omega) (by omega)
            | .err => trivial
            | .ub => exact hd.elim
            | .hang => exact hd.elim
    · split <;> trivial

/-- Making a mounted name of any bytes ends with a name or an error, without writing outside of
  the buffer, if libuna decodes at least one byte and encodes at most ten bytes for a character. -/
theorem C57_mounted_name_safe (k : Codec) (henc : ∀ c u, k.enc c = some u → u.length ≤ 10)
    (hstep : ∀ s c n, s ≠ [] → k.step s = some (c, n) → 0 < n) (s : Bytes) :
    (fromItemPath k s).Defined := by
  unfold fromItemPath
  split
  · trivial
  · split
    · trivial
    · exact fromLoop_defined henc hstep s _ _ _ (by simp) (by omega)

theorem unescape_defined (p : Bytes) (i : Nat) : (unescape p i).Defined ∧
    ∀ v j, unescape p i = .ok (v, j) → i < j := by
  unfold unescape
  split
  · exact ⟨trivial, by simp⟩
  · rename_i h
    rw [rdByte_getD (by omega)]
    simp only [Res.ok_bind]
    split
    · exact ⟨trivial, by intro v j h; cases h; omega⟩
    · split
      · split
        · exact ⟨trivial, by simp⟩
        · rw [rdBytes_ok (by omega)]
          simp only [Res.ok_bind]
          split
          · exact ⟨trivial, by simp⟩
          · split
            · exact ⟨trivial, by intro v j h; cases h; omega⟩
            · exact ⟨trivial, by simp⟩
      · split
        · split
          · exact ⟨trivial, by simp⟩
          · rw [rdBytes_ok (by omega)]
            simp only [Res.ok_bind]
            split
            · exact ⟨trivial, by simp⟩
            · split
              · exact ⟨trivial, by intro v j h; cases h; omega⟩
              · exact ⟨trivial, by simp⟩
        · exact ⟨trivial, by simp⟩

theorem pathChar_defined (p : Bytes) (c i : Nat) : (pathChar p c i).Defined ∧
    ∀ v j, pathChar p c i = .ok (v, j) → i ≤ j := by
  unfold pathChar
  split
  · exact ⟨trivial, by intro v j h; cases h; omega⟩
  · split
    · obtain ⟨h1, h2⟩ := unescape_defined p i
      exact ⟨h1, fun v j h => Nat.le_of_lt (h2 v j h)⟩
    · exact ⟨trivial, by intro v j h; cases h; omega⟩

theorem toLoop_defined (hstep : ∀ s c n, s ≠ [] → k.step s = some (c, n) → 0 < n) (p : Bytes)
    (size : Nat) : ∀ (fuel i : Nat) (out : Bytes), p.length - i ≤ fuel →
      (toLoop k p size fuel i out).Defined
  | fuel, i, out, hf => by
    unfold toLoop
    split
    · rename_i hi
      match fuel, hf with
      | 0, hf => omega
      | fuel + 1, hf =>
        simp only []
        split
        · trivial
        · rename_i c n hc
          have hn := hstep _ _ _ (by
            intro h0
            have := List.drop_eq_nil_iff.1 h0
            omega) hc
          obtain ⟨hd, hl⟩ := pathChar_defined p c (i + n)
          generalize pathChar p c (i + n) = r at hd hl
          match r with
          | .ok (v, j) =>
            have := hl v j rfl
            simp only []
            have hp : (putChar k size out v).Defined := by
              unfold putChar
              split
              · trivial
              · split <;> trivial
            generalize putChar k size out v = q at hp
            match q with
            | .ok out' => exact toLoop_defined hstep p size fuel j out' (by omega)
            | .err => trivial
            | .ub => exact hp.elim
            | .hang => exact hp.elim
          | .err => trivial
          | .ub => exact hd.elim
          | .hang => exact hd.elim
    · split <;> trivial

/-- Converting any path to an item path ends with a path or an error, without reading outside of
  the path or writing outside of the buffer. -/
theorem C57_item_path_safe (k : Codec)
    (hstep : ∀ s c n, s ≠ [] → k.step s = some (c, n) → 0 < n) (p : Bytes) :
    (toItemPath k p).Defined := by
  unfold toItemPath
  split
  · trivial
  · split
    · trivial
    · split
      · trivial
      · exact toLoop_defined hstep p _ _ _ _ (by omega)

/-- Opening any path in a mounted file ends with an entry, with no entry or an error. -/
theorem C57_open_any_path (k : Codec) (cmp : Bytes → Bytes → Option Bool) (t : Tree)
    (hstep : ∀ s c n, s ≠ [] → k.step s = some (c, n) →
      0 < n ∧ n ≤ s.length ∧ (EndsComponent c → n = 1)) (p : Bytes) :
    (mountEntryByPath k cmp (some t) p).Defined := by
  unfold mountEntryByPath
  split
  · trivial
  · simp only []
    generalize (if 2 ≤ p.length ∧ p.getD (p.length - 1) 0 = 0x2f then p.length - 1
      else p.length) = len
    have hd : (mountItemByPath k cmp (some t) (p.take len)).Defined := by
      unfold mountItemByPath
      have h1 := C57_item_path_safe k (fun s c n hs h => (hstep s c n hs h).1) (p.take len)
      generalize toItemPath k (p.take len) = r at h1
      match r with
      | .ok ip => exact C22_terminates k.toDecoder cmp t _ _ hstep
      | .err => trivial
      | .ub => exact h1.elim
      | .hang => exact h1.elim
    generalize mountItemByPath k cmp (some t) (p.take len) = r at hd
    match r with
    | .ok (some item) => simp only []; split <;> trivial
    | .ok none => trivial
    | .err => trivial
    | .ub => exact hd.elim
    | .hang => exact hd.elim

/-- Non-vacuity: the UTF-8 encoding of Lean's library has the assumed sizes. -/
example : ∀ c u, libUtf8.enc c = some u → u.length ≤ 10 := by
  intro c u h
  change (if c.isValidChar then _ else _) = _ at h
  split at h
  · cases h
    rw [String.length_utf8EncodeChar]
    have := Char.utf8Size_le_four (Char.ofNat c)
    omega
  · cases h
example : ∀ s c n, s ≠ [] → libUtf8.step s = some (c, n) → 0 < n := by
  intro s c n _ h
  simp only [libUtf8] at h
  split at h
  · cases h; exact Char.utf8Size_pos _
  · cases h

end Olecf.Props
