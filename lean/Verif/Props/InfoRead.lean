import Verif.Props.InfoSet

/-
  C78: that the text of a property set can be read.
-/

namespace Olecf.Props
open Spec

/-! ### Lines -/

theorem newline : ascii "\n" = [0x0a] := by decide +kernel

/-- A line without an end of line in it ends at its end of line. -/
theorem line_read {x y r r' : Bytes} (hx : (0x0a : UInt8) ∉ x) (hy : (0x0a : UInt8) ∉ y)
    (h : x ++ (ascii "\n" ++ r) = y ++ (ascii "\n" ++ r')) : x = y ∧ r = r' := by
  rw [newline] at h
  exact split_first hx hy h

theorem numberText_noNewline (n : Nat) : (0x0a : UInt8) ∉ numberText n := by
  rw [← numberText_eq]
  exact not_digit (Or.inl (by decide))

theorem numberText_inj {m n : Nat} (h : numberText m = numberText n) : m = n := by
  rw [← numberText_eq, ← numberText_eq] at h
  exact decimal_inj h

theorem hexDigitText_noNewline (n : Nat) : hexDigitText n ≠ 0x0a ∧ hexDigitText n ≠ 0x29 := by
  have : ∀ a < 16, hexDigits.getD a 0 ≠ 0x0a ∧ hexDigits.getD a 0 ≠ 0x29 := by decide +kernel
  exact this _ (Nat.mod_lt _ (by decide))

theorem hex32_noNewline (n : Nat) : (0x0a : UInt8) ∉ hex32 n := by
  unfold hex32
  intro h
  obtain ⟨k, -, hk⟩ := List.mem_map.1 h
  exact (hexDigitText_noNewline _).1 hk

theorem hex32_inj {m n : Nat} (hm : m < 2 ^ 32) (hn : n < 2 ^ 32) (h : hex32 m = hex32 n) : m = n := by
  simp only [hex32, List.map_cons, List.map_nil, List.cons.injEq, and_true] at h
  obtain ⟨h1, h2, h3, h4, h5, h6, h7, h8⟩ := h
  have h1 := hexDigitText_inj h1
  have h2 := hexDigitText_inj h2
  have h3 := hexDigitText_inj h3
  have h4 := hexDigitText_inj h4
  have h5 := hexDigitText_inj h5
  have h6 := hexDigitText_inj h6
  have h7 := hexDigitText_inj h7
  have h8 := hexDigitText_inj h8
  simp only [Nat.reducePow, Nat.div_one] at h1 h2 h3 h4 h5 h6 h7 h8 hm hn
  omega

theorem guidText_noNewline (b : Bytes) : (0x0a : UInt8) ∉ guidText b := by
  have h := fun n => (hexDigitText_noNewline n).1
  simp only [guidText, dash, List.mem_append, List.mem_flatMap, List.mem_cons, List.not_mem_nil, or_false,
    not_or, not_exists, not_and]
  refine ⟨⟨⟨⟨⟨⟨⟨⟨?_, by decide⟩, ?_⟩, by decide⟩, ?_⟩, by decide⟩, ?_⟩, by decide⟩, ?_⟩ <;>
    exact fun i _ => ⟨(h _).symm, (h _).symm⟩

theorem intText_inj {i j : Int} (h : intText i = intText j) : i = j := by
  cases i with
  | ofNat m =>
    cases j with
    | ofNat n => rw [numberText_inj h]
    | negSucc n =>
      have : (0x2d : UInt8) ∈ numberText m := by
        show _ ∈ intText (.ofNat m)
        rw [h]
        unfold intText
        rw [dash]
        exact List.mem_cons_self
      rw [← numberText_eq] at this
      exact absurd this (not_digit (Or.inl (by decide)))
  | negSucc m =>
    cases j with
    | ofNat n =>
      have : (0x2d : UInt8) ∈ numberText n := by
        show _ ∈ intText (.ofNat n)
        rw [← h]
        unfold intText
        rw [dash]
        exact List.mem_cons_self
      rw [← numberText_eq] at this
      exact absurd this (not_digit (Or.inl (by decide)))
    | negSucc n =>
      have := numberText_inj (List.append_cancel_left h)
      congr 1
      omega

/-! ### The lines of a property -/

/-- The identifier of a property behind the label. -/
def identifierBody (cls : Bytes) (p : Property) : Bytes :=
  match propertyName cls p.type p.id with
  | some n => ascii n ++ ascii " (0x" ++ hex32 p.id ++ ascii ")"
  | none => ascii "0x" ++ hex32 p.id

theorem identifierLine_body (cls : Bytes) (p : Property) : identifierLine cls p =
    ascii "\tValue identifier\t: " ++ (identifierBody cls p ++ ascii "\n") := by
  unfold identifierLine identifierBody
  rw [List.append_assoc]
  cases propertyName cls p.type p.id <;> rfl

theorem propertyName_noNewline {cls : Bytes} {type id : Nat} {n : String}
    (h : propertyName cls type id = some n) : (0x0a : UInt8) ∉ ascii n := by
  have hall : ∀ k ∈ namedProperties, (0x0a : UInt8) ∉ ascii k.2.2.2 := by decide +kernel
  unfold propertyName at h
  obtain ⟨k, hk, rfl⟩ := Option.map_eq_some_iff.1 h
  exact hall k (List.mem_of_find?_eq_some hk)

theorem identifierBody_noNewline (cls : Bytes) (p : Property) :
    (0x0a : UInt8) ∉ identifierBody cls p := by
  have h1 : (0x0a : UInt8) ∉ ascii " (0x" := by decide +kernel
  have h2 : (0x0a : UInt8) ∉ ascii ")" := by decide +kernel
  have h3 : (0x0a : UInt8) ∉ ascii "0x" := by decide +kernel
  unfold identifierBody
  split
  · rename_i n hn
    simp only [List.mem_append, not_or]
    exact ⟨⟨⟨propertyName_noNewline hn, h1⟩, hex32_noNewline _⟩, h2⟩
  · simp only [List.mem_append, not_or]
    exact ⟨h3, hex32_noNewline _⟩

theorem hex32_end (x : Bytes) (n : Nat) {y : Bytes} : x ++ hex32 n ≠ y ++ ascii ")" := by
  intro h
  have e : ascii ")" = [0x29] := by decide +kernel
  have h' : x ++ [28, 24, 20, 16, 12, 8, 4].map (fun k => hexDigitText (n / 2 ^ k)) ++
      [hexDigitText (n / 2 ^ 0)] = y ++ [0x29] := by
    rw [← e, ← h, List.append_assoc]
    rfl
  exact (hexDigitText_noNewline _).2 (List.cons.inj (List.append_inj' h' rfl).2).1

theorem identifierBody_inj {cls cls' : Bytes} {p q : Property} (hp : p.id < 2 ^ 32) (hq : q.id < 2 ^ 32)
    (h : identifierBody cls p = identifierBody cls' q) : p.id = q.id := by
  unfold identifierBody at h
  split at h <;> split at h
  · exact hex32_inj hp hq (List.append_inj' (List.append_cancel_right h) rfl).2
  · exact absurd h.symm (hex32_end _ _)
  · exact absurd h (hex32_end _ _)
  · exact hex32_inj hp hq (List.append_cancel_left h)

/-- The type of a property behind the label. -/
def typeBody (libs : InfoLibs) (p : Property) : Bytes :=
  libs.typeName p.type ++ ascii " (0x" ++ hex32 p.type ++ ascii ")"

theorem typeLine_body (libs : InfoLibs) (p : Property) : typeLine libs p =
    ascii "\tValue type\t\t: " ++ (typeBody libs p ++ ascii "\n") := by
  have e : ascii ")\n" = ascii ")" ++ ascii "\n" := by decide +kernel
  unfold typeLine typeBody
  rw [e]
  simp only [List.append_assoc]

theorem typeBody_noNewline {libs : InfoLibs} (hl : ∀ n, (0x0a : UInt8) ∉ libs.typeName n) (p : Property) :
    (0x0a : UInt8) ∉ typeBody libs p := by
  have h1 : (0x0a : UInt8) ∉ ascii " (0x" := by decide +kernel
  have h2 : (0x0a : UInt8) ∉ ascii ")" := by decide +kernel
  unfold typeBody
  simp only [List.mem_append, not_or]
  exact ⟨⟨⟨hl _, h1⟩, hex32_noNewline _⟩, h2⟩

theorem typeBody_inj {libs : InfoLibs} {p q : Property} (hp : p.type < 2 ^ 32) (hq : q.type < 2 ^ 32)
    (h : typeBody libs p = typeBody libs q) : p.type = q.type :=
  hex32_inj hp hq (List.append_inj' (List.append_cancel_right h) rfl).2

/-! ### Reading -/

/-- What a reader needs of a property: numbers of 32 bits, and a value that can be shown and has no end of
  line in its text. -/
structure ReadableProperty (libs : InfoLibs) (texts : Texts) (cp : Int) (e : Endian) (p : Property) :
    Prop where
  id : p.id < 2 ^ 32
  type : p.type < 2 ^ 32
  shown : dataLine libs texts cp e p ≠ none
  line : ∀ b s, p.data = some b → dataText libs texts cp e p.type b = some s → (0x0a : UInt8) ∉ s

/-- What a reader needs of a property set. -/
structure ReadableSet (libs : InfoLibs) (texts : Texts) (cp : Int) (e : Endian) (s : SetValue) : Prop where
  classId : s.classId.length = 16
  sections : ∀ sec ∈ s.sections, sec.classId.length = 16
  properties : ∀ sec ∈ s.sections, ∀ p ∈ sec.properties, ReadableProperty libs texts cp e p

/-- What is shown of a property: the identifier, the type, and the text of the value if there is one. -/
def shownProperty (libs : InfoLibs) (texts : Texts) (cp : Int) (e : Endian) (p : Property) :
    Nat × Nat × Option Bytes :=
  (p.id, p.type, if p.type ∈ shownTypes then p.data.bind (dataText libs texts cp e p.type) else none)

def shownSection (libs : InfoLibs) (texts : Texts) (cp : Int) (e : Endian) (s : Section) :
    Bytes × List (Nat × Nat × Option Bytes) :=
  (s.classId, s.properties.map (shownProperty libs texts cp e))

/-- The text of pieces. -/
def piecesText (l : List (Option Bytes)) : Bytes := l.flatMap fun o => o.getD []

theorem piecesText_flatten (F : Nat → α → List (Option Bytes)) (l : List α) :
    piecesText (l.mapIdx F).flatten = (l.mapIdx fun i a => piecesText (F i a)).flatten := by
  have h : ∀ L : List (List (Option Bytes)), piecesText L.flatten = (L.map piecesText).flatten := by
    intro L
    induction L with
    | nil => rfl
    | cons a L ih =>
      rw [List.flatten_cons, List.map_cons, List.flatten_cons, ← ih]
      exact List.flatMap_append
  rw [h]
  congr 1
  rw [List.mapIdx_eq_zipIdx_map, List.mapIdx_eq_zipIdx_map, List.map_map]
  rfl

/-- Lists of the same length whose elements can be read off their texts can be read. -/
theorem list_read {P : α → Prop} (key : α → β) : ∀ (F : Nat → α → Bytes),
    (∀ i a b x y, P a → P b → F i a ++ x = F i b ++ y → key a = key b ∧ x = y) →
    ∀ (l m : List α), l.length = m.length → (∀ a ∈ l, P a) → (∀ a ∈ m, P a) → ∀ x y,
    (l.mapIdx F).flatten ++ x = (m.mapIdx F).flatten ++ y → l.map key = m.map key ∧ x = y
  | _, _, [], [], _, _, _, _, _, h => ⟨rfl, h⟩
  | _, _, [], _ :: _, h, _, _, _, _, _ => by cases h
  | _, _, _ :: _, [], h, _, _, _, _, _ => by cases h
  | F, hF, a :: l, b :: m, hlen, hl, hm, x, y, h => by
    rw [List.mapIdx_cons, List.mapIdx_cons, List.flatten_cons, List.flatten_cons, List.append_assoc,
      List.append_assoc] at h
    obtain ⟨h1, h2⟩ := hF 0 a b _ _ (hl _ List.mem_cons_self) (hm _ List.mem_cons_self) h
    obtain ⟨h3, h4⟩ := list_read key (fun i => F (i + 1)) (fun i => hF (i + 1)) l m
      (Nat.succ.inj hlen) (fun c hc => hl c (List.mem_cons_of_mem _ hc))
      (fun c hc => hm c (List.mem_cons_of_mem _ hc)) x y h2
    exact ⟨by rw [List.map_cons, List.map_cons, h1, h3], h4⟩

theorem property_read {libs : InfoLibs} {texts : Texts} {cp : Int} {e : Endian}
    (hl : ∀ n, (0x0a : UInt8) ∉ libs.typeName n) (cls : Bytes) (i : Nat) (p q : Property) (x y : Bytes)
    (hp : ReadableProperty libs texts cp e p) (hq : ReadableProperty libs texts cp e q)
    (h : piecesText (propertyPieces libs texts cp e cls i p) ++ x =
      piecesText (propertyPieces libs texts cp e cls i q) ++ y) :
    shownProperty libs texts cp e p = shownProperty libs texts cp e q ∧ x = y := by
  have e4 : ascii "\n\n" = ascii "\n" ++ ascii "\n" := by decide +kernel
  simp only [piecesText, propertyPieces, List.flatMap_cons, List.flatMap_nil, List.append_nil,
    identifierLine_body, typeLine_body, List.append_assoc, Option.getD_some] at h
  have h := List.append_cancel_left (List.append_cancel_left (List.append_cancel_left
    (List.append_cancel_left h)))
  obtain ⟨h1, h⟩ := line_read (identifierBody_noNewline _ _) (identifierBody_noNewline _ _) h
  have hid := identifierBody_inj hp.id hq.id h1
  obtain ⟨h2, h⟩ := line_read (typeBody_noNewline hl _) (typeBody_noNewline hl _)
    (List.append_cancel_left h)
  have hty := typeBody_inj hp.type hq.type h2
  have hps := hp.shown
  have hqs := hq.shown
  unfold shownProperty
  unfold dataLine at h hps hqs
  by_cases hs : p.type ∈ shownTypes
  · have hs' : q.type ∈ shownTypes := hty ▸ hs
    rw [if_pos hs] at h hps
    rw [if_pos hs'] at h hqs
    rw [if_pos hs, if_pos hs']
    cases hpd : p.data with
    | none => rw [hpd] at hps; exact absurd rfl hps
    | some b =>
    cases hqd : q.data with
    | none => rw [hqd] at hqs; exact absurd rfl hqs
    | some b' =>
    rw [hpd] at h hps
    rw [hqd] at h hqs
    dsimp only at h hps hqs
    cases hpt : dataText libs texts cp e p.type b with
    | none => rw [hpt] at hps; exact absurd rfl hps
    | some s =>
    cases hqt : dataText libs texts cp e q.type b' with
    | none => rw [hqt] at hqs; exact absurd rfl hqs
    | some s' =>
    rw [hpt, hqt] at h
    simp only [Option.map_some, Option.getD_some, e4, List.append_assoc] at h
    obtain ⟨h3, h⟩ := line_read (hp.line b s hpd hpt) (hq.line b' s' hqd hqt)
      (List.append_cancel_left h)
    refine ⟨?_, List.append_cancel_left h⟩
    show (p.id, p.type, dataText libs texts cp e p.type b) =
      (q.id, q.type, dataText libs texts cp e q.type b')
    rw [hpt, hqt, hid, hty, h3]
  · have hs' : q.type ∉ shownTypes := hty ▸ hs
    rw [if_neg hs, if_neg hs'] at h
    rw [if_neg hs, if_neg hs', hid, hty]
    exact ⟨rfl, List.append_cancel_left h⟩

theorem section_read {libs : InfoLibs} {texts : Texts} {cp : Int} {e : Endian}
    (hl : ∀ n, (0x0a : UInt8) ∉ libs.typeName n) (i : Nat) (s t : Section) (x y : Bytes)
    (hs : s.classId.length = 16 ∧ ∀ p ∈ s.properties, ReadableProperty libs texts cp e p)
    (ht : t.classId.length = 16 ∧ ∀ p ∈ t.properties, ReadableProperty libs texts cp e p)
    (h : piecesText (sectionPieces libs texts cp e i s) ++ x =
      piecesText (sectionPieces libs texts cp e i t) ++ y) :
    shownSection libs texts cp e s = shownSection libs texts cp e t ∧ x = y := by
  have e4 : ascii "\n\n" = ascii "\n" ++ ascii "\n" := by decide +kernel
  have hc : ∀ (o : Option Bytes) l, piecesText (o :: l) = o.getD [] ++ piecesText l := fun _ _ => rfl
  unfold sectionPieces at h
  simp only [hc, Option.getD_some, e4, List.append_assoc] at h
  have h := List.append_cancel_left (List.append_cancel_left (List.append_cancel_left
    (List.append_cancel_left h)))
  obtain ⟨h1, h⟩ := line_read (guidText_noNewline _) (guidText_noNewline _) h
  have hcls := guidText_inj hs.1 ht.1 h1
  obtain ⟨h2, h⟩ := line_read (numberText_noNewline _) (numberText_noNewline _)
    (List.append_cancel_left h)
  rw [← hcls, piecesText_flatten, piecesText_flatten] at h
  obtain ⟨h3, h4⟩ := list_read (shownProperty libs texts cp e) _
    (fun i a b x y => property_read hl s.classId i a b x y) s.properties t.properties (numberText_inj h2)
    hs.2 ht.2 x y (List.append_cancel_left h)
  unfold shownSection
  exact ⟨by rw [hcls, h3], h4⟩

/-- C78, what is printed can be read: sets with the same text have the same class identifiers and
  sections, with properties of the same identifiers, types and shown values in the same order, if the
  texts of the values have no end of line.  Without this condition it is false
  (C78_forged_violated). -/
theorem C78_readable_partial {libs : InfoLibs} {texts : Texts} {cp : Int} {e : Endian}
    (hl : ∀ n, (0x0a : UInt8) ∉ libs.typeName n) {s t : SetValue}
    (hs : ReadableSet libs texts cp e s) (ht : ReadableSet libs texts cp e t)
    (h : setText libs texts cp e s = setText libs texts cp e t) :
    s.classId = t.classId ∧
    s.sections.map (fun sec => (sec.classId, sec.properties.map (shownProperty libs texts cp e))) =
      t.sections.map (fun sec => (sec.classId, sec.properties.map (shownProperty libs texts cp e))) := by
  have e4 : ascii "\n\n" = ascii "\n" ++ ascii "\n" := by decide +kernel
  have hc : ∀ (o : Option Bytes) l, piecesText (o :: l) = o.getD [] ++ piecesText l := fun _ _ => rfl
  have h : piecesText (setPieces libs texts cp e s) ++ [] =
      piecesText (setPieces libs texts cp e t) ++ [] := congrArg (· ++ []) h
  unfold setPieces at h
  simp only [hc, Option.getD_some, e4, List.append_assoc] at h
  obtain ⟨h1, h⟩ := line_read (guidText_noNewline _) (guidText_noNewline _) (List.append_cancel_left h)
  obtain ⟨h2, h⟩ := line_read (numberText_noNewline _) (numberText_noNewline _)
    (List.append_cancel_left h)
  rw [piecesText_flatten, piecesText_flatten] at h
  exact ⟨guidText_inj hs.classId ht.classId h1,
    (list_read (shownSection libs texts cp e) _ (fun i a b x y => section_read hl i a b x y) s.sections
      t.sections (numberText_inj h2) (fun a ha => ⟨hs.sections a ha, hs.properties a ha⟩)
      (fun a ha => ⟨ht.sections a ha, ht.properties a ha⟩) [] [] (List.append_cancel_left h)).1⟩

/-- C78: the numbers can be read off what is shown of them. -/
theorem C78_numbers {libs : InfoLibs} {texts : Texts} {cp : Int} {e : Endian} {b b' : Bytes}
    {type : Nat} (h : dataText libs texts cp e type b = dataText libs texts cp e type b') :
    (type = 0x02 ∨ type = 0x12 → u16At e b 0 = u16At e b' 0) ∧
    (type = 0x03 ∨ type = 0x13 → u32At e b 0 = u32At e b' 0) ∧
    (type = 0x14 ∨ type = 0x15 → u64At e b 0 = u64At e b' 0) ∧
    (type = 0x0b → (byteAt b 0 = 0 ↔ byteAt b' 0 = 0)) := by
  have hsigned : ∀ {w m n : Nat}, m < 2 ^ w → n < 2 ^ w →
      some (intText (BitVec.ofNat w m).toInt) = some (intText (BitVec.ofNat w n).toInt) → m = n := by
    intro w m n hm hn h
    have := BitVec.eq_of_toInt_eq (intText_inj (Option.some.inj h))
    have := congrArg BitVec.toNat this
    rwa [BitVec.toNat_ofNat, BitVec.toNat_ofNat, Nat.mod_eq_of_lt hm, Nat.mod_eq_of_lt hn] at this
  have hplain : ∀ {m n : Nat}, some (numberText m) = some (numberText n) → m = n :=
    fun h => numberText_inj (Option.some.inj h)
  unfold dataText at h
  refine ⟨?_, ?_, ?_, ?_⟩
  · rintro (rfl | rfl)
    · exact hsigned (u16At_lt _ _ _) (u16At_lt _ _ _) h
    · exact hplain h
  · rintro (rfl | rfl)
    · exact hsigned (u32At_lt _ _ _) (u32At_lt _ _ _) h
    · exact hplain h
  · rintro (rfl | rfl)
    · exact hsigned (u64At_lt _ _ _) (u64At_lt _ _ _) h
    · exact hplain h
  · rintro rfl
    have hne : ascii "false" ≠ ascii "true" := by decide +kernel
    rw [if_pos rfl, if_pos rfl] at h
    have h := Option.some.inj h
    by_cases h1 : byteAt b 0 = 0 <;> by_cases h2 : byteAt b' 0 = 0
    · exact ⟨fun _ => h2, fun _ => h1⟩
    · rw [if_pos h1, if_neg h2] at h; exact absurd h hne
    · rw [if_neg h1, if_pos h2] at h; exact absurd h.symm hne
    · exact ⟨fun h => absurd h h1, fun h => absurd h h2⟩

/-! ### Examples -/

/-- Libraries for the examples: the texts of strings are their bytes, types and times are not written
  out, a string with the byte 0xff cannot be converted. -/
def plainTexts : Texts := fun _ b => if 0xff ∈ b ∨ SSIZE_MAX ≤ b.length then none else some b

def plainLibs : InfoLibs where
  guid b := some (guidText b)
  typeName _ := ascii "T"
  date _ := some (ascii "D")
  textSize enc b := (plainTexts enc b).map fun s => s.length + 1
  textCopy enc b n := (plainTexts enc b).bind fun s => if s.length + 1 ≤ n then some (s ++ [0]) else none

theorem plainLibs_is : IsInfoLibs plainLibs plainTexts where
  guid _ _ := rfl
  none enc b h := by
    show (plainTexts enc b).map _ = none
    rw [h]; rfl
  some enc b s h := by
    refine ⟨?_, ?_, ?_⟩
    · unfold plainTexts at h
      split at h
      · cases h
      · cases h; omega
    · show (plainTexts enc b).map _ = _
      rw [h]; rfl
    · show (plainTexts enc b).bind _ = _
      rw [h]
      exact if_pos (Nat.le_refl _)

/-- A set with summary information: a code page, a title, a number of pages, a time, a thumbnail. -/
def titleSet (title : Bytes) : SetValue :=
  { classId := List.replicate 16 0
    sections :=
      [ { classId := summaryClass
          properties :=
            [ ⟨1, 0x02, some [0xe4, 0x04]⟩,
              ⟨2, 0x1e, some title⟩,
              ⟨14, 0x03, some [0xff, 0xff, 0xff, 0xff]⟩,
              ⟨12, 0x40, some [1, 2, 3, 4, 5, 6, 7, 8]⟩,
              ⟨17, 0x47, some [9, 9, 9]⟩ ] } ] }

/-- Its text. -/
example : setText plainLibs plainTexts 1252 .little (titleSet (ascii "Tit" ++ [0])) = ascii
    ("\tClass identifier\t: 00000000-0000-0000-0000-000000000000\n\tNumber of sections\t: 1\n\n" ++
    "\tSection: 1\n\tClass identifier\t: f29f85e0-4ff9-1068-ab91-08002b27b3d9\n" ++
    "\tNumber of properties\t: 5\n\n" ++
    "\tProperty: 1\n\tValue identifier\t: PIDSI_CODEPAGE (0x00000001)\n" ++
    "\tValue type\t\t: T (0x00000002)\n\tValue data\t\t: 1252\n\n" ++
    "\tProperty: 2\n\tValue identifier\t: PIDSI_TITLE (0x00000002)\n" ++
    "\tValue type\t\t: T (0x0000001e)\n\tValue data\t\t: Tit\n\n" ++
    "\tProperty: 3\n\tValue identifier\t: PIDSI_PAGECOUNT (0x0000000e)\n" ++
    "\tValue type\t\t: T (0x00000003)\n\tValue data\t\t: -1\n\n" ++
    "\tProperty: 4\n\tValue identifier\t: PIDSI_CREATE_DTM (0x0000000c)\n" ++
    "\tValue type\t\t: T (0x00000040)\n\tValue data\t\t: D UTC\n\n" ++
    "\tProperty: 5\n\tValue identifier\t: PIDSI_THUMBNAIL (0x00000011)\n" ++
    "\tValue type\t\t: T (0x00000047)\n\n") := by
  decide +kernel

theorem titleSet_readable : ReadableSet plainLibs plainTexts 1252 .little
    (titleSet (ascii "Tit" ++ [0])) where
  classId := by decide +kernel
  sections := by decide +kernel
  properties := by
    intro sec hsec p hp
    simp only [titleSet, List.mem_cons, List.not_mem_nil, or_false] at hsec
    subst hsec
    simp only [List.mem_cons, List.not_mem_nil, or_false] at hp
    rcases hp with rfl | rfl | rfl | rfl | rfl <;>
    · refine ⟨by decide, by decide, by decide +kernel, ?_⟩
      intro b s hb hs
      cases hb
      revert hs
      have : ∀ o : Option Bytes, (∀ s ∈ o, (0x0a : UInt8) ∉ s) → ∀ {s}, o = some s →
          (0x0a : UInt8) ∉ s := fun o ho s hs => ho s (by rw [hs]; rfl)
      apply this
      decide +kernel

/-- A set whose text is that of this set has the same title, if it can be read (C78_readable_partial). -/
example (t : SetValue) (ht : ReadableSet plainLibs plainTexts 1252 .little t)
    (h : setText plainLibs plainTexts 1252 .little (titleSet (ascii "Tit" ++ [0])) =
      setText plainLibs plainTexts 1252 .little t) : ∃ sec ∈ t.sections, ∃ p ∈ sec.properties,
        shownProperty plainLibs plainTexts 1252 .little p = (2, 0x1e, some (ascii "Tit")) := by
  have h1 := (C78_readable_partial (by intro n; exact (by decide +kernel : (0x0a : UInt8) ∉ ascii "T"))
    titleSet_readable ht h).2
  have h2 : (summaryClass, [(1, 2, some (ascii "1252")), (2, 0x1e, some (ascii "Tit")),
      (14, 3, some (ascii "-1")), (12, 0x40, some (ascii "D UTC")), (17, 0x47, none)]) ∈
      (titleSet (ascii "Tit" ++ [0])).sections.map (fun sec =>
        (sec.classId, sec.properties.map (shownProperty plainLibs plainTexts 1252 .little))) := by
    decide +kernel
  rw [h1] at h2
  obtain ⟨sec, hsec, hk⟩ := List.mem_map.1 h2
  have h3 : (2, 0x1e, some (ascii "Tit")) ∈
      sec.properties.map (shownProperty plainLibs plainTexts 1252 .little) := by
    rw [(Prod.mk.inj hk).2]
    exact List.mem_cons_of_mem _ List.mem_cons_self
  obtain ⟨p, hp, he⟩ := List.mem_map.1 h3
  exact ⟨sec, hsec, p, hp, he⟩

/-- A set with two strings. -/
def twoStrings (a b : Bytes) : SetValue :=
  { classId := List.replicate 16 0
    sections := [⟨List.replicate 16 7, [⟨1, 0x1e, some (a ++ [0])⟩, ⟨1, 0x1e, some (b ++ [0])⟩]⟩] }

/-- C78 does not hold for values with ends of lines: two sets with different values have the same text,
  though all values can be shown.  The second property of one is part of a value of the other. -/
theorem C78_forged_violated : ∃ s t : SetValue, Showable plainLibs plainTexts 1252 .little s ∧
    Showable plainLibs plainTexts 1252 .little t ∧
    setText plainLibs plainTexts 1252 .little s = setText plainLibs plainTexts 1252 .little t ∧
    s.sections.map (fun sec => sec.properties.map (shownProperty plainLibs plainTexts 1252 .little)) ≠
    t.sections.map (fun sec => sec.properties.map (shownProperty plainLibs plainTexts 1252 .little)) := by
  refine ⟨twoStrings (ascii ("a\n\n\tProperty: 2\n\tValue identifier\t: 0x00000001\n" ++
      "\tValue type\t\t: T (0x0000001e)\n\tValue data\t\t: b")) (ascii "c"),
    twoStrings (ascii "a") (ascii ("b\n\n\tProperty: 2\n\tValue identifier\t: 0x00000001\n" ++
      "\tValue type\t\t: T (0x0000001e)\n\tValue data\t\t: c")), ?_, ?_, ?_, ?_⟩
  · unfold Showable
    decide +kernel
  · unfold Showable
    decide +kernel
  · decide +kernel
  · decide +kernel

/-- The pieces of a set with a title that cannot be converted. -/
theorem titleSet_hidden : ∃ pre post, none ∉ pre ∧
    setPieces plainLibs plainTexts 1252 .little (titleSet [0xff, 0]) = pre ++ none :: post ∧
    piecesText pre = ascii
      ("\tClass identifier\t: 00000000-0000-0000-0000-000000000000\n\tNumber of sections\t: 1\n\n" ++
      "\tSection: 1\n\tClass identifier\t: f29f85e0-4ff9-1068-ab91-08002b27b3d9\n" ++
      "\tNumber of properties\t: 5\n\n" ++
      "\tProperty: 1\n\tValue identifier\t: PIDSI_CODEPAGE (0x00000001)\n" ++
      "\tValue type\t\t: T (0x00000002)\n\tValue data\t\t: 1252\n\n" ++
      "\tProperty: 2\n\tValue identifier\t: PIDSI_TITLE (0x00000002)\n" ++
      "\tValue type\t\t: T (0x0000001e)\n") :=
  ⟨(setPieces plainLibs plainTexts 1252 .little (titleSet [0xff, 0])).take 5,
    (setPieces plainLibs plainTexts 1252 .little (titleSet [0xff, 0])).drop 6,
    by decide +kernel, by decide +kernel, by decide +kernel⟩

/-! ### A stored document with summary information -/

/-- A document with summary information and document summary information. -/
def officeDoc (title : Bytes) : List (Bytes × Doc) :=
  [ (storedName .little summaryChars, .stream (encodeSet .little (titleSet title))),
    (storedName .little documentSummaryChars,
      .stream (encodeSet .little (twoStrings (ascii "a") (ascii "b")))) ]

theorem titleSet_writable {title : Bytes} (h : title ∈ [ascii "Tit" ++ [0], [0xff, 0]]) :
    WritableSet .little (titleSet title) := by
  simp only [List.mem_cons, List.not_mem_nil, or_false] at h
  refine ⟨rfl, ?_, ?_, ?_⟩
  · intro sec hsec
    simp only [titleSet, List.mem_cons, List.not_mem_nil, or_false] at hsec
    subst hsec
    rfl
  · intro sec hsec p hp
    simp only [titleSet, List.mem_cons, List.not_mem_nil, or_false] at hsec
    subst hsec
    simp only [List.mem_cons, List.not_mem_nil, or_false] at hp
    rcases hp with rfl | rfl | rfl | rfl | rfl
    · exact ⟨by decide, by decide, .fixed (n := 2) (by decide) rfl rfl⟩
    · rcases h with rfl | rfl <;>
        exact ⟨by decide, by decide,
          .ascii rfl rfl (by decide +kernel) (by decide +kernel) (by decide +kernel)⟩
    · exact ⟨by decide, by decide, .fixed (n := 4) (by decide) rfl rfl⟩
    · exact ⟨by decide, by decide, .fixed (n := 8) (by decide) rfl rfl⟩
    · exact ⟨by decide, by decide, .sized (by decide) rfl (by decide) (by decide)⟩
  · rcases h with rfl | rfl <;> decide +kernel

theorem twoStrings_writable : WritableSet .little (twoStrings (ascii "a") (ascii "b")) := by
  refine ⟨by decide, by decide, ?_, by decide +kernel⟩
  intro sec hsec p hp
  simp only [twoStrings, List.mem_cons, List.not_mem_nil, or_false] at hsec
  subst hsec
  simp only [List.mem_cons, List.not_mem_nil, or_false] at hp
  rcases hp with rfl | rfl <;>
    exact ⟨by decide, by decide,
      .ascii rfl rfl (by decide +kernel) (by decide +kernel) (by decide +kernel)⟩

theorem officeDoc_storable {title : Bytes} (h : title ∈ [ascii "Tit" ++ [0], [0xff, 0]]) :
    Storable ⟨.little, 9, 6, 4096, {}⟩ (officeDoc title) := by
  have h2 : (encodeSet .little (twoStrings (ascii "a") (ascii "b"))).length ≤ 1000 := by decide +kernel
  have h1 : (encodeSet .little (titleSet title)).length ≤ 1000 := by
    simp only [List.mem_cons, List.not_mem_nil, or_false] at h
    rcases h with rfl | rfl <;> decide +kernel
  refine (C60_storable .little {} noMarks_fits (by simp [officeDoc]) ?_ ?_).2 ?_
  · have : ∀ n ∈ namesOfKids (officeDoc title), n.length ≤ 64 := by
      simp only [officeDoc, namesOfKids, Doc.names, List.append_nil]
      decide +kernel
    exact this
  · simp [officeDoc, countKids, Doc.count]
  · simp [officeDoc, streamsOfKids, Doc.streams]
    omega

theorem officeDoc_text (title : Bytes) : TextNames .little (.storage (officeDoc title)) := by
  refine textNames_storage ?_ ?_
  · intro k hk
    simp only [officeDoc, List.mem_cons, List.not_mem_nil, or_false] at hk
    rcases hk with rfl | rfl
    · exact ⟨⟨_, summaryChars_text.1, rfl⟩, textNames_stream _ _⟩
    · exact ⟨⟨_, summaryChars_text.2, rfl⟩, textNames_stream _ _⟩
  · show ([storedName .little summaryChars, storedName .little documentSummaryChars] : List Bytes).Nodup
    decide +kernel

/-- What is printed of this document (C78_run), with a title that can be converted, and with one that
  cannot: then the rest of the summary information and the document summary information are not shown,
  though they are stored as in the first case. -/
theorem C78_hidden_violated (signedChar blocks : Bool) (title : Bytes)
    (ht : title ∈ [ascii "Tit" ++ [0], [0xff, 0]]) :
    ∃ st, (openHandle (plainUna.cmp8 .little) (.user 1) 1 {} st).1 = .ok () ∧
    st.world.dev (.user 1) = Dev.ofBytes (encodeFile ⟨.little, 9, 6, 4096, {}⟩ (officeDoc title)) ∧
    ∃ t f n out, (openHandle (plainUna.cmp8 .little) (.user 1) 1 {} st).2.file.tree = some t ∧
      ∀ fuel, n ≤ fuel →
        infoMain ⟨plainUna, (openHandle (plainUna.cmp8 .little) (.user 1) 1 {} st).2.file.io, t,
          signedChar⟩ plainLibs (openHandle (plainUna.cmp8 .little) (.user 1) 1 {} st).2.file f fuel
          blocks (rootItem (some t)) =
        if title = [0xff, 0] then
          (out ++ ascii "Summary information:\n" ++ ascii
            ("\tClass identifier\t: 00000000-0000-0000-0000-000000000000\n\tNumber of sections\t: 1\n\n" ++
            "\tSection: 1\n\tClass identifier\t: f29f85e0-4ff9-1068-ab91-08002b27b3d9\n" ++
            "\tNumber of properties\t: 5\n\n" ++
            "\tProperty: 1\n\tValue identifier\t: PIDSI_CODEPAGE (0x00000001)\n" ++
            "\tValue type\t\t: T (0x00000002)\n\tValue data\t\t: 1252\n\n" ++
            "\tProperty: 2\n\tValue identifier\t: PIDSI_TITLE (0x00000002)\n" ++
            "\tValue type\t\t: T (0x0000001e)\n"), .err)
        else
          (out ++ ascii "Summary information:\n" ++
            setText plainLibs plainTexts 1252 .little (titleSet title) ++
            ascii "Document summary information:\n" ++
            setText plainLibs plainTexts 1252 .little (twoStrings (ascii "a") (ascii "b")), .ok ()) := by
  have hr : Reachable (plainUna.cmp8 .little) ⟨OleFile.new, { sampleWorld with
      dev := fun _ => Dev.ofBytes (encodeFile ⟨.little, 9, 6, 4096, {}⟩ (officeDoc title)) }⟩ :=
    ⟨_, [], ⟨rfl, rfl⟩, rfl⟩
  obtain ⟨h1, t, f, os, n, h2, h3, h4, h5⟩ := C78_run plainUna_isLibuna plainLibs_is signedChar blocks
    ⟨.little, 9, 6, 4096, {}⟩ (officeDoc title) (officeDoc_storable ht) (officeDoc_text title) _ hr rfl
    (.user 1) rfl 1 rfl (.present (s := titleSet title) List.mem_cons_self (titleSet_writable ht)
      (show 1 < 65536 by decide))
    (.present (s := twoStrings (ascii "a") (ascii "b")) (List.mem_cons_of_mem _ List.mem_cons_self)
      twoStrings_writable (by decide))
  have key : ∀ (head pre post : List (Option Bytes)) (T : Bytes), none ∉ head → none ∉ pre →
      shown (head ++ some T :: (pre ++ none :: post)) =
        (piecesText head ++ T ++ piecesText pre, .err) := by
    intro head pre post T h1 h2
    have e : head ++ some T :: (pre ++ none :: post) = (head ++ some T :: pre) ++ none :: post := by simp
    rw [e, shown_stops (by simp [h1, h2])]
    simp [piecesText]
  have key' : ∀ (head a b : List (Option Bytes)) (T U : Bytes), none ∉ head → none ∉ a → none ∉ b →
      shown (head ++ some T :: a ++ some U :: b) =
        (piecesText head ++ T ++ piecesText a ++ U ++ piecesText b, .ok ()) := by
    intro head a b T U h1 h2 h3
    rw [shown_all (by simp [h1, h2, h3])]
    simp [piecesText]
  refine ⟨_, h1, rfl, t, f, n, piecesText
    [some (fileText 3 62 (2 ^ 9) (2 ^ 6)),
      some (itemsText signedChar (.node (ascii "Root Entry")
        (containerOf ⟨.little, 9, 6, 4096, {}⟩ (officeDoc title)).length os)),
      some (if blocks then ascii "Unallocated blocks:\n\n" else [])], h2, fun fuel hf => ?_⟩
  rw [h5 fuel hf]
  have hcp : getCodepage OleFile.new = 1252 := rfl
  dsimp only
  rw [hcp]
  by_cases hx : title = [0xff, 0]
  · rw [if_pos hx]
    subst hx
    obtain ⟨pre, post, p1, p2, p3⟩ := titleSet_hidden
    rw [p2, ← p3, ← key _ pre (post ++ some (ascii "Document summary information:\n") ::
      setPieces plainLibs plainTexts 1252 .little (twoStrings (ascii "a") (ascii "b"))) _ (by simp) p1]
    simp only [List.cons_append, List.nil_append, List.append_assoc]
  · rw [if_neg hx]
    have hx : title = ascii "Tit" ++ [0] := by
      simp only [List.mem_cons, List.not_mem_nil, or_false] at ht
      exact ht.resolve_right hx
    subst hx
    exact key' _ _ _ _ _ (by simp) (by decide +kernel) (by decide +kernel)

/-! ### Unallocated blocks -/

end Olecf.Props
