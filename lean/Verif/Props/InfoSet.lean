import Verif.Lemmas.InfoSet
import Verif.Props.PropSet
import Verif.Props.SetWrite
import Verif.Props.Info

/-
  C78: what olecfinfo prints of property sets.
-/

namespace Olecf.Props
open Spec

/-! ### One property -/

theorem mapIdx_map (g : α → β) (F : Nat → β → γ) (l : List α) :
    (l.map g).mapIdx F = l.mapIdx fun i a => F i (g a) := by
  refine List.ext_getElem (by simp) fun i h1 h2 => ?_
  simp

theorem seen_of_data {p : PropValue} {b : Bytes} (h : p.data = .ok b) :
    (seenProperty p).data = some b := by
  unfold seenProperty
  rw [h]

/-- The printing of the data of a property that was read. -/
theorem infoValueData_shown {f : FileCtx} (h : WellFormedCtx f) {d : DirEntry} (hd : StreamOk f d)
    {e : Endian} {p : PropValue} (hp : ReadProperty f d e p) {libs : InfoLibs} {texts : Texts}
    (hl : IsInfoLibs libs texts) :
    (printThen (quiet (infoValueData libs p)) fun data =>
        printThen (printed (infoDataLine data)) fun _ => printed (ascii "\n")) =
      shown [dataLine libs texts f.io.codepage e (seenProperty p)] := by
  have hsome : ∀ s : Bytes, (printThen (quiet (Res.ok (some s))) fun data =>
        printThen (printed (infoDataLine data)) fun _ => printed (ascii "\n")) =
      shown [some (ascii "\tValue data\t\t: " ++ s ++ ascii "\n\n")] := by
    intro s
    have hnl : ascii "\n\n" = ascii "\n" ++ ascii "\n" := by decide +kernel
    rw [printThen_quiet, printThen_printed]
    simp [printed, infoDataLine, infoData, shown, hnl]
  have hfail : (printThen (quiet (Res.err : Res (Option Bytes))) fun data =>
        printThen (printed (infoDataLine data)) fun _ => printed (ascii "\n")) = shown [none] := rfl
  have hint : ∀ (n : Nat) (rd : Endian → Bytes → Nat → Res Nat) (dec : Endian → Bytes → Nat → Nat)
      (g : Nat → Bytes) (get : Res Nat), (p.type, n) ∈ fixedTypes →
      (∀ e b, b.length = n → rd e b 0 = .ok (dec e b 0)) → get = p.copyInt n rd →
      (∀ b, p.type ∈ shownTypes ∧
        dataText libs texts f.io.codepage e p.type b = some (g (dec e b 0))) →
      infoValueData libs p = (get >>= fun v => pure (some (g v))) →
      (printThen (quiet (infoValueData libs p)) fun data =>
        printThen (printed (infoDataLine data)) fun _ => printed (ascii "\n")) =
      shown [dataLine libs texts f.io.codepage e (seenProperty p)] := by
    intro n rd dec g get hn hrd hget hdt hv
    obtain ⟨b, hb, hc⟩ := copyInt_iff h hd hp hn hrd
    rw [hv, hget, hc]
    refine (hsome _).trans ?_
    unfold dataLine
    rw [seen_of_data hb]
    have ht : (seenProperty p).type = p.type := rfl
    simp only [ht]
    rw [if_pos (hdt b).1, (hdt b).2]
    rfl
  by_cases h1 : p.type = 0x0b
  · refine hint 1 (fun _ => rdByte) (fun _ => byteAt)
      (fun v => if v ≠ 0 then ascii "true" else ascii "false") p.asBoolean (by rw [h1]; decide)
      (fun e b hb => rdByte_lt (by omega)) (by unfold PropValue.asBoolean; rw [if_neg (by simp [h1])])
      (fun b => ⟨by rw [h1]; decide, ?_⟩) (by unfold infoValueData; simp only [h1])
    rw [h1]
    unfold dataText
    rw [if_pos rfl]
    by_cases hb0 : byteAt b 0 = 0 <;> simp [hb0]
  by_cases h2 : p.type = 0x02
  · refine hint 2 rd16 u16At (signedText 16) p.as16 (by rw [h2]; decide)
      (fun e b hb => rd16_ok e (by omega)) (by unfold PropValue.as16; rw [if_neg (by simp [h2])])
      (fun b => ⟨by rw [h2]; decide, ?_⟩) (by unfold infoValueData; simp only [h2])
    rw [h2]
    unfold dataText
    rw [if_neg (by decide), if_pos rfl, signedText_eq (by decide) (u16At_lt e b 0)]
  by_cases h3 : p.type = 0x03
  · refine hint 4 rd32 u32At (signedText 32) p.as32 (by rw [h3]; decide)
      (fun e b hb => rd32_ok e (by omega)) (by unfold PropValue.as32; rw [if_neg (by simp [h3])])
      (fun b => ⟨by rw [h3]; decide, ?_⟩) (by unfold infoValueData; simp only [h3])
    rw [h3]
    unfold dataText
    rw [if_neg (by decide), if_neg (by decide), if_pos rfl,
      signedText_eq (by decide) (u32At_lt e b 0)]
  by_cases h4 : p.type = 0x14
  · refine hint 8 rd64 u64At (signedText 64) p.as64 (by rw [h4]; decide)
      (fun e b hb => rd64_ok e (by omega)) (by unfold PropValue.as64; rw [if_neg (by simp [h4])])
      (fun b => ⟨by rw [h4]; decide, ?_⟩) (by unfold infoValueData; simp only [h4])
    rw [h4]
    unfold dataText
    rw [if_neg (by decide), if_neg (by decide), if_neg (by decide), if_pos rfl,
      signedText_eq (by decide) (u64At_lt e b 0)]
  by_cases h5 : p.type = 0x12
  · refine hint 2 rd16 u16At decimal p.as16 (by rw [h5]; decide)
      (fun e b hb => rd16_ok e (by omega)) (by unfold PropValue.as16; rw [if_neg (by simp [h5])])
      (fun b => ⟨by rw [h5]; decide, ?_⟩) (by unfold infoValueData; simp only [h5])
    rw [h5, numberText_eq]
    rfl
  by_cases h6 : p.type = 0x13
  · refine hint 4 rd32 u32At decimal p.as32 (by rw [h6]; decide)
      (fun e b hb => rd32_ok e (by omega)) (by unfold PropValue.as32; rw [if_neg (by simp [h6])])
      (fun b => ⟨by rw [h6]; decide, ?_⟩) (by unfold infoValueData; simp only [h6])
    rw [h6, numberText_eq]
    rfl
  by_cases h7 : p.type = 0x15
  · refine hint 8 rd64 u64At decimal p.as64 (by rw [h7]; decide)
      (fun e b hb => rd64_ok e (by omega)) (by unfold PropValue.as64; rw [if_neg (by simp [h7])])
      (fun b => ⟨by rw [h7]; decide, ?_⟩) (by unfold infoValueData; simp only [h7])
    rw [h7, numberText_eq]
    rfl
  have hstring : ∀ enc : Encoding, p.type = 0x1e ∨ p.type = 0x1f →
      (∀ b, dataText libs texts f.io.codepage e p.type b =
        (texts enc b).map fun s => s.takeWhile (· ≠ 0)) →
      valueEncoding f.io e p.type = enc →
      (printThen (quiet (infoValueData libs p)) fun data =>
        printThen (printed (infoDataLine data)) fun _ => printed (ascii "\n")) =
      shown [dataLine libs texts f.io.codepage e (seenProperty p)] := by
    intro enc ht hdt henc
    obtain ⟨sec, pos, -, -, -, -, -, hen, -⟩ := readProperty_read h hd hp
    have hv : infoValueData libs p = (infoString libs p >>= fun s => pure (some s)) := by
      unfold infoValueData
      rcases ht with ht | ht <;> simp only [ht]
    have hty : (seenProperty p).type = p.type := rfl
    have hsh : p.type ∈ shownTypes := by rcases ht with ht | ht <;> rw [ht] <;> decide
    have has : ∀ {α : Type} (conv : Encoding → Bytes → Res α), p.asString conv =
        match (seenProperty p).data with
        | some b => conv enc b
        | none => .err := by
      intro α conv
      unfold PropValue.asString
      rw [if_neg (by simp only [typeAscii, typeUnicode]; omega), seen_data]
      rcases p with ⟨id, t, v⟩
      rcases v with _ | ⟨en, _ | b⟩
      · rfl
      · rfl
      · have : en = valueEncoding f.io e t := hen
        have henc' : valueEncoding f.io e t = enc := henc
        show conv en b = conv enc b
        rw [this, henc']
    rw [hv]
    unfold infoString dataLine
    rw [has, hty, if_pos hsh]
    cases hdat : (seenProperty p).data with
    | none => exact hfail
    | some b =>
      simp only [has, hdat, hdt]
      cases htx : texts enc b with
      | none =>
        rw [hl.none enc b htx]
        exact hfail
      | some s =>
        obtain ⟨hlt, hsz, hcp⟩ := hl.some enc b s htx
        rw [hsz]
        simp only [ofUna, bind, Res.bind]
        rw [if_neg (by omega), hcp]
        simp only []
        rw [printString_text]
        exact hsome _
  by_cases h8 : p.type = 0x1e
  · exact hstring (.codepage f.io.codepage) (.inl h8) (fun b => by rw [h8]; rfl) (by rw [h8]; rfl)
  by_cases h9 : p.type = 0x1f
  · exact hstring .utf16le (.inr h9) (fun b => by rw [h9]; rfl) (by rw [h9]; rfl)
  by_cases h10 : p.type = 0x40
  · obtain ⟨b, hb, hc⟩ := copyInt_iff h hd hp (n := 8) (by rw [h10]; decide) (rd := rd64) (dec := u64At)
      (fun e b hb => rd64_ok e (by omega))
    have hv : infoValueData libs p = (do
        let v ← p.asFiletime
        let s ← ofUna (libs.date v)
        pure (some (s ++ ascii " UTC"))) := by
      unfold infoValueData
      simp only [h10]
    have hf : p.asFiletime = .ok (u64At e b 0) := by
      unfold PropValue.asFiletime
      rw [if_neg (by simp [h10]), hc]
    have hty : (seenProperty p).type = 0x40 := h10
    rw [hv, hf]
    unfold dataLine
    rw [seen_of_data hb, hty, if_pos (by decide)]
    have hdt : dataText libs texts f.io.codepage e 0x40 b =
        (libs.date (u64At e b 0)).map fun s => s ++ ascii " UTC" := rfl
    simp only [hdt]
    cases hdate : libs.date (u64At e b 0) with
    | none =>
      simp only [ofUna, bind, Res.bind, hdate]
      exact hfail
    | some s =>
      simp only [ofUna, bind, Res.bind, hdate]
      exact hsome _
  · have hty : (seenProperty p).type = p.type := rfl
    have hv : infoValueData libs p = .ok none := by
      unfold infoValueData
      split <;> first | rfl | contradiction
    rw [hv, printThen_quiet, show infoDataLine none = [] from rfl, printThen_nil]
    unfold dataLine
    rw [if_neg (by rw [hty]; simp [shownTypes, h1, h2, h3, h4, h5, h6, h7, h8, h9, h10])]
    rfl

/-- The printing of a property that was read. -/
theorem infoValue_shown {f : FileCtx} (h : WellFormedCtx f) {d : DirEntry} (hd : StreamOk f d)
    {e : Endian} {p : PropValue} (hp : ReadProperty f d e p) {libs : InfoLibs} {texts : Texts}
    (hl : IsInfoLibs libs texts) {cls : Bytes} (hc : cls.length = 16) (i : Nat) :
    (printThen (printed (ascii "\tProperty: " ++ decimal (i + 1) ++ ascii "\n")) fun _ =>
        infoValue libs cls p) =
      shown (propertyPieces libs texts f.io.codepage e cls i (seenProperty p)) := by
  have h1 : infoIdentifier (identifierName cls p.type p.identifier) p.identifier =
      identifierLine cls (seenProperty p) := by
    rw [identifierName_eq hc]
    have : ascii " (0x" = ascii " (" ++ ascii "0x" := by decide +kernel
    have hid : (seenProperty p).id = p.identifier := rfl
    have hty : (seenProperty p).type = p.type := rfl
    unfold infoIdentifier identifierLine
    rw [hid, hty]
    cases propertyName cls p.type p.identifier with
    | none => simp [hex32_eq]
    | some n => simp [hex32_eq, this]
  have h2 : infoType libs p.type = typeLine libs (seenProperty p) := by
    unfold infoType typeLine
    rw [hex32_eq]
    rfl
  have h3 := infoValueData_shown h hd hp hl
  unfold infoValue propertyPieces
  rw [h3, h1, h2, shown_some]
  simp [printThen_printed, numberText_eq]

/-! ### A property set -/

theorem infoHead_text {libs : InfoLibs} {texts : Texts} (hl : IsInfoLibs libs texts) {cls : Bytes}
    (hc : cls.length = 16) (label : Bytes) (n : Nat) (g : Bytes → Printed β) :
    printThen (infoHead libs cls label n) g =
      printThen (printed (ascii "\tClass identifier\t: " ++ guidText cls ++ ascii "\n" ++
        (label ++ numberText n ++ ascii "\n\n"))) fun _ => g cls := by
  have hnl : ascii "\n\n" = ascii "\n" ++ ascii "\n" := by decide +kernel
  have hcc : copyClassId cls 16 = .ok cls := by
    unfold copyClassId
    rw [if_neg (by decide)]
  unfold infoHead
  rw [hcc, printThen_quiet, hl.guid cls hc]
  simp only [ofUna, printThen_quiet, printThen_assoc]
  rw [hnl, ← numberText_eq, Int.toNat_natCast]
  simp [printThen_printed]

theorem arrayGet_ok {l : List α} {i : Nat} {a : α} (h : l[i]? = some a) : arrayGet l i = .ok a := by
  unfold arrayGet
  rw [if_neg (by omega), Int.toNat_natCast, h]

/-- The printing of a section that was read. -/
theorem infoSection_shown {f : FileCtx} (h : WellFormedCtx f) {d : DirEntry} (hd : StreamOk f d)
    {e : Endian} {s : PropSection} (hp : ∀ p ∈ s.properties, ReadProperty f d e p)
    (hc : s.classId.length = 16) {libs : InfoLibs} {texts : Texts} (hl : IsInfoLibs libs texts) (i : Nat) :
    (printThen (printed (ascii "\tSection: " ++ decimal (i + 1) ++ ascii "\n")) fun _ =>
        infoSection libs s) =
      shown (sectionPieces libs texts f.io.codepage e i (seenSection s)) := by
  unfold infoSection sectionPieces
  have hn : s.numberOfProperties = ((s.properties.length : Nat) : Int) := rfl
  rw [hn, infoHead_text hl hc, Int.toNat_natCast,
    infoElements_shown (title := ascii "\tProperty: ") (get := s.property)
      (f := infoValue libs s.classId) s.properties 0
      (fun j p => propertyPieces libs texts f.io.codepage e s.classId j (seenProperty p))
      (fun j p hj => by rw [Nat.zero_add]; exact arrayGet_ok hj)
      (fun j p hj => by
        rw [Nat.zero_add]
        exact infoValue_shown h hd (hp p (List.mem_of_getElem? hj)) hl hc j)]
  have hm : (seenSection s).properties.mapIdx (propertyPieces libs texts f.io.codepage e
      (seenSection s).classId) =
      s.properties.mapIdx fun j p =>
        propertyPieces libs texts f.io.codepage e s.classId j (seenProperty p) := by
    show (s.properties.map seenProperty).mapIdx _ = _
    rw [mapIdx_map]
    rfl
  have hlen : (seenSection s).properties.length = s.properties.length := List.length_map _
  rw [shown_some, hm, hlen]
  simp [printThen_printed, seenSection, numberText_eq]

/-- C78: what is printed of a property set that was read: class identifiers, numbers, and for every
  property the identifier with its name, the type and the value, up to the first value that cannot be
  shown; the call succeeds if there is none. -/
theorem C78_set_listed {f : FileCtx} (h : WellFormedCtx f) {d : DirEntry} (hd : StreamOk f d)
    {libs : InfoLibs} {texts : Texts} (hl : IsInfoLibs libs texts) {cur : Nat} {ps : PropSet} {c : Int}
    (hr : readSet f d cur = (.ok ps, c)) {b : Bytes} {e : Endian}
    (hb : streamContent f d 0 28 = some b) (hm : b.take 2 = setMark e) :
    infoSet libs ps = shown (setPieces libs texts f.io.codepage e (seenSet ps)) := by
  obtain ⟨b', e', hb', hm', hcls, hsl⟩ := (readSet_ok h hd).1 hr
  rw [hb] at hb'
  cases hb'
  rw [hm] at hm'
  cases setMark_inj hm'
  obtain ⟨-, s2, -⟩ := sectionsLoop_sound h hd _ 28 28 _ _ (by omega) hsl
  have hlen28 : b.length = 28 := streamContent_length hb
  have hc : ps.classId.length = 16 := by
    rw [← hcls, List.length_take, List.length_drop]
    omega
  have hsec : ∀ s ∈ ps.sections, s.classId.length = 16 := by
    intro s hs
    obtain ⟨i, hi⟩ := List.getElem?_of_mem hs
    obtain ⟨b', hb', hcl, -⟩ := s2 i s hi
    have := streamContent_length hb'
    rw [← hcl, List.length_take]
    omega
  have hprop : ∀ s ∈ ps.sections, ∀ p ∈ s.properties, ReadProperty f d e p :=
    fun s hs p hp => ⟨cur, ps, c, s, b, hr, hs, hp, hb, hm⟩
  unfold infoSet setPieces
  have hn : ps.numberOfSections = ((ps.sections.length : Nat) : Int) := rfl
  rw [hn, infoHead_text hl hc, Int.toNat_natCast,
    infoElements_shown (title := ascii "\tSection: ") (get := ps.section_)
      (f := infoSection libs) ps.sections 0
      (fun j s => sectionPieces libs texts f.io.codepage e j (seenSection s))
      (fun j s hj => by rw [Nat.zero_add]; exact arrayGet_ok hj)
      (fun j s hj => by
        rw [Nat.zero_add]
        have hmem := List.mem_of_getElem? hj
        exact infoSection_shown h hd (hprop s hmem) (hsec s hmem) hl j)]
  have hmi : (seenSet ps).sections.mapIdx (sectionPieces libs texts f.io.codepage e) =
      ps.sections.mapIdx fun j s => sectionPieces libs texts f.io.codepage e j (seenSection s) := by
    show (ps.sections.map seenSection).mapIdx _ = _
    rw [mapIdx_map]
  have hlen : (seenSet ps).sections.length = ps.sections.length := List.length_map _
  rw [shown_some, hmi, hlen]
  rfl

/-- The pieces can all be shown exactly if what the types demand can be shown. -/
theorem setPieces_showable {libs : InfoLibs} {texts : Texts} {cp : Int} {e : Endian} {s : SetValue} :
    none ∉ setPieces libs texts cp e s ↔ Showable libs texts cp e s := by
  unfold setPieces Showable
  simp only [List.mem_cons, reduceCtorEq, false_or, List.mem_flatten, not_exists, not_and]
  constructor
  · intro h sec hsec p hp hn
    obtain ⟨i, hi⟩ := List.getElem?_of_mem hsec
    obtain ⟨j, hj⟩ := List.getElem?_of_mem hp
    refine h (sectionPieces libs texts cp e i sec) (List.mem_iff_getElem?.2 ⟨i, ?_⟩) ?_
    · rw [List.getElem?_mapIdx, hi]; rfl
    · unfold sectionPieces
      refine List.mem_cons_of_mem _ (List.mem_flatten.2
        ⟨propertyPieces libs texts cp e sec.classId j p, List.mem_iff_getElem?.2 ⟨j, ?_⟩, ?_⟩)
      · rw [List.getElem?_mapIdx, hj]; rfl
      · unfold propertyPieces
        rw [hn]
        simp
  · intro h l hl hn
    obtain ⟨i, hi⟩ := List.mem_iff_getElem?.1 hl
    rw [List.getElem?_mapIdx, Option.map_eq_some_iff] at hi
    obtain ⟨sec, hsec, rfl⟩ := hi
    unfold sectionPieces at hn
    rcases List.mem_cons.1 hn with hn | hn
    · cases hn
    · obtain ⟨l, hl, hn⟩ := List.mem_flatten.1 hn
      obtain ⟨j, hj⟩ := List.mem_iff_getElem?.1 hl
      rw [List.getElem?_mapIdx, Option.map_eq_some_iff] at hj
      obtain ⟨p, hp, rfl⟩ := hj
      unfold propertyPieces at hn
      simp only [List.mem_cons, reduceCtorEq, List.not_mem_nil, or_false, false_or] at hn
      exact h sec (List.mem_of_getElem? hsec) p (List.mem_of_getElem? hp) hn.symm

/-- C78: all of the text of a property set that was read is printed exactly if all values whose types are
  to be shown can be shown; otherwise the call fails. -/
theorem C78_success {f : FileCtx} (h : WellFormedCtx f) {d : DirEntry} (hd : StreamOk f d)
    {libs : InfoLibs} {texts : Texts} (hl : IsInfoLibs libs texts) {cur : Nat} {ps : PropSet} {c : Int}
    (hr : readSet f d cur = (.ok ps, c)) {b : Bytes} {e : Endian}
    (hb : streamContent f d 0 28 = some b) (hm : b.take 2 = setMark e) :
    (Showable libs texts f.io.codepage e (seenSet ps) →
      infoSet libs ps = (setText libs texts f.io.codepage e (seenSet ps), .ok ())) ∧
    (¬ Showable libs texts f.io.codepage e (seenSet ps) → (infoSet libs ps).2 = .err) := by
  rw [C78_set_listed h hd hl hr hb hm]
  constructor
  · intro hs
    exact shown_all (setPieces_showable.2 hs)
  · intro hs
    rcases shown_safe (setPieces libs texts f.io.codepage e (seenSet ps)) with h1 | h1
    · exact absurd (setPieces_showable.1 (shown_ok.1 h1)) hs
    · exact h1

/-- C78: whatever a stream contains, the printing of its property set is defined. -/
theorem C78_safe {f : FileCtx} (h : WellFormedCtx f) {it : Item} (hd : StreamOk f it.entry)
    {libs : InfoLibs} {texts : Texts} (hl : IsInfoLibs libs texts) :
    (infoSetStream libs f it).2 = .ok () ∨ (infoSetStream libs f it).2 = .err := by
  have hdef := (C53_defined h hd 0).1
  unfold infoSetStream
  cases hr : readSet f it.entry ((0 : Nat) : Int) with
  | mk r c =>
    rw [hr] at hdef
    cases r with
    | err => exact .inr rfl
    | ub => exact hdef.elim
    | hang => exact hdef.elim
    | ok ps =>
      obtain ⟨b, e, hb, hm, -⟩ := (readSet_ok h hd).1 hr
      rw [show ((Res.ok ps, c) : Res PropSet × Int).1 = .ok ps from rfl, printThen_quiet,
        C78_set_listed h hd hl hr hb hm]
      exact shown_safe _

/-! ### The summary information of a stored document -/

/-- The names of the two streams. -/
def summaryChars : List Nat := 5 :: "SummaryInformation".toList.map Char.toNat
def documentSummaryChars : List Nat := 5 :: "DocumentSummaryInformation".toList.map Char.toNat

theorem summaryChars_text : NameText summaryChars ∧ NameText documentSummaryChars := by
  constructor <;> decide +kernel

theorem summaryStream_eq : summaryStream = summaryChars.flatMap encode8 ∧
    documentSummaryStream = documentSummaryChars.flatMap encode8 := by
  constructor <;> decide +kernel

/-- What is to be printed of a stream in the root of a document: nothing if there is no stream of this
  name, the title and the property set if there is one. -/
inductive SummaryPieces (libs : InfoLibs) (texts : Texts) (cp : Int) (order : Endian)
    (kids : List (Bytes × Doc)) (name : List Nat) (title : Bytes) : List (Option Bytes) → Prop
  | absent : (∀ k, (storedName order name, k) ∉ kids) →
      SummaryPieces libs texts cp order kids name title []
  | present {s : SetValue} : (storedName order name, .stream (encodeSet .little s)) ∈ kids →
      WritableSet .little s → s.sections.length < 65536 →
      SummaryPieces libs texts cp order kids name title
        (some title :: setPieces libs texts cp .little s)

theorem summary_shown {u : Libuna} (hu : IsLibuna u) {libs : InfoLibs} {texts : Texts}
    (hl : IsInfoLibs libs texts) {e : Endian} {t : Tree} {f : FileCtx} {kids : List (Bytes × Doc)}
    (hs : Shows t f ⟨none, t.root⟩ (.storage kids)) (hd : TextNames e (.storage kids))
    (hwf : WellFormedCtx f) (hfits : ∀ p x, itemAt t p = some x → EntryFits x.entry)
    (he : f.io.byteOrder = e) {name : List Nat} (hname : NameText name) {title : Bytes}
    {pieces : List (Option Bytes)} (signedChar : Bool)
    (hp : SummaryPieces libs texts f.io.codepage e kids name title pieces) :
    infoSummary ⟨u, f.io, t, signedChar⟩ libs f (name.flatMap encode8) title (rootItem (some t)) =
      shown pieces := by
  have c8 : ComparesText e encode8 (u.cmp8 e) := fun a b ha hb => (hu.cmp8 e a b ha hb).1
  show printThen (quiet (getSubItemByName (u.cmp8 f.io.byteOrder) t ⟨none, t.root⟩
    (name.flatMap encode8))) _ = _
  rw [he]
  cases hp with
  | absent hno =>
    rw [(shown_name hs hd hname).2 (fun kids' k h => by cases h; exact hno k) _ _ _ c8, printThen_quiet]
    rfl
  | @present s hk hw hn =>
    obtain ⟨x, hx, -, hfind⟩ := (shown_name hs hd hname).1 kids _ rfl hk
    have hfx := hfind _ _ _ c8
    rw [hfx, printThen_quiet, shown_some]
    show printThen (printed title) (fun _ => infoSetStream libs f x) = _
    refine congrArg _ (funext fun _ => ?_)
    obtain ⟨i, hi, -⟩ := ((C21_name_lookup (u.cmp8 e) t ⟨none, t.root⟩ _).1 _).1 hfx
    have hat : itemAt t [i] = some x := (itemFrom_snoc t [] _ i x).2 ⟨_, rfl, hi⟩
    cases hx with
    | stream htype _ hsize hread =>
      have hsz := hw.size
      have hu : 0 < unitOf f x.entry := by
        unfold unitOf
        split
        · exact hwf.short.1
        · exact hwf.ss.1
      have hok : StreamOk f x.entry := by
        refine ⟨hfits _ _ hat, htype, ?_⟩
        have := Nat.mul_le_mul_right 2147483647 hu
        omega
      have hcov : Covers (streamContent f x.entry) (bytesContent (encodeSet .little s)) := by
        intro pos n b hb
        unfold bytesContent at hb
        split at hb
        · next hle =>
          cases hb
          unfold streamContent
          rw [hread pos n (by omega)]
          simp only []
          rw [if_pos (by rw [List.length_take, List.length_drop]; omega)]
        · cases hb
      have hhold := hcov.holdsSet (encodeSet_holds hw)
      obtain ⟨ps, q, hr, hseen⟩ :=
        C38_set_read_as_serialised_partial hwf hok (by omega) hhold hn 0
      obtain ⟨b, hb, hm, -⟩ := hhold
      unfold infoSetStream
      have hr' : readSet f x.entry 0 = (.ok ps, q) := hr
      rw [hr', show ((Res.ok ps, q) : Res PropSet × Int).1 = .ok ps from rfl, printThen_quiet,
        C78_set_listed hwf hok hl hr hb hm, hseen]

/-- The numbers in the header of an opened file, and the code page, which opening does not change. -/
theorem opened_numbers {cmp : Bytes → Bytes → Option Bool} {st : FileState} (hr : Reachable cmp st)
    {h : HandleId} {content : Bytes} (hdev : st.world.dev h = Dev.ofBytes content) {e : Endian}
    {hf : HeaderFields} (hfits : hf.Fits) (hpre : encodeHeader e hf <+: content) {flags : Nat}
    {flt : Faults} (hok : (openHandle cmp h flags flt st).1 = .ok ()) :
    getFormatVersion (openHandle cmp h flags flt st).2.file = (hf.major, hf.minor) ∧
    (openHandle cmp h flags flt st).2.file.io.sectorSize = 2 ^ hf.sectorExp ∧
    (openHandle cmp h flags flt st).2.file.io.shortSectorSize = 2 ^ hf.shortExp ∧
    getCodepage (openHandle cmp h flags flt st).2.file = getCodepage st.file := by
  obtain ⟨l, hdr, t0, list, tree, ho, _, _⟩ := openHandle_loaded (reachable_inv hr).closed hok
  have hh := ho.hheader
  rw [hdev] at hh
  have hlen : (encodeHeader e hf).length = 512 := encodeHeader_length e hf hfits
  have hget : (Dev.ofBytes content).get 0 512 = some (encodeHeader e hf) := by
    obtain ⟨r, rfl⟩ := hpre
    unfold Dev.get Dev.ofBytes
    dsimp only
    rw [List.drop_zero, List.take_append_of_le_length (by omega), List.take_of_length_le (by omega),
      if_pos hlen]
  unfold headerRead at hh
  rw [hget] at hh
  dsimp only at hh
  rw [C02_header_roundtrip e hf hfits] at hh
  have hhdr : hdr = parsedFields e hf := by cases hh; rfl
  unfold getFormatVersion getCodepage
  rw [ho.hio, hhdr]
  cases (createTree list cmp).shortStart <;> exact ⟨rfl, rfl, rfl, rfl⟩

/-- C78, the output of olecfinfo: for a stored document with Unicode names, with or without streams with
  the summary information and the document summary information, the tool prints the information on the
  file, the list of items (C77), with the option `-a` a title for unallocated blocks, and the two property
  sets under their titles, up to the first value that cannot be shown.  The code page is the one set for
  the file. -/
theorem C78_run {u : Libuna} (hu : IsLibuna u) {libs : InfoLibs} {texts : Texts}
    (hl : IsInfoLibs libs texts) (signedChar blocks : Bool) (w : Writer)
    (kids : List (Bytes × Doc)) (hst : Storable w kids) (hn : TextNames w.order (.storage kids))
    (st : FileState) (hr : Reachable (u.cmp8 w.order) st) (hclosed : st.file.handle = none)
    (h : HandleId) (hdev : st.world.dev h = Dev.ofBytes (encodeFile w kids))
    (flags : Nat) (hfl : flags % 4 = 1) {summary documentSummary : List (Option Bytes)}
    (h1 : SummaryPieces libs texts (getCodepage st.file) w.order kids summaryChars
      (ascii "Summary information:\n") summary)
    (h2 : SummaryPieces libs texts (getCodepage st.file) w.order kids documentSummaryChars
      (ascii "Document summary information:\n") documentSummary) :
    (openHandle (u.cmp8 w.order) h flags {} st).1 = .ok () ∧
    ∃ t f os n, (openHandle (u.cmp8 w.order) h flags {} st).2.file.tree = some t ∧
      (openHandle (u.cmp8 w.order) h flags {} st).2.file.ctx
        ((openHandle (u.cmp8 w.order) h flags {} st).2.world.dev h) = some f ∧
      Depicts w.order (.storage kids) (.node (ascii "Root Entry") 0 os) ∧
      ∀ fuel, n ≤ fuel →
        infoMain ⟨u, (openHandle (u.cmp8 w.order) h flags {} st).2.file.io, t, signedChar⟩ libs
          (openHandle (u.cmp8 w.order) h flags {} st).2.file f fuel blocks (rootItem (some t)) =
        shown ([some (fileText w.marks.major w.marks.minor (2 ^ w.sectorExp) (2 ^ w.shortExp)),
          some (itemsText signedChar (.node (ascii "Root Entry") (containerOf w kids).length os)),
          some (if blocks then ascii "Unallocated blocks:\n\n" else [])] ++ summary ++
          documentSummary) := by
  obtain ⟨hok, t, os, n, ht, hdep, hitems⟩ :=
    C77_written_document_listed hu signedChar w kids hst hn st hr hclosed h hdev flags hfl
  have hcmp : ∀ n ∈ namesOfKids kids, Comparable (u.cmp8 w.order) n := by
    intro n hm
    obtain ⟨path, d, hd⟩ := namesOfKids_docAt kids n hm
    obtain ⟨cs, h1, rfl⟩ := hn.text path n d hd
    exact text_comparable hu h1
  obtain ⟨-, t', f, root, ht', hctx, hroot, hshow, -⟩ :=
    C60_written_document_shown w kids hst _ hcmp st hr hclosed h hdev flags hfl
  rw [ht] at ht'
  cases ht'
  cases hroot
  refine ⟨hok, t, f, os, n, ht, hctx, hdep, fun fuel hfuel => ?_⟩
  obtain ⟨f', list, m, hctx', -, hwf, -, -, -, -, -, -, hfits, hmem⟩ :=
    C52_opened_well_formed _ h flags {} st (reachable_inv hr).closed hok t ht
  rw [hctx] at hctx'
  cases hctx'
  have hio : (openHandle (u.cmp8 w.order) h flags {} st).2.file.io = f.io := by
    unfold OleFile.ctx at hctx
    split at hctx
    · cases hctx; rfl
    · cases hctx
  have hlay := encodeFile_layout hst
  have hbo := opened_byteOrder hr hdev hlay.fits hlay.header hok
  obtain ⟨hver, hss, hsss, hcp⟩ := opened_numbers hr hdev hlay.fits hlay.header hok
  have hcp' : f.io.codepage = getCodepage st.file := by rw [← hcp, ← hio]; rfl
  rw [← hcp'] at h1 h2
  have hfit' : ∀ p x, itemAt t p = some x → EntryFits x.entry :=
    fun p x hp => (hfits _ (hmem p x hp)).1
  have s1 := summary_shown hu hl hshow hn hwf hfit' (hio ▸ hbo) summaryChars_text.1 signedChar h1
  have s2 := summary_shown hu hl hshow hn hwf hfit' (hio ▸ hbo) summaryChars_text.2 signedChar h2
  have hpow : ∀ k, k ≤ 15 → ¬ 2 ^ k > 2 ^ 32 - 1 := by
    intro k hk
    have := Nat.pow_le_pow_right (n := 2) (by decide) hk
    omega
  have hfile : infoFile (openHandle (u.cmp8 w.order) h flags {} st).2.file =
      printed (fileText w.marks.major w.marks.minor (2 ^ w.sectorExp) (2 ^ w.shortExp)) := by
    have e1 : ascii "OLE Compound File information:\n\tVersion\t\t\t: " =
        ascii "OLE Compound File information:\n" ++ ascii "\tVersion\t\t\t: " := by decide +kernel
    have e2 : ascii "\n\tSector size\t\t: " = ascii "\n" ++ ascii "\tSector size\t\t: " := by
      decide +kernel
    have e3 : ascii "\n\tShort sector size\t: " = ascii "\n" ++ ascii "\tShort sector size\t: " := by
      decide +kernel
    have e4 : ascii "\n\n" = ascii "\n" ++ ascii "\n" := by decide +kernel
    unfold infoFile getSectorSize getShortSectorSize
    rw [hver, hss, hsss]
    rw [if_neg (hpow _ hlay.fits.sectorExp), if_neg (hpow _ hlay.fits.shortExp), printThen_quiet,
      printThen_quiet]
    unfold fileText
    rw [e1, e2, e3, e4]
    simp [numberText_eq, headerOfFile]
  have hblocks : (if blocks then infoBlocks (openHandle (u.cmp8 w.order) h flags {} st).2.file
      else printed []) = printed (if blocks then ascii "Unallocated blocks:\n\n" else []) := by
    cases blocks with
    | false => rfl
    | true =>
      have e1 : ascii "Unallocated blocks:\n\n" = ascii "Unallocated blocks:\n" ++ ascii "\n" := by
        decide +kernel
      show infoBlocks _ = printed (ascii "Unallocated blocks:\n\n")
      rw [e1]
      rfl
  unfold infoMain
  rw [hfile, hitems fuel hfuel, hblocks, summaryStream_eq.1, summaryStream_eq.2, hio, s1, s2]
  rw [shown_append, shown_append]
  simp only [shown_some, printThen_assoc]
  simp only [shown, printThen_printed]
  rfl

end Olecf.Props
