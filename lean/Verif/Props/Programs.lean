import Verif.Lemmas.Programs
import Verif.Spec.Programs
import Verif.Props.Getopt
import Verif.Props.InfoRead
import Verif.Props.ExportCrash

/-
  C83, C84: the programs olecfinfo and olecfexport from the command line to the exit status.
-/

namespace Olecf.Props
open Spec

/-! ### The command line and the source -/

theorem asks_command {t : Tool} {rest : List Bytes} {es : List (UInt8 × Option Bytes)} {source : Bytes}
    (ha : Asks t rest es source) (hu : Usual t rest) (ht : t ≠ .olecfmount) (prog : Bytes) :
    t.command (prog :: rest) = .ok (.run (settingsOf es) source none) := by
  obtain ⟨more, hr⟩ := ha.reads
  rw [C82_command_line_partial hr hu ha.noEnd (fun _ _ h => by cases h) prog, commandOf_eq,
    List.find?_eq_none.2 (by simpa using ha.noHelp)]
  rcases more with _ | ⟨m, l⟩ <;> dsimp only [endCommand] <;> rw [if_neg ht]

theorem info_run {p : Programs} {rest : List Bytes} {es : List (UInt8 × Option Bytes)} {source : Bytes}
    (ha : Asks .olecfinfo rest es source) (hu : Usual .olecfinfo rest) (prog : Bytes) (fuel : Nat) :
    p.info fuel (prog :: rest) = p.infoRun fuel (settingsOf es) source := by
  unfold Programs.info
  rw [asks_command ha hu (by decide) prog]
  simp [printThen, quiet]

theorem export_run {p : Programs} {rest : List Bytes} {es : List (UInt8 × Option Bytes)} {source : Bytes}
    (ha : Asks .olecfexport rest es source) (hu : Usual .olecfexport rest) (prog : Bytes) (fuel : Nat)
    (w : Disk) : p.exportMain fuel (prog :: rest) w = p.exportRun fuel (settingsOf es) source w := by
  unfold Programs.exportMain
  rw [asks_command ha hu (by decide) prog]
  rfl

/-- The byte order of a stored document is found. -/
theorem fileOrder_stored {w : Writer} {kids : List (Bytes × Doc)} (hst : Storable w kids)
    (cmp : Bytes → Bytes → Option Bool) (hcmp : ∀ n ∈ namesOfKids kids, Comparable cmp n) :
    fileOrder (Dev.ofBytes (encodeFile w kids)) = w.order := by
  have hr := handState_reachable cmp (Dev.ofBytes (encodeFile w kids))
  obtain ⟨h1, -⟩ := C60_written_document_shown w kids hst cmp hcmp _ hr rfl (.user 1) rfl 1 rfl
  have h2 := opened_byteOrder hr (h := .user 1) rfl (encodeFile_layout hst).fits
    (encodeFile_layout hst).header h1
  rw [← h2]
  unfold fileOrder
  rw [openCore_byteOrder _ cmp]
  rcases openHandle_spec (cmp := cmp) (h := .user 1) (flags := 1) (flt := {})
    (st := handState (Dev.ofBytes (encodeFile w kids))) new_empty with ⟨-, h⟩ | ⟨-, ⟨l, -, h⟩ | ⟨-, h⟩⟩
  · rw [h] at h1; cases h1
  · rw [h]; rfl
  · rw [h]; rfl

theorem text_names_comparable {u : Libuna} (hu : IsLibuna u) {e : Endian} {kids : List (Bytes × Doc)}
    (hn : TextNames e (.storage kids)) : ∀ n ∈ namesOfKids kids, Comparable (u.cmp8 e) n := by
  intro n hm
  obtain ⟨path, d, hd⟩ := namesOfKids_docAt kids n hm
  obtain ⟨cs, h1, rfl⟩ := hn.text path n d hd
  exact text_comparable hu h1

/-! ### C83 -/

/-- olecfinfo prints the information on a stored document: on the file, the tree of all items, with -a the
  title of the unallocated blocks, and of the summary information what can be shown in the code page that is
  asked for; it ends with success if all of that can be shown. -/
def InfoShows (p : Programs) (texts : Texts) (wr : Writer) (kids : List (Bytes × Doc))
    (es : List (UInt8 × Option Bytes)) (args : List Bytes) : Prop :=
  ∀ summary documentSummary : List (Option Bytes),
    SummaryPieces p.libs texts (askedCodepage p.codepageOf es) wr.order kids summaryChars
      (ascii "Summary information:\n") summary →
    SummaryPieces p.libs texts (askedCodepage p.codepageOf es) wr.order kids documentSummaryChars
      (ascii "Document summary information:\n") documentSummary →
    ∃ os n, Depicts wr.order (.storage kids) (.node (ascii "Root Entry") 0 os) ∧
      ∀ fuel, n ≤ fuel → p.info fuel args =
        shown ([some (fileText wr.marks.major wr.marks.minor (2 ^ wr.sectorExp) (2 ^ wr.shortExp)),
          some (itemsText p.signedChar (.node (ascii "Root Entry") (containerOf wr kids).length os)),
          some (if es.any (·.1 == 97) then ascii "Unallocated blocks:\n\n" else [])] ++ summary ++
          documentSummary)

theorem setCodepage_ok {p : Programs} {es : List (UInt8 × Option Bytes)}
    (hdef : ∀ name, lastArg es 99 = some name → ∃ r, p.codepageOf name = .ok r) :
    p.setCodepage (settingsOf es).codepage = .ok () := by
  unfold Programs.setCodepage
  show (match lastArg es 99 with | none => _ | some string => _) = _
  cases hla : lastArg es 99 with
  | none => rfl
  | some name =>
    obtain ⟨r, hr⟩ := hdef name hla
    dsimp only
    rw [hr]

/-- C83, as far as it holds: run on a stored document, olecfinfo prints what it should.
  Missing: a code page asked for with -c, which is not used (C83_codepage_violated). -/
theorem C83_document_partial {p : Programs} (hu : IsLibuna p.u) {texts : Texts}
    (hl : IsInfoLibs p.libs texts) (wr : Writer) (kids : List (Bytes × Doc)) (hst : Storable wr kids)
    (hn : TextNames wr.order (.storage kids))
    {rest : List Bytes} {es : List (UInt8 × Option Bytes)} {source : Bytes}
    (ha : Asks .olecfinfo rest es source) (hus : Usual .olecfinfo rest)
    (hs : p.source source = (Dev.ofBytes (encodeFile wr kids), {}))
    (hdef : ∀ name, lastArg es 99 = some name → ∃ r, p.codepageOf name = .ok r)
    (hcp : askedCodepage p.codepageOf es = 1252) (prog : Bytes) :
    InfoShows p texts wr kids es (prog :: rest) := by
  intro summary documentSummary h1 h2
  rw [hcp] at h1 h2
  have horder := fileOrder_stored hst _ (text_names_comparable hu hn)
  obtain ⟨hok, t, f, os, n, ht, hf, hdep, hmain⟩ := C78_run hu hl p.signedChar
    (es.any (·.1 == 97)) wr kids hst hn (handState (Dev.ofBytes (encodeFile wr kids)))
    (handState_reachable _ _) rfl (.user 1) rfl 1 rfl h1 h2
  rw [← horder] at hok ht hf hmain
  obtain ⟨ho, hfile, hclose, hdev⟩ := openInput_of_open hs hok
  refine ⟨os, n, hdep, fun fuel hfu => ?_⟩
  rw [info_run ha hus prog fuel]
  unfold Programs.infoRun
  rw [setCodepage_ok hdef, ho, hs]
  dsimp only
  rw [hclose]
  have hctx : (p.openInput source).2.file.ctx (Dev.ofBytes (encodeFile wr kids)) = some f := by
    rw [hfile, ← hf, hdev]
    rfl
  rw [hctx, hfile]
  dsimp only
  rw [ht]
  have key : ∀ q : Printed Unit,
      printThen (quiet (.ok ())) (fun _ : Unit => printThen (quiet (.ok ())) fun _ : Unit =>
        printThen q fun _ => quiet (.ok ())) = q := by
    rintro ⟨out, r⟩
    cases r <;> simp [printThen, quiet]
  exact (key _).trans (hmain fuel hfu)

/-- When the source can be opened. -/
theorem openInput_iff (p : Programs) (source : Bytes) :
    ((p.openInput source).1 = .ok () ↔
      (p.source source).2.create = false ∧ (p.source source).2.setName = false ∧
      (p.source source).2.isOpen = false ∧ (p.source source).2.opening = false ∧
      ∃ l, (openCore (p.u.cmp8 (fileOrder (p.source source).1)) (p.source source).1 .cleared).1.res =
        .ok l) ∧
    ((p.openInput source).1 = .ok () ∨ (p.openInput source).1 = .err) := by
  unfold Programs.openInput
  obtain ⟨dev, flt⟩ := p.source source
  dsimp only
  generalize p.u.cmp8 (fileOrder dev) = cmp
  rw [openName_eq]
  cases flt.create with
  | true => simp
  | false =>
    cases flt.setName with
    | true => simp
    | false =>
      simp only [Bool.false_eq_true, if_false]
      have hd : (World.fresh.createH dev).2.dev (.lib 0) = dev := by simp [World.createH, World.fresh]
      have ho : (World.fresh.createH dev).2.isOpen (.lib 0) = false := by simp [World.createH, World.fresh]
      have e : World.fresh.made = 0 := rfl
      rw [e]
      rcases openHandle_spec (cmp := cmp) (h := .lib 0) (flags := 1) (flt := flt)
        (st := ⟨OleFile.new, (World.fresh.createH dev).2⟩) new_empty with
        ⟨hc, h⟩ | ⟨⟨-, -, hc, hc'⟩, ⟨l, hl, h⟩ | ⟨hno, h⟩⟩
      · rw [h]
        simp only [if_false, reduceCtorEq, false_or, true_and, or_true, and_true, false_iff]
        rintro ⟨a, b, -⟩
        rcases hc with hc | hc | hc | ⟨-, hc⟩
        · cases hc
        · exact hc ((readOnly_iff 1).2 rfl)
        · rw [a] at hc; cases hc
        · rw [b] at hc; cases hc
      · rw [h]
        dsimp only at hl hc'
        rw [hd] at hl
        rw [ho] at hc'
        exact ⟨⟨fun _ => ⟨trivial, trivial, hc, by simpa using hc', l, hl⟩, fun _ => rfl⟩, Or.inl rfl⟩
      · rw [h]
        dsimp only at hno ⊢
        rw [hd] at hno ⊢
        rcases openCore_cases cmp dev OleFile.new.io with ⟨l, hl⟩ | he
        · exact absurd hl (hno l)
        · rw [he]
          simp only [Res.failed, if_false, reduceCtorEq, or_true, and_true, false_iff]
          rintro ⟨-, -, -, -, l, hl⟩
          exact hno l hl

theorem setCodepage_cases {p : Programs} {es : List (UInt8 × Option Bytes)}
    (hdef : ∀ name, lastArg es 99 = some name →
      p.codepageOf name = .err ∨ ∃ r, p.codepageOf name = .ok r) :
    p.setCodepage (settingsOf es).codepage = .ok () ∨
      p.setCodepage (settingsOf es).codepage = .err := by
  unfold Programs.setCodepage
  show (match lastArg es 99 with | none => _ | some string => _) = _ ∨
    (match lastArg es 99 with | none => _ | some string => _) = _
  cases hla : lastArg es 99 with
  | none => exact Or.inl rfl
  | some name =>
    dsimp only
    rcases hdef name hla with h | ⟨r, h⟩ <;> rw [h]
    · exact Or.inr rfl
    · exact Or.inl rfl

/-- C83: a source that cannot be opened: nothing is printed and the program ends with failure.  A source can
  be opened if the calls of the system succeed and its content can be loaded. -/
theorem C83_unopened {p : Programs} {rest : List Bytes} {es : List (UInt8 × Option Bytes)} {source : Bytes}
    (ha : Asks .olecfinfo rest es source) (hus : Usual .olecfinfo rest)
    (hdef : ∀ name, lastArg es 99 = some name →
      p.codepageOf name = .err ∨ ∃ r, p.codepageOf name = .ok r)
    (hno : (p.source source).2.opening = true ∨
      ∀ l, (openCore (p.u.cmp8 (fileOrder (p.source source).1)) (p.source source).1 .cleared).1.res ≠
        .ok l) (prog : Bytes) (fuel : Nat) : p.info fuel (prog :: rest) = ([], .err) := by
  rw [info_run ha hus prog fuel]
  have hopen : (p.openInput source).1 = .err := by
    refine (openInput_iff p source).2.resolve_left fun h => ?_
    obtain ⟨-, -, -, h1, l, h2⟩ := (openInput_iff p source).1.1 h
    rcases hno with hno | hno
    · rw [h1] at hno; cases hno
    · exact hno l h2
  unfold Programs.infoRun
  rcases setCodepage_cases hdef with h | h <;> rw [h]
  · rw [hopen]; rfl
  · rfl

/-- The code page does not matter, whatever the file is. -/
theorem C83_codepage_ignored {p : Programs} {rest rest' : List Bytes}
    {es es' : List (UInt8 × Option Bytes)} {source : Bytes}
    (ha : Asks .olecfinfo rest es source) (hus : Usual .olecfinfo rest)
    (ha' : Asks .olecfinfo rest' es' source) (hus' : Usual .olecfinfo rest')
    (hdef : ∀ name, lastArg es 99 = some name → ∃ r, p.codepageOf name = .ok r)
    (hdef' : ∀ name, lastArg es' 99 = some name → ∃ r, p.codepageOf name = .ok r)
    (hblocks : es.any (·.1 == 97) = es'.any (·.1 == 97)) (prog : Bytes) (fuel : Nat) :
    p.info fuel (prog :: rest) = p.info fuel (prog :: rest') := by
  rw [info_run ha hus, info_run ha' hus']
  unfold Programs.infoRun
  rw [setCodepage_ok hdef, setCodepage_ok hdef']
  have : (settingsOf es).allocation = (settingsOf es').allocation := hblocks
  rw [this]

theorem usual_of_all {t : Tool} {args : List Bytes}
    (h : ∀ a ∈ args, a ≠ [45] ∧ (a.take 2 ≠ [45, 45] ∨ a.length ≤ 2)) : Usual t args := by
  intro a ha
  obtain ⟨h1, h2⟩ := h a (examined_mem ha)
  refine ⟨h1, fun q hq => ?_⟩
  subst hq
  rcases h2 with h2 | h2
  · exact absurd rfl h2
  · simpa using h2

/-- What olecfinfo and olecfexport do without a source: -h and -V, whichever is first, succeed; an option that
  is unknown or has no argument and a missing source fail. -/
theorem notRun_command {t : Tool} (ht : t ≠ .olecfmount) {rest : List Bytes}
    {es : List (UInt8 × Option Bytes)} {e : End} (hr : Reads (flagsOf t) (withArgOf t) rest es e)
    (hus : Usual t rest) (h0 : ∀ a ∈ rest, (0 : UInt8) ∉ a) (prog : Bytes) :
    (∀ x, es.find? (fun x => x.1 = 104 ∨ x.1 = 86) = some x →
      t.command (prog :: rest) = .ok (if x.1 = 104 then .usage else .version)) ∧
    ((∀ x ∈ es, x.1 ≠ 104 ∧ x.1 ≠ 86) → (∀ s more, e ≠ .operands (s :: more)) →
      t.command (prog :: rest) = .ok .missingSource ∨ ∃ a, t.command (prog :: rest) = .ok (.invalid a)) := by
  obtain ⟨y, -, -, h3⟩ := command_reads hr hus h0 prog
  refine ⟨fun x hx => ?_, fun hno he => ?_⟩
  · rw [h3]
    unfold commandOf
    rw [hx]
    by_cases h : x.1 = 104
    · simp only [if_pos h]; rfl
    · simp only [if_neg h]; rfl
  · rw [h3]
    unfold commandOf
    rw [List.find?_eq_none.2 (by simpa using hno)]
    rcases e with l | ⟨a, r⟩ | a
    · rcases l with _ | ⟨s, more⟩
      · exact .inl rfl
      · exact absurd rfl (he s more)
    · exact .inr ⟨_, rfl⟩
    · exact .inr ⟨_, rfl⟩

/-- C83: olecfinfo without a source: the usage or the copyright is printed for -h and -V, with success; the
  usage with a failure for any other command line that names no source. -/
theorem C83_no_source (p : Programs) {rest : List Bytes} {es : List (UInt8 × Option Bytes)} {e : End}
    (hr : Reads (flagsOf .olecfinfo) (withArgOf .olecfinfo) rest es e) (hus : Usual .olecfinfo rest)
    (h0 : ∀ a ∈ rest, (0 : UInt8) ∉ a) (prog : Bytes) (fuel : Nat) :
    (∀ x, es.find? (fun x => x.1 = 104 ∨ x.1 = 86) = some x →
      p.info fuel (prog :: rest) = (if x.1 = 104 then p.usage else p.copyright, .ok ())) ∧
    ((∀ x ∈ es, x.1 ≠ 104 ∧ x.1 ≠ 86) → (∀ s more, e ≠ .operands (s :: more)) →
      p.info fuel (prog :: rest) = (p.usage, .err)) := by
  obtain ⟨h1, h2⟩ := notRun_command (by decide) hr hus h0 prog
  refine ⟨fun x hx => ?_, fun hno he => ?_⟩
  · unfold Programs.info
    rw [h1 x hx]
    by_cases h : x.1 = 104
    · rw [if_pos h, if_pos h]; rfl
    · rw [if_neg h, if_neg h]; rfl
  · unfold Programs.info
    rcases h2 hno he with h | ⟨a, h⟩ <;> rw [h] <;> rfl

/-- olecfinfo -a without a source, and olecfinfo -Vh. -/
example (p : Programs) (prog : Bytes) (fuel : Nat) :
    p.info fuel [prog, [45, 97]] = (p.usage, .err) ∧
    p.info fuel [prog, [45, 86, 104]] = (p.copyright, .ok ()) := by
  have h1 : Reads (flagsOf .olecfinfo) (withArgOf .olecfinfo) [[45, 97]] [(97, none)] (.operands []) :=
    .group (fs := [97]) (by simp) (by decide) .done
  have h2 : Reads (flagsOf .olecfinfo) (withArgOf .olecfinfo) [[45, 86, 104]] [(86, none), (104, none)]
      (.operands []) := .group (fs := [86, 104]) (by simp) (by decide) .done
  exact ⟨(C83_no_source p h1 (usual_of_all (by decide +kernel)) (by decide) prog fuel).2 (by decide)
      (by intro s m h; cases h),
    (C83_no_source p h2 (usual_of_all (by decide +kernel)) (by decide) prog fuel).1 (86, none) rfl⟩

/-! ### A document whose text depends on the code page -/

/-- The character 0xff is "ya" in windows-1251 and "y" with a diaeresis in windows-1252. -/
def cyrillicText (enc : Encoding) (b : Bytes) : Bytes :=
  b.flatMap fun c => if c = 0xff then (if enc = .codepage 1251 then [0xd1, 0x8f] else [0xc3, 0xbf]) else [c]

def cyrillicTexts : Texts := fun enc b =>
  if SSIZE_MAX ≤ (cyrillicText enc b).length then none else some (cyrillicText enc b)

def cyrillicLibs : InfoLibs :=
  { plainLibs with
    textSize := fun enc b => (cyrillicTexts enc b).map fun s => s.length + 1
    textCopy := fun enc b n =>
      (cyrillicTexts enc b).bind fun s => if s.length + 1 ≤ n then some (s ++ [0]) else none }

theorem cyrillicLibs_is : IsInfoLibs cyrillicLibs cyrillicTexts where
  guid _ _ := rfl
  none enc b h := by
    show (cyrillicTexts enc b).map _ = none
    rw [h]; rfl
  some enc b s h := by
    refine ⟨?_, ?_, ?_⟩
    · unfold cyrillicTexts at h
      split at h
      · cases h
      · cases h; omega
    · show (cyrillicTexts enc b).map _ = _
      rw [h]; rfl
    · show (cyrillicTexts enc b).bind _ = _
      rw [h]
      exact if_pos (Nat.le_refl _)

/-- The programs for the examples: every source is the document with one character as its title. -/
def cyrillicPrograms : Programs where
  u := plainUna
  libs := cyrillicLibs
  signedChar := true
  codepageOf name := .ok (if name = ascii "windows-1251" then some 1251 else none)
  source _ := (Dev.ofBytes (encodeFile ⟨.little, 9, 6, 4096, {}⟩ (officeDoc [0xff, 0])), {})
  usage := ascii "Usage"
  copyright := ascii "Copyright"
  sanitize n := some (n.map fun c => if c = 0x2f then 0x5f else c)
  fault _ := false
  cwd := []

/-- "-c windows-1251 f" -/
def cyrillicArgs : List Bytes := [ascii "-c", ascii "windows-1251", ascii "f"]

theorem cyrillic_asks : Asks .olecfinfo cyrillicArgs [(99, some (ascii "windows-1251"))] (ascii "f") := by
  refine ⟨⟨[], ?_⟩, by decide +kernel, by decide +kernel⟩
  have e : cyrillicArgs = (45 :: ([] ++ [99])) :: ascii "windows-1251" :: [ascii "f"] := by decide +kernel
  rw [e]
  exact .separate (by simp) (by decide) (.operand (Or.inl (by decide +kernel)))

theorem plain_asks : Asks .olecfinfo [ascii "f"] [] (ascii "f") :=
  ⟨⟨[], .operand (Or.inl (by decide +kernel))⟩, by simp, by decide +kernel⟩

theorem cyrillic_pieces (cp : Int) :
    SummaryPieces cyrillicLibs cyrillicTexts cp .little (officeDoc [0xff, 0]) summaryChars
      (ascii "Summary information:\n") (some (ascii "Summary information:\n") ::
        setPieces cyrillicLibs cyrillicTexts cp .little (titleSet [0xff, 0])) ∧
    SummaryPieces cyrillicLibs cyrillicTexts cp .little (officeDoc [0xff, 0]) documentSummaryChars
      (ascii "Document summary information:\n") (some (ascii "Document summary information:\n") ::
        setPieces cyrillicLibs cyrillicTexts cp .little (twoStrings (ascii "a") (ascii "b"))) :=
  ⟨.present (s := titleSet [0xff, 0]) List.mem_cons_self (titleSet_writable (by simp))
      (show 1 < 65536 by decide),
    .present (s := twoStrings (ascii "a") (ascii "b")) (List.mem_cons_of_mem _ List.mem_cons_self)
      twoStrings_writable (by decide)⟩

/-- Without -c the document is shown (C83_document_partial). -/
theorem cyrillic_plain (prog : Bytes) : InfoShows cyrillicPrograms cyrillicTexts ⟨.little, 9, 6, 4096, {}⟩
    (officeDoc [0xff, 0]) [] [prog, ascii "f"] :=
  C83_document_partial plainUna_isLibuna cyrillicLibs_is ⟨.little, 9, 6, 4096, {}⟩ _
    (officeDoc_storable (by simp)) (officeDoc_text _) plain_asks (usual_of_all (by decide +kernel)) rfl
    (fun _ h => by cases h) rfl prog

/-- C83 does not hold for a code page given with -c: windows-1251 is asked for, and the title is shown in
  windows-1252. -/
theorem C83_codepage_violated (prog : Bytes) :
    Asks .olecfinfo cyrillicArgs [(99, some (ascii "windows-1251"))] (ascii "f") ∧
    askedCodepage cyrillicPrograms.codepageOf [(99, some (ascii "windows-1251"))] = 1251 ∧
    ¬ InfoShows cyrillicPrograms cyrillicTexts ⟨.little, 9, 6, 4096, {}⟩ (officeDoc [0xff, 0])
      [(99, some (ascii "windows-1251"))] (prog :: cyrillicArgs) := by
  have hcp : askedCodepage cyrillicPrograms.codepageOf [(99, some (ascii "windows-1251"))] = 1251 := by
    decide +kernel
  refine ⟨cyrillic_asks, hcp, fun h => ?_⟩
  have h1 := cyrillic_plain prog _ _ (cyrillic_pieces 1252).1 (cyrillic_pieces 1252).2
  have h2 := h _ _ (by rw [hcp]; exact (cyrillic_pieces 1251).1) (by rw [hcp]; exact (cyrillic_pieces 1251).2)
  obtain ⟨os, n, -, h1⟩ := h1
  obtain ⟨os', n', -, h2⟩ := h2
  have e := C83_codepage_ignored (p := cyrillicPrograms) cyrillic_asks (usual_of_all (by decide +kernel))
    plain_asks (usual_of_all (by decide +kernel)) (fun _ _ => ⟨_, rfl⟩) (fun _ _ => ⟨_, rfl⟩) rfl prog
    (max n n')
  rw [h1 _ (Nat.le_max_left _ _), h2 _ (Nat.le_max_right _ _)] at e
  have hne : setText cyrillicLibs cyrillicTexts 1251 .little (titleSet [0xff, 0]) ≠
      setText cyrillicLibs cyrillicTexts 1252 .little (titleSet [0xff, 0]) := by decide +kernel
  have hlen : (setText cyrillicLibs cyrillicTexts 1251 .little (titleSet [0xff, 0])).length =
      (setText cyrillicLibs cyrillicTexts 1252 .little (titleSet [0xff, 0])).length := by decide +kernel
  have hsame : setText cyrillicLibs cyrillicTexts 1251 .little (twoStrings (ascii "a") (ascii "b")) =
      setText cyrillicLibs cyrillicTexts 1252 .little (twoStrings (ascii "a") (ascii "b")) := by
    decide +kernel
  have key : ∀ (a b d : Bytes) (s sd : List (Option Bytes)) (T U : Bytes), none ∉ s → none ∉ sd →
      shown ([some a, some b, some d] ++ some T :: s ++ some U :: sd) =
        (a ++ b ++ d ++ T ++ piecesText s ++ (U ++ piecesText sd), .ok ()) := by
    intro a b d s sd T U h1 h2
    rw [shown_all (by simp [h1, h2])]
    simp [piecesText]
  rw [key _ _ _ _ _ _ _ (by decide +kernel) (by decide +kernel),
    key _ _ _ _ _ _ _ (by decide +kernel) (by decide +kernel)] at e
  have e := (Prod.mk.inj e).1
  have hp : ∀ l : List (Option Bytes), piecesText l = l.flatMap fun o => o.getD [] := fun _ => rfl
  simp only [hp] at e
  simp only [show ∀ cp s, (setPieces cyrillicLibs cyrillicTexts cp .little s).flatMap (fun o => o.getD []) =
    setText cyrillicLibs cyrillicTexts cp .little s from fun _ _ => rfl, hsame] at e
  have e := List.append_cancel_right e
  exact hne (List.append_inj_right' e hlen)

/-! ### C84 -/

/-- The target of olecfexport. -/
theorem components_last (a b : Bytes) (hb : (0x2f : UInt8) ∉ b) :
    (components (a ++ 0x2f :: b)).getLast? = some b := by
  induction a with
  | nil =>
    show (components (0x2f :: b)).getLast? = _
    rw [components, if_pos rfl, components_plain hb]
    rfl
  | cons c a ih =>
    rw [List.cons_append, components]
    split
    · rw [List.getLast?_cons, ih]
      rfl
    · cases h : components (a ++ 0x2f :: b) with
      | nil => rw [h] at ih; cases ih
      | cons x xs =>
        have : xs ≠ [] := by
          rintro rfl
          have : ∀ a : Bytes, ∃ x y l, components (a ++ 0x2f :: b) = x :: y :: l := by
            intro a
            induction a with
            | nil => exact ⟨[], b, [], by
                show components (0x2f :: b) = _
                rw [components, if_pos rfl, components_plain hb]⟩
            | cons c a ih =>
              obtain ⟨x, y, l, h⟩ := ih
              rw [List.cons_append, components, h]
              split
              · exact ⟨_, _, _, rfl⟩
              · exact ⟨_, _, _, rfl⟩
          obtain ⟨x', y, l, h'⟩ := this a
          rw [h] at h'
          cases h'
        rw [h] at ih
        obtain ⟨y, ys, rfl⟩ := List.exists_cons_of_ne_nil this
        simpa using ih

theorem target_eq {es : List (UInt8 × Option Bytes)} {source target : Bytes}
    (ht : TargetOf es source target) : (settingsOf es).target.getD (lastComponent source) = target := by
  show (lastArg es 116).getD (lastComponent source) = target
  cases ht with
  | given h => rw [h]; rfl
  | alone h1 h2 =>
    rw [h1]
    show lastComponent source = source
    unfold lastComponent
    rw [components_plain h2]
    rfl
  | behind h1 h2 h3 =>
    rw [h1, h2]
    show lastComponent _ = _
    unfold lastComponent
    rw [components_last _ _ h3]
    rfl

theorem export_suffix {t : Bytes} (h : (0x2f : UInt8) ∉ t) : PlainName (t ++ ascii ".export") := by
  have hx : (0x2f : UInt8) ∉ t ++ ascii ".export" := by
    rw [List.mem_append]
    rintro (h' | h')
    · exact h h'
    · exact absurd h' (by decide +kernel)
  have hl : (ascii ".export").length = 7 := by decide +kernel
  refine ⟨?_, ?_, ?_, hx⟩ <;>
  · intro h'
    have := congrArg List.length h'
    rw [List.length_append, hl] at this
    simp at this

/-- The directory of the export is in the current directory when the target has no directories, and in the
  root of the file system when it is a name behind one separator. -/
theorem C84_path {cwd : Path} {t : Bytes} (h : (0x2f : UInt8) ∉ t) :
    pathOf cwd (t ++ ascii ".export") = cwd ++ [t ++ ascii ".export"] ∧
    pathOf cwd (0x2f :: t ++ ascii ".export") = [t ++ ascii ".export"] := by
  have hp := export_suffix h
  unfold pathOf
  constructor
  · rw [if_neg, resolve_plain hp]
    intro h'
    exact hp.2.2.2 (List.mem_of_mem_head? h')
  · rw [if_pos (by rfl)]
    have := resolve_plain (dir := []) hp
    unfold resolve at this ⊢
    rw [List.cons_append, components, if_pos rfl, List.foldl_cons]
    exact this

theorem fsExists_fs (env : ExportEnv) (w : Disk) (p : Path) :
    (fsExists env w p).1.fs = w.fs ∧ ((fsExists env w p).2 = .err ∨
      (fsExists env w p).2 = .ok (w.fs.has p)) ∧
    ((∀ n, env.fault n = false) → (fsExists env w p).2 = .ok (w.fs.has p)) := by
  unfold fsExists fsOp
  split
  · rename_i h
    exact ⟨rfl, Or.inl rfl, fun hn => by rw [hn] at h; cases h⟩
  · exact ⟨rfl, Or.inr rfl, fun _ => rfl⟩

theorem fsMkdir_grown (env : ExportEnv) (w : Disk) (p : Path) (ht : Tidy w.fs) :
    GrownAt p w.fs (fsMkdir env w p).1.fs := by
  unfold fsMkdir
  rcases fsOp_cases env w fun fs =>
      if fs.has p ∨ p = [] ∨ ¬ fs.dir p.dropLast then none else some ((), fs.addDir p)
    with h | ⟨a, fs, _, h1, h2⟩
  · rw [h]; exact .refl _ _
  · rw [h2]
    split at h1
    · cases h1
    · rename_i hc
      simp only [not_or, Bool.not_eq_true, Bool.not_eq_false] at hc
      simp only [Option.some.injEq, Prod.mk.injEq] at h1
      have hg := mkdir_tidy ht hc.1 hc.2.2
      rw [h1.2] at hg
      exact hg.2

theorem exportOpened_grown {p : Programs} (hs : NoSeparator p.sanitize) (fuel : Nat) (dir : Path)
    (dev : Dev) (st : FileState) (w : Disk) (ht : Tidy w.fs) :
    GrownAt dir w.fs (p.exportOpened fuel dir dev st w).1.fs := by
  unfold Programs.exportOpened
  split
  · exact C58_export_stays_inside hs _ _ _ ht
  · exact fsMkdir_grown _ _ _ ht

/-- C84: whatever the source is and whichever operations on the file system fail: everything that existed
  before is left as it was, and everything new is at or below the directory of the export. -/
theorem C84_stays_inside {p : Programs} (hs : NoSeparator p.sanitize)
    {rest : List Bytes} {es : List (UInt8 × Option Bytes)} {source target : Bytes}
    (ha : Asks .olecfexport rest es source) (hus : Usual .olecfexport rest)
    (ht : TargetOf es source target) (w : Disk) (hw : Tidy w.fs) (prog : Bytes) (fuel : Nat) :
    GrownAt (pathOf p.cwd (target ++ ascii ".export")) w.fs
      (p.exportMain fuel (prog :: rest) w).1.fs := by
  rw [export_run ha hus]
  unfold Programs.exportRun
  dsimp only
  rw [target_eq ht]
  split
  · exact .refl _ _
  · refine diskThen_inv (P := fun x => GrownAt _ w.fs x.fs) (.of_eq _ (fsExists_fs _ _ _).1) ?_
    intro w1 found h1
    have e1 := (fsExists_fs p.closedEnv w (pathOf p.cwd (target ++ ascii ".export"))).1
    rw [h1] at e1
    replace e1 : w1.fs = w.fs := e1
    split
    · exact .of_eq _ e1
    · refine diskThen_inv (P := fun x => GrownAt _ w.fs x.fs) (.of_eq _ e1) ?_
      intro w2 _ h2
      cases (Prod.mk.inj h2).1
      refine diskThen_inv (P := fun x => GrownAt _ w.fs x.fs) (.of_eq _ e1) ?_
      intro w3 _ h3
      cases (Prod.mk.inj h3).1
      have hg := exportOpened_grown hs fuel (pathOf p.cwd (target ++ ascii ".export")) (p.source source).1
        (p.openInput source).2 w1 (by rw [e1]; exact hw)
      rw [e1] at hg
      refine diskThen_inv (P := fun x => GrownAt _ w.fs x.fs) hg ?_
      intro w4 _ h4
      rw [h4] at hg
      exact hg

/-- C84: a command line that does not ask for an export changes nothing, on any input.  It succeeds for -h and
  -V and fails if there is no source. -/
theorem C84_nothing_asked (p : Programs) {rest : List Bytes} {es : List (UInt8 × Option Bytes)} {e : End}
    (hr : Reads (flagsOf .olecfexport) (withArgOf .olecfexport) rest es e) (hus : Usual .olecfexport rest)
    (h0 : ∀ a ∈ rest, (0 : UInt8) ∉ a) (prog : Bytes) (fuel : Nat) (w : Disk) :
    (∀ x ∈ es, x.1 = 104 ∨ x.1 = 86 → p.exportMain fuel (prog :: rest) w = (w, .ok ())) ∧
    ((∀ x ∈ es, x.1 ≠ 104 ∧ x.1 ≠ 86) → (∀ s more, e ≠ .operands (s :: more)) →
      p.exportMain fuel (prog :: rest) w = (w, .err)) := by
  obtain ⟨h1, h2⟩ := notRun_command (by decide) hr hus h0 prog
  refine ⟨fun x hx hh => ?_, fun hno he => ?_⟩
  · cases hf : es.find? (fun x => x.1 = 104 ∨ x.1 = 86) with
    | none => exact absurd (List.find?_eq_none.1 hf x hx) (by simp only [decide_eq_true_eq, not_not]; exact hh)
    | some y =>
      unfold Programs.exportMain
      rw [h1 y hf]
      by_cases h : y.1 = 104
      · rw [if_pos h]; rfl
      · rw [if_neg h]; rfl
  · unfold Programs.exportMain
    rcases h2 hno he with h | ⟨a, h⟩ <;> rw [h] <;> rfl

/-- C84: an export to something that exists already, with an empty target, or of a source that cannot be
  opened is refused, and changes nothing. -/
theorem C84_refused {p : Programs}
    {rest : List Bytes} {es : List (UInt8 × Option Bytes)} {source target : Bytes}
    (ha : Asks .olecfexport rest es source) (hus : Usual .olecfexport rest)
    (ht : TargetOf es source target) (w : Disk)
    (hdef : ∀ name, lastArg es 99 = some name →
      p.codepageOf name = .err ∨ ∃ r, p.codepageOf name = .ok r)
    (hno : target = [] ∨ w.fs.has (pathOf p.cwd (target ++ ascii ".export")) = true ∨
      (p.source source).2.opening = true ∨
      ∀ l, (openCore (p.u.cmp8 (fileOrder (p.source source).1)) (p.source source).1 .cleared).1.res ≠
        .ok l) (prog : Bytes) (fuel : Nat) :
    (p.exportMain fuel (prog :: rest) w).1.fs = w.fs ∧
    (p.exportMain fuel (prog :: rest) w).2 = .err := by
  rw [export_run ha hus]
  unfold Programs.exportRun
  dsimp only
  rw [target_eq ht]
  split
  · exact ⟨rfl, rfl⟩
  · rename_i hne
    obtain ⟨e1, e2, -⟩ := fsExists_fs p.closedEnv w (pathOf p.cwd (target ++ ascii ".export"))
    generalize fsExists p.closedEnv w (pathOf p.cwd (target ++ ascii ".export")) = r at e1 e2
    obtain ⟨w1, r⟩ := r
    dsimp only at e1 e2
    rcases e2 with rfl | rfl
    · exact ⟨e1, rfl⟩
    · cases hh : w.fs.has (pathOf p.cwd (target ++ ascii ".export")) with
      | true => exact ⟨e1, rfl⟩
      | false =>
        have hopen : (p.openInput source).1 = .err := by
          refine (openInput_iff p source).2.resolve_left fun h => ?_
          obtain ⟨-, -, -, h1, l, h2⟩ := (openInput_iff p source).1.1 h
          rcases hno with hno | hno | hno | hno
          · exact hne hno
          · rw [hh] at hno; cases hno
          · rw [h1] at hno; cases hno
          · exact hno l h2
        have : p.setCodepage (settingsOf es).codepage = .ok () ∨
            p.setCodepage (settingsOf es).codepage = .err := setCodepage_cases hdef
        rw [hopen]
        rcases this with h | h <;> rw [h] <;> exact ⟨e1, rfl⟩

theorem exportName_stored {u : Libuna} (hu : IsLibuna u) {io : IoHandle} {cs : List Nat}
    (hc : NameText cs) (d : DirEntry) (hd : d.name = storedName io.byteOrder cs)
    (hlen : d.name.length ≤ 64) : exportName u io d = some (cs.flatMap encode8) := by
  have h1 := storedName_length io.byteOrder cs
  have h2 := encode8s_length cs
  rw [hd] at hlen
  have h := stored_hasName hu (it := ⟨none, d⟩) (io := io) hc hd
  unfold exportName
  rw [h.size8]
  dsimp only
  rw [h.name8 _ (Nat.le_refl _) (by omega)]
  simp

/-- The run of olecfexport on a stored document: if the test whether the directory exists does not fail, the
  export. -/
theorem document_run {p : Programs} (hu : IsLibuna p.u) (wr : Writer) (kids : List (Bytes × Doc))
    (hst : Storable wr kids) (hshort : 2 ≤ wr.shortExp) (hn : TextNames wr.order (.storage kids))
    {rest : List Bytes} {es : List (UInt8 × Option Bytes)} {source target : Bytes}
    (ha : Asks .olecfexport rest es source) (hus : Usual .olecfexport rest)
    (ht : TargetOf es source target) (hne : target ≠ [])
    (hs : p.source source = (Dev.ofBytes (encodeFile wr kids), {}))
    (hdef : ∀ name, lastArg es 99 = some name → ∃ r, p.codepageOf name = .ok r)
    (hsep : NoSeparator p.sanitize)
    {g : Bytes → Bytes} (hg : GoodNames g (.storage kids))
    (hname : ∀ cs, NameText cs → storedName wr.order cs ∈ namesOfKids kids →
      p.sanitize (cs.flatMap encode8) = some (g (storedName wr.order cs)))
    (w : Disk) (hno : w.fs.has (pathOf p.cwd (target ++ ascii ".export")) = false) (prog : Bytes)
    (fuel : Nat) (hfuel : (namesOfKids kids).length + 1 ≤ fuel) :
    ∃ env : ExportEnv, env.fault = p.fault ∧ ExportReady env g (.storage kids) fuel ∧
      p.exportMain fuel (prog :: rest) w = if p.fault w.tick then (⟨w.fs, w.tick + 1⟩, .err)
        else exportFile env fuel (pathOf p.cwd (target ++ ascii ".export")) ⟨w.fs, w.tick + 1⟩ := by
  have hcmp := text_names_comparable hu hn
  have horder := fileOrder_stored hst _ hcmp
  obtain ⟨hok, t, f, htree, hf, hexp⟩ := written_ready wr kids hst hshort
    (p.u.cmp8 wr.order) hcmp (handState (Dev.ofBytes (encodeFile wr kids)))
    (handState_reachable _ _) rfl (.user 1) rfl 1 rfl
  have hbo := opened_byteOrder (handState_reachable _ _) (h := .user 1) rfl (encodeFile_layout hst).fits
    (encodeFile_layout hst).header hok
  rw [← horder] at hok htree hf hbo
  obtain ⟨ho, hfile, hclose, hdev⟩ := openInput_of_open hs hok
  have hctx : (p.openInput source).2.file.ctx (Dev.ofBytes (encodeFile wr kids)) = some f := by
    rw [hfile, ← hf, hdev]
    rfl
  have htr : (p.openInput source).2.file.tree = some t := by rw [hfile]; exact htree
  have hio : (p.openInput source).2.file.io.byteOrder = wr.order := by
    rw [hfile, ← horder]; exact hbo
  refine ⟨⟨f, t, exportName p.u (p.openInput source).2.file.io, p.sanitize, p.fault, p.cut⟩, rfl,
    hexp _ g fuel rfl rfl hsep hg (by
      intro d hd
      obtain ⟨path, x, hx⟩ := namesOfKids_docAt kids _ hd
      obtain ⟨cs, hcs, he⟩ := hn.text path _ x hx
      dsimp only
      rw [exportName_stored hu hcs d (by rw [hio]; exact he) (hst.names _ hd), he]
      rw [he] at hd
      exact hname cs hcs hd) hfuel, ?_⟩
  rw [export_run ha hus]
  unfold Programs.exportRun
  dsimp only
  rw [target_eq ht, if_neg hne]
  unfold fsExists fsOp
  show diskThen (if p.fault w.tick = true then _ else _) _ = _
  cases p.fault w.tick with
  | true => rfl
  | false =>
    rw [if_neg (by decide), if_neg (by decide)]
    dsimp only
    rw [hno]
    rw [setCodepage_ok hdef, ho, hs]
    dsimp only [diskThen, pureStep]
    rw [if_neg (by simp), hclose]
    have hx : p.exportOpened fuel (pathOf p.cwd (target ++ ascii ".export"))
        (Dev.ofBytes (encodeFile wr kids)) (p.openInput source).2 ⟨w.fs, w.tick + 1⟩ =
        exportFile ⟨f, t, exportName p.u (p.openInput source).2.file.io, p.sanitize, p.fault, p.cut⟩ fuel
          (pathOf p.cwd (target ++ ascii ".export")) ⟨w.fs, w.tick + 1⟩ := by
      unfold Programs.exportOpened
      rw [htr, hctx]
    rw [hx]
    rcases exportFile _ fuel _ _ with ⟨w2, _ | _ | _ | _⟩ <;> rfl

/-- C84: run on a stored document, olecfexport makes an image of it, whose file names are the names of the
  document in UTF-8 after libcpath made them file names, and ends with success. -/
theorem C84_document {p : Programs} (hu : IsLibuna p.u) (wr : Writer) (kids : List (Bytes × Doc))
    (hst : Storable wr kids) (hshort : 2 ≤ wr.shortExp) (hn : TextNames wr.order (.storage kids))
    {rest : List Bytes} {es : List (UInt8 × Option Bytes)} {source target : Bytes}
    (ha : Asks .olecfexport rest es source) (hus : Usual .olecfexport rest)
    (ht : TargetOf es source target) (hne : target ≠ [])
    (hs : p.source source = (Dev.ofBytes (encodeFile wr kids), {}))
    (hdef : ∀ name, lastArg es 99 = some name → ∃ r, p.codepageOf name = .ok r)
    (hsep : NoSeparator p.sanitize) (hfault : ∀ n, p.fault n = false)
    {g : Bytes → Bytes} (hg : GoodNames g (.storage kids))
    (hname : ∀ cs, NameText cs → storedName wr.order cs ∈ namesOfKids kids →
      p.sanitize (cs.flatMap encode8) = some (g (storedName wr.order cs)))
    (w : Disk) (hw : Tidy w.fs) (hno : w.fs.has (pathOf p.cwd (target ++ ascii ".export")) = false)
    (hparent : w.fs.dir (pathOf p.cwd (target ++ ascii ".export")).dropLast = true) (prog : Bytes)
    (fuel : Nat) (hfuel : (namesOfKids kids).length + 1 ≤ fuel) :
    (p.exportMain fuel (prog :: rest) w).2 = .ok () ∧
    ImageAt g (.storage kids) (pathOf p.cwd (target ++ ascii ".export")) w.fs
      (p.exportMain fuel (prog :: rest) w).1.fs := by
  obtain ⟨env, h1, h2, h3⟩ := document_run hu wr kids hst hshort hn ha hus ht hne hs hdef hsep hg hname w hno prog
    fuel hfuel
  rw [h3, hfault, if_neg (by decide)]
  exact export_shown h2 (fun n => by rw [h1]; exact hfault n) hw hno hparent

/-- C108: olecfexport run on a stored document, with any operations on the file system failing: what it leaves is a
  part of the image of the document.  It ends with success exactly if it could ask whether the export directory
  exists and could make it. -/
theorem C108_olecfexport {p : Programs} (hu : IsLibuna p.u) (wr : Writer) (kids : List (Bytes × Doc))
    (hst : Storable wr kids) (hshort : 2 ≤ wr.shortExp) (hn : TextNames wr.order (.storage kids))
    {rest : List Bytes} {es : List (UInt8 × Option Bytes)} {source target : Bytes}
    (ha : Asks .olecfexport rest es source) (hus : Usual .olecfexport rest)
    (ht : TargetOf es source target) (hne : target ≠ [])
    (hs : p.source source = (Dev.ofBytes (encodeFile wr kids), {}))
    (hdef : ∀ name, lastArg es 99 = some name → ∃ r, p.codepageOf name = .ok r)
    (hsep : NoSeparator p.sanitize)
    {g : Bytes → Bytes} (hg : GoodNames g (.storage kids))
    (hname : ∀ cs, NameText cs → storedName wr.order cs ∈ namesOfKids kids →
      p.sanitize (cs.flatMap encode8) = some (g (storedName wr.order cs)))
    (w : Disk) (hw : Tidy w.fs) (hno : w.fs.has (pathOf p.cwd (target ++ ascii ".export")) = false)
    (hparent : w.fs.dir (pathOf p.cwd (target ++ ascii ".export")).dropLast = true) (prog : Bytes)
    (fuel : Nat) (hfuel : (namesOfKids kids).length + 1 ≤ fuel) :
    (p.exportMain fuel (prog :: rest) w).2 =
      (if p.fault w.tick ∨ p.fault (w.tick + 1) then .err else .ok ()) ∧
    PartOfImage g (.storage kids) (pathOf p.cwd (target ++ ascii ".export")) w.fs
      (p.exportMain fuel (prog :: rest) w).1.fs := by
  obtain ⟨env, h1, h2, h3⟩ := document_run hu wr kids hst hshort hn ha hus ht hne hs hdef hsep hg hname w hno prog
    fuel hfuel
  rw [h3]
  cases hf : p.fault w.tick with
  | true =>
    rw [if_pos rfl, if_pos (Or.inl rfl)]
    refine ⟨rfl, ?_, ?_, .refl _ _⟩
    · intro _ k1 k2
      exact absurd (k1.symm.trans k2) (by decide)
    · intro _ _ k1 k2
      exact nomatch k1.symm.trans k2
  | false =>
    rw [if_neg (by decide)]
    have hp := export_part h2 (w := ⟨w.fs, w.tick + 1⟩) hw hno hparent
    rw [h1] at hp
    refine ⟨?_, hp.2.2⟩
    rw [hp.1]
    cases p.fault (w.tick + 1) <;> rfl

/-! ### An example -/

/-- The programs with the document `unicodeDoc` as the source. -/
def unicodePrograms (e : Endian) : Programs :=
  { cyrillicPrograms with
    source := fun _ => (Dev.ofBytes (encodeFile ⟨e, 9, 6, 4096, {}⟩ (unicodeDoc e)), {}) }

/-- The file name of a stored name: its text in UTF-8. -/
def utf8FileName (e : Endian) (n : Bytes) : Bytes := ((textOf e n).getD []).flatMap encode8

/-- File names are good when they are plain and no two names have the same. -/
theorem goodNames_of_injective {e : Endian} {kids : List (Bytes × Doc)} {g : Bytes → Bytes}
    (hn : TextNames e (.storage kids))
    (hp : ∀ n ∈ namesOfKids kids, PlainName (g n) ∧ g n ≠ dataName)
    (hi : ∀ a ∈ namesOfKids kids, ∀ b ∈ namesOfKids kids, g a = g b → a = b) :
    GoodNames g (.storage kids) := by
  refine ⟨fun path n d h => hp n ((docAt_names h).1 n (by simp)), ?_⟩
  intro path ks h
  have h1 := hn.distinct path ks h
  have h2 : ∀ k ∈ ks, k.1 ∈ namesOfKids kids := fun k hk =>
    (docAt_names h).2 _ (kid_names_mem (n := k.1) (d := k.2) hk).1
  clear h
  induction ks with
  | nil => exact List.nodup_nil
  | cons k ks ih =>
    rw [List.map_cons, List.nodup_cons] at h1 ⊢
    refine ⟨?_, ih h1.2 fun x hx => h2 x (List.mem_cons_of_mem _ hx)⟩
    intro hm
    obtain ⟨x, hx, he⟩ := List.mem_map.1 hm
    have := hi _ (h2 x (List.mem_cons_of_mem _ hx)) _ (h2 k List.mem_cons_self) he
    exact h1.1 (List.mem_map.2 ⟨x, hx, this⟩)

/-- The file names of the small Unicode document are plain. -/
theorem unicode_plain (e : Endian) : ∀ n ∈ namesOfKids (unicodeDoc e),
    PlainName (utf8FileName e n) ∧ utf8FileName e n ≠ dataName := by
  simp only [unicodeDoc, namesOfKids, Doc.names, List.append_nil]
  cases e <;> decide +kernel

/-- The file names of the small Unicode document are good. -/
theorem unicode_good (e : Endian) : GoodNames (utf8FileName e) (.storage (unicodeDoc e)) := by
  refine goodNames_of_injective (unicodeDoc_text e) (unicode_plain e) ?_
  simp only [unicodeDoc, namesOfKids, Doc.names, List.append_nil]
  cases e <;> decide +kernel

/-- The path of the export directory of `olecfexport d/f` in an empty file system. -/
theorem unicode_path : pathOf [] (ascii "f" ++ ascii ".export") = [ascii "f.export"] := by
  rw [(C84_path (by decide +kernel)).1]
  decide +kernel

/-- What `olecfexport d/f` asks for. -/
theorem unicode_asks : Asks .olecfexport [ascii "d/f"] [] (ascii "d/f") :=
  ⟨⟨[], .operand (Or.inl (by decide +kernel))⟩, by simp, by decide +kernel⟩

/-- The small Unicode document has few items. -/
theorem unicode_count (e : Endian) : (namesOfKids (unicodeDoc e)).length + 1 ≤ 5 := by
  simp only [unicodeDoc, namesOfKids, Doc.names, List.append_nil]
  cases e <;> decide +kernel

/-- The names of the small Unicode document stay as they are. -/
theorem unicode_sanitize (e : Endian) : ∀ cs, NameText cs → storedName e cs ∈ namesOfKids (unicodeDoc e) →
    (unicodePrograms e).sanitize (cs.flatMap encode8) = some (utf8FileName e (storedName e cs)) := by
  intro cs hcs hm
  have e1 : utf8FileName e (storedName e cs) = cs.flatMap encode8 := by
    unfold utf8FileName
    rw [textOf_stored e hcs]
    rfl
  have hsl := (unicode_plain e _ hm).1.2.2.2
  rw [e1] at hsl ⊢
  show some ((cs.flatMap encode8).map fun c => if c = 0x2f then 0x5f else c) = _
  congr 1
  refine (List.map_congr_left fun c hc => ?_).trans (List.map_id _)
  rw [if_neg]
  · rfl
  · rintro rfl
    exact hsl hc

/-- The small Unicode document is exported with `olecfexport d/f`: the directory is `f.export` in the current
  directory (C84_document). -/
example (e : Endian) (prog : Bytes) :
    ((unicodePrograms e).exportMain 5 [prog, ascii "d/f"] emptyDisk).2 = .ok () ∧
    ((unicodePrograms e).exportMain 5 [prog, ascii "d/f"] emptyDisk).1.fs.file
      [ascii "f.export", [0xc3, 0x84], [0xf0, 0x9f, 0x98, 0x80], dataName] = some [4, 5] := by
  have hpath : pathOf (unicodePrograms e).cwd (ascii "f" ++ ascii ".export") = [ascii "f.export"] := unicode_path
  have h := C84_document (p := unicodePrograms e) plainUna_isLibuna ⟨e, 9, 6, 4096, {}⟩ (unicodeDoc e)
    (unicodeDoc_storable e) (by show 2 ≤ 6; decide) (unicodeDoc_text e) unicode_asks
    (usual_of_all (by decide +kernel))
    (target := ascii "f") (.behind (pre := ascii "d") rfl (by decide +kernel) (by decide +kernel))
    (by decide +kernel) rfl (fun _ h => by cases h) (smallEnv_noSep .unused ⟨.cleared, Dev.ofBytes [], ⟨[]⟩, ⟨[]⟩⟩)
    (fun _ => rfl) (unicode_good e) (unicode_sanitize e) emptyDisk emptyDisk_tidy
    (by rw [hpath]; decide +kernel) (by rw [hpath]; decide +kernel) prog 5 (unicode_count e)
  rw [hpath] at h
  refine ⟨h.1, ?_⟩
  have := h.2.files [storedName e [0xc4], storedName e [0x1f600]] (.stream [4, 5])
    (docAt_cons (n := storedName e [0xc4]) (List.mem_cons_of_mem _ List.mem_cons_self)
      (docAt_cons (path := []) (List.mem_cons_of_mem _ List.mem_cons_self) .here)) (by simp)
  have hf : [ascii "f.export"] ++ [storedName e [0xc4], storedName e [0x1f600]].map (utf8FileName e) ++
      [dataName] = [ascii "f.export", [0xc3, 0x84], [0xf0, 0x9f, 0x98, 0x80], dataName] := by
    cases e <;> decide +kernel
  rw [hf] at this
  exact this

/-- The same with operations that fail from some moment on (C108_olecfexport): from the third on, the program ends
  with success all the same. -/
example (e : Endian) (prog : Bytes) (k : Nat) (cut : Nat → Nat) :
    let p : Programs := { unicodePrograms e with fault := fun n => decide (k ≤ n), cut := cut }
    (p.exportMain 5 [prog, ascii "d/f"] emptyDisk).2 = (if k ≤ 1 then .err else .ok ()) ∧
    PartOfImage (utf8FileName e) (.storage (unicodeDoc e)) [ascii "f.export"] emptyDisk.fs
      (p.exportMain 5 [prog, ascii "d/f"] emptyDisk).1.fs := by
  intro p
  have hpath : pathOf p.cwd (ascii "f" ++ ascii ".export") = [ascii "f.export"] := unicode_path
  have h := C108_olecfexport (p := p) plainUna_isLibuna ⟨e, 9, 6, 4096, {}⟩ (unicodeDoc e)
    (unicodeDoc_storable e) (by show 2 ≤ 6; decide) (unicodeDoc_text e) unicode_asks
    (usual_of_all (by decide +kernel))
    (target := ascii "f") (.behind (pre := ascii "d") rfl (by decide +kernel) (by decide +kernel))
    (by decide +kernel) rfl (fun _ h => by cases h) (smallEnv_noSep .unused ⟨.cleared, Dev.ofBytes [], ⟨[]⟩, ⟨[]⟩⟩)
    (unicode_good e) (unicode_sanitize e) emptyDisk emptyDisk_tidy
    (by rw [hpath]; decide +kernel) (by rw [hpath]; decide +kernel) prog 5 (unicode_count e)
  rw [hpath] at h
  refine ⟨h.1.trans ?_, h.2⟩
  refine if_congr ?_ rfl rfl
  show decide (k ≤ 0) = true ∨ decide (k ≤ 1) = true ↔ k ≤ 1
  simp only [decide_eq_true_eq]
  omega

/-- An empty file is refused by both programs (C83_unopened, C84_refused). -/
example (prog : Bytes) (w : Disk) (fuel : Nat) :
    let p : Programs := { cyrillicPrograms with source := fun _ => (Dev.ofBytes [], {}) }
    p.info fuel [prog, ascii "f"] = ([], .err) ∧ (p.exportMain fuel [prog, ascii "f"] w).1.fs = w.fs := by
  intro p
  have hno : ∀ l, (openCore (p.u.cmp8 (fileOrder (p.source (ascii "f")).1)) (p.source (ascii "f")).1
      .cleared).1.res ≠ .ok l := by
    intro l h
    have : (openCore (p.u.cmp8 (fileOrder (p.source (ascii "f")).1)) (p.source (ascii "f")).1
      .cleared).1.res = .err := rfl
    rw [this] at h
    cases h
  refine ⟨C83_unopened plain_asks (usual_of_all (by decide +kernel)) (fun _ h => by cases h) (Or.inr hno) prog
    fuel, ?_⟩
  have hasks : Asks .olecfexport [ascii "f"] [] (ascii "f") :=
    ⟨⟨[], .operand (Or.inl (by decide +kernel))⟩, by simp, by decide +kernel⟩
  exact (C84_refused hasks (usual_of_all (by decide +kernel)) (.alone rfl (by decide +kernel)) w
    (fun _ h => by cases h) (Or.inr (Or.inr (Or.inr hno))) prog fuel).1

end Olecf.Props
