import Verif.Spec.MountProgram
import Verif.Props.Programs
import Verif.Props.FuseDoc
import Verif.Props.Marks

/-
  C85: the program olecfmount from the command line to the exit status.
-/

namespace Olecf.Props
open Spec

/-! ### File names -/

theorem codec_isUtf8 {u : Libuna} (hu : IsLibuna u) {enc : Nat → Option Bytes}
    (henc : ∀ c, Scalar c → enc c = some (encode8 c)) : IsUtf8 ⟨u.dec8, enc⟩ where
  sep := by
    have h1 := hu.dec8.sep
    have h2 : encode8 0x5c = [0x5c] := by decide
    rw [h2] at h1
    exact (List.cons.inj h1).1.symm
  ascii_enc c hc := by
    have hs : Scalar c := .inl (by omega)
    show enc c = _
    rw [henc c hs, ← libUtf8_isUtf8.ascii_enc c hc, encode8_eq hs]
  enc_size c hc := by
    obtain ⟨v, h1, h2⟩ := libUtf8_isUtf8.enc_size c hc
    exact ⟨v, (henc c hc).trans ((encode8_eq hc).symm.trans h1), h2⟩
  enc_high c v hc h h1 := libUtf8_isUtf8.enc_high c v hc h
    ((encode8_eq hc).trans ((henc c hc).symm.trans h1))
  dec_enc c v rest hc h := by
    have : v = encode8 c := Option.some.inj (h.symm.trans (henc c hc))
    subst this
    exact hu.dec8.step c rest hc

theorem hexText_eq : ∀ w c, hexFixed w c = hexText w c
  | 0, _ => rfl
  | w + 1, c => by
    rw [hexFixed, hexText, hexText_eq w]
    congr 2
    unfold hexDigit
    split
    · rfl
    · congr 1
      omega

theorem escText_mounted {k : Codec} (henc : ∀ c, Scalar c → k.enc c = some (encode8 c)) {c : Nat}
    (hc : Scalar c) (h0 : c ≠ 0) : escText k c = mountedChar c := by
  unfold escText mountedChar
  rw [hexText_eq, hexText_eq, henc c hc]
  have h1 : EscapedX c ↔ Control c ∨ c = 0x2f := by unfold EscapedX Control; omega
  have h2 : EscapedU c ↔ Unshown c := by unfold EscapedU Unshown; unfold Scalar at hc; omega
  simp only [h1, h2, Option.getD_some]

theorem utf8_encode8 {k : Codec} (henc : ∀ c, Scalar c → k.enc c = some (encode8 c)) {cs : List Nat}
    (hcs : ∀ c ∈ cs, Scalar c) : utf8 k cs = cs.flatMap encode8 := by
  unfold utf8
  induction cs with
  | nil => rfl
  | cons c cs ih =>
    rw [List.flatMap_cons, List.flatMap_cons, henc c (hcs c List.mem_cons_self),
      ih fun x hx => hcs x (List.mem_cons_of_mem _ hx)]
    rfl

/-- UTF-8 is read in one way only. -/
theorem encode8s_inj {u : Libuna} (hu : IsLibuna u) {a b : List Nat} (ha : ∀ c ∈ a, Scalar c)
    (hb : ∀ c ∈ b, Scalar c) (h : a.flatMap encode8 = b.flatMap encode8) : a = b := by
  induction a generalizing b with
  | nil =>
    cases b with
    | nil => rfl
    | cons c b =>
      have := hu.dec8.nonempty c (hb c List.mem_cons_self)
      rw [List.flatMap_cons] at h
      exact absurd (List.append_eq_nil_iff.1 h.symm).1 this
  | cons x a ih =>
    have hx := ha x List.mem_cons_self
    cases b with
    | nil =>
      rw [List.flatMap_cons] at h
      exact absurd (List.append_eq_nil_iff.1 h).1 (hu.dec8.nonempty x hx)
    | cons y b =>
      have hy := hb y List.mem_cons_self
      rw [List.flatMap_cons, List.flatMap_cons] at h
      have e1 := hu.dec8.step x (a.flatMap encode8) hx
      have e2 := hu.dec8.step y (b.flatMap encode8) hy
      rw [h, e2] at e1
      cases (Prod.mk.inj (Option.some.inj e1)).1
      rw [ih (fun c hc => ha c (List.mem_cons_of_mem _ hc)) (fun c hc => hb c (List.mem_cons_of_mem _ hc))
        (List.append_cancel_left h)]

theorem mountItemName_stored {u : Libuna} (hu : IsLibuna u) {io : IoHandle} {cs : List Nat}
    (hc : NameText cs) (d : DirEntry) (hd : d.name = storedName io.byteOrder cs)
    (hlen : d.name.length ≤ 64) : mountItemName u io d = some (cs.flatMap encode8) := by
  have h1 := storedName_length io.byteOrder cs
  have h2 := encode8s_length cs
  rw [hd] at hlen
  have h := stored_hasName hu (it := ⟨none, d⟩) (io := io) hc hd
  unfold mountItemName
  rw [h.size8]
  dsimp only
  rw [if_neg (by unfold ssizeMax; omega), h.name8 _ (Nat.le_refl _) (by omega)]
  simp

theorem flatMap_congr' {α β : Type} {f g : α → List β} : ∀ {l : List α}, (∀ x ∈ l, f x = g x) →
    l.flatMap f = l.flatMap g
  | [], _ => rfl
  | x :: l, h => by
    rw [List.flatMap_cons, List.flatMap_cons, h x List.mem_cons_self,
      flatMap_congr' fun y hy => h y (List.mem_cons_of_mem _ hy)]

theorem sum_le {α : Type} (f : α → Nat) (b : Nat) : ∀ (l : List α), (∀ x ∈ l, f x ≤ b) →
    (l.map f).sum ≤ l.length * b
  | [], _ => by simp
  | x :: l, h => by
    rw [List.map_cons, List.sum_cons, List.length_cons, Nat.succ_mul]
    have := sum_le f b l fun y hy => h y (List.mem_cons_of_mem _ hy)
    have := h x List.mem_cons_self
    omega

mutual
theorem names_count : ∀ d : Doc, d.names.length + 1 = d.count
  | .storage kids => by
    rw [Doc.names, Doc.count, namesOfKids_count kids, Nat.add_comm]
  | .stream _ => rfl
theorem namesOfKids_count : ∀ kids : List (Bytes × Doc), (namesOfKids kids).length = countKids kids
  | [] => rfl
  | (n, d) :: r => by
    rw [namesOfKids, countKids, List.length_cons, List.length_append, namesOfKids_count r, ← names_count d]
    omega
end

/-- A stored document with Unicode names can be mounted. -/
theorem mountable_text {u : Libuna} (hu : IsLibuna u) {wr : Writer} {kids : List (Bytes × Doc)}
    (hst : Storable wr kids) (hn : TextNames wr.order (.storage kids)) (hm : MountNames wr.order kids)
    {env : FuseEnv} {io : IoHandle} (hio : io.byteOrder = wr.order)
    (henc : ∀ c, Scalar c → env.k.enc c = some (encode8 c)) (hcmp : env.cmp = u.cmp8 wr.order)
    (hname : env.utf8Name = mountItemName u io) :
    Mountable env (fun n => (textOf wr.order n).getD []) (.storage kids) := by
  have key : ∀ path n d, DocAt (.storage kids) (path ++ [n]) d → ∃ cs, NameText cs ∧
      n = storedName wr.order cs ∧ (textOf wr.order n).getD [] = cs ∧ n ∈ namesOfKids kids ∧
      utf8 env.k cs = cs.flatMap encode8 := by
    intro path n d h
    obtain ⟨cs, h1, rfl⟩ := hn.text path n d h
    refine ⟨cs, h1, rfl, ?_, (docAt_names h).1 _ (by simp), utf8_encode8 henc fun c hc => (h1.chars.2 c hc).1⟩
    rw [textOf_stored _ h1]
    rfl
  refine ⟨?_, ?_, ?_, hn.distinct, ?_⟩
  · intro path n d h
    obtain ⟨cs, h1, rfl, h3, h4, h5⟩ := key path n d h
    rw [h3, h5]
    obtain ⟨m1, m2, m3⟩ := hm cs h1 h4
    have hsc : ∀ c ∈ cs, Scalar c := fun c hc => (h1.chars.2 c hc).1
    refine ⟨h1.chars, m1, fun he => m2 ?_, fun he => m3 ?_⟩
    · refine encode8s_inj hu hsc (by decide) ?_
      rw [he]; decide
    · refine encode8s_inj hu hsc (by decide) ?_
      rw [he]; decide
  · intro e path d h
    obtain ⟨cs, h1, h2, h3, h4, h5⟩ := key path e.name d h
    rw [h3, h5, hname]
    exact mountItemName_stored hu h1 e (by rw [h2, hio]) (hst.names _ h4)
  · intro path ks h a ha b hb
    obtain ⟨ca, a1, a2, a3, -, a5⟩ := key path a.1 a.2 (.sub h ha)
    obtain ⟨cb, b1, b2, -, -, -⟩ := key path b.1 b.2 (.sub h hb)
    rw [a3, a5, hcmp, b2, (hu.cmp8 _ _ _ a1 b1).1, a2]
    congr 1
    have : ca = cb ↔ storedName wr.order ca = storedName wr.order cb := by
      refine ⟨fun h => by rw [h], fun h => ?_⟩
      have := congrArg (textOf wr.order) h
      rw [textOf_stored _ a1, textOf_stored _ b1] at this
      exact Option.some.inj this
    exact decide_eq_decide.2 this
  · intro path d h
    have hlen := (docAt_depth h).1
    have hcount : (Doc.storage kids).names.length ≤ 1025 * 256 := by
      rw [Doc.names, namesOfKids_count]
      have := countKids_lt hst
      omega
    refine Nat.lt_of_le_of_lt (sum_le _ 2561 path ?_) (by omega)
    intro n hnm
    obtain ⟨q, x, hq⟩ := namesOfKids_docAt kids n ((docAt_names h).1 n hnm)
    obtain ⟨cs, h1, h2, h3, h4, h5⟩ := key q n x hq
    rw [h3, h5]
    have e1 := storedName_length wr.order cs
    have e2 := encode8s_length cs
    have e3 := hst.names _ h4
    rw [h2] at e3
    omega

/-! ### The program -/

theorem mount_run {p : Programs} {lib : FuseLib} {rest : List Bytes} {es : List (UInt8 × Option Bytes)}
    {source point : Bytes} (ha : AsksMount rest es source point) (hus : Usual .olecfmount rest)
    (prog : Bytes) : p.mountMain lib (prog :: rest) = p.mountRun lib (settingsOf es) source point := by
  obtain ⟨more, hr⟩ := ha.reads
  unfold Programs.mountMain
  rw [C82_command_line_partial hr hus ha.noEnd (fun _ _ h => by cases h) prog]
  unfold commandOf
  rw [List.find?_eq_none.2 (by simpa using ha.noHelp)]
  rfl

/-- C85 and C91: run on a stored document, olecfmount mounts at the mount point a file system that presents
  the document with the stored modification times, in the background unless -v is given, and ends with
  success. -/
theorem C85_document {p : Programs} (hu : IsLibuna p.u) {lib : FuseLib}
    (henc : ∀ c, Scalar c → lib.encode c = some (encode8 c)) (hw : FuseLib.Works lib)
    (wr : Writer) (kids : List (Bytes × Doc)) (hst : Storable wr kids)
    (htime : ∀ i ≤ countKids kids, TimeFits (wr.marks.entry i).modified)
    (hn : TextNames wr.order (.storage kids)) (hm : MountNames wr.order kids)
    {rest : List Bytes} {es : List (UInt8 × Option Bytes)} {source point : Bytes}
    (ha : AsksMount rest es source point) (hus : Usual .olecfmount rest)
    (hs : p.source source = (Dev.ofBytes (encodeFile wr kids), {}))
    (hdef : ∀ name, lastArg es 99 = some name → ∃ r, p.codepageOf name = .ok r) (prog : Bytes) :
    ∃ env mname, p.mountMain lib (prog :: rest) =
        (some ⟨point, some env, !(es.any (·.1 == 118))⟩, .ok ()) ∧
      (∀ cs, NameText cs → storedName wr.order cs ∈ namesOfKids kids →
        mname (storedName wr.order cs) = fileNameText cs) ∧
      Presents env mname (.storage kids) ∧ env.mounted = lib.now ∧ env.nsec = lib.nsec ∧
      PresentsTimes env mname (.storage kids) fun i => (wr.marks.entry i).modified := by
  have hcmp := text_names_comparable hu hn
  have horder := fileOrder_stored hst _ hcmp
  obtain ⟨hok, t, f, htree, hf, hpres⟩ := C62_written_document_mounted wr kids hst htime
    (p.u.cmp8 wr.order) hcmp (handState (Dev.ofBytes (encodeFile wr kids)))
    (handState_reachable _ _) rfl (.user 1) rfl 1 rfl
  obtain ⟨-, t', f', htree', hf', hpres'⟩ := C91_mounted_times wr kids hst htime
    (p.u.cmp8 wr.order) hcmp (handState (Dev.ofBytes (encodeFile wr kids)))
    (handState_reachable _ _) rfl (.user 1) rfl 1 rfl
  rw [htree] at htree'
  cases htree'
  rw [hf] at hf'
  cases hf'
  have hbo := opened_byteOrder (handState_reachable _ _) (h := .user 1) rfl (encodeFile_layout hst).fits
    (encodeFile_layout hst).header hok
  rw [← horder] at hok htree hf hbo
  obtain ⟨ho, hfile, -, hdev⟩ := openInput_of_open hs hok
  have hctx : (p.openInput source).2.file.ctx (Dev.ofBytes (encodeFile wr kids)) = some f := by
    rw [hfile, ← hf, hdev]
    rfl
  have htr : (p.openInput source).2.file.tree = some t := by rw [hfile]; exact htree
  have hio : (p.openInput source).2.file.io.byteOrder = wr.order := by
    rw [hfile, ← horder]; exact hbo
  obtain ⟨env, henv, e1, e2, e3, e4, e5, e6, e7⟩ : ∃ env,
      p.mountEnv lib (p.source source).1 (p.openInput source).2.file = some env ∧ env.tree = t ∧
      env.ctx = f ∧ env.k = ⟨p.u.dec8, lib.encode⟩ ∧ env.cmp = p.u.cmp8 wr.order ∧
      env.utf8Name = mountItemName p.u (p.openInput source).2.file.io ∧ env.mounted = lib.now ∧
      env.nsec = lib.nsec := by
    unfold Programs.mountEnv
    rw [hs, htr, hctx, hio]
    exact ⟨_, rfl, rfl, rfl, rfl, rfl, rfl, rfl, rfl⟩
  have hk : ∀ c, Scalar c → env.k.enc c = some (encode8 c) := by rw [e3]; exact henc
  have hmt := mountable_text hu hst hn hm (env := env) hio hk e4 e5
  obtain ⟨mname, h1, h2⟩ := hpres env _ e1 e2 (by rw [e3]; exact codec_isUtf8 hu henc) hmt
  refine ⟨env, mname, ?_, ?_, h2, e6, e7,
    hpres' env _ mname e1 e2 (by rw [e3]; exact codec_isUtf8 hu henc) hmt h1⟩
  · rw [mount_run ha hus]
    unfold Programs.mountRun
    obtain ⟨w1, w2, w3, w4, w5⟩ := hw
    rw [setCodepage_ok hdef, ho, henv, w1, w2, w3, w4, w5]
    simp only [Bool.false_eq_true, and_false, or_false, if_false]
    rfl
  · intro cs hcs hmem
    obtain ⟨path, x, hx⟩ := namesOfKids_docAt kids _ hmem
    have := h1 path _ x hx
    rw [textOf_stored _ hcs] at this
    obtain ⟨-, h4⟩ := fromItemPath_eq (by rw [e3]; exact codec_isUtf8 hu henc) hcs.chars this
    rw [h4]
    unfold fileNameText
    exact flatMap_congr' fun c hc => escText_mounted hk (hcs.chars.2 c hc).1 (hcs.chars.2 c hc).2

/-- C85: if the source cannot be opened, or a call of libfuse fails before requests can be answered, nothing is
  mounted and the program ends with failure. -/
theorem C85_refused {p : Programs} {lib : FuseLib} {rest : List Bytes} {es : List (UInt8 × Option Bytes)}
    {source point : Bytes} (ha : AsksMount rest es source point) (hus : Usual .olecfmount rest)
    (hdef : ∀ name, lastArg es 99 = some name →
      p.codepageOf name = .err ∨ ∃ r, p.codepageOf name = .ok r)
    (hno : (p.source source).2.opening = true ∨
      (∀ l, (openCore (p.u.cmp8 (fileOrder (p.source source).1)) (p.source source).1 .cleared).1.res ≠
        .ok l) ∨ lib.new = true ∨ lib.mount = true ∨
      (lib.daemonize = true ∧ ∀ x ∈ es, x.1 ≠ 118)) (prog : Bytes) :
    p.mountMain lib (prog :: rest) = (none, .err) := by
  rw [mount_run ha hus]
  unfold Programs.mountRun
  have : p.setCodepage (settingsOf es).codepage = .ok () ∨
      p.setCodepage (settingsOf es).codepage = .err := setCodepage_cases hdef
  rcases this with h | h
  · rw [h]
    rcases (openInput_iff p source).2 with hopen | hopen
    · obtain ⟨-, -, -, h1, l, h2⟩ := (openInput_iff p source).1.1 hopen
      rw [hopen]
      dsimp only
      split
      · rfl
      · split
        · rfl
        · rename_i hnm
          rcases hno with hno | hno | hno | hno | ⟨hd, hv⟩
          · rw [h1] at hno; cases hno
          · exact absurd h2 (hno l)
          · exact absurd (.inl hno) hnm
          · exact absurd (.inr hno) hnm
          · have : (settingsOf es).verbose = false := by
              show es.any (·.1 == 118) = false
              rw [List.any_eq_false]
              intro x hx
              simpa using hv x hx
            rw [if_pos ⟨this, hd⟩]
    · rw [hopen]
  · rw [h]

/-- C85: the exit status is success only if the source was opened and libfuse ran until the end. -/
theorem C85_success {p : Programs} {lib : FuseLib} {args : List Bytes} {m : Mounted}
    (h : p.mountMain lib args = (some m, .ok ())) : lib.new = false ∧ lib.mount = false ∧ lib.loop = false ∧
      (m.background = true → lib.daemonize = false) := by
  unfold Programs.mountMain at h
  split at h
  · unfold Programs.mountRun at h
    split at h
    · split at h
      · split at h
        · cases h
        · split at h
          · cases h
          · rename_i hnm
            split at h
            · cases h
            · rename_i hd
              cases hl : lib.loop with
              | true => rw [hl] at h; cases h
              | false =>
                refine ⟨by simpa using fun h => hnm (.inl h), by simpa using fun h => hnm (.inr h), rfl, ?_⟩
                cases (Prod.mk.inj h).1
                intro hb
                exact Bool.eq_false_iff.2 fun h => hd ⟨(Bool.not_eq_true' _) ▸ hb, h⟩
      all_goals cases h
    all_goals cases h
  all_goals cases h

/-- C85: without a source and a mount point nothing is mounted; -h and -V succeed, anything else fails. -/
theorem C85_no_mount {p : Programs} {lib : FuseLib} {rest : List Bytes} {es : List (UInt8 × Option Bytes)}
    {e : End} (hr : Reads (flagsOf .olecfmount) (withArgOf .olecfmount) rest es e)
    (hus : Usual .olecfmount rest) (h0 : ∀ a ∈ rest, (0 : UInt8) ∉ a) (prog : Bytes) :
    ((∃ x ∈ es, x.1 = 104 ∨ x.1 = 86) → p.mountMain lib (prog :: rest) = (none, .ok ())) ∧
    ((∀ x ∈ es, x.1 ≠ 104 ∧ x.1 ≠ 86) → (∀ s m more, e ≠ .operands (s :: m :: more)) →
      p.mountMain lib (prog :: rest) = (none, .err)) := by
  obtain ⟨y, -, -, h3⟩ := command_reads hr hus h0 prog
  unfold Programs.mountMain
  rw [h3]
  unfold commandOf
  refine ⟨?_, fun hno he => ?_⟩
  · rintro ⟨x, hx, hh⟩
    cases hf : es.find? (fun x => x.1 = 104 ∨ x.1 = 86) with
    | none => exact absurd (List.find?_eq_none.1 hf x hx) (by simp only [decide_eq_true_eq, not_not]; exact hh)
    | some z =>
      by_cases h : z.1 = 104
      · simp only [if_pos h]; rfl
      · simp only [if_neg h]; rfl
  · rw [List.find?_eq_none.2 (by simpa using hno)]
    rcases e with l | ⟨a, r⟩ | a
    · rcases l with _ | ⟨s, _ | ⟨m, more⟩⟩
      · rfl
      · rfl
      · exact absurd rfl (he s m more)
    · rfl
    · rfl

/-! ### An example -/

/-- libfuse as it should be. -/
def plainFuse : FuseLib where
  encode := libUtf8.enc
  now := 0
  nsec := true

theorem mount_asks : AsksMount [[45, 118], ascii "f", ascii "m"] [(118, none)] (ascii "f") (ascii "m") :=
  ⟨⟨[], .group (fs := [118]) (by simp) (by decide) (.operand (.inl (by decide +kernel)))⟩, by decide,
    by decide +kernel⟩

theorem unicodeDoc_mountNames (e : Endian) : MountNames e (unicodeDoc e) := by
  intro cs hcs hmem
  have : ∀ n ∈ namesOfKids (unicodeDoc e), 0x5c ∉ (textOf e n).getD [] ∧ (textOf e n).getD [] ≠ [0x2e] ∧
      (textOf e n).getD [] ≠ [0x2e, 0x2e] := by
    simp only [unicodeDoc, namesOfKids, Doc.names, List.append_nil]
    cases e <;> decide +kernel
  have := this _ hmem
  rw [textOf_stored e hcs] at this
  exact this

/-- The small Unicode document is mounted with `olecfmount -v f m`, and the file `/Ä/😀` has its two bytes
  (C85_document). -/
example (e : Endian) (prog : Bytes) : ∃ env h,
    (unicodePrograms e).mountMain plainFuse [prog, [45, 118], ascii "f", ascii "m"] =
      (some ⟨ascii "m", some env, false⟩, .ok ()) ∧
    fuseOpen env [0x2f, 0xc3, 0x84, 0x2f, 0xf0, 0x9f, 0x98, 0x80] 0 none = .ok (.ok h) ∧
    (fuseRead env 100 0 (some h)).1 = .ok (.ok [4, 5]) := by
  obtain ⟨env, mname, h1, h2, h3, -⟩ := C85_document (p := unicodePrograms e) plainUna_isLibuna
    (lib := plainFuse) (fun c hc => encode8_eq hc) ⟨rfl, rfl, rfl, rfl, rfl⟩ ⟨e, 9, 6, 4096, {}⟩ (unicodeDoc e)
    (unicodeDoc_storable e) (fun _ _ => Or.inl rfl) (unicodeDoc_text e) (unicodeDoc_mountNames e) mount_asks
    (usual_of_all (by decide +kernel)) rfl (fun _ h => by cases h) prog
  obtain ⟨s, -, -, -, h4⟩ := h3.streams [storedName e [0xc4], storedName e [0x1f600]] [4, 5]
    (docAt_cons (n := storedName e [0xc4]) (List.mem_cons_of_mem _ List.mem_cons_self)
      (docAt_cons (path := []) (List.mem_cons_of_mem _ List.mem_cons_self) .here))
  obtain ⟨h, h5, h6⟩ := h4 0 rfl
  have n1 := h2 [0xc4] (by decide) (by simp [unicodeDoc, namesOfKids, Doc.names])
  have n2 := h2 [0x1f600] (by decide) (by simp [unicodeDoc, namesOfKids, Doc.names])
  refine ⟨env, h, h1, ?_, h6 100 0 (by decide) (by decide)⟩
  rw [List.map_cons, List.map_cons, List.map_nil, n1, n2] at h5
  exact h5

/-- With the times of `Props/Marks.lean`, the file `/Ä/😀` was modified at noon of 1 January 2020 and 400
  nanoseconds (C91). -/
example (e : Endian) (prog : Bytes) :
    let p : Programs := { cyrillicPrograms with
      source := fun _ => (Dev.ofBytes (encodeFile ⟨e, 9, 6, 4096, datedMarks⟩ (unicodeDoc e)), {}) }
    ∃ env s, p.mountMain plainFuse [prog, [45, 118], ascii "f", ascii "m"] =
      (some ⟨ascii "m", some env, false⟩, .ok ()) ∧
    fuseGetattr env [0x2f, 0xc3, 0x84, 0x2f, 0xf0, 0x9f, 0x98, 0x80] = .ok (.ok s) ∧
    s.mtime.1 * 1000000000 + s.mtime.2 = 1577880000000000400 ∧ s.atime = (0, 0) := by
  intro p
  obtain ⟨env, mname, h1, h2, -, h3, h4, h5⟩ := C85_document (p := p) plainUna_isLibuna
    (lib := plainFuse) (fun c hc => encode8_eq hc) ⟨rfl, rfl, rfl, rfl, rfl⟩
    ⟨e, 9, 6, 4096, datedMarks⟩ (unicodeDoc e)
    (datedDoc_storable e) (fun i _ => Or.inr (by
      show -2 ^ 63 ≤ filetimeNanoseconds (132223536000000000 + i % 256) ∧
        filetimeNanoseconds (132223536000000000 + i % 256) < 2 ^ 63
      unfold filetimeNanoseconds
      omega)) (unicodeDoc_text e) (unicodeDoc_mountNames e) mount_asks
    (usual_of_all (by decide +kernel)) rfl (fun _ h => by cases h) prog
  obtain ⟨s, h6, h7, -, h8⟩ := h5 _ _ _ (datedDoc_placed e)
  have n1 := h2 [0xc4] (by decide) (by simp [unicodeDoc, namesOfKids, Doc.names])
  have n2 := h2 [0x1f600] (by decide) (by simp [unicodeDoc, namesOfKids, Doc.names])
  simp only [List.map_cons, List.map_nil, n1, n2] at h6
  refine ⟨env, s, h1, h6, ?_, ?_⟩
  · have h9 : ShowsInstant env.nsec s.mtime 132223536000000004 := h8
    have h10 := h9.nanoseconds (by decide) (by decide) h4
    unfold instant filetimeNanoseconds at h10
    omega
  · rw [h7, h3]
    cases env.nsec <;> rfl

/-- An empty file is not mounted (C85_refused). -/
example (prog : Bytes) :
    let p : Programs := { cyrillicPrograms with source := fun _ => (Dev.ofBytes [], {}) }
    p.mountMain plainFuse [prog, [45, 118], ascii "f", ascii "m"] = (none, .err) := by
  intro p
  refine C85_refused mount_asks (usual_of_all (by decide +kernel)) (fun _ h => by cases h)
    (.inr (.inl ?_)) prog
  intro l h
  have : (openCore (p.u.cmp8 (fileOrder (p.source (ascii "f")).1)) (p.source (ascii "f")).1
    .cleared).1.res = .err := rfl
  rw [this] at h
  cases h

/-- olecfmount f: the mount point is missing. -/
example (p : Programs) (prog : Bytes) : p.mountMain plainFuse [prog, ascii "f"] = (none, .err) :=
  (C85_no_mount (rest := [ascii "f"]) (.operand (.inl (by decide +kernel))) (usual_of_all (by decide +kernel))
    (by decide +kernel) prog).2 (by simp) (by intro s m more h; cases h)

end Olecf.Props
