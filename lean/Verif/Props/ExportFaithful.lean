import Verif.Props.Programs
import Verif.Spec.ExportFaithful

/-
  C109: what two exports have in common tells what the documents have in common.
-/

namespace Olecf.Props

open Olecf Olecf.Spec

/-- The arguments `rest` ask olecfexport to export the file `source` to `target`.  The file stores the document `kids`
  with the writer `wr`; its names are texts, and `s` is the file name libcpath makes of the UTF-8 form of each. -/
structure StoredExport (p : Programs) (s : List Nat → Bytes) (target : Bytes) (wr : Writer)
    (kids : List (Bytes × Doc)) (rest : List Bytes) (es : List (UInt8 × Option Bytes)) (source : Bytes) : Prop where
  storable : Storable wr kids
  short : 2 ≤ wr.shortExp
  text : TextNames wr.order (.storage kids)
  asks : Asks .olecfexport rest es source
  usual : Usual .olecfexport rest
  target : TargetOf es source target
  content : p.source source = (Dev.ofBytes (encodeFile wr kids), {})
  codepage : ∀ name, lastArg es 99 = some name → ∃ r, p.codepageOf name = .ok r
  good : GoodNames (fun n => s ((textOf wr.order n).getD [])) (.storage kids)
  name : ∀ cs, NameText cs → storedName wr.order cs ∈ namesOfKids kids → p.sanitize (cs.flatMap encode8) = some (s cs)

/-- A path of file names with the data of the part of the document there. -/
def FilePart (g : Bytes → Bytes) (doc : Doc) (names : Path) (x : Bytes) : Prop :=
  ∃ path d, DocAt doc path d ∧ path.map g = names ∧ d.data = x

/-- One direction of the uniqueness of images. -/
theorem image_le {g g' : Bytes → Bytes} {doc doc' : Doc} {dir : Path} {fs a b : Fs} (ta : Tidy a)
    (ha : ImageAt g doc dir fs a) (hb : ImageAt g' doc' dir fs b)
    (h : ∀ names x, FilePart g doc names x → FilePart g' doc' names x) :
    (∀ q, a.dir q = true → b.dir q = true) ∧ (∀ q x, a.file q = some x → b.file q = some x) := by
  have key : ∀ q, a.has q = true → fs.has q = false →
      (∃ path d, DocAt doc path d ∧ q = dir ++ path.map g ∧ a.dir q = true ∧ b.dir q = true) ∨
      ∃ path d, DocAt doc path d ∧ q = dir ++ path.map g ++ [dataName] ∧ a.file q = some d.data ∧
        b.file q = some d.data := by
    intro q h1 h2
    obtain ⟨path, d, hd, hq | ⟨hne, hq⟩⟩ := ha.only q h1 h2
    · left
      obtain ⟨path', d', hd', he, -⟩ := h _ _ ⟨path, d, hd, rfl, rfl⟩
      refine ⟨path, d, hd, hq, ?_, ?_⟩
      · rw [hq]; exact ha.dirs path d hd
      · rw [hq, ← he]; exact hb.dirs path' d' hd'
    · right
      obtain ⟨path', d', hd', he, hx⟩ := h _ _ ⟨path, d, hd, rfl, rfl⟩
      have hne' : path' ≠ [] := by
        rintro rfl
        have := congrArg List.length he
        simp only [List.length_map, List.length_nil] at this
        exact hne (List.length_eq_zero_iff.1 this.symm)
      refine ⟨path, d, hd, hq, ?_, ?_⟩
      · rw [hq]; exact ha.files path d hd hne
      · rw [hq, ← he, ← hx]; exact hb.files path' d' hd' hne'
  constructor
  · intro q hq
    cases hf : fs.has q with
    | false =>
      rcases key q (has_of_dir hq) hf with ⟨_, _, _, _, _, k⟩ | ⟨_, _, _, _, k, _⟩
      · exact k
      · rw [ta.apart q hq] at k; cases k
    | true =>
      rcases has_iff.1 hf with k | k
      · exact hb.kept.dirs q k
      · obtain ⟨x, hx⟩ := Option.isSome_iff_exists.1 k
        have := ha.kept.files q x hx
        rw [ta.apart q hq] at this; cases this
  · intro q x hq
    cases hf : fs.has q with
    | false =>
      rcases key q (has_of_file (by rw [hq]; rfl)) hf with ⟨_, _, _, _, k, _⟩ | ⟨_, _, _, _, k1, k2⟩
      · rw [ta.apart q k] at hq; cases hq
      · rw [← hq, k1]; exact k2
    | true =>
      rcases has_iff.1 hf with k | k
      · rw [ta.apart q (ha.kept.dirs q k)] at hq; cases hq
      · obtain ⟨y, hy⟩ := Option.isSome_iff_exists.1 k
        rw [← hq, ha.kept.files q y hy]
        exact hb.kept.files q y hy

/-- Images of documents with the same parts are the same. -/
theorem image_unique {g g' : Bytes → Bytes} {doc doc' : Doc} {dir : Path} {fs a b : Fs} (ta : Tidy a) (tb : Tidy b)
    (ha : ImageAt g doc dir fs a) (hb : ImageAt g' doc' dir fs b)
    (h : ∀ names x, FilePart g doc names x ↔ FilePart g' doc' names x) : a = b := by
  obtain ⟨h1, h2⟩ := image_le ta ha hb fun n x => (h n x).1
  obtain ⟨h3, h4⟩ := image_le tb hb ha fun n x => (h n x).2
  have e1 : a.dir = b.dir := by
    funext q
    exact Bool.eq_iff_iff.2 ⟨h1 q, h3 q⟩
  have e2 : a.file = b.file := by
    funext q
    cases ha : a.file q with
    | some x => exact (h2 q x ha).symm
    | none =>
      cases hb : b.file q with
      | none => rfl
      | some x => rw [h4 q x hb] at ha; cases ha
  obtain ⟨_, _⟩ := a
  obtain ⟨_, _⟩ := b
  cases e1
  cases e2
  rfl

/-- The parts of a document are seen in its image. -/
theorem image_part {g g' : Bytes → Bytes} {kids kids' : List (Bytes × Doc)} {dir : Path} {fs a : Fs} (ht : Tidy fs)
    (hno : fs.has dir = false) (hg : GoodNames g' (.storage kids'))
    (ha : ImageAt g (.storage kids) dir fs a) (hb : ImageAt g' (.storage kids') dir fs a)
    {names : Path} {x : Bytes} (h : FilePart g (.storage kids) names x) : FilePart g' (.storage kids') names x := by
  obtain ⟨path, d, hd, rfl, rfl⟩ := h
  by_cases hne : path = []
  · subst hne
    have : d = .storage kids := by
      rcases docAt_uncons hd with ⟨-, h⟩ | ⟨_, _, _, _, h, _⟩
      · exact h
      · cases h
    subst this
    exact ⟨[], _, .here, rfl, rfl⟩
  · have h1 := ha.files path d hd hne
    have h2 := ht.below (has_false hno).1 (path.map g ++ [dataName]) (by simp)
    rw [← List.append_assoc] at h2
    obtain ⟨path', d', hd', hq | ⟨hne', hq⟩⟩ := hb.only _ (has_of_file (by rw [h1]; rfl)) h2
    · rw [List.append_assoc, List.append_cancel_left_eq] at hq
      rcases List.eq_nil_or_concat path' with rfl | ⟨p, n, rfl⟩
      · simp at hq
      · rw [List.concat_eq_append, List.map_append] at hq
        have := (List.append_inj' hq rfl).2
        rw [List.concat_eq_append] at hd'
        exact absurd (List.cons.inj this).1.symm (hg.plain p n d' hd').2
    · have h3 := hb.files path' d' hd' hne'
      rw [← hq, h1] at h3
      refine ⟨path', d', hd', ?_, (Option.some.inj h3).symm⟩
      have := List.append_cancel_right hq
      rw [List.append_cancel_left_eq] at this
      exact this.symm

/-- The names on a path of a document with text names are texts. -/
theorem docAt_texts {e : Endian} {kids : List (Bytes × Doc)} (hn : TextNames e (.storage kids)) {path : List Bytes}
    {d : Doc} (h : DocAt (.storage kids) path d) :
    ∃ names : List (List Nat), path = names.map (storedName e) ∧
      ∀ cs ∈ names, NameText cs ∧ storedName e cs ∈ namesOfKids kids := by
  have hm := (docAt_names h).1
  generalize hr : (Doc.storage kids) = root at h
  induction h with
  | here => exact ⟨[], rfl, fun _ h => by cases h⟩
  | @sub path ks n d h1 h2 ih =>
    subst hr
    obtain ⟨names, rfl, hall⟩ := ih (fun m hm' => hm m (List.mem_append_left _ hm'))
    obtain ⟨cs, hcs, rfl⟩ := hn.text _ _ _ (DocAt.sub h1 h2)
    refine ⟨names ++ [cs], by simp, ?_⟩
    intro c hc
    rcases List.mem_append.1 hc with hc | hc
    · exact hall c hc
    · rw [List.mem_singleton] at hc
      subst hc
      exact ⟨hcs, hm _ (by simp)⟩

/-- File names of a path of texts. -/
theorem map_texts {e : Endian} {s : List Nat → Bytes} {names : List (List Nat)} (h : ∀ cs ∈ names, NameText cs) :
    (names.map (storedName e)).map (fun n => s ((textOf e n).getD [])) = names.map s := by
  rw [List.map_map]
  refine List.map_congr_left fun cs hcs => ?_
  show s ((textOf e (storedName e cs)).getD []) = s cs
  rw [textOf_stored e (h cs hcs)]
  rfl

/-- The parts by texts and by file names. -/
theorem textPart_filePart {e : Endian} {s : List Nat → Bytes} {kids : List (Bytes × Doc)}
    (hn : TextNames e (.storage kids)) (names : Path) (x : Bytes) :
    FilePart (fun n => s ((textOf e n).getD [])) (.storage kids) names x ↔
      ∃ texts : List (List Nat), (∀ cs ∈ texts, NameText cs ∧ storedName e cs ∈ namesOfKids kids) ∧
        texts.map s = names ∧ TextPart e (.storage kids) texts x := by
  constructor
  · rintro ⟨path, d, hd, hp, hx⟩
    obtain ⟨texts, rfl, hall⟩ := docAt_texts hn hd
    rw [map_texts fun cs h => (hall cs h).1] at hp
    exact ⟨texts, hall, hp, d, hd, hx⟩
  · rintro ⟨texts, hall, rfl, d, hd, hx⟩
    exact ⟨_, d, hd, map_texts fun cs h => (hall cs h).1, hx⟩

/-- The texts on a path to a part of a document with text names. -/
theorem textPart_texts {e : Endian} {kids : List (Bytes × Doc)} {texts : List (List Nat)} {x : Bytes} (h : TextPart e (.storage kids) texts x) :
    ∀ cs ∈ texts, storedName e cs ∈ namesOfKids kids := by
  obtain ⟨d, hd, -⟩ := h
  intro cs hcs
  exact (docAt_names hd).1 _ (List.mem_map.2 ⟨cs, hcs, rfl⟩)

variable {p : Programs} {s : List Nat → Bytes} {target : Bytes}
  {wr wr' : Writer} {kids kids' : List (Bytes × Doc)} {rest rest' : List Bytes}
  {es es' : List (UInt8 × Option Bytes)} {source source' : Bytes}

/-- A run on a stored document gives a tidy image. -/
theorem stored_image (hu : IsLibuna p.u) (hsep : NoSeparator p.sanitize) (hfault : ∀ n, p.fault n = false)
    (hne : target ≠ []) (h : StoredExport p s target wr kids rest es source) (w : Disk) (hw : Tidy w.fs)
    (hno : w.fs.has (pathOf p.cwd (target ++ ascii ".export")) = false)
    (hparent : w.fs.dir (pathOf p.cwd (target ++ ascii ".export")).dropLast = true) (prog : Bytes)
    (fuel : Nat) (hfuel : (namesOfKids kids).length + 1 ≤ fuel) :
    (p.exportMain fuel (prog :: rest) w).2 = .ok () ∧ Tidy (p.exportMain fuel (prog :: rest) w).1.fs ∧
    ImageAt (fun n => s ((textOf wr.order n).getD [])) (.storage kids) (pathOf p.cwd (target ++ ascii ".export")) w.fs
      (p.exportMain fuel (prog :: rest) w).1.fs := by
  have hname : ∀ cs, NameText cs → storedName wr.order cs ∈ namesOfKids kids → p.sanitize (cs.flatMap encode8) =
      some ((fun n => s ((textOf wr.order n).getD [])) (storedName wr.order cs)) := by
    intro cs hcs hm
    dsimp only
    rw [textOf_stored _ hcs]
    exact h.name cs hcs hm
  obtain ⟨env, h1, h2, h3⟩ := document_run hu wr kids h.storable h.short h.text h.asks h.usual h.target hne
    h.content h.codepage hsep h.good hname w hno prog fuel hfuel
  rw [h3, hfault, if_neg (by decide)]
  obtain ⟨k1, k2⟩ := export_shown h2 (fun n => by rw [h1]; exact hfault n) (w := ⟨w.fs, w.tick + 1⟩) hw hno hparent
  exact ⟨k1, (exportFile_tidy h2.sep fuel _ ⟨w.fs, w.tick + 1⟩ hw).1, k2⟩

/-- C109: two files are exported to the same directory of the same file system (one run instead of the other), both
  storing documents whose names are texts that can be told apart as file names.  The results are the same exactly
  if the documents have the same parts: the same data at the same paths of texts.  The sizes of sectors, the byte
  order, the places of the streams, what is in unused space and all other marks of the files do not matter. -/
theorem C109_export_faithful (hu : IsLibuna p.u) (hsep : NoSeparator p.sanitize) (hfault : ∀ n, p.fault n = false)
    (hne : target ≠ []) (h : StoredExport p s target wr kids rest es source)
    (h' : StoredExport p s target wr' kids' rest' es' source')
    (hinj : ∀ a b, storedName wr.order a ∈ namesOfKids kids → storedName wr'.order b ∈ namesOfKids kids' →
      NameText a → NameText b → s a = s b → a = b)
    (w : Disk) (hw : Tidy w.fs) (hno : w.fs.has (pathOf p.cwd (target ++ ascii ".export")) = false)
    (hparent : w.fs.dir (pathOf p.cwd (target ++ ascii ".export")).dropLast = true) (prog : Bytes)
    (fuel : Nat) (hfuel : (namesOfKids kids).length + 1 ≤ fuel) (hfuel' : (namesOfKids kids').length + 1 ≤ fuel) :
    (p.exportMain fuel (prog :: rest) w).1.fs = (p.exportMain fuel (prog :: rest') w).1.fs ↔
    ∀ names : List (List Nat), (∀ cs ∈ names, NameText cs) → ∀ x,
      (TextPart wr.order (.storage kids) names x ↔ TextPart wr'.order (.storage kids') names x) := by
  obtain ⟨-, ta, ia⟩ := stored_image hu hsep hfault hne h w hw hno hparent prog fuel hfuel
  obtain ⟨-, tb, ib⟩ := stored_image hu hsep hfault hne h' w hw hno hparent prog fuel hfuel'
  have eqTexts : ∀ {a b : List (List Nat)}, (∀ c ∈ a, NameText c ∧ storedName wr.order c ∈ namesOfKids kids) →
      (∀ c ∈ b, NameText c ∧ storedName wr'.order c ∈ namesOfKids kids') → a.map s = b.map s → a = b := by
    intro a
    induction a with
    | nil =>
      intro b _ _ he
      cases b with
      | nil => rfl
      | cons _ _ => cases he
    | cons c a ih =>
      intro b ha hb he
      cases b with
      | nil => cases he
      | cons c' b =>
        rw [List.map_cons, List.map_cons] at he
        have k1 := ha c List.mem_cons_self
        have k2 := hb c' List.mem_cons_self
        rw [hinj c c' k1.2 k2.2 k1.1 k2.1 (List.cons.inj he).1,
          ih (fun x hx => ha x (List.mem_cons_of_mem _ hx)) (fun x hx => hb x (List.mem_cons_of_mem _ hx))
            (List.cons.inj he).2]
  constructor
  · intro he
    rw [he] at ia
    intro names ht x
    constructor
    · intro hp
      have hm := textPart_texts hp
      have k := (textPart_filePart (s := s) h.text (names.map s) x).2 ⟨names, fun c hc => ⟨ht c hc, hm c hc⟩, rfl, hp⟩
      obtain ⟨texts, hall, hq, k⟩ := (textPart_filePart h'.text _ x).1 (image_part hw hno h'.good ia ib k)
      rw [eqTexts (fun c hc => ⟨ht c hc, hm c hc⟩) hall hq.symm]
      exact k
    · intro hp
      have hm := textPart_texts hp
      have k := (textPart_filePart (s := s) h'.text (names.map s) x).2 ⟨names, fun c hc => ⟨ht c hc, hm c hc⟩, rfl, hp⟩
      obtain ⟨texts, hall, hq, k⟩ := (textPart_filePart h.text _ x).1 (image_part hw hno h.good ib ia k)
      rw [← eqTexts hall (fun c hc => ⟨ht c hc, hm c hc⟩) hq]
      exact k
  · intro hp
    refine image_unique ta tb ia ib fun names x => ?_
    rw [textPart_filePart h.text, textPart_filePart h'.text]
    constructor
    · rintro ⟨texts, hall, hq, k⟩
      have k' := (hp texts (fun c hc => (hall c hc).1) x).1 k
      exact ⟨texts, fun c hc => ⟨(hall c hc).1, textPart_texts k' c hc⟩, hq, k'⟩
    · rintro ⟨texts, hall, hq, k⟩
      have k' := (hp texts (fun c hc => (hall c hc).1) x).2 k
      exact ⟨texts, fun c hc => ⟨(hall c hc).1, textPart_texts k' c hc⟩, hq, k'⟩

/-- C109: the same document in two files of the same byte order gives the same export, however the files are laid
  out. -/
theorem C109_layout (hu : IsLibuna p.u) (hsep : NoSeparator p.sanitize) (hfault : ∀ n, p.fault n = false)
    (hne : target ≠ []) (horder : wr.order = wr'.order) (h : StoredExport p s target wr kids rest es source)
    (h' : StoredExport p s target wr' kids rest' es' source')
    (w : Disk) (hw : Tidy w.fs) (hno : w.fs.has (pathOf p.cwd (target ++ ascii ".export")) = false)
    (hparent : w.fs.dir (pathOf p.cwd (target ++ ascii ".export")).dropLast = true) (prog : Bytes)
    (fuel : Nat) (hfuel : (namesOfKids kids).length + 1 ≤ fuel) :
    (p.exportMain fuel (prog :: rest) w).1.fs = (p.exportMain fuel (prog :: rest') w).1.fs := by
  obtain ⟨-, ta, ia⟩ := stored_image hu hsep hfault hne h w hw hno hparent prog fuel hfuel
  obtain ⟨-, tb, ib⟩ := stored_image hu hsep hfault hne h' w hw hno hparent prog fuel hfuel
  refine image_unique ta tb ia ib fun names x => ?_
  rw [horder]

/-- The parts of a document with one empty part. -/
theorem filePart_single {g : Bytes → Bytes} {n : Bytes} {k : Doc} (hk : k = .storage [] ∨ k = .stream [])
    {names : Path} {x : Bytes} : FilePart g (.storage [(n, k)]) names x ↔ (names = [] ∨ names = [g n]) ∧ x = [] := by
  constructor
  · rintro ⟨path, d, hd, rfl, rfl⟩
    rcases docAt_uncons hd with ⟨rfl, rfl⟩ | ⟨m, r, ks, k', rfl, he, hm, hr⟩
    · exact ⟨Or.inl rfl, rfl⟩
    · cases he
      rw [List.mem_singleton] at hm
      cases hm
      rcases docAt_uncons hr with ⟨rfl, rfl⟩ | ⟨m, r, ks, k', rfl, he, hm, hr⟩
      · exact ⟨Or.inr rfl, by rcases hk with rfl | rfl <;> rfl⟩
      · rcases hk with rfl | rfl
        · cases he; cases hm
        · cases he
  · rintro ⟨rfl | rfl, rfl⟩
    · exact ⟨[], _, .here, rfl, rfl⟩
    · exact ⟨[n], k, .sub (path := []) .here List.mem_cons_self, rfl, by rcases hk with rfl | rfl <;> rfl⟩

/-- C109 (violated): the export does not keep what kind of part there is.  A document with an empty storage and one
  with an empty stream of the same name are not the same, and their exports are. -/
theorem C109_kind_violated (hu : IsLibuna p.u) (hsep : NoSeparator p.sanitize) (hfault : ∀ n, p.fault n = false)
    (hne : target ≠ []) {cs : List Nat} (hcs : NameText cs)
    (h : StoredExport p s target wr [(storedName wr.order cs, .storage [])] rest es source)
    (h' : StoredExport p s target wr' [(storedName wr'.order cs, .stream [])] rest' es' source')
    (w : Disk) (hw : Tidy w.fs) (hno : w.fs.has (pathOf p.cwd (target ++ ascii ".export")) = false)
    (hparent : w.fs.dir (pathOf p.cwd (target ++ ascii ".export")).dropLast = true) (prog : Bytes)
    (fuel : Nat) (hfuel : 2 ≤ fuel) :
    (p.exportMain fuel (prog :: rest) w).1.fs = (p.exportMain fuel (prog :: rest') w).1.fs ∧
    ¬ Same (.storage [(storedName wr.order cs, .storage [])]) (.storage [(storedName wr'.order cs, .stream [])]) := by
  constructor
  · obtain ⟨-, ta, ia⟩ := stored_image hu hsep hfault hne h w hw hno hparent prog fuel hfuel
    obtain ⟨-, tb, ib⟩ := stored_image hu hsep hfault hne h' w hw hno hparent prog fuel hfuel
    refine image_unique ta tb ia ib fun names x => ?_
    rw [filePart_single (Or.inl rfl), filePart_single (Or.inr rfl)]
    rw [textOf_stored _ hcs, textOf_stored _ hcs]
  · intro hs
    cases hs with
    | storage h1 h2 h3 h4 h5 =>
      rw [List.perm_singleton] at h1 h2
      subst h1
      subst h2
      exact nomatch h5 0 _ _ rfl rfl

/-! ### Examples -/

/-- The programs with one file `a/f` and another `b/f`. -/
def twoFiles (a b : Bytes) : Programs :=
  { cyrillicPrograms with source := fun n => (Dev.ofBytes (if n = ascii "a/f" then a else b), {}) }

/-- What `olecfexport a/f` and `olecfexport b/f` ask for, and the target. -/
theorem two_asks (c : UInt8) (hc : c = 0x61 ∨ c = 0x62) : Asks .olecfexport [[c, 0x2f, 0x66]] [] [c, 0x2f, 0x66] ∧
    Usual .olecfexport [[c, 0x2f, 0x66]] ∧ TargetOf [] [c, 0x2f, 0x66] (ascii "f") := by
  refine ⟨⟨⟨[], .operand (Or.inl ?_)⟩, by simp, ?_⟩, usual_of_all ?_,
    .behind (pre := [c]) rfl rfl (by decide +kernel)⟩ <;> rcases hc with rfl | rfl <;> decide +kernel

/-- The file name of a text: its UTF-8 form. -/
def utf8Of (cs : List Nat) : Bytes := cs.flatMap encode8

/-- The small Unicode document in a file. -/
theorem unicode_export (a b : Bytes) (e : Endian) (c : UInt8) (hc : c = 0x61 ∨ c = 0x62)
    (hf : (if [c, 0x2f, 0x66] = ascii "a/f" then a else b) = encodeFile ⟨e, 9, 6, 4096, {}⟩ (unicodeDoc e)) :
    StoredExport (twoFiles a b) utf8Of (ascii "f") ⟨e, 9, 6, 4096, {}⟩ (unicodeDoc e) [[c, 0x2f, 0x66]] []
      [c, 0x2f, 0x66] where
  storable := unicodeDoc_storable e
  short := by show 2 ≤ 6; decide
  text := unicodeDoc_text e
  asks := (two_asks c hc).1
  usual := (two_asks c hc).2.1
  target := (two_asks c hc).2.2
  content := by
    show (Dev.ofBytes _, _) = _
    rw [hf]
  codepage := fun _ h => by cases h
  good := unicode_good e
  name := by
    intro cs hcs hm
    have := unicode_sanitize e cs hcs hm
    unfold utf8FileName at this
    rw [textOf_stored e hcs] at this
    exact this

/-- UTF-8 tells texts apart. -/
theorem utf8Of_inj {a b : List Nat} (ha : NameText a) (hb : NameText b) (h : utf8Of a = utf8Of b) : a = b := by
  have h1 := queryOf_encode ha (Or.inl rfl)
  have h2 := queryOf_encode hb (Or.inl rfl)
  unfold utf8Of at h
  rw [h, h2] at h1
  exact (Option.some.inj h1).symm

/-- The parts of a storage by texts. -/
theorem textPart_storage {e : Endian} {kids : List (Bytes × Doc)} {names : List (List Nat)} {x : Bytes} :
    TextPart e (.storage kids) names x ↔
      (names = [] ∧ x = []) ∨ ∃ n r, names = n :: r ∧ ∃ k ∈ kids, k.1 = storedName e n ∧ TextPart e k.2 r x := by
  constructor
  · rintro ⟨d, hd, rfl⟩
    rcases docAt_uncons hd with ⟨h, rfl⟩ | ⟨m, r, ks, k, h, he, hm, hr⟩
    · exact Or.inl ⟨List.map_eq_nil_iff.1 h, rfl⟩
    · cases he
      cases names with
      | nil => cases h
      | cons n r' =>
        rw [List.map_cons] at h
        obtain ⟨rfl, rfl⟩ := List.cons.inj h
        exact Or.inr ⟨n, r', rfl, _, hm, rfl, d, hr, rfl⟩
  · rintro (⟨rfl, rfl⟩ | ⟨n, r, rfl, ⟨m, k⟩, hm, h, d, hd, rfl⟩)
    · exact ⟨_, .here, rfl⟩
    · dsimp only at h hd
      subst h
      exact ⟨d, docAt_cons hm hd, rfl⟩

/-- The parts of a stream by texts. -/
theorem textPart_stream {e : Endian} {data : Bytes} {names : List (List Nat)} {x : Bytes} :
    TextPart e (.stream data) names x ↔ names = [] ∧ x = data := by
  constructor
  · rintro ⟨d, hd, rfl⟩
    rcases docAt_uncons hd with ⟨h, rfl⟩ | ⟨m, r, ks, k, h, he, hm, hr⟩
    · exact ⟨List.map_eq_nil_iff.1 h, rfl⟩
    · cases he
  · rintro ⟨rfl, rfl⟩
    exact ⟨_, .here, rfl⟩

/-- The parts of the small Unicode document. -/
theorem unicode_parts (e : Endian) {names : List (List Nat)} (ht : ∀ cs ∈ names, NameText cs) (x : Bytes) :
    TextPart e (.storage (unicodeDoc e)) names x ↔ (names = [] ∧ x = []) ∨ (names = [[0x41]] ∧ x = [9]) ∨
      (names = [[0xc4]] ∧ x = []) ∨ (names = [[0xc4], [0x65e5, 0x672c]] ∧ x = [1, 2, 3]) ∨
      (names = [[0xc4], [0x1f600]] ∧ x = [4, 5]) := by
  have hs : ∀ {n m : List Nat}, NameText n → NameText m → (storedName e m = storedName e n ↔ n = m) :=
    fun h1 h2 => ⟨fun h => (storedName_inj h2 h1 h).symm, fun h => by rw [h]⟩
  have k1 : NameText [0x41] := by decide
  have k2 : NameText [0xc4] := by decide
  have k3 : NameText [0x65e5, 0x672c] := by decide
  have k4 : NameText [0x1f600] := by decide
  unfold unicodeDoc
  rcases names with _ | ⟨n, _ | ⟨m, r⟩⟩
  · simp [textPart_storage]
  · have hn := ht n (by simp)
    simp [textPart_storage, textPart_stream, hs hn k1, hs hn k2]
  · have hn := ht n (by simp)
    have hm := ht m (by simp)
    simp [textPart_storage, textPart_stream, hs hn k2, hs hm k3, hs hm k4]
    tauto

/-- The small Unicode document in little-endian and in big-endian byte order: the exports are the same
  (C109_export_faithful). -/
example (prog a b : Bytes) (ha : a = encodeFile ⟨.little, 9, 6, 4096, {}⟩ (unicodeDoc .little))
    (hb : b = encodeFile ⟨.big, 9, 6, 4096, {}⟩ (unicodeDoc .big)) :
    ((twoFiles a b).exportMain 5 [prog, [0x61, 0x2f, 0x66]] emptyDisk).1.fs =
      ((twoFiles a b).exportMain 5 [prog, [0x62, 0x2f, 0x66]] emptyDisk).1.fs := by
  have hpath : pathOf (twoFiles a b).cwd (ascii "f" ++ ascii ".export") = [ascii "f.export"] := unicode_path
  have h1 := unicode_export a b .little 0x61 (Or.inl rfl) (by rw [if_pos (by decide +kernel), ha])
  have h2 := unicode_export a b .big 0x62 (Or.inr rfl) (by rw [if_neg (by decide +kernel), hb])
  refine (C109_export_faithful plainUna_isLibuna
    (smallEnv_noSep .unused ⟨.cleared, Dev.ofBytes [], ⟨[]⟩, ⟨[]⟩⟩) (fun _ => rfl) (by decide +kernel)
    h1 h2 (fun a b _ _ ha hb => utf8Of_inj ha hb) emptyDisk emptyDisk_tidy
    (by rw [hpath]; decide +kernel) (by rw [hpath]; decide +kernel) prog 5 (unicode_count _) (unicode_count _)).2 ?_
  intro names ht x
  rw [unicode_parts .little ht, unicode_parts .big ht]

/-- A document with one part, `A`, that is empty. -/
def oneEmpty (e : Endian) (k : Doc) : List (Bytes × Doc) := [(storedName e [0x41], k)]

/-- It is exported. -/
theorem oneEmpty_export (a b : Bytes) (k : Doc) (hk : k = .storage [] ∨ k = .stream []) (c : UInt8)
    (hc : c = 0x61 ∨ c = 0x62)
    (hf : (if [c, 0x2f, 0x66] = ascii "a/f" then a else b) = encodeFile ⟨.little, 9, 6, 4096, {}⟩ (oneEmpty .little k)) :
    StoredExport (twoFiles a b) utf8Of (ascii "f") ⟨.little, 9, 6, 4096, {}⟩ (oneEmpty .little k) [[c, 0x2f, 0x66]] []
      [c, 0x2f, 0x66] := by
  have hnames : namesOfKids (oneEmpty .little k) = [storedName .little [0x41]] := by rcases hk with rfl | rfl <;> rfl
  have htext : TextNames .little (.storage (oneEmpty .little k)) := by
    refine textNames_storage ?_ (by rcases hk with rfl | rfl <;> decide +kernel)
    intro x hx
    rw [oneEmpty, List.mem_singleton] at hx
    subst hx
    refine ⟨⟨_, by decide, rfl⟩, ?_⟩
    rcases hk with rfl | rfl
    · exact textNames_storage (fun _ h => by cases h) List.nodup_nil
    · exact textNames_stream _ _
  exact
  { storable := (C60_storable .little {} noMarks_fits (by simp [oneEmpty])
      (by rw [hnames]; decide +kernel) (by rcases hk with rfl | rfl <;> decide +kernel)).2
      (by rcases hk with rfl | rfl <;> decide +kernel)
    short := by show 2 ≤ 6; decide
    text := htext
    asks := (two_asks c hc).1
    usual := (two_asks c hc).2.1
    target := (two_asks c hc).2.2
    content := by
      show (Dev.ofBytes _, _) = _
      rw [hf]
    codepage := fun _ h => by cases h
    good := by
      refine goodNames_of_injective htext ?_ ?_ <;> rw [hnames] <;> decide +kernel
    name := by
      intro cs hcs hm
      rw [hnames, List.mem_singleton] at hm
      rw [storedName_inj hcs (by decide) hm]
      show cyrillicPrograms.sanitize _ = _
      decide +kernel }

/-- An empty storage and an empty stream (C109_kind_violated). -/
example (prog a b : Bytes) (ha : a = encodeFile ⟨.little, 9, 6, 4096, {}⟩ (oneEmpty .little (.storage [])))
    (hb : b = encodeFile ⟨.little, 9, 6, 4096, {}⟩ (oneEmpty .little (.stream []))) :
    ((twoFiles a b).exportMain 5 [prog, [0x61, 0x2f, 0x66]] emptyDisk).1.fs =
      ((twoFiles a b).exportMain 5 [prog, [0x62, 0x2f, 0x66]] emptyDisk).1.fs := by
  have hpath : pathOf (twoFiles a b).cwd (ascii "f" ++ ascii ".export") = [ascii "f.export"] := unicode_path
  have h1 := oneEmpty_export a b _ (Or.inl rfl) 0x61 (Or.inl rfl) (by rw [if_pos (by decide +kernel), ha])
  have h2 := oneEmpty_export a b _ (Or.inr rfl) 0x62 (Or.inr rfl) (by rw [if_neg (by decide +kernel), hb])
  exact (C109_kind_violated plainUna_isLibuna
    (smallEnv_noSep .unused ⟨.cleared, Dev.ofBytes [], ⟨[]⟩, ⟨[]⟩⟩) (fun _ => rfl) (by decide +kernel)
    (cs := [0x41]) (by decide) h1 h2 emptyDisk emptyDisk_tidy
    (by rw [hpath]; decide +kernel) (by rw [hpath]; decide +kernel) prog 5 (by decide)).1

end Olecf.Props
