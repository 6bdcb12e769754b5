import Verif.Spec.PyModule
import Verif.Props.PyApi

/-
  C120: pyolecf.open and pyolecf.open_file_object.
-/

namespace Olecf.Props
open Olecf Olecf.Spec

theorem pyReachable_new (env : PyEnv) : PyReachable env .new := ⟨[], rfl⟩

theorem new_closed : ¬ PyFile.new.isOpen := by simp [PyFile.isOpen, PyFile.new, OleFile.new]

theorem fresh_clean : RaisesClean (.raised .fresh []) :=
  ⟨_, rfl, fun _ => rfl, fun _ => rfl⟩

/-- A call with an opening function of which it is known when it succeeds, that it fails otherwise, and that
  it leads to a state that a history of calls leads to. -/
theorem pyMake_spec {env : PyEnv} (mem : NoMemory) (flt : Faults) (opening : PyFile → Res Unit × PyFile)
    (hr : PyReachable env (opening .new).2) (hres : (opening .new).1 ≠ .ok () → (opening .new).1 = .err) :
    (mem.object = false ∧ mem.file = false ∧ (opening .new).1 = .ok () ∧
      pyMake mem flt opening = .file (opening .new).2) ∨
    (¬ (mem.object = false ∧ mem.file = false ∧ (opening .new).1 = .ok ()) ∧
      RaisesClean (pyMake mem flt opening)) := by
  have hinit : pyInit .new = .new := rfl
  unfold pyMake
  rw [hinit]
  cases h1 : mem.object with
  | true => exact .inr ⟨by simp, by simpa using fresh_clean⟩
  | false =>
    cases h2 : mem.file with
    | true => exact .inr ⟨by simp, by simpa using fresh_clean⟩
    | false =>
      simp only [Bool.false_eq_true, if_false, true_and]
      generalize ho : opening .new = r at hr hres ⊢
      obtain ⟨res, st⟩ := r
      by_cases hk : res = .ok ()
      · subst hk
        exact .inl ⟨rfl, rfl⟩
      · have := hres hk
        dsimp only at this
        subst this
        obtain ⟨hf1, hf2, hf3⟩ := C86_free hr flt
        dsimp only at hf1 hf2 hf3
        exact .inr ⟨by simp, _, by dsimp only; rw [hf1], hf2, hf3⟩

/-- C120 (partial: names without null characters).  `pyolecf.open` returns an open file object with the content
  of the file of that name exactly if there is memory, the mode is one for reading, the name is a `str` of
  characters or `bytes`, no call to libbfio fails and the content can be loaded.  Otherwise it raises and
  leaves nothing behind. -/
theorem C120_open_partial {env : PyEnv} (hp : IsPyCodec env.py) (mem : NoMemory) (flt : Faults)
    (files : Bytes → Dev × Faults) (name : PyText) (mode : Option PyText)
    (hnul : ∀ b, Denotes name b → 0 ∉ b) :
    (mem.object = false ∧ mem.file = false ∧ ReadMode mode ∧
      ∃ b st, Denotes name b ∧ Loads env (files b).1 ∧ Opens (files b).2 ∧
        Gives env (pyModuleOpen env mem flt files name mode) (files b).1 st) ∨
    (¬ (mem.object = false ∧ mem.file = false ∧ ReadMode mode ∧
        ∃ b, Denotes name b ∧ Loads env (files b).1 ∧ Opens (files b).2) ∧
      RaisesClean (pyModuleOpen env mem flt files name mode)) := by
  obtain ⟨h1, h2, h3⟩ := C86_open_partial hp (pyReachable_new env) files name mode hnul
  have hreach : PyReachable env (pyOpen env files name mode .new).2 :=
    pyReachable_run (pyReachable_new env) (.openName files name mode)
  rcases pyMake_spec mem flt (pyOpen env files name mode) hreach (fun h => (h3 h).1) with
    ⟨m1, m2, hok, he⟩ | ⟨hn, hc⟩
  · obtain ⟨-, hm, b, hb, hl, f1, f2, f3, f4⟩ := h1.1 hok
    obtain ⟨b', hb', hhas⟩ := h2 hok
    have huniq : b' = b := by
      cases hb with
      | str _ => cases hb'; rfl
      | bytes => cases hb'; rfl
    subst huniq
    refine .inl ⟨m1, m2, hm, b', _, hb, hl, ⟨f1, f2, f3, f4⟩, he, hreach, ?_, hhas⟩
    obtain ⟨h, hh, -⟩ := hhas
    unfold PyFile.isOpen
    rw [hh]
    rfl
  · refine .inr ⟨?_, hc⟩
    rintro ⟨m1, m2, hm, b, hb, hl, hf⟩
    exact hn ⟨m1, m2, h1.2 ⟨new_closed, hm, b, hb, hl, hf.create, hf.setName, hf.isOpen, hf.opening⟩⟩

/-- C120 for file objects: the same, if the object can read and seek. -/
theorem C120_open_object {env : PyEnv} (hp : IsPyCodec env.py) (mem : NoMemory) (flt : Faults)
    (obj : PyFileArg) (mode : Option PyText) :
    (mem.object = false ∧ mem.file = false ∧ ReadMode mode ∧ obj.hasRead = true ∧ obj.hasSeek = true ∧
      Loads env obj.dev ∧ ∃ st, Gives env (pyModuleOpenObject env mem flt obj mode) obj.dev st) ∨
    (¬ (mem.object = false ∧ mem.file = false ∧ ReadMode mode ∧ obj.hasRead = true ∧
        obj.hasSeek = true ∧ Loads env obj.dev) ∧
      RaisesClean (pyModuleOpenObject env mem flt obj mode)) := by
  obtain ⟨h1, h2, h3⟩ := C86_open_object hp (pyReachable_new env) obj mode
  have hreach : PyReachable env (pyOpenObject env obj mode .new).2 :=
    pyReachable_run (pyReachable_new env) (.openObject obj mode)
  rcases pyMake_spec mem flt (pyOpenObject env obj mode) hreach (fun h => (h3 h).1) with
    ⟨m1, m2, hok, he⟩ | ⟨hn, hc⟩
  · obtain ⟨-, hm, hrd, hsk, hl⟩ := h1.1 hok
    have hhas := h2 hok
    refine .inl ⟨m1, m2, hm, hrd, hsk, hl, _, he, hreach, ?_, hhas⟩
    obtain ⟨h, hh, -⟩ := hhas
    unfold PyFile.isOpen
    rw [hh]
    rfl
  · refine .inr ⟨?_, hc⟩
    rintro ⟨m1, m2, hm, hrd, hsk, hl⟩
    exact hn ⟨m1, m2, h1.2 ⟨new_closed, hm, hrd, hsk, hl⟩⟩

/-- C120, end to end: a stored document with Unicode names is opened by `pyolecf.open` with the name of its
  file and by `pyolecf.open_file_object`, and the file object that is returned shows it. -/
theorem C120_document {env : PyEnv} (hp : IsPyCodec env.py) (hu : IsLibuna env.u) (w : Writer)
    (kids : List (Bytes × Doc)) (hst : Storable w kids) (hn : TextNames w.order (.storage kids))
    {mode : Option PyText} (hm : ReadMode mode) (flt : Faults) :
    (∀ (files : Bytes → Dev × Faults) (name : PyText) (b : Bytes), Denotes name b → 0 ∉ b →
      files b = (Dev.ofBytes (encodeFile w kids), {}) →
      ∃ st, Gives env (pyModuleOpen env {} flt files name mode) (Dev.ofBytes (encodeFile w kids)) st ∧
        PyShows env st w.order (.storage kids)) ∧
    ∀ obj : PyFileArg, obj.hasRead = true → obj.hasSeek = true →
      obj.dev = Dev.ofBytes (encodeFile w kids) →
      ∃ st, Gives env (pyModuleOpenObject env {} flt obj mode) (Dev.ofBytes (encodeFile w kids)) st ∧
        PyShows env st w.order (.storage kids) := by
  obtain ⟨hd1, hd2⟩ := C86_document hp hu w kids hst hn (pyReachable_new env) new_closed hm
  refine ⟨fun files name b hb h0 hf => ?_, fun obj ha hs hd => ?_⟩
  · have huniq : ∀ b', Denotes name b' → b' = b := by
      intro b' hb'
      cases hb with
      | str _ => cases hb'; rfl
      | bytes => cases hb'; rfl
    obtain ⟨hok, -⟩ := hd1 files name b hb h0 hf
    rcases C120_open_partial hp {} flt files name mode (fun b' hb' => by rw [huniq b' hb']; exact h0) with
      ⟨-, -, -, b', st, hb', -, -, hg⟩ | ⟨hno, -⟩
    · rw [huniq b' hb', hf] at hg
      exact ⟨st, hg, C86_shown hu w kids hst hn hg.usual hg.content⟩
    · obtain ⟨h1, -, -⟩ := C86_open_partial hp (pyReachable_new env) files name mode
        (fun b' hb' => by rw [huniq b' hb']; exact h0)
      obtain ⟨-, hm', b', hb', hl, f1, f2, f3, f4⟩ := h1.1 hok
      exact absurd ⟨rfl, rfl, hm', b', hb', hl, f1, f2, f3, f4⟩ hno
  · obtain ⟨hok, -⟩ := hd2 obj ha hs hd
    rcases C120_open_object hp {} flt obj mode with ⟨-, -, -, -, -, -, st, hg⟩ | ⟨hno, -⟩
    · rw [hd] at hg
      exact ⟨st, hg, C86_shown hu w kids hst hn hg.usual hg.content⟩
    · obtain ⟨h1, -, -⟩ := C86_open_object hp (pyReachable_new env) obj mode
      obtain ⟨-, hm', h2, h3, hl⟩ := h1.1 hok
      exact absurd ⟨rfl, rfl, hm', h2, h3, hl⟩ hno

/-- C120 is violated for names with a null byte, as C86 is: the file of another name is opened. -/
theorem C120_nul_violated (env : PyEnv) (mem : NoMemory) (flt : Faults) (files : Bytes → Dev × Faults)
    (mode : Option PyText) (a rest : Bytes) (ha : 0 ∉ a) :
    pyModuleOpen env mem flt files (.bytes (a ++ 0 :: rest)) mode =
      pyModuleOpen env mem flt files (.bytes a) mode := by
  unfold pyModuleOpen pyMake
  rw [C86_nul_violated env files mode _ a rest ha]

/-! ### Examples -/

/-- A document with names outside ASCII is opened by a name that is a `str`, in either byte order. -/
example (e : Endian) :
    ∃ st, Gives plainPyEnv (pyModuleOpen plainPyEnv {} {}
        (fun _ => (Dev.ofBytes (encodeFile ⟨e, 9, 6, 4096, {}⟩ (unicodeDoc e)), {})) (.str [0xe4])
        (some (.str [114, 98])))
      (Dev.ofBytes (encodeFile ⟨e, 9, 6, 4096, {}⟩ (unicodeDoc e))) st ∧
      PyShows plainPyEnv st e (.storage (unicodeDoc e)) :=
  (C120_document plainPy_isPyCodec plainUna_isLibuna ⟨e, 9, 6, 4096, {}⟩ (unicodeDoc e)
    (unicodeDoc_storable e) (unicodeDoc_text e) (.given (cs := [98]) (by decide) (by decide)) {}).1 _ _ _
    (.str (by decide)) (by decide) rfl

/-- A file that cannot be opened, a mode for writing, and too little memory: an exception, and nothing is
  left. -/
example (dev : Dev) (mem : NoMemory) :
    RaisesClean (pyModuleOpen plainPyEnv mem {} (fun _ => (dev, { opening := true })) (.str [97]) none) ∧
    RaisesClean (pyModuleOpenObject plainPyEnv mem {} ⟨true, true, dev⟩ (some (.str [119]))) ∧
    RaisesClean (pyModuleOpenObject plainPyEnv ⟨false, true⟩ {} ⟨true, true, dev⟩ none) := by
  refine ⟨?_, ?_, ?_⟩
  · rcases C120_open_partial (env := plainPyEnv) plainPy_isPyCodec mem {}
      (fun _ => (dev, { opening := true })) (.str [97]) none (by intro b hb; cases hb; decide) with ⟨-, -, -, b, -, -, -, hf, -⟩ | ⟨-, h⟩
    · exact absurd hf.opening (by simp)
    · exact h
  · rcases C120_open_object (env := plainPyEnv) plainPy_isPyCodec mem {}
      ⟨true, true, dev⟩ (some (.str [119])) with
      ⟨-, -, hm, -⟩ | ⟨-, h⟩
    · cases hm
    · exact h
  · rcases C120_open_object (env := plainPyEnv) plainPy_isPyCodec ⟨false, true⟩ {}
      ⟨true, true, dev⟩ none with
      ⟨-, hm, -⟩ | ⟨-, h⟩
    · cases hm
    · exact h

end Olecf.Props
