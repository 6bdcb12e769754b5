import Verif.Spec.PyApi
import Verif.Props.FileState
import Verif.Props.Handles
import Verif.Props.Text
import Verif.Props.Programs
import Verif.Props.MountProgram

/-
  C86, C87, C90: the life of a file object of the Python bindings, its code page, the signature check.
-/

namespace Olecf.Props
open Olecf Olecf.Spec

/-! ### Arguments -/

theorem cString_eq {b : Bytes} (h : 0 ∉ b) : cString b = b := by
  unfold cString
  induction b with
  | nil => rfl
  | cons x l ih =>
    rw [List.takeWhile_cons_of_pos (by simpa using fun hx : x = 0 => h (by simp [hx])),
      ih fun hm => h (by simp [hm])]

theorem pyFileName_of {py : PyCodec} (hp : IsPyCodec py) {name : PyText} {b : Bytes}
    (h : Denotes name b) : pyFileName py name = .ok (cString b) := by
  cases h with
  | str hc => unfold pyFileName; dsimp only; rw [hp.encode _ hc]
  | bytes => rfl

theorem pyFileName_err {py : PyCodec} (hp : IsPyCodec py) {name : PyText} (h : ∀ b, ¬ Denotes name b) :
    pyFileName py name = .err := by
  cases name with
  | str cs =>
    unfold pyFileName
    dsimp only
    rw [hp.refuse cs fun hc => h _ (.str hc)]
  | bytes b => exact absurd .bytes (h b)
  | other => rfl

theorem zero_mem_encode {cs : List Nat} (hc : ∀ c ∈ cs, Scalar c) :
    (0 : UInt8) ∈ cs.flatMap encode8 ↔ 0 ∈ cs := by
  constructor
  · intro h
    obtain ⟨c, hm, hz⟩ := List.mem_flatMap.1 h
    by_cases h0 : c = 0
    · rw [← h0]; exact hm
    · exact absurd rfl (encode8_ne_zero (hc c hm) h0 0 hz)
  · intro h
    exact List.mem_flatMap.2 ⟨0, h, by decide +kernel⟩

theorem pyFormatS_eq {py : PyCodec} (hp : IsPyCodec py) (cs : List Nat) (s : Bytes) :
    pyFormatS py (.str cs) = .ok s ↔ (∀ c ∈ cs, Scalar c) ∧ 0 ∉ cs ∧ s = cs.flatMap encode8 := by
  unfold pyFormatS
  dsimp only
  by_cases hc : ∀ c ∈ cs, Scalar c
  · rw [hp.encode cs hc]
    dsimp only
    by_cases h0 : 0 ∈ cs
    · rw [if_pos (by simpa using (zero_mem_encode hc).2 h0)]
      exact ⟨fun h => (by cases h), fun h => absurd h0 h.2.1⟩
    · rw [if_neg (by simpa using fun h => h0 ((zero_mem_encode hc).1 h))]
      exact ⟨fun h => ⟨hc, h0, (Res.ok.inj h).symm⟩, fun h => by rw [h.2.2]⟩
  · rw [hp.refuse cs hc]
    exact ⟨fun h => (by cases h), fun h => absurd h.1 hc⟩

theorem pyFormatS_cases (py : PyCodec) (t : PyText) :
    (∃ s, pyFormatS py t = .ok s) ∨ pyFormatS py t = .err := by
  unfold pyFormatS
  split
  · split
    · split
      · exact Or.inr rfl
      · exact Or.inl ⟨_, rfl⟩
    · exact Or.inr rfl
  · exact Or.inr rfl

theorem pyMode_cases (py : PyCodec) (m : Option PyText) : pyMode py m = .ok () ∨ pyMode py m = .err := by
  cases m with
  | none => exact Or.inl rfl
  | some t =>
    unfold pyMode
    dsimp only
    rcases pyFormatS_cases py t with ⟨s, h⟩ | h <;> rw [h]
    · by_cases hs : s.head? = some 114
      · left; show (if s.head? = some 114 then _ else _) = _; rw [if_pos hs]; rfl
      · right; show (if s.head? = some 114 then _ else _) = _; rw [if_neg hs]
    · exact Or.inr rfl

theorem encode8_head {c : Nat} (hc : Scalar c) (rest : Bytes) :
    (encode8 c ++ rest).head? = some 114 ↔ c = 114 := by
  constructor
  · intro h
    have h1 := libUtf8_isEncoding.step c rest hc
    have hne := libUtf8_isEncoding.nonempty c hc
    obtain ⟨x, l, hx⟩ := List.exists_cons_of_ne_nil hne
    rw [hx] at h
    simp only [List.cons_append, List.head?_cons, Option.some.injEq] at h
    have h2 := libUtf8_isEncoding.step 114 (l ++ rest) (by decide)
    have he : encode8 114 = [114] := by decide +kernel
    rw [he] at h2
    rw [hx, h] at h1
    simp only [List.cons_append, List.nil_append] at h1 h2
    rw [h1] at h2
    simp only [Option.some.injEq, Prod.mk.injEq] at h2
    exact h2.1
  · rintro rfl
    have he : encode8 114 = [114] := by decide +kernel
    rw [he]; rfl

theorem pyMode_iff {py : PyCodec} (hp : IsPyCodec py) (m : Option PyText) :
    pyMode py m = .ok () ↔ ReadMode m := by
  cases m with
  | none => exact ⟨fun _ => .missing, fun _ => rfl⟩
  | some t =>
    constructor
    · intro h
      unfold pyMode at h
      dsimp only at h
      rcases pyFormatS_cases py t with ⟨s, hs⟩ | hs
      · rw [hs] at h
        have h' : (if s.head? = some 114 then (pure () : Res Unit) else .err) = .ok () := h
        split at h'
        · rename_i hh
          cases t with
          | str cs =>
            obtain ⟨hc, h0, rfl⟩ := (pyFormatS_eq hp cs s).1 hs
            cases cs with
            | nil => cases hh
            | cons c cs =>
              rw [List.flatMap_cons, encode8_head (hc c (by simp))] at hh
              subst hh
              exact .given (fun c hm => hc c (by simp [hm])) (fun h => h0 (by simp [h]))
          | bytes b => cases hs
          | other => cases hs
        · cases h'
      · rw [hs] at h; cases h
    · intro h
      cases h with
      | @given cs hc h0 =>
        have hs : pyFormatS py (.str (114 :: cs)) = .ok ((114 :: cs).flatMap encode8) := by
          refine (pyFormatS_eq hp _ _).2 ⟨?_, ?_, rfl⟩
          · intro c hm
            rcases List.mem_cons.1 hm with rfl | hm
            · decide
            · exact hc c hm
          · simp [h0]
        unfold pyMode
        dsimp only
        rw [hs]
        show (if ((114 :: cs).flatMap encode8).head? = some 114 then (pure () : Res Unit) else .err) = .ok ()
        rw [List.flatMap_cons, if_pos ((encode8_head (by decide) _).2 rfl)]
        rfl

/-! ### The invariant -/

/-- What holds after every history. -/
structure PyInv (st : PyFile) : Prop where
  lib : Inv st.lib
  handle : ∀ n, st.lib.file.handle = some (.user n) ↔ st.ioHandle = some n
  live : st.live = st.ioHandle.toList
  made : ∀ n, st.ioHandle = some n → n < st.made
  outside : ∀ n, st.ioHandle = some n → st.lib.file.openedInLibrary = false
  page : getCodepage st.lib.file ∈ codepages

theorem pyInv_new : PyInv .new where
  lib := inv_initial ⟨rfl, rfl⟩
  handle n := by simp [PyFile.new, OleFile.new]
  live := rfl
  made n h := by cases h
  outside n h := by cases h
  page := by decide +kernel

theorem inv_addObject {st : FileState} (hi : Inv st) (n : Nat) (dev : Dev) : Inv ⟨st.file, st.world.addObject n dev⟩ := by
  refine ⟨hi.closed, ?_, hi.owes, hi.exist, hi.fresh⟩
  intro h hh
  have := hi.isOpen h hh
  refine ⟨?_, this.2⟩
  show (if h = .user n then true else st.world.isOpen h) = true
  split
  · rfl
  · exact this.1

/-- What opening by name does to the file of the library. -/
theorem openName_cases {cmp : Bytes → Bytes → Option Bool} {st : FileState} (hi : Inv st) (dev : Dev)
    (flags : Nat) (flt : Faults) :
    ((openName cmp dev flags flt st).1 = .ok () ∧ st.file.handle = none ∧
      (openName cmp dev flags flt st).2.file.handle = some (.lib st.world.made) ∧
      (openName cmp dev flags flt st).2.world.dev (.lib st.world.made) = dev) ∨
    ((openName cmp dev flags flt st).1 = .err ∧
      (openName cmp dev flags flt st).2.file.handle = st.file.handle ∧
      (openName cmp dev flags flt st).2.file.openedInLibrary = st.file.openedInLibrary) := by
  rw [openName_eq]
  have hi' : ({ file := st.file, world := (st.world.createH dev).2 } : FileState).file.handle = none →
      ({ file := st.file, world := (st.world.createH dev).2 } : FileState).file.Empty := hi.closed
  have hdev : (st.world.createH dev).2.dev (.lib st.world.made) = dev := by simp [World.createH]
  split
  · exact Or.inr ⟨rfl, rfl, rfl⟩
  · split
    · exact Or.inr ⟨rfl, rfl, rfl⟩
    · simp only
      rcases openHandle_spec (cmp := cmp) (h := .lib st.world.made) (flags := flags) (flt := flt)
        (st := ⟨st.file, (st.world.createH dev).2⟩) hi' with
        ⟨hc, h1⟩ | ⟨⟨a, b, c, d⟩, ⟨l, hl, h1⟩ | ⟨hno, h1⟩⟩
      · rw [h1]; right; simp
      · rw [h1]; left
        simp only [if_true]
        refine ⟨trivial, a, rfl, ?_⟩
        rw [(ensureOpen_isOpen _ _).2.2.1]
        exact hdev
      · rw [h1]
        rcases openCore_cases cmp ((st.world.createH dev).2.dev (.lib st.world.made)) st.file.io with
          ⟨l, hl⟩ | he
        · exact absurd hl (hno l)
        · right; simp [he, Res.failed]

/-- What opening a handle that is open does to the file of the library. -/
theorem openHandle_open_cases {cmp : Bytes → Bytes → Option Bool} {st : FileState} (hi : Inv st)
    {h : HandleId} (ho : st.world.isOpen h = true) (flags : Nat) (flt : Faults) :
    ((openHandle cmp h flags flt st).1 = .ok () ∧ st.file.handle = none ∧
      (openHandle cmp h flags flt st).2.file.handle = some h ∧
      (openHandle cmp h flags flt st).2.file.openedInLibrary = false ∧
      (openHandle cmp h flags flt st).2.world.dev = st.world.dev) ∨
    ((openHandle cmp h flags flt st).1 = .err ∧
      (openHandle cmp h flags flt st).2.file.handle = st.file.handle ∧
      (openHandle cmp h flags flt st).2.file.openedInLibrary = st.file.openedInLibrary) := by
  rcases openHandle_spec (cmp := cmp) (h := h) (flags := flags) (flt := flt) hi.closed with
    ⟨hc, h1⟩ | ⟨⟨a, b, c, d⟩, ⟨l, hl, h1⟩ | ⟨hno, h1⟩⟩
  · rw [h1]; right; simp
  · rw [h1]; left
    refine ⟨rfl, a, rfl, by simp [OleFile.loaded, ho], ?_⟩
    exact (ensureOpen_isOpen _ _).2.2.1
  · rw [h1]
    rcases openCore_cases cmp (st.world.dev h) st.file.io with ⟨l, hl⟩ | he
    · exact absurd hl (hno l)
    · right; simp [he, Res.failed]

theorem pyOpen_eq (env : PyEnv) (files : Bytes → Dev × Faults) {name : PyText} {mode : Option PyText}
    {b : Bytes} (hm : pyMode env.py mode = .ok ()) (hb : pyFileName env.py name = .ok b) {st : PyFile}
    (hi : Inv st.lib) : pyOpen env files name mode st =
      ((openName (env.u.cmp8 (fileOrder (files b).1)) (files b).1 1 (files b).2 st.lib).1,
        { st with lib :=
          (openName (env.u.cmp8 (fileOrder (files b).1)) (files b).1 1 (files b).2 st.lib).2 }) := by
  unfold pyOpen
  rw [hm]
  dsimp only
  rw [hb]
  dsimp only
  rcases (openName_iff (env.u.cmp8 (fileOrder (files b).1)) st.lib hi (files b).1 1 (files b).2).2 with
    h | h <;> simp [h, Res.failed]

theorem pyFileName_cases (py : PyCodec) (t : PyText) :
    (∃ s, pyFileName py t = .ok s) ∨ pyFileName py t = .err := by
  cases t with
  | str cs =>
    unfold pyFileName
    dsimp only
    cases py.encode cs with
    | none => exact Or.inr rfl
    | some b => exact Or.inl ⟨_, rfl⟩
  | bytes b => exact Or.inl ⟨_, rfl⟩
  | other => exact Or.inr rfl

theorem pyInv_open {env : PyEnv} {files : Bytes → Dev × Faults} {name : PyText} {mode : Option PyText}
    {st : PyFile} (hi : PyInv st) : PyInv (pyOpen env files name mode st).2 := by
  rcases pyMode_cases env.py mode with hm | hm
  · rcases pyFileName_cases env.py name with ⟨b, hb⟩ | hb
    · rw [pyOpen_eq env files hm hb hi.lib]
      have hp := openName_codepage (cmp := env.u.cmp8 (fileOrder (files b).1)) hi.lib (files b).1 1
        (files b).2
      have hinv := inv_openName (cmp := env.u.cmp8 (fileOrder (files b).1)) (dev := (files b).1)
        (flags := 1) (flt := (files b).2) hi.lib
      rcases openName_cases (cmp := env.u.cmp8 (fileOrder (files b).1)) hi.lib (files b).1 1
        (files b).2 with ⟨_, h1, h2, _⟩ | ⟨_, h1, h2⟩
      · have hnone : st.ioHandle = none := by
          cases hh : st.ioHandle with
          | none => rfl
          | some n => have := (hi.handle n).2 hh; rw [h1] at this; cases this
        refine ⟨hinv, ?_, hi.live, hi.made, ?_, ?_⟩
        · intro n
          dsimp only
          rw [h2, hnone]
          simp
        · intro n hn; dsimp only at hn; rw [hnone] at hn; cases hn
        · unfold getCodepage; dsimp only; rw [hp]; exact hi.page
      · refine ⟨hinv, ?_, hi.live, hi.made, ?_, ?_⟩
        · intro n; dsimp only; rw [h1]; exact hi.handle n
        · intro n hn; dsimp only; rw [h2]; exact hi.outside n hn
        · unfold getCodepage; dsimp only; rw [hp]; exact hi.page
    · unfold pyOpen; rw [hm]; dsimp only; rw [hb]; exact hi
  · unfold pyOpen; rw [hm]; exact hi

theorem addObject_isOpen (w : World) (n : Nat) (dev : Dev) :
    (w.addObject n dev).isOpen (.user n) = true ∧ (w.addObject n dev).dev (.user n) = dev := by
  simp [World.addObject]

/-- The state in which the file of the library is opened for a Python object. -/
theorem pyOpenObject_eq (env : PyEnv) {obj : PyFileArg} {mode : Option PyText}
    (hm : pyMode env.py mode = .ok ()) (h1 : obj.hasRead = true) (h2 : obj.hasSeek = true) {st : PyFile}
    (h3 : st.ioHandle = none) : pyOpenObject env obj mode st =
      match (openHandle (env.u.cmp8 (fileOrder obj.dev)) (.user st.made) 1 {}
        ⟨st.lib.file, st.lib.world.addObject st.made obj.dev⟩).1 with
      | .ok _ => (.ok (), ⟨(openHandle (env.u.cmp8 (fileOrder obj.dev)) (.user st.made) 1 {}
          ⟨st.lib.file, st.lib.world.addObject st.made obj.dev⟩).2, some st.made, st.made + 1,
          st.made :: st.live⟩)
      | e => (e.failed, ⟨(openHandle (env.u.cmp8 (fileOrder obj.dev)) (.user st.made) 1 {}
          ⟨st.lib.file, st.lib.world.addObject st.made obj.dev⟩).2, none, st.made + 1, st.live⟩) := by
  unfold pyOpenObject
  rw [hm]
  dsimp only
  rw [h1, h2, h3]
  rfl

theorem pyInv_openObject {env : PyEnv} {obj : PyFileArg} {mode : Option PyText} {st : PyFile}
    (hi : PyInv st) : PyInv (pyOpenObject env obj mode st).2 := by
  rcases pyMode_cases env.py mode with hm | hm
  · cases h1 : obj.hasRead with
    | false => unfold pyOpenObject; rw [hm]; dsimp only; rw [h1]; exact hi
    | true =>
      cases h2 : obj.hasSeek with
      | false => unfold pyOpenObject; rw [hm]; dsimp only; rw [h1, h2]; exact hi
      | true =>
        cases h3 : st.ioHandle with
        | some n => unfold pyOpenObject; rw [hm]; dsimp only; rw [h1, h2, h3]; exact hi
        | none =>
          rw [pyOpenObject_eq env hm h1 h2 h3]
          have hi0 := inv_addObject hi.lib st.made obj.dev
          have hinv := inv_openUser (cmp := env.u.cmp8 (fileOrder obj.dev)) (n := st.made)
            (flags := 1) (flt := {}) hi0
          have hp := openHandle_codepage (cmp := env.u.cmp8 (fileOrder obj.dev)) hi0
            (.user st.made) 1 {}
          have hlive : st.live = [] := by rw [hi.live, h3]; rfl
          rcases openHandle_open_cases (cmp := env.u.cmp8 (fileOrder obj.dev)) hi0
            (addObject_isOpen st.lib.world st.made obj.dev).1 1 {} with
            ⟨h4, h5, h6, h7, _⟩ | ⟨h4, h5, h6⟩
          · rw [h4]
            refine ⟨hinv, ?_, ?_, ?_, fun _ _ => h7, ?_⟩
            · intro n
              dsimp only
              rw [h6]
              simp
            · dsimp only; rw [hlive]; rfl
            · intro n hn; dsimp only at hn ⊢; cases hn; omega
            · unfold getCodepage; dsimp only; rw [hp]; exact hi.page
          · rw [h4]
            refine ⟨hinv, ?_, ?_, ?_, ?_, ?_⟩
            · intro n
              dsimp only [Res.failed]
              rw [h5]
              rw [← h3]
              exact hi.handle n
            · dsimp only [Res.failed]; rw [hlive]; rfl
            · intro n hn; cases hn
            · intro n hn; cases hn
            · unfold getCodepage; dsimp only [Res.failed]; rw [hp]; exact hi.page
  · unfold pyOpenObject; rw [hm]; exact hi

/-- Closing in terms of the file of the library. -/
theorem pyClose_spec {st : PyFile} (hi : PyInv st) (flt : Faults) :
    (st.lib.file.handle = none ∧ pyClose flt st = (.err, st)) ∨
    (∃ n, st.ioHandle = some n ∧ st.lib.file.handle = some (.user n) ∧
      pyClose flt st = (if flt.free then .err else .ok (),
        ⟨⟨OleFile.new, st.lib.world⟩, none, st.made, []⟩)) ∨
    (∃ n, st.ioHandle = none ∧ st.lib.file.handle = some (.lib n) ∧
      pyClose flt st = (if flt.closing ∨ flt.free then .err else .ok (),
        ⟨⟨OleFile.new, (closeFile flt st.lib).2.world⟩, none, st.made, []⟩)) := by
  cases hh : st.lib.file.handle with
  | none =>
    left
    refine ⟨rfl, ?_⟩
    unfold pyClose
    rw [C34_close_when_closed st.lib hh]
    rfl
  | some k =>
    right
    obtain ⟨h1, h2, h3⟩ := closeFile_resets st.lib hi.lib (by rw [hh]; rfl) flt
    have hinv := hi.lib.isOpen k hh
    cases k with
    | user n =>
      left
      have hio := (hi.handle n).1 hh
      have hout := hi.outside n hio
      have hcr : st.lib.file.createdInLibrary = false := by
        cases hc : st.lib.file.createdInLibrary with
        | false => rfl
        | true => obtain ⟨m, hm⟩ := hinv.2.1.1 hc; cases hm
      have hok : (closeFile flt st.lib).1 = .ok () := by
        rw [h2, hout, hcr]; simp
      have hst : (closeFile flt st.lib).2 = ⟨OleFile.new, st.lib.world⟩ := by
        rw [closeFile_eq hh, hout, hcr]; rfl
      refine ⟨n, hio, rfl, ?_⟩
      unfold pyClose
      rw [hok]
      dsimp only
      rw [hio]
      dsimp only
      rw [hst, hi.live, hio]
      simp
    | lib n =>
      right
      have hio : st.ioHandle = none := by
        cases hio : st.ioHandle with
        | none => rfl
        | some m => have := (hi.handle m).2 hio; rw [hh] at this; cases this
      have hcr : st.lib.file.createdInLibrary = true := hinv.2.1.2 ⟨n, rfl⟩
      have hout := hinv.2.2.1 hcr
      refine ⟨n, hio, rfl, ?_⟩
      have hst : (closeFile flt st.lib).2 = ⟨OleFile.new, (closeFile flt st.lib).2.world⟩ := by
        rw [← h1]
      unfold pyClose
      rw [hi.live, hio]
      rw [hout, hcr] at h2
      by_cases hf : flt.closing ∨ flt.free
      · rw [if_pos hf]
        have : (closeFile flt st.lib).1 = .err := by
          rcases h3 with h | h
          · have := h2.1 h
            rcases hf with hf | hf
            · rw [this.1 rfl] at hf; cases hf
            · rw [this.2 rfl] at hf; cases hf
          · exact h
        rw [this]
        dsimp only [Res.failed]
        rw [hst]; rfl
      · rw [if_neg hf]
        have : (closeFile flt st.lib).1 = .ok () := by
          rw [h2]
          simp only [not_or, Bool.not_eq_true] at hf
          exact ⟨fun _ => hf.1, fun _ => hf.2⟩
        rw [this]
        dsimp only
        rw [hst]; rfl

theorem new_page : getCodepage OleFile.new ∈ codepages := by decide +kernel

theorem pyInv_close {flt : Faults} {st : PyFile} (hi : PyInv st) : PyInv (pyClose flt st).2 := by
  have hinv := inv_close (flt := flt) hi.lib
  rcases pyClose_spec hi flt with ⟨_, h⟩ | ⟨n, hio, hh, h⟩ | ⟨n, hio, hh, h⟩
  · rw [h]; exact hi
  · rw [h]
    have hst : (closeFile flt st.lib).2 = ⟨OleFile.new, st.lib.world⟩ := by
      have hcr : st.lib.file.createdInLibrary = false := by
        cases hc : st.lib.file.createdInLibrary with
        | false => rfl
        | true => obtain ⟨m, hm⟩ := (hi.lib.isOpen _ hh).2.1.1 hc; cases hm
      rw [closeFile_eq hh, hi.outside n hio, hcr]; rfl
    rw [hst] at hinv
    exact ⟨hinv, by simp [OleFile.new], rfl, by simp, by simp, new_page⟩
  · rw [h]
    have hst : (closeFile flt st.lib).2 = ⟨OleFile.new, (closeFile flt st.lib).2.world⟩ := by
      rw [closeFile_eq hh]
    rw [hst] at hinv
    exact ⟨hinv, by simp [OleFile.new], rfl, by simp, by simp, new_page⟩

theorem pyInv_setPage {env : PyEnv} {s : Bytes} {st : PyFile} (hi : PyInv st) :
    PyInv (pySetCodepageFrom env s st).2 := by
  unfold pySetCodepageFrom
  split
  · exact hi
  · rename_i cp _
    dsimp only
    unfold setCodepage
    by_cases hc : cp ∈ codepages
    · rw [if_neg (by simpa using hc)]
      refine ⟨⟨hi.lib.closed, hi.lib.isOpen, hi.lib.owes, hi.lib.exist, hi.lib.fresh⟩, hi.handle,
        hi.live, hi.made, hi.outside, hc⟩
    · rw [if_pos (by simpa using hc)]
      exact hi

theorem pyInv_run {env : PyEnv} {st : PyFile} (hi : PyInv st) (op : PyOp) : PyInv (op.run env st).2 := by
  cases op with
  | openName files name mode => exact pyInv_open hi
  | openObject obj mode => exact pyInv_openObject hi
  | close flt => exact pyInv_close hi
  | setCodepage arg =>
    simp only [PyOp.run, pySetCodepage]
    split
    · exact pyInv_setPage hi
    · exact hi
  | assignCodepage arg =>
    simp only [PyOp.run, pyAssignCodepage]
    cases arg with
    | str cs =>
      dsimp only
      split
      · exact pyInv_setPage hi
      · exact hi
    | bytes b => exact pyInv_setPage hi
    | other => exact hi
  | signalAbort =>
    exact ⟨⟨hi.lib.closed, hi.lib.isOpen, hi.lib.owes, hi.lib.exist, hi.lib.fresh⟩, hi.handle,
        hi.live, hi.made, hi.outside, hi.page⟩

theorem pyReachable_inv {env : PyEnv} {st : PyFile} (h : PyReachable env st) : PyInv st := by
  obtain ⟨ops, rfl⟩ := h
  unfold pyRun
  have : ∀ (ops : List PyOp) (st : PyFile), PyInv st →
      PyInv (ops.foldl (fun st op => (op.run env st).2) st) := by
    intro ops
    induction ops with
    | nil => intro st h; exact h
    | cons op ops ih => intro st h; exact ih _ (pyInv_run h op)
  exact this ops _ pyInv_new

/-! ### C86: opening and closing -/

theorem loads_iff {env : PyEnv} {dev : Dev} : Loads env dev ↔
    ∃ l, (openCore (env.u.cmp8 (fileOrder dev)) dev .cleared).1.res = .ok l := Iff.rfl

/-- C86 (partial: names without null characters).  In every state a program can reach, `open` with a name
  succeeds exactly if the file object is closed, the mode is one for reading, the name is a `str` of
  characters or `bytes`, no call to libbfio fails and the content can be loaded; then the file has the
  content of the file of that name.  Otherwise there is an exception, and the file is open or closed as
  before. -/
theorem C86_open_partial {env : PyEnv} (hp : IsPyCodec env.py) {st : PyFile} (hr : PyReachable env st)
    (files : Bytes → Dev × Faults) (name : PyText) (mode : Option PyText)
    (hnul : ∀ b, Denotes name b → 0 ∉ b) :
    ((pyOpen env files name mode st).1 = .ok () ↔
      ¬ st.isOpen ∧ ReadMode mode ∧ ∃ b, Denotes name b ∧ Loads env (files b).1 ∧
        (files b).2.create = false ∧ (files b).2.setName = false ∧ (files b).2.isOpen = false ∧
        (files b).2.opening = false) ∧
    ((pyOpen env files name mode st).1 = .ok () →
      ∃ b, Denotes name b ∧ (pyOpen env files name mode st).2.Has (files b).1) ∧
    ((pyOpen env files name mode st).1 ≠ .ok () → (pyOpen env files name mode st).1 = .err ∧
      ((pyOpen env files name mode st).2.isOpen ↔ st.isOpen)) := by
  have hi := pyReachable_inv hr
  rcases pyMode_cases env.py mode with hm | hm
  · by_cases hd : ∃ b, Denotes name b
    · obtain ⟨b, hb⟩ := hd
      have hfn := pyFileName_of hp hb
      rw [cString_eq (hnul b hb)] at hfn
      rw [pyOpen_eq env files hm hfn hi.lib]
      have huniq : ∀ b', Denotes name b' → b' = b := by
        intro b' hb'
        cases hb with
        | str _ => cases hb'; rfl
        | bytes => cases hb'; rfl
      have hiff := (openName_iff (env.u.cmp8 (fileOrder (files b).1)) st.lib hi.lib (files b).1 1
        (files b).2)
      refine ⟨?_, ?_, ?_⟩
      · dsimp only
        rw [hiff.1]
        constructor
        · rintro ⟨h1, _, h2, h3, h4, h5, h6⟩
          refine ⟨?_, (pyMode_iff hp mode).1 hm, b, hb, h6, h2, h3, h4, h5⟩
          unfold PyFile.isOpen; rw [h1]; simp
        · rintro ⟨h1, _, b', hb', h6, h2, h3, h4, h5⟩
          rw [huniq b' hb'] at h6 h2 h3 h4 h5
          refine ⟨?_, rfl, h2, h3, h4, h5, h6⟩
          unfold PyFile.isOpen at h1
          simpa using h1
      · intro h
        refine ⟨b, hb, ?_⟩
        rcases openName_cases (cmp := env.u.cmp8 (fileOrder (files b).1)) hi.lib (files b).1 1
          (files b).2 with ⟨_, _, h2, h3⟩ | ⟨h1, _⟩
        · exact ⟨_, h2, h3⟩
        · dsimp only at h; rw [h1] at h; cases h
      · intro h
        rcases openName_cases (cmp := env.u.cmp8 (fileOrder (files b).1)) hi.lib (files b).1 1
          (files b).2 with ⟨h1, _⟩ | ⟨h1, h2, _⟩
        · exact absurd h1 h
        · refine ⟨h1, ?_⟩
          unfold PyFile.isOpen
          dsimp only
          rw [h2]
    · have hfn := pyFileName_err hp fun b hb => hd ⟨b, hb⟩
      have : pyOpen env files name mode st = (.err, st) := by
        unfold pyOpen; rw [hm]; dsimp only; rw [hfn]; rfl
      rw [this]
      refine ⟨⟨fun h => (by cases h), ?_⟩, fun h => (by cases h), fun _ => ⟨rfl, Iff.rfl⟩⟩
      rintro ⟨_, _, b, hb, _⟩
      exact absurd ⟨b, hb⟩ hd
  · have : pyOpen env files name mode st = (.err, st) := by
      unfold pyOpen; rw [hm]; rfl
    rw [this]
    refine ⟨⟨fun h => (by cases h), ?_⟩, fun h => (by cases h), fun _ => ⟨rfl, Iff.rfl⟩⟩
    rintro ⟨_, h, _⟩
    rw [(pyMode_iff hp mode).2 h] at hm
    cases hm

/-- C86 for file objects: opening succeeds exactly if the file is closed, the mode is one for reading,
  the object can read and seek, and the content can be loaded; then the file has that content.
  Otherwise there is an exception, and the file is open or closed as before. -/
theorem C86_open_object {env : PyEnv} (hp : IsPyCodec env.py) {st : PyFile} (hr : PyReachable env st)
    (obj : PyFileArg) (mode : Option PyText) :
    ((pyOpenObject env obj mode st).1 = .ok () ↔
      ¬ st.isOpen ∧ ReadMode mode ∧ obj.hasRead = true ∧ obj.hasSeek = true ∧ Loads env obj.dev) ∧
    ((pyOpenObject env obj mode st).1 = .ok () → (pyOpenObject env obj mode st).2.Has obj.dev) ∧
    ((pyOpenObject env obj mode st).1 ≠ .ok () → (pyOpenObject env obj mode st).1 = .err ∧
      ((pyOpenObject env obj mode st).2.isOpen ↔ st.isOpen)) := by
  have hi := pyReachable_inv hr
  have hfail : pyOpenObject env obj mode st = (.err, st) →
      ¬ (¬ st.isOpen ∧ ReadMode mode ∧ obj.hasRead = true ∧ obj.hasSeek = true ∧ Loads env obj.dev) →
      ((pyOpenObject env obj mode st).1 = .ok () ↔
        ¬ st.isOpen ∧ ReadMode mode ∧ obj.hasRead = true ∧ obj.hasSeek = true ∧ Loads env obj.dev) ∧
      ((pyOpenObject env obj mode st).1 = .ok () → (pyOpenObject env obj mode st).2.Has obj.dev) ∧
      ((pyOpenObject env obj mode st).1 ≠ .ok () → (pyOpenObject env obj mode st).1 = .err ∧
        ((pyOpenObject env obj mode st).2.isOpen ↔ st.isOpen)) := by
    intro h hn
    rw [h]
    exact ⟨⟨fun h => (by cases h), fun h => absurd h hn⟩, fun h => (by cases h),
      fun _ => ⟨rfl, Iff.rfl⟩⟩
  rcases pyMode_cases env.py mode with hm | hm
  · cases h1 : obj.hasRead with
    | false =>
      rw [h1] at hfail
      refine hfail ?_ (by simp)
      unfold pyOpenObject; rw [hm]; dsimp only; rw [h1]; rfl
    | true =>
      cases h2 : obj.hasSeek with
      | false =>
        rw [h1, h2] at hfail
        refine hfail ?_ (by simp)
        unfold pyOpenObject; rw [hm]; dsimp only; rw [h1, h2]; rfl
      | true =>
        rw [h1, h2] at hfail
        cases h3 : st.ioHandle with
        | some n =>
          refine hfail ?_ ?_
          · unfold pyOpenObject; rw [hm]; dsimp only; rw [h1, h2, h3]; rfl
          · rintro ⟨h, _⟩
            refine h ?_
            unfold PyFile.isOpen
            rw [(hi.handle n).2 h3]; rfl
        | none =>
          clear hfail
          have hi0 := inv_addObject hi.lib st.made obj.dev
          have hadd := addObject_isOpen st.lib.world st.made obj.dev
          have hiff := openHandle_iff (env.u.cmp8 (fileOrder obj.dev)) _ hi0 (.user st.made) 1 {}
          have hc := openHandle_open_cases (cmp := env.u.cmp8 (fileOrder obj.dev)) hi0 hadd.1 1 {}
          rw [pyOpenObject_eq env hm h1 h2 h3]
          rcases hc with ⟨h4, h5, h6, h7, h8⟩ | ⟨h4, h5, h6⟩
          · rw [h4]
            have hx := hiff.1.1 h4
            refine ⟨⟨fun _ => ⟨?_, (pyMode_iff hp mode).1 hm, rfl, rfl, ?_⟩, fun _ => rfl⟩,
              fun _ => ⟨_, h6, ?_⟩, fun h => absurd rfl h⟩
            · unfold PyFile.isOpen
              dsimp only at h5
              rw [h5]; simp
            · obtain ⟨_, _, _, _, l, hl⟩ := hx
              dsimp only at hl
              rw [hadd.2] at hl
              exact ⟨l, hl⟩
            · dsimp only
              rw [h8]
              exact hadd.2
          · rw [h4]
            refine ⟨⟨fun h => (by cases h), ?_⟩, fun h => (by cases h), fun _ => ⟨rfl, ?_⟩⟩
            · rintro ⟨a, _, _, _, l, hl⟩
              exfalso
              rw [hiff.1.2 ⟨?_, rfl, rfl, Or.inl hadd.1, l, ?_⟩] at h4
              · cases h4
              · unfold PyFile.isOpen at a
                dsimp only
                simpa using a
              · dsimp only; rw [hadd.2]; exact hl
            · unfold PyFile.isOpen
              dsimp only [Res.failed]
              rw [h5]
  · refine hfail ?_ ?_
    · unfold pyOpenObject; rw [hm]; rfl
    · rintro ⟨_, h, _⟩
      rw [(pyMode_iff hp mode).2 h] at hm
      cases hm

/-- C86: `close` of a closed file is an exception that changes nothing; of an open one it leaves a closed
  file object with the default code page and no reference to a Python object, and there is an
  exception exactly if libbfio failed to free the handle, or to close one the library opened. -/
theorem C86_close {env : PyEnv} {st : PyFile} (hr : PyReachable env st) (flt : Faults) :
    (¬ st.isOpen → pyClose flt st = (.err, st)) ∧
    (st.isOpen → ¬ (pyClose flt st).2.isOpen ∧ (pyClose flt st).2.lib.file = OleFile.new ∧
      (pyClose flt st).2.live = [] ∧
      ((pyClose flt st).1 = .ok () ↔
        flt.free = false ∧ (flt.closing = true → ∃ n, st.lib.file.handle = some (.user n))) ∧
      ((pyClose flt st).1 = .ok () ∨ (pyClose flt st).1 = .err)) := by
  have hi := pyReachable_inv hr
  rcases pyClose_spec hi flt with ⟨h0, h⟩ | ⟨n, hio, hh, h⟩ | ⟨n, hio, hh, h⟩
  · refine ⟨fun _ => h, fun ho => ?_⟩
    unfold PyFile.isOpen at ho
    rw [h0] at ho; cases ho
  · refine ⟨fun ho => ?_, fun _ => ?_⟩
    · unfold PyFile.isOpen at ho; rw [hh] at ho; exact absurd rfl ho
    · rw [h, hh]
      cases flt.free <;> simp [PyFile.isOpen, OleFile.new]
  · refine ⟨fun ho => ?_, fun _ => ?_⟩
    · unfold PyFile.isOpen at ho; rw [hh] at ho; exact absurd rfl ho
    · rw [h, hh]
      cases flt.free <;> cases flt.closing <;> simp [PyFile.isOpen, OleFile.new]

theorem pyOpenAfter_cons (b : Bool) (op : PyOp) (r : Res Unit) (rest : List (PyOp × Res Unit)) :
    pyOpenAfter b ((op, r) :: rest) = pyOpenAfter (match op with
      | .openName _ _ _ => b || decide (r = .ok ())
      | .openObject _ _ => b || decide (r = .ok ())
      | .close _ => false
      | _ => b) rest := by
  cases op <;> cases r <;> simp [pyOpenAfter]

theorem pySetPage_handle (env : PyEnv) (s : Bytes) (st : PyFile) :
    (pySetCodepageFrom env s st).2.lib.file.handle = st.lib.file.handle := by
  unfold pySetCodepageFrom
  split
  · rfl
  · dsimp only
    unfold setCodepage
    split <;> rfl

theorem pyRun_handle {env : PyEnv} {st : PyFile} (hi : PyInv st) (op : PyOp) :
    (op.run env st).2.lib.file.handle.isSome = match op with
      | .openName _ _ _ => st.lib.file.handle.isSome || decide ((op.run env st).1 = .ok ())
      | .openObject _ _ => st.lib.file.handle.isSome || decide ((op.run env st).1 = .ok ())
      | .close _ => false
      | _ => st.lib.file.handle.isSome := by
  cases op with
  | openName files name mode =>
    show (pyOpen env files name mode st).2.lib.file.handle.isSome = (st.lib.file.handle.isSome ||
      decide ((pyOpen env files name mode st).1 = .ok ()))
    rcases pyMode_cases env.py mode with hm | hm
    · rcases pyFileName_cases env.py name with ⟨b, hb⟩ | hb
      · rw [pyOpen_eq env files hm hb hi.lib]
        exact openName_handle hi.lib _ _ _
      · have : pyOpen env files name mode st = (.err, st) := by
          unfold pyOpen; rw [hm]; dsimp only; rw [hb]; rfl
        rw [this]; simp
    · have : pyOpen env files name mode st = (.err, st) := by
        unfold pyOpen; rw [hm]; rfl
      rw [this]; simp
  | openObject obj mode =>
    show (pyOpenObject env obj mode st).2.lib.file.handle.isSome = (st.lib.file.handle.isSome ||
      decide ((pyOpenObject env obj mode st).1 = .ok ()))
    rcases pyMode_cases env.py mode with hm | hm
    · cases h1 : obj.hasRead with
      | false =>
        have : pyOpenObject env obj mode st = (.err, st) := by
          unfold pyOpenObject; rw [hm]; dsimp only; rw [h1]; rfl
        rw [this]; simp
      | true =>
        cases h2 : obj.hasSeek with
        | false =>
          have : pyOpenObject env obj mode st = (.err, st) := by
            unfold pyOpenObject; rw [hm]; dsimp only; rw [h1, h2]; rfl
          rw [this]; simp
        | true =>
          cases h3 : st.ioHandle with
          | some n =>
            have : pyOpenObject env obj mode st = (.err, st) := by
              unfold pyOpenObject; rw [hm]; dsimp only; rw [h1, h2, h3]; rfl
            rw [this]; simp
          | none =>
            have hi0 := inv_addObject hi.lib st.made obj.dev
            have hc := openHandle_open_cases (cmp := env.u.cmp8 (fileOrder obj.dev)) hi0
              (addObject_isOpen st.lib.world st.made obj.dev).1 1 {}
            rw [pyOpenObject_eq env hm h1 h2 h3]
            rcases hc with ⟨h4, h5, h6, h7, h8⟩ | ⟨h4, h5, h6⟩
            · rw [h4]; dsimp only; rw [h6]; simp
            · rw [h4]; dsimp only [Res.failed]; rw [h5]; simp
    · have : pyOpenObject env obj mode st = (.err, st) := by
        unfold pyOpenObject; rw [hm]; rfl
      rw [this]; simp
  | close flt =>
    simp only [PyOp.run]
    rcases pyClose_spec hi flt with ⟨h0, h⟩ | ⟨n, hio, hh, h⟩ | ⟨n, hio, hh, h⟩
    · rw [h]; dsimp only; rw [h0]; rfl
    · rw [h]; rfl
    · rw [h]; rfl
  | setCodepage arg =>
    simp only [PyOp.run, pySetCodepage]
    split
    · rw [pySetPage_handle]
    · rfl
  | assignCodepage arg =>
    simp only [PyOp.run, pyAssignCodepage]
    cases arg with
    | str cs =>
      dsimp only
      split
      · rw [pySetPage_handle]
      · rfl
    | bytes b => dsimp only; rw [pySetPage_handle]
    | other => rfl
  | signalAbort => rfl

/-- C86: over every history of calls the file is open exactly if the last open or close that had an effect
  was a successful open; and the bindings hold a reference to the Python object the file was opened
  from, and to no other: none while the file is closed or was opened by name. -/
theorem C86_two_states (env : PyEnv) (ops : List PyOp) :
    ((pyRun env ops).isOpen ↔ pyOpenAfter false (ops.zip (pyOutcomes env .new ops)) = true) ∧
    (pyRun env ops).live = (match (pyRun env ops).lib.file.handle with
      | some (.user n) => [n]
      | _ => []) := by
  constructor
  · have : ∀ (ops : List PyOp) (st : PyFile), PyInv st →
        (ops.foldl (fun st op => (op.run env st).2) st).lib.file.handle.isSome =
          pyOpenAfter st.lib.file.handle.isSome (ops.zip (pyOutcomes env st ops)) := by
      intro ops
      induction ops with
      | nil => intro st _; rfl
      | cons op ops ih =>
        intro st hi
        rw [List.foldl_cons, ih _ (pyInv_run hi op), pyRun_handle hi op, pyOutcomes,
          List.zip_cons_cons, pyOpenAfter_cons]
    have h := this ops .new pyInv_new
    unfold PyFile.isOpen pyRun
    rw [h]
    exact Iff.rfl
  · have hi := pyReachable_inv (env := env) ⟨ops, rfl⟩
    rw [hi.live]
    cases hh : (pyRun env ops).lib.file.handle with
    | none =>
      cases hio : (pyRun env ops).ioHandle with
      | none => rfl
      | some n => have := (hi.handle n).2 hio; rw [hh] at this; cases this
    | some k =>
      cases k with
      | user n => rw [(hi.handle n).1 hh]; rfl
      | lib m =>
        cases hio : (pyRun env ops).ioHandle with
        | none => rfl
        | some n => have := (hi.handle n).2 hio; rw [hh] at this; cases this

theorem freeFile_closed {flt : Faults} {st : FileState} (h : st.file.handle = none) :
    (freeFile flt st).2 = st.world := by
  unfold freeFile; rw [h]

/-- C86: when a file object is freed, open or not and whatever libbfio reports, no reference to a
  Python object is left, no close of a handle is owed, and no handle of the library is left. -/
theorem C86_free {env : PyEnv} {st : PyFile} (hr : PyReachable env st) (flt : Faults) :
    (pyFree flt st).2 = [] ∧
    (∀ h, owesClose h (pyFree flt st).1.events = some false) ∧
    ∀ n, existsAfter (.lib n) (pyFree flt st).1.events = some false := by
  have hi := pyReachable_inv hr
  have key : ∀ s : FileState, Inv s → s.file.handle = none →
      (∀ h, owesClose h s.world.events = some false) ∧
      ∀ n, existsAfter (.lib n) s.world.events = some false := by
    intro s hs hc
    refine ⟨fun h => ?_, fun n => ?_⟩
    · rw [hs.owes, hc]; simp
    · rw [hs.exist, hc]; simp
  unfold pyFree
  cases hio : st.ioHandle with
  | none =>
    dsimp only [Option.isSome]
    rw [if_neg (by simp)]
    refine ⟨by rw [hi.live, hio]; rfl, ?_⟩
    dsimp only
    cases hh : st.lib.file.handle with
    | none => rw [freeFile_closed hh]; exact key _ hi.lib hh
    | some k =>
      have : (freeFile flt st.lib).2 = (closeFile flt st.lib).2.world := by unfold freeFile; rw [hh]
      rw [this]
      refine key _ (inv_close hi.lib) ?_
      rw [closeFile_eq hh]; rfl
  | some n =>
    dsimp only [Option.isSome]
    rw [if_pos rfl]
    have hinv := pyInv_close (flt := flt) hi
    have hc : (pyClose flt st).2.lib.file.handle = none ∧ (pyClose flt st).2.live = [] := by
      rcases pyClose_spec hi flt with ⟨h0, h⟩ | ⟨m, _, hh, h⟩ | ⟨m, _, hh, h⟩
      · have := (hi.handle n).2 hio; rw [h0] at this; cases this
      · rw [h]; exact ⟨rfl, rfl⟩
      · rw [h]; exact ⟨rfl, rfl⟩
    split
    · refine ⟨hc.2, ?_⟩
      dsimp only
      rw [freeFile_closed hc.1]
      exact key _ hinv.lib hc.1
    · exact ⟨hc.2, key _ hinv.lib hc.1⟩

/-- A file whose content is a stored document loads. -/
theorem stored_loads {env : PyEnv} (hu : IsLibuna env.u) (w : Writer) (kids : List (Bytes × Doc))
    (hst : Storable w kids) (hn : TextNames w.order (.storage kids)) :
    fileOrder (Dev.ofBytes (encodeFile w kids)) = w.order ∧
    ∀ io, ∃ l t, (openCore (env.u.cmp8 w.order) (Dev.ofBytes (encodeFile w kids)) io).1.res = .ok l ∧
      l.tree = some t ∧ Shows t ⟨(openCore (env.u.cmp8 w.order) (Dev.ofBytes (encodeFile w kids)) io).2,
        Dev.ofBytes (encodeFile w kids), l.sat, l.ssat⟩ ⟨none, t.root⟩ (.storage kids) := by
  have hcmp : ∀ n ∈ namesOfKids kids, Comparable (env.u.cmp8 w.order) n := by
    intro n hm
    obtain ⟨path, d, hd⟩ := namesOfKids_docAt kids n hm
    obtain ⟨cs, h1, rfl⟩ := hn.text path n d hd
    exact text_comparable hu h1
  refine ⟨fileOrder_stored hst _ hcmp, fun io => ?_⟩
  exact C47_load (encodeFile_holds hst) _ (by
    intro n hn
    rcases List.mem_cons.1 hn with rfl | hn
    · exact rootName_comparable _ _
    · exact hcmp n hn) io

/-- The byte order of a file that was loaded is that of `fileOrder`. -/
theorem loaded_order (cmp : Bytes → Bytes → Option Bool) (dev : Dev) (io : IoHandle) {l : Loaded}
    (h : (openCore cmp dev io).1.res = .ok l) : (openCore cmp dev io).2.byteOrder = fileOrder dev := by
  obtain ⟨hdr, s, h1, h2, _⟩ := (openCore_io cmp dev io .cleared).2 l h
  unfold fileOrder
  rw [openCore_byteOrder (fun _ _ => none) cmp, h1, h2]
  cases s <;> rfl

/-- What the open file object shows: the document, with the item hierarchy and what is needed to read. -/
def PyShows (env : PyEnv) (st : PyFile) (e : Endian) (doc : Doc) : Prop :=
  ∃ h t f, st.lib.file.handle = some h ∧ st.lib.file.tree = some t ∧
    st.lib.file.ctx (st.lib.world.dev h) = some f ∧ f.io = st.lib.file.io ∧ f.io.byteOrder = e ∧
    ShowsText env.u e t f ⟨none, t.root⟩ doc ∧ Shows t f ⟨none, t.root⟩ doc

/-- `PyShows`, with what is known of the item hierarchy. -/
structure PyOpened (env : PyEnv) (lib : FileState) (e : Endian) (doc : Doc) (h : HandleId) (t : Tree)
    (f : FileCtx) : Prop where
  handle : lib.file.handle = some h
  tree : lib.file.tree = some t
  ctx : lib.file.ctx (lib.world.dev h) = some f
  io : f.io = lib.file.io
  order : f.io.byteOrder = e
  text : ShowsText env.u e t f ⟨none, t.root⟩ doc
  shows : Shows t f ⟨none, t.root⟩ doc
  wf : WellFormedCtx f
  fits : ∀ p x, itemAt t p = some x → EntryFits x.entry ∧ x.entry.name.length ≤ 128

theorem PyOpened.pyShows {env : PyEnv} {st : PyFile} {e : Endian} {doc : Doc} {h : HandleId} {t : Tree}
    {f : FileCtx} (ho : PyOpened env st.lib e doc h t f) : PyShows env st e doc :=
  ⟨h, t, f, ho.handle, ho.tree, ho.ctx, ho.io, ho.order, ho.text, ho.shows⟩

/-- The file of the library is what the content of its handle was loaded to. -/
def LibLoaded (u : Libuna) (st : FileState) : Prop :=
  ∀ h, st.file.handle = some h → ∃ io l,
    (openCore (u.cmp8 (fileOrder (st.world.dev h))) (st.world.dev h) io).1.res = .ok l ∧
    st.file.io = (openCore (u.cmp8 (fileOrder (st.world.dev h))) (st.world.dev h) io).2 ∧
    st.file.tree = l.tree ∧ st.file.sat = some l.sat ∧ st.file.ssat = some l.ssat

theorem LibLoaded.of_eq {u : Libuna} {st st' : FileState} (hl : LibLoaded u st)
    (hh : st'.file.handle = st.file.handle) (hio : st'.file.io = st.file.io)
    (ht : st'.file.tree = st.file.tree) (hs : st'.file.sat = st.file.sat)
    (hs' : st'.file.ssat = st.file.ssat)
    (hd : ∀ h, st.file.handle = some h → st'.world.dev h = st.world.dev h) : LibLoaded u st' := by
  intro h h1
  rw [hh] at h1
  rw [hd h h1, hio, ht, hs, hs']
  exact hl h h1

theorem libLoaded_closed {u : Libuna} {st : FileState} (h : st.file.handle = none) : LibLoaded u st := by
  intro k hk; rw [h] at hk; cases hk

/-- Opening a handle keeps the invariant. -/
theorem libLoaded_openHandle {u : Libuna} {st : FileState} (hi : st.file.handle = none → st.file.Empty)
    (hl : LibLoaded u st)
    {h : HandleId} {flt : Faults} {dev : Dev} (hd : st.world.dev h = dev) :
    LibLoaded u (openHandle (u.cmp8 (fileOrder dev)) h 1 flt st).2 := by
  subst hd
  rcases openHandle_spec (cmp := u.cmp8 (fileOrder (st.world.dev h))) (h := h) (flags := 1) (flt := flt)
    hi with ⟨_, h1⟩ | ⟨⟨a, _⟩, ⟨l, hl', h1⟩ | ⟨_, h1⟩⟩
  · rw [h1]; exact hl
  · rw [h1]
    intro k hk
    cases hk
    refine ⟨st.file.io, l, ?_, ?_, rfl, rfl, rfl⟩
    · show (openCore (u.cmp8 (fileOrder ((st.world.ensureOpen h).dev h))) ((st.world.ensureOpen h).dev h)
        st.file.io).1.res = _
      rw [(ensureOpen_isOpen _ _).2.2.1]
      exact hl'
    · show _ = (openCore (u.cmp8 (fileOrder ((st.world.ensureOpen h).dev h)))
        ((st.world.ensureOpen h).dev h) st.file.io).2
      rw [(ensureOpen_isOpen _ _).2.2.1]
      rfl
  · rw [h1]; exact libLoaded_closed a

theorem libLoaded_openName {u : Libuna} {st : FileState} (hi : Inv st) (hl : LibLoaded u st)
    (dev : Dev) (flt : Faults) : LibLoaded u (openName (u.cmp8 (fileOrder dev)) dev 1 flt st).2 := by
  have hcr : LibLoaded u ⟨st.file, (st.world.createH dev).2⟩ := by
    refine hl.of_eq rfl rfl rfl rfl rfl fun h hh => ?_
    show (if h = .lib st.world.made then dev else st.world.dev h) = _
    rw [if_neg]
    rintro rfl
    exact hi.fresh _ (Nat.le_refl _) hh
  rw [openName_eq]
  split
  · exact hl
  · split
    · exact hcr.of_eq rfl rfl rfl rfl rfl fun h hh => rfl
    · have hopen := libLoaded_openHandle (flt := flt) (dev := dev) (h := .lib st.world.made)
        (st := ⟨st.file, (st.world.createH dev).2⟩) hi.closed hcr
        (by simp [World.createH])
      dsimp only
      split
      · exact hopen.of_eq rfl rfl rfl rfl rfl fun h hh => rfl
      · exact hopen.of_eq rfl rfl rfl rfl rfl fun h hh => rfl

theorem libLoaded_setPage {env : PyEnv} {s : Bytes} {st : PyFile} (hl : LibLoaded env.u st.lib) :
    LibLoaded env.u (pySetCodepageFrom env s st).2.lib := by
  unfold pySetCodepageFrom
  split
  · exact hl
  · rename_i cp _
    dsimp only
    unfold setCodepage
    split
    · exact hl
    · intro h hh
      obtain ⟨io, l, h1, h2, h3⟩ := hl h hh
      obtain ⟨h4, h5⟩ := openCore_io (env.u.cmp8 (fileOrder (st.lib.world.dev h))) (st.lib.world.dev h)
        io { io with codepage := cp }
      obtain ⟨hdr, s, h6, h7, _⟩ := h5 l h1
      refine ⟨{ io with codepage := cp }, l, ?_, ?_, h3⟩
      · rw [← h4]; exact h1
      · dsimp only
        rw [h7, h2, h6]
        cases s <;> rfl

theorem libLoaded_run {env : PyEnv} {st : PyFile} (hi : PyInv st) (hl : LibLoaded env.u st.lib)
    (op : PyOp) : LibLoaded env.u (op.run env st).2.lib := by
  cases op with
  | openName files name mode =>
    show LibLoaded env.u (pyOpen env files name mode st).2.lib
    rcases pyMode_cases env.py mode with hm | hm
    · rcases pyFileName_cases env.py name with ⟨b, hb⟩ | hb
      · rw [pyOpen_eq env files hm hb hi.lib]
        exact libLoaded_openName hi.lib hl _ _
      · unfold pyOpen; rw [hm]; dsimp only; rw [hb]; exact hl
    · unfold pyOpen; rw [hm]; exact hl
  | openObject obj mode =>
    show LibLoaded env.u (pyOpenObject env obj mode st).2.lib
    rcases pyMode_cases env.py mode with hm | hm
    · cases h1 : obj.hasRead with
      | false => unfold pyOpenObject; rw [hm]; dsimp only; rw [h1]; exact hl
      | true =>
        cases h2 : obj.hasSeek with
        | false => unfold pyOpenObject; rw [hm]; dsimp only; rw [h1, h2]; exact hl
        | true =>
          cases h3 : st.ioHandle with
          | some n => unfold pyOpenObject; rw [hm]; dsimp only; rw [h1, h2, h3]; exact hl
          | none =>
            rw [pyOpenObject_eq env hm h1 h2 h3]
            have h0 : LibLoaded env.u ⟨st.lib.file, st.lib.world.addObject st.made obj.dev⟩ := by
              refine hl.of_eq rfl rfl rfl rfl rfl fun h hh => ?_
              show (if h = .user st.made then obj.dev else st.lib.world.dev h) = _
              rw [if_neg]
              rintro rfl
              have := (hi.handle _).1 hh
              rw [h3] at this
              cases this
            have := libLoaded_openHandle (flt := {}) (inv_addObject hi.lib st.made obj.dev).closed h0
              (addObject_isOpen st.lib.world st.made obj.dev).2
            split <;> exact this
    · unfold pyOpenObject; rw [hm]; exact hl
  | close flt =>
    show LibLoaded env.u (pyClose flt st).2.lib
    rcases pyClose_spec hi flt with ⟨_, h⟩ | ⟨n, _, _, h⟩ | ⟨n, _, _, h⟩
    · rw [h]; exact hl
    · rw [h]; exact libLoaded_closed rfl
    · rw [h]; exact libLoaded_closed rfl
  | setCodepage arg =>
    simp only [PyOp.run, pySetCodepage]
    split
    · exact libLoaded_setPage hl
    · exact hl
  | assignCodepage arg =>
    simp only [PyOp.run, pyAssignCodepage]
    cases arg with
    | str cs =>
      dsimp only
      split
      · exact libLoaded_setPage hl
      · exact hl
    | bytes b => exact libLoaded_setPage hl
    | other => exact hl
  | signalAbort => exact hl.of_eq rfl rfl rfl rfl rfl fun _ _ => rfl

theorem pyReachable_loaded {env : PyEnv} {st : PyFile} (h : PyReachable env st) :
    LibLoaded env.u st.lib := by
  obtain ⟨ops, rfl⟩ := h
  unfold pyRun
  have : ∀ (ops : List PyOp) (st : PyFile), PyInv st → LibLoaded env.u st.lib →
      LibLoaded env.u (ops.foldl (fun st op => (op.run env st).2) st).lib := by
    intro ops
    induction ops with
    | nil => intro st _ h; exact h
    | cons op ops ih => intro st hi h; exact ih _ (pyInv_run hi op) (libLoaded_run hi h op)
  exact this ops _ pyInv_new (libLoaded_closed rfl)

theorem pyReachable_run {env : PyEnv} {st : PyFile} (h : PyReachable env st) (op : PyOp) :
    PyReachable env (op.run env st).2 := by
  obtain ⟨ops, rfl⟩ := h
  refine ⟨ops ++ [op], ?_⟩
  unfold pyRun
  rw [List.foldl_append]
  rfl

/-- What is loaded from any content is well-formed. -/
theorem core_wf {cmp : Bytes → Bytes → Option Bool} {dev : Dev} {io : IoHandle} {l : Loaded}
    (hl : (openCore cmp dev io).1.res = .ok l) {t : Tree} (ht : l.tree = some t) :
    WellFormedCtx ⟨(openCore cmp dev io).2, dev, l.sat, l.ssat⟩ ∧
    ∀ p x, itemAt t p = some x → EntryFits x.entry ∧ x.entry.name.length ≤ 128 := by
  let st : FileState := ⟨{ OleFile.new with io := io }, World.fresh.addObject 0 dev⟩
  have he : st.file.handle = none → st.file.Empty := fun _ => ⟨rfl, rfl, rfl, rfl, rfl, rfl⟩
  have hdev : st.world.dev (.user 0) = dev := (addObject_isOpen _ _ _).2
  have hlo : (openCore cmp (st.world.dev (.user 0)) st.file.io).1.res = .ok l := by rw [hdev]; exact hl
  rcases openHandle_spec (cmp := cmp) (h := .user 0) (flags := 1) (flt := {}) he with
    ⟨hx, h1⟩ | ⟨⟨_, _, _, _⟩, ⟨l', hl', h1⟩ | ⟨hno, h1⟩⟩
  · exfalso
    rcases hx with hx | hx | hx | ⟨_, hx⟩
    · cases hx
    · exact hx ((readOnly_iff 1).2 rfl)
    · cases hx
    · cases hx
  · rw [hlo] at hl'
    cases hl'
    have hok : (openHandle cmp (.user 0) 1 {} st).1 = .ok () := by rw [h1]
    obtain ⟨f, list, m, hctx, _, hwf, _, _, _, _, _, _, hfits, hmem⟩ :=
      C52_opened_well_formed cmp (.user 0) 1 {} st he hok t (by rw [h1]; exact ht)
    have hf : f = ⟨(openCore cmp dev io).2, dev, l.sat, l.ssat⟩ := by
      rw [h1] at hctx
      unfold OleFile.ctx OleFile.loaded at hctx
      dsimp only at hctx
      rw [(ensureOpen_isOpen _ _).2.2.1, hdev] at hctx
      exact (Option.some.inj hctx).symm
    rw [← hf]
    refine ⟨hwf, fun p x hx => ?_⟩
    have := hfits _ (hmem p x hx)
    exact ⟨this.1, this.2.1⟩
  · exact absurd hlo (hno l)

/-- Every file object that has a stored document as its content. -/
theorem pyOpened {env : PyEnv} (hu : IsLibuna env.u) (w : Writer)
    (kids : List (Bytes × Doc)) (hst : Storable w kids) (hn : TextNames w.order (.storage kids))
    {st : PyFile} (hr : PyReachable env st) (hh : st.Has (Dev.ofBytes (encodeFile w kids))) :
    ∃ h t f, PyOpened env st.lib w.order (.storage kids) h t f := by
  obtain ⟨h, hh, hd⟩ := hh
  obtain ⟨io, l, hl, hio, ht, hs, hss⟩ := pyReachable_loaded hr h hh
  obtain ⟨ho, hload⟩ := stored_loads hu w kids hst hn
  rw [hd, ho] at hl hio
  obtain ⟨l', t, hl', ht', hshow⟩ := hload io
  rw [hl] at hl'
  cases hl'
  obtain ⟨hwf, hfits⟩ := core_wf hl ht'
  have hord := loaded_order _ _ _ hl
  rw [ho] at hord
  refine ⟨h, t, _, hh, ht.trans ht', ?_, ?_, hord, shows_text hu hshow hn hord, hshow, hwf, hfits⟩
  · unfold OleFile.ctx
    rw [hs, hss, hd, hio]
  · exact hio.symm

/-- C86: after every history of calls, a file object that is open on a stored document with Unicode names
  shows it. -/
theorem C86_shown {env : PyEnv} (hu : IsLibuna env.u) (w : Writer)
    (kids : List (Bytes × Doc)) (hst : Storable w kids) (hn : TextNames w.order (.storage kids))
    {st : PyFile} (hr : PyReachable env st) (hh : st.Has (Dev.ofBytes (encodeFile w kids))) :
    PyShows env st w.order (.storage kids) := by
  obtain ⟨_, _, _, h⟩ := pyOpened hu w kids hst hn hr hh
  exact h.pyShows

/-- C86, end to end: in every state in which the file object is closed, a stored document with Unicode
  names is opened, by the name of its file or from a file object, and the file object shows it. -/
theorem C86_document {env : PyEnv} (hp : IsPyCodec env.py) (hu : IsLibuna env.u) (w : Writer)
    (kids : List (Bytes × Doc)) (hst : Storable w kids) (hn : TextNames w.order (.storage kids))
    {st : PyFile} (hr : PyReachable env st) (hc : ¬ st.isOpen) {mode : Option PyText}
    (hm : ReadMode mode) :
    (∀ (files : Bytes → Dev × Faults) (name : PyText) (b : Bytes), Denotes name b → 0 ∉ b →
      files b = (Dev.ofBytes (encodeFile w kids), {}) →
      (pyOpen env files name mode st).1 = .ok () ∧
      PyShows env (pyOpen env files name mode st).2 w.order (.storage kids)) ∧
    ∀ obj : PyFileArg, obj.hasRead = true → obj.hasSeek = true →
      obj.dev = Dev.ofBytes (encodeFile w kids) →
      (pyOpenObject env obj mode st).1 = .ok () ∧
      PyShows env (pyOpenObject env obj mode st).2 w.order (.storage kids) := by
  obtain ⟨ho, hload⟩ := stored_loads hu w kids hst hn
  have hloads : Loads env (Dev.ofBytes (encodeFile w kids)) := by
    obtain ⟨l, _, hl, _⟩ := hload .cleared
    exact ⟨l, by rw [ho]; exact hl⟩
  refine ⟨fun files name b hb h0 hf => ?_, fun obj ha hb hd => ?_⟩
  · have huniq : ∀ b', Denotes name b' → b' = b := by
      intro b' hb'
      cases hb with
      | str _ => cases hb'; rfl
      | bytes => cases hb'; rfl
    obtain ⟨h1, h2, _⟩ := C86_open_partial hp hr files name mode
      (fun b' hb' => by rw [huniq b' hb']; exact h0)
    have hok := h1.2 ⟨hc, hm, b, hb, by rw [hf]; exact hloads, by rw [hf], by rw [hf], by rw [hf],
      by rw [hf]⟩
    obtain ⟨b', hb', hhas⟩ := h2 hok
    rw [huniq b' hb', hf] at hhas
    exact ⟨hok, C86_shown hu w kids hst hn (pyReachable_run hr (.openName files name mode)) hhas⟩
  · obtain ⟨h1, h2, _⟩ := C86_open_object hp hr obj mode
    have hok := h1.2 ⟨hc, hm, ha, hb, by rw [hd]; exact hloads⟩
    have hhas := h2 hok
    rw [hd] at hhas
    exact ⟨hok, C86_shown hu w kids hst hn (pyReachable_run hr (.openObject obj mode)) hhas⟩

/-- C86 is violated for names with a null byte: whatever comes after it is ignored, so that another file is
  opened than the one that was named. -/
theorem C86_nul_violated (env : PyEnv) (files : Bytes → Dev × Faults) (mode : Option PyText)
    (st : PyFile) (a rest : Bytes) (ha : 0 ∉ a) :
    pyOpen env files (.bytes (a ++ 0 :: rest)) mode st = pyOpen env files (.bytes a) mode st := by
  have h1 : cString (a ++ 0 :: rest) = a := by
    unfold cString
    rw [List.takeWhile_append_of_pos]
    · simp
    · intro x hx
      simp only [ne_eq, decide_eq_true_eq]
      rintro rfl
      exact ha hx
  have h2 := cString_eq ha
  unfold pyOpen pyFileName
  simp only [h1, h2]

/-- C86 is violated for a second `__init__` of an open file object: the object is closed to the program,
  but when it is freed the handle is not closed: a handle of the library is left open, or the reference
  to the Python object is kept. -/
theorem C86_init_violated {env : PyEnv} {st : PyFile} (hr : PyReachable env st) (ho : st.isOpen)
    (flt : Faults) :
    ¬ (pyInit st).isOpen ∧
    ((∃ n, existsAfter (.lib n) (pyFree flt (pyInit st)).1.events = some true ∧
        owesClose (.lib n) (pyFree flt (pyInit st)).1.events = some true) ∨
      ∃ n, (pyFree flt (pyInit st)).2 = [n]) := by
  have hi := pyReachable_inv hr
  refine ⟨by simp [PyFile.isOpen, pyInit, OleFile.new], ?_⟩
  have hfree : pyFree flt (pyInit st) = (st.lib.world, st.live) := by
    unfold pyFree pyInit
    dsimp only [Option.isSome]
    rw [if_neg (by simp)]
    rw [freeFile_closed rfl]
  rw [hfree]
  obtain ⟨k, hk⟩ := Option.isSome_iff_exists.1 ho
  cases k with
  | user n =>
    right
    exact ⟨n, by rw [hi.live, (hi.handle n).1 hk]; rfl⟩
  | lib n =>
    left
    have hinv := hi.lib.isOpen _ hk
    have hcr := hinv.2.1.2 ⟨n, rfl⟩
    refine ⟨n, ?_, ?_⟩
    · rw [hi.lib.exist]; simp [hk]
    · rw [hi.lib.owes, hk, hinv.2.2.1 hcr]; simp

/-! ### C87: the code page -/

theorem pageNames_codepages (cp : Int) : cp ∈ codepages ↔ ∃ s, (cp, s) ∈ pageNames := by
  simp only [codepages, pageNames, List.mem_cons, List.not_mem_nil, or_false, Prod.mk.injEq]
  constructor
  · intro h
    rcases h with h | h | h | h | h | h | h | h | h | h | h | h | h | h | h <;> subst h <;> simp
  · rintro ⟨s, h⟩
    rcases h with h | h | h | h | h | h | h | h | h | h | h | h | h | h | h <;> simp [h.1]

theorem pyCodepageName_eq : ∀ x ∈ pageNames, pyCodepageName x.1 = some (ascii x.2) := by
  decide +kernel

theorem pyGetCodepage_eq {st : PyFile} {x : Int × String} (hx : x ∈ pageNames)
    (h : getCodepage st.lib.file = x.1) : pyGetCodepage st = .ok (ascii x.2) := by
  unfold pyGetCodepage
  rw [h, pyCodepageName_eq x hx]

/-- C87: setting the code page from a text: it succeeds exactly if libclocale knows the text as the name
  of one of the pages; then the name of the page is what is read; nothing else changes.  Otherwise there
  is an exception, and nothing changes. -/
theorem setFrom_spec (env : PyEnv) (s : Bytes) (st : PyFile) :
    ((pySetCodepageFrom env s st).1 = .ok () ↔ ∃ x ∈ pageNames, env.codepageOf s = some x.1) ∧
    (∀ x ∈ pageNames, env.codepageOf s = some x.1 →
      pyGetCodepage (pySetCodepageFrom env s st).2 = .ok (ascii x.2) ∧
      getCodepage (pySetCodepageFrom env s st).2.lib.file = x.1 ∧
      (getCodepage st.lib.file = x.1 → (pySetCodepageFrom env s st).2 = st)) ∧
    ((pySetCodepageFrom env s st).1 ≠ .ok () →
      pySetCodepageFrom env s st = (.err, st)) := by
  cases hc : env.codepageOf s with
  | none =>
    have h : pySetCodepageFrom env s st = (.err, st) := by unfold pySetCodepageFrom; rw [hc]
    rw [h]
    exact ⟨⟨fun h => (by cases h), by rintro ⟨_, _, h⟩; cases h⟩, fun _ _ h => (by cases h),
      fun _ => rfl⟩
  | some cp =>
    by_cases hm : cp ∈ codepages
    · have h : pySetCodepageFrom env s st = (.ok (), { st with lib :=
          ⟨{ st.lib.file with io := { st.lib.file.io with codepage := cp } }, st.lib.world⟩ }) := by
        unfold pySetCodepageFrom
        rw [hc]
        dsimp only
        unfold setCodepage
        rw [if_neg (by simpa using hm)]
      rw [h]
      refine ⟨⟨fun _ => ?_, fun _ => rfl⟩, ?_, fun h => absurd rfl h⟩
      · obtain ⟨n, hn⟩ := (pageNames_codepages cp).1 hm
        exact ⟨_, hn, rfl⟩
      · intro x hx he
        have he := Option.some.inj he
        subst he
        refine ⟨pyGetCodepage_eq hx rfl, rfl, fun hg => ?_⟩
        dsimp only
        rw [← hg]
        rfl
    · have h : pySetCodepageFrom env s st = (.err, st) := by
        unfold pySetCodepageFrom
        rw [hc]
        dsimp only
        unfold setCodepage
        rw [if_pos (by simpa using hm)]
      rw [h]
      refine ⟨⟨fun h => (by cases h), ?_⟩, ?_, fun _ => rfl⟩
      · rintro ⟨x, hx, he⟩
        cases he
        exact absurd ((pageNames_codepages _).2 ⟨x.2, hx⟩) hm
      · intro x hx he
        cases he
        exact absurd ((pageNames_codepages _).2 ⟨x.2, hx⟩) hm

/-- C87: `set_ascii_codepage` succeeds exactly if it is given a `str` of characters, without null
  characters, that libclocale knows as the name of one of the code pages; then
  `get_ascii_codepage` gives the name of that page.  Otherwise there is an exception, and nothing
  changes. -/
theorem C87_set {env : PyEnv} (hp : IsPyCodec env.py) (arg : PyText) (st : PyFile) :
    ((pySetCodepage env arg st).1 = .ok () ↔ ∃ cs x, arg = .str cs ∧ (∀ c ∈ cs, Scalar c) ∧ 0 ∉ cs ∧
      x ∈ pageNames ∧ env.codepageOf (cs.flatMap encode8) = some x.1) ∧
    (∀ cs, arg = .str cs → (pySetCodepage env arg st).1 = .ok () → ∀ x ∈ pageNames,
      env.codepageOf (cs.flatMap encode8) = some x.1 →
      pyGetCodepage (pySetCodepage env arg st).2 = .ok (ascii x.2)) ∧
    ((pySetCodepage env arg st).1 ≠ .ok () → pySetCodepage env arg st = (.err, st)) := by
  rcases pyFormatS_cases env.py arg with ⟨s, hs⟩ | hs
  · have h : pySetCodepage env arg st = pySetCodepageFrom env s st := by
      unfold pySetCodepage; rw [hs]
    rw [h]
    obtain ⟨h1, h2, h3⟩ := setFrom_spec env s st
    cases arg with
    | bytes b => cases hs
    | other => cases hs
    | str cs =>
      obtain ⟨hc, h0, rfl⟩ := (pyFormatS_eq hp cs s).1 hs
      refine ⟨?_, ?_, h3⟩
      · rw [h1]
        constructor
        · rintro ⟨x, hx, he⟩
          exact ⟨cs, x, rfl, hc, h0, hx, he⟩
        · rintro ⟨cs', x, he, _, _, hx, hy⟩
          cases he
          exact ⟨x, hx, hy⟩
      · rintro cs' he - x hx hy
        cases he
        exact (h2 x hx hy).1
  · have h : pySetCodepage env arg st = (.err, st) := by
      unfold pySetCodepage; rw [hs]; rfl
    rw [h]
    refine ⟨⟨fun h => (by cases h), ?_⟩, fun _ _ h => (by cases h), fun _ => rfl⟩
    rintro ⟨cs, x, rfl, hc, h0, _⟩
    rw [(pyFormatS_eq hp cs _).2 ⟨hc, h0, rfl⟩] at hs
    cases hs

/-- C87 (partial: texts without null characters, and no deletion).  An assignment to `ascii_codepage`
  succeeds exactly if the text, a `str` of characters or `bytes`, is known to libclocale as the name of
  one of the code pages; then the name of that page is read.  Otherwise there is an exception, and
  nothing changes. -/
theorem C87_assign_partial {env : PyEnv} (hp : IsPyCodec env.py) (arg : PyText) (st : PyFile)
    (hnul : ∀ b, Denotes arg b → 0 ∉ b) :
    ((pyAssignCodepage env (some arg) st).1 = .ok () ↔ ∃ b x, Denotes arg b ∧ x ∈ pageNames ∧
      env.codepageOf b = some x.1) ∧
    (∀ b, Denotes arg b → ∀ x ∈ pageNames, env.codepageOf b = some x.1 →
      pyGetCodepage (pyAssignCodepage env (some arg) st).2 = .ok (ascii x.2)) ∧
    ((pyAssignCodepage env (some arg) st).1 ≠ .ok () →
      pyAssignCodepage env (some arg) st = (.err, st)) := by
  by_cases hd : ∃ b, Denotes arg b
  · obtain ⟨b, hb⟩ := hd
    have h : pyAssignCodepage env (some arg) st = pySetCodepageFrom env b st := by
      have h0 := cString_eq (hnul b hb)
      cases hb with
      | str hc => unfold pyAssignCodepage; dsimp only; rw [hp.encode _ hc]; dsimp only; rw [h0]
      | bytes => unfold pyAssignCodepage; dsimp only; rw [h0]
    have huniq : ∀ b', Denotes arg b' → b' = b := by
      intro b' hb'
      cases hb with
      | str _ => cases hb'; rfl
      | bytes => cases hb'; rfl
    rw [h]
    obtain ⟨h1, h2, h3⟩ := setFrom_spec env b st
    refine ⟨?_, ?_, h3⟩
    · rw [h1]
      constructor
      · rintro ⟨x, hx, he⟩
        exact ⟨b, x, hb, hx, he⟩
      · rintro ⟨b', x, hb', hx, he⟩
        rw [huniq b' hb'] at he
        exact ⟨x, hx, he⟩
    · intro b' hb' x hx he
      rw [huniq b' hb'] at he
      exact (h2 x hx he).1
  · have h : pyAssignCodepage env (some arg) st = (.err, st) := by
      cases arg with
      | str cs =>
        unfold pyAssignCodepage
        dsimp only
        rw [hp.refuse cs fun hc => hd ⟨_, .str hc⟩]
      | bytes b => exact absurd ⟨_, .bytes⟩ hd
      | other => rfl
    rw [h]
    refine ⟨⟨fun h => (by cases h), ?_⟩, ?_, fun _ => rfl⟩
    · rintro ⟨b, x, hb, _⟩; exact absurd ⟨b, hb⟩ hd
    · intro b hb; exact absurd ⟨b, hb⟩ hd

/-- C87: after every history of calls the code page can be read, and is the name of one of the pages;
  different pages have different names. -/
theorem C87_get {env : PyEnv} {st : PyFile} (hr : PyReachable env st) :
    (∃ x ∈ pageNames, getCodepage st.lib.file = x.1 ∧ pyGetCodepage st = .ok (ascii x.2)) ∧
    ∀ x ∈ pageNames, ∀ y ∈ pageNames, ascii x.2 = ascii y.2 → x = y := by
  refine ⟨?_, by decide +kernel⟩
  obtain ⟨s, hs⟩ := (pageNames_codepages _).1 (pyReachable_inv hr).page
  exact ⟨_, hs, rfl, pyGetCodepage_eq hs rfl⟩

/-- C87: assigning the code page that was read changes nothing, in every state a program can reach. -/
theorem C87_assign_read {env : PyEnv} (hk : KnowsPages env.codepageOf) {st : PyFile}
    (hr : PyReachable env st) {s : Bytes} (hs : pyGetCodepage st = .ok s) :
    pyAssignCodepage env (some (.bytes s)) st = (.ok (), st) := by
  obtain ⟨⟨x, hx, h1, h2⟩, _⟩ := C87_get hr
  rw [h2] at hs
  cases hs
  have h0 : ∀ y ∈ pageNames, cString (ascii y.2) = ascii y.2 := by decide +kernel
  have h : pyAssignCodepage env (some (.bytes (ascii x.2))) st = pySetCodepageFrom env (ascii x.2) st := by
    unfold pyAssignCodepage
    dsimp only
    rw [h0 x hx]
  rw [h]
  obtain ⟨h3, h4, _⟩ := setFrom_spec env (ascii x.2) st
  exact Prod.ext (h3.2 ⟨x, hx, hk x hx⟩) ((h4 x hx (hk x hx)).2.2 h1)

theorem pyPageAfter_cons (env : PyEnv) (s : Bool × Int) (op : PyOp) (r : Res Unit)
    (rest : List (PyOp × Res Unit)) :
    pyPageAfter env s ((op, r) :: rest) = pyPageAfter env (match op with
      | .openName _ _ _ => (s.1 || decide (r = .ok ()), s.2)
      | .openObject _ _ => (s.1 || decide (r = .ok ()), s.2)
      | .close _ => (false, if s.1 then 1252 else s.2)
      | .setCodepage arg => (s.1, if r = .ok () then pyPageAfter.page env arg s.2 else s.2)
      | .assignCodepage arg => (s.1, if r = .ok () then pyPageAfter.page env arg s.2 else s.2)
      | _ => s) rest := by
  cases op <;> cases r <;> simp [pyPageAfter]

theorem setFrom_page (env : PyEnv) (s : Bytes) (st : PyFile) :
    getCodepage (pySetCodepageFrom env s st).2.lib.file =
      if (pySetCodepageFrom env s st).1 = .ok () then (env.codepageOf s).getD (getCodepage st.lib.file)
      else getCodepage st.lib.file := by
  obtain ⟨h1, h2, h3⟩ := setFrom_spec env s st
  by_cases h : (pySetCodepageFrom env s st).1 = .ok ()
  · obtain ⟨x, hx, he⟩ := h1.1 h
    rw [if_pos h, (h2 x hx he).2.1, he]; rfl
  · rw [if_neg h, h3 h]

theorem pyRun_page {env : PyEnv} (hp : IsPyCodec env.py) {st : PyFile} (hi : PyInv st) (op : PyOp) :
    getCodepage (op.run env st).2.lib.file = (match op with
      | .close _ => if st.lib.file.handle.isSome then 1252 else getCodepage st.lib.file
      | .setCodepage arg => if (op.run env st).1 = .ok () then
          pyPageAfter.page env arg (getCodepage st.lib.file) else getCodepage st.lib.file
      | .assignCodepage arg => if (op.run env st).1 = .ok () then
          pyPageAfter.page env arg (getCodepage st.lib.file) else getCodepage st.lib.file
      | _ => getCodepage st.lib.file) := by
  cases op with
  | openName files name mode =>
    show getCodepage (pyOpen env files name mode st).2.lib.file = getCodepage st.lib.file
    rcases pyMode_cases env.py mode with hm | hm
    · rcases pyFileName_cases env.py name with ⟨b, hb⟩ | hb
      · rw [pyOpen_eq env files hm hb hi.lib]
        exact openName_codepage hi.lib _ _ _
      · have : pyOpen env files name mode st = (.err, st) := by
          unfold pyOpen; rw [hm]; dsimp only; rw [hb]; rfl
        rw [this]
    · have : pyOpen env files name mode st = (.err, st) := by
        unfold pyOpen; rw [hm]; rfl
      rw [this]
  | openObject obj mode =>
    show getCodepage (pyOpenObject env obj mode st).2.lib.file = getCodepage st.lib.file
    unfold pyOpenObject
    rcases pyMode_cases env.py mode with hm | hm
    · rw [hm]
      dsimp only
      split
      · rfl
      · split
        · rfl
        · split
          · rfl
          · have hp := openHandle_codepage (cmp := env.u.cmp8 (fileOrder obj.dev))
              (inv_addObject hi.lib st.made obj.dev) (.user st.made) 1 {}
            split <;> exact hp
    · rw [hm]
  | close flt =>
    show getCodepage (pyClose flt st).2.lib.file = _
    rcases pyClose_spec hi flt with ⟨h0, h⟩ | ⟨n, hio, hh, h⟩ | ⟨n, hio, hh, h⟩
    · rw [h]; dsimp only; rw [h0]; rfl
    · rw [h]; dsimp only; rw [hh]; rfl
    · rw [h]; dsimp only; rw [hh]; rfl
  | setCodepage arg =>
    show getCodepage (pySetCodepage env arg st).2.lib.file =
      if (pySetCodepage env arg st).1 = .ok () then _ else _
    unfold pySetCodepage
    rcases pyFormatS_cases env.py arg with ⟨s, hs⟩ | hs
    · rw [hs]
      dsimp only
      rw [setFrom_page]
      cases arg with
      | bytes b => cases hs
      | other => cases hs
      | str cs =>
        obtain ⟨hc, h0, rfl⟩ := (pyFormatS_eq hp cs s).1 hs
        have : (cs.flatMap encode8).takeWhile (· ≠ 0) = cs.flatMap encode8 :=
          cString_eq fun h => h0 ((zero_mem_encode hc).1 h)
        dsimp only [pyPageAfter.page]
        rw [this]
    · rw [hs]; rfl
  | assignCodepage arg =>
    show getCodepage (pyAssignCodepage env (some arg) st).2.lib.file =
      if (pyAssignCodepage env (some arg) st).1 = .ok () then _ else _
    cases arg with
    | str cs =>
      by_cases hc : ∀ c ∈ cs, Scalar c
      · have h : pyAssignCodepage env (some (.str cs)) st =
            pySetCodepageFrom env (cString (cs.flatMap encode8)) st := by
          unfold pyAssignCodepage; dsimp only; rw [hp.encode cs hc]
        rw [h, setFrom_page]
        rfl
      · have h : pyAssignCodepage env (some (.str cs)) st = (.err, st) := by
          unfold pyAssignCodepage; dsimp only; rw [hp.refuse cs hc]
        rw [h]; rfl
    | bytes b =>
      show getCodepage (pySetCodepageFrom env (cString b) st).2.lib.file =
        if (pySetCodepageFrom env (cString b) st).1 = .ok () then _ else _
      rw [setFrom_page]; rfl
    | other => rfl
  | signalAbort => rfl

/-- C87: over every history of calls, what `get_ascii_codepage` gives is the name of the page that was set
  last, by a successful set or assignment, since the file object was made or an open file was closed;
  `cp1252` if there was none. -/
theorem C87_history {env : PyEnv} (hp : IsPyCodec env.py) (ops : List PyOp) :
    ∃ x ∈ pageNames, x.1 = (pyPageAfter env (false, 1252) (ops.zip (pyOutcomes env .new ops))).2 ∧
      pyGetCodepage (pyRun env ops) = .ok (ascii x.2) := by
  have : ∀ (ops : List PyOp) (st : PyFile), PyInv st →
      getCodepage (ops.foldl (fun st op => (op.run env st).2) st).lib.file =
        (pyPageAfter env (st.lib.file.handle.isSome, getCodepage st.lib.file)
          (ops.zip (pyOutcomes env st ops))).2 := by
    intro ops
    induction ops with
    | nil => intro st _; rfl
    | cons op ops ih =>
      intro st hi
      rw [List.foldl_cons, ih _ (pyInv_run hi op), pyRun_handle hi op, pyRun_page hp hi op, pyOutcomes,
        List.zip_cons_cons, pyPageAfter_cons]
      cases op <;> rfl
  have h := this ops .new pyInv_new
  obtain ⟨⟨x, hx, h1, h2⟩, _⟩ := C87_get (env := env) (st := pyRun env ops) ⟨ops, rfl⟩
  exact ⟨x, hx, by rw [← h1]; exact h, h2⟩

/-- C87 is violated: deleting the attribute is undefined behaviour. -/
theorem C87_delete_violated (env : PyEnv) (st : PyFile) : (pyAssignCodepage env none st).1 = .ub := rfl

/-- C87 is violated: what comes after a null byte in an assigned text is ignored. -/
theorem C87_nul_violated {env : PyEnv} (hk : KnowsPages env.codepageOf) (rest : Bytes) (st : PyFile) :
    (pyAssignCodepage env (some (.bytes (ascii "cp1252" ++ 0 :: rest))) st).1 = .ok () := by
  have h : cString (ascii "cp1252" ++ 0 :: rest) = ascii "cp1252" := rfl
  show (pySetCodepageFrom env (cString (ascii "cp1252" ++ 0 :: rest)) st).1 = .ok ()
  rw [h]
  exact (setFrom_spec env _ st).1.2 ⟨(1252, "cp1252"), by decide, hk (1252, "cp1252") (by decide)⟩

/-- C87 is violated: `set_ascii_codepage` refuses what `get_ascii_codepage` gives, a `bytes` object, in
  every state. -/
theorem C87_set_read_violated {env : PyEnv} {st : PyFile} {s : Bytes} (_hs : pyGetCodepage st = .ok s) :
    pySetCodepage env (.bytes s) st = (.err, st) := rfl

/-! ### C90: the signature check -/

/-- C90 (partial: names without null bytes).  `check_file_signature` of a name: an exception if the name is
  empty or no text, if a call to libbfio fails or the file has less than 8 bytes; otherwise whether the
  file starts with one of the signatures.  No handle is left open, and those of the program are as
  before. -/
theorem C90_check_partial {env : PyEnv} (hp : IsPyCodec env.py) (files : Bytes → Dev × Faults)
    (name : PyText) (w : World) :
    ((∀ b, ¬ Denotes name b) → pyCheckSignature env files name w = (.err, w)) ∧
    ∀ b, Denotes name b → 0 ∉ b → (b = [] → pyCheckSignature env files name w = (.err, w)) ∧
      (b ≠ [] → (∀ n, (pyCheckSignature env files name w).2.isOpen (.user n) = w.isOpen (.user n)) ∧
        (pyCheckSignature env files name w).2.isOpen (.lib w.made) =
          (w.isOpen (.lib w.made) && (files b).2.create) ∧
        ∀ content, files b = (Dev.ofBytes content, {}) → (pyCheckSignature env files name w).1 =
          if content.length < 8 then .err
          else .ok (decide (content.take 8 = signature ∨ content.take 8 = signatureBeta))) := by
  constructor
  · intro h
    unfold pyCheckSignature
    rw [pyFileName_err hp h]
    rfl
  · intro b hb h0
    have hfn := pyFileName_of hp hb
    rw [cString_eq h0] at hfn
    constructor
    · rintro rfl
      unfold pyCheckSignature
      rw [hfn]
      rfl
    · intro hne
      have he : pyCheckSignature env files name w = checkSignatureName (files b).1 (files b).2 w := by
        unfold pyCheckSignature
        rw [hfn]
        dsimp only
        rw [if_neg (by simpa using hne)]
      rw [he]
      obtain ⟨h1, h2, h3⟩ := C04_check_name (files b).1 (files b).2 w
      refine ⟨h2, h3, fun content hf => ?_⟩
      rw [h1, hf]
      dsimp only
      rw [if_neg (by simp), get_ofBytes]
      by_cases h8 : content.length < 8
      · rw [if_pos h8, if_neg (by omega)]
      · rw [if_neg h8, if_pos (by omega)]

/-- C90: `check_file_signature_file_object`: an exception if 8 bytes cannot be read, or the handle cannot be
  freed; otherwise whether the content starts with one of the signatures.  The reference to the Python
  object is given up in any case. -/
theorem C90_check_object (obj : PyFileArg) (freeFails : Bool) {content : Bytes}
    (hd : obj.dev = Dev.ofBytes content) :
    pyCheckSignatureObject obj freeFails =
      (if content.length < 8 ∨ freeFails = true then .err
        else .ok (decide (content.take 8 = signature ∨ content.take 8 = signatureBeta)), true) := by
  unfold pyCheckSignatureObject
  have hdev := (addObject_isOpen World.fresh 0 obj.dev).2
  rw [C04_check_content (.user 0) _ content (by rw [hdev, hd])]
  by_cases h8 : content.length < 8
  · rw [if_pos h8, if_pos (Or.inl h8)]; rfl
  · rw [if_neg h8]
    dsimp only
    cases freeFails <;> simp [h8]

/-- C90: a file that can be opened passes the check, by name and as file object. -/
theorem C90_opened_passes {env : PyEnv} (hp : IsPyCodec env.py) {content : Bytes}
    (hl : Loads env (Dev.ofBytes content)) (w : World) :
    (∀ (files : Bytes → Dev × Faults) (name : PyText) (b : Bytes), Denotes name b → 0 ∉ b → b ≠ [] →
      files b = (Dev.ofBytes content, {}) → (pyCheckSignature env files name w).1 = .ok true) ∧
    ∀ obj : PyFileArg, obj.dev = Dev.ofBytes content → pyCheckSignatureObject obj false = (.ok true, true) := by
  obtain ⟨l, hl⟩ := hl
  have hpass := C04_opened_passes _ _ content l hl (.user 0) (World.fresh.addObject 0 (Dev.ofBytes content))
    (addObject_isOpen _ _ _).2
  rw [C04_check_content (.user 0) _ content (addObject_isOpen _ _ _).2] at hpass
  constructor
  · intro files name b hb h0 hne hf
    rw [(((C90_check_partial hp files name w).2 b hb h0).2 hne).2.2 content hf]
    exact hpass
  · intro obj hd
    rw [C90_check_object obj false hd]
    by_cases h8 : content.length < 8
    · rw [if_pos h8] at hpass; cases hpass
    · rw [if_neg h8] at hpass
      rw [if_neg (by simp [h8]), hpass]

/-- C90 is violated for names with a null byte: another file is checked than the one that was named. -/
theorem C90_nul_violated (env : PyEnv) (files : Bytes → Dev × Faults) (w : World) (a rest : Bytes)
    (ha : 0 ∉ a) : pyCheckSignature env files (.bytes (a ++ 0 :: rest)) w =
      pyCheckSignature env files (.bytes a) w := by
  have h1 : cString (a ++ 0 :: rest) = a := by
    unfold cString
    rw [List.takeWhile_append_of_pos]
    · simp
    · intro x hx
      simp only [ne_eq, decide_eq_true_eq]
      rintro rfl
      exact ha hx
  unfold pyCheckSignature pyFileName
  simp only [h1, cString_eq ha]

/-! ### Examples -/

/-- A codec as in CPython. -/
noncomputable def plainPy : PyCodec where
  encode cs := if ∀ c ∈ cs, Scalar c then some (cs.flatMap encode8) else none
  decode b := open Classical in
    if h : ∃ cs : List Nat, (∀ c ∈ cs, Scalar c) ∧ b = cs.flatMap encode8 then some h.choose else none

theorem plainPy_isPyCodec : IsPyCodec plainPy where
  encode cs h := by unfold plainPy; dsimp only; rw [if_pos h]
  refuse cs h := by unfold plainPy; dsimp only; rw [if_neg h]
  decode cs h := by
    unfold plainPy
    have hex : ∃ cs' : List Nat, (∀ c ∈ cs', Scalar c) ∧ cs.flatMap encode8 = cs'.flatMap encode8 :=
      ⟨cs, h, rfl⟩
    dsimp only
    rw [dif_pos hex]
    exact congrArg some (encode8s_inj plainUna_isLibuna hex.choose_spec.1 h hex.choose_spec.2.symm)

/-- libclocale as far as the bindings use it. -/
def plainPages (s : Bytes) : Option Int := (pageNames.find? fun x => ascii x.2 = s).map (·.1)

noncomputable def plainPyEnv : PyEnv := ⟨plainPy, plainUna, plainPages⟩

theorem plainPages_knows : KnowsPages plainPages := by
  unfold KnowsPages
  decide +kernel

/-- A program that opens the stored document of `Props/Text.lean` by the name `ä`, sets the code page,
  closes the file, fails to open a name that is no text, sets the code page and opens the document from a file
  object. -/
example (e : Endian) : ∃ st n, PyReachable plainPyEnv st ∧
    PyShows plainPyEnv st e (.storage (unicodeDoc e)) ∧
    st.live = [n] ∧ pyGetCodepage st = .ok (ascii "cp932") := by
  let dev := Dev.ofBytes (encodeFile ⟨e, 9, 6, 4096, {}⟩ (unicodeDoc e))
  let ops0 : List PyOp := [.openName (fun _ => (dev, {})) (.str [0xe4]) none,
    .setCodepage (.str [99, 112, 57, 51, 54]), .close {},
    .openName (fun _ => (dev, {})) .other none]
  let ops : List PyOp := ops0 ++ [.assignCodepage (.bytes (ascii "cp932"))]
  have hr : PyReachable plainPyEnv (pyRun plainPyEnv ops) := ⟨ops, rfl⟩
  have h2 := C86_two_states plainPyEnv ops
  have hclosed : ¬ (pyRun plainPyEnv ops).isOpen := by
    intro h
    have := h2.1.1 h
    simp only [ops, ops0, List.cons_append, List.nil_append, pyOutcomes, List.zip_cons_cons,
      pyOpenAfter_cons] at this
    simp [PyOp.run, pyOpen, pyMode, pyFileName, Res.failed, pyOpenAfter] at this
  obtain ⟨h3, h4⟩ := (C86_document plainPy_isPyCodec plainUna_isLibuna ⟨e, 9, 6, 4096, {}⟩ (unicodeDoc e)
    (unicodeDoc_storable e) (unicodeDoc_text e) (env := plainPyEnv) hr hclosed (mode := none)
    .missing).2 ⟨true, true, dev⟩ rfl rfl rfl
  have hpage : getCodepage (pyRun plainPyEnv ops).lib.file = 932 := by
    have : pyRun plainPyEnv ops =
        (pySetCodepageFrom plainPyEnv (cString (ascii "cp932")) (pyRun plainPyEnv ops0)).2 := by
      unfold pyRun
      rw [List.foldl_append]
      rfl
    rw [this]
    have hk : cString (ascii "cp932") = ascii "cp932" := rfl
    rw [hk]
    exact ((setFrom_spec plainPyEnv (ascii "cp932") _).2.1 (932, "cp932") (by decide)
      (plainPages_knows (932, "cp932") (by decide))).2.1
  have hi := pyReachable_inv hr
  have hafter := pyRun_page (env := plainPyEnv) plainPy_isPyCodec hi (.openObject ⟨true, true, dev⟩ none)
  have hr' : PyReachable plainPyEnv (pyOpenObject plainPyEnv ⟨true, true, dev⟩ none
      (pyRun plainPyEnv ops)).2 := ⟨ops ++ [.openObject ⟨true, true, dev⟩ none], by
    unfold pyRun; rw [List.foldl_append]; rfl⟩
  have hio : (pyRun plainPyEnv ops).ioHandle = none := by
    cases hio : (pyRun plainPyEnv ops).ioHandle with
    | none => rfl
    | some n =>
      exfalso
      refine hclosed ?_
      unfold PyFile.isOpen
      rw [(hi.handle n).2 hio]
      rfl
  have hlive : (pyRun plainPyEnv ops).live = [] := by rw [hi.live, hio]; rfl
  refine ⟨_, (pyRun plainPyEnv ops).made, hr', h4, ?_, ?_⟩
  · rw [pyOpenObject_eq plainPyEnv rfl rfl rfl hio] at h3 ⊢
    revert h3
    generalize openHandle (plainPyEnv.u.cmp8 (fileOrder dev)) (.user (pyRun plainPyEnv ops).made) 1 {}
      ⟨(pyRun plainPyEnv ops).lib.file,
        (pyRun plainPyEnv ops).lib.world.addObject (pyRun plainPyEnv ops).made dev⟩ = r
    obtain ⟨r, s⟩ := r
    cases r with
    | ok _ => intro _; dsimp only; rw [hlive]
    | err => intro h; cases h
    | ub => intro h; cases h
    | hang => intro h; cases h
  · exact pyGetCodepage_eq (x := (932, "cp932")) (by decide) (by rw [← hpage]; exact hafter)

/-- Opening in mode `rw` is accepted, in mode `w` it is not. -/
example : ReadMode (some (.str [114, 119])) ∧ ¬ ReadMode (some (.str [119])) := by
  refine ⟨.given (by decide) (by decide), fun h => ?_⟩
  cases h

end Olecf.Props
