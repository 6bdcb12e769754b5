import Verif.Lemmas.MemInv
import Verif.Lemmas.MemFollow
import Verif.Spec.MemSetItem

/-! Programs with property sets: what a step does. -/

namespace Olecf
namespace Lemmas

open Olecf.Spec Olecf.Props

variable {σ α β γ δ : Type}

/-! ### The blocks of sets -/

theorem sets_append (l l' : List (Option MSet)) : setsBlocks (l ++ l') = setsBlocks l ++ setsBlocks l' := by
  unfold setsBlocks; rw [List.flatMap_append]

theorem sets_mem {l : List (Option MSet)} {s : MSet} (h : some s ∈ l) {b : Nat} (hb : b ∈ setBlocks s) :
    b ∈ setsBlocks l :=
  List.mem_flatMap.2 ⟨_, h, by simpa using hb⟩

theorem sets_set_none : ∀ {l : List (Option MSet)} {i : Nat} {s : MSet},
    l[i]? = some (some s) → (setsBlocks l).Perm (setBlocks s ++ setsBlocks (l.set i none))
  | [], i, s, h => by simp at h
  | a :: l, 0, s, h => by
    simp only [List.getElem?_cons_zero, Option.some.injEq] at h
    subst h
    show (setBlocks s ++ [] ++ setsBlocks l).Perm (setBlocks s ++ ([] ++ setsBlocks l))
    blocks
  | a :: l, i + 1, s, h => by
    rw [List.getElem?_cons_succ] at h
    rw [List.set_cons_succ]
    have := sets_set_none h
    show (a.toList.flatMap setBlocks ++ setsBlocks l).Perm
      (setBlocks s ++ (a.toList.flatMap setBlocks ++ setsBlocks (l.set i none)))
    refine (this.append_left _).trans ?_
    blocks

theorem section_mem {t : MSet} {s : MSection} (h : s ∈ t.sections) {b : Nat} (hb : b ∈ sectionBlocks s) :
    b ∈ setBlocks t := by
  unfold setBlocks
  exact List.mem_cons_of_mem _ (List.mem_cons_of_mem _ (List.mem_flatMap.2 ⟨s, h, hb⟩))

theorem value_mem {s : MSection} {v : MValue} (h : v ∈ s.values) {b : Nat} (hb : b ∈ valueBlocks v) :
    b ∈ sectionBlocks s := by
  unfold sectionBlocks
  exact List.mem_cons_of_mem _ (List.mem_cons_of_mem _ (List.mem_flatMap.2 ⟨v, h, hb⟩))

/-! ### The invariant -/

/-- Sections and values are parts of their sets. -/
structure SetOk (p : SetProgram) : Prop where
  base : ProgOk p.base
  secs : ∀ i s, some (i, s) ∈ p.secs → i < p.sets.length ∧
    ∀ t, p.sets[i]? = some (some t) → s ∈ t.sections
  values : ∀ i v, some (i, v) ∈ p.values → i < p.sets.length ∧
    ∀ t, p.sets[i]? = some (some t) → ∃ s, s ∈ t.sections ∧ v ∈ s.values

theorem SetOk.withBase {p : SetProgram} (hp : SetOk p) {b : Program} (hb : ProgOk b) :
    SetOk { p with base := b } := ⟨hb, hp.secs, hp.values⟩

theorem SetOk.keepSet {p : SetProgram} (hp : SetOk p) (o : Option MSet) : SetOk (p.keepSet o).1 := by
  cases o with
  | none => exact hp
  | some s =>
    have hget : ∀ {i} {t : MSet}, i < p.sets.length → (p.sets ++ [some s])[i]? = some (some t) →
        p.sets[i]? = some (some t) := fun h ht => by
      rwa [List.getElem?_append_left h] at ht
    refine ⟨hp.base, fun i x hx => ?_, fun i x hx => ?_⟩
    · obtain ⟨h1, h2⟩ := hp.secs i x hx
      refine ⟨?_, fun t ht => h2 t (hget h1 ht)⟩
      show i < (p.sets ++ [some s]).length
      rw [List.length_append]; omega
    · obtain ⟨h1, h2⟩ := hp.values i x hx
      refine ⟨?_, fun t ht => h2 t (hget h1 ht)⟩
      show i < (p.sets ++ [some s]).length
      rw [List.length_append]; omega

theorem keepSet_blocks (p : SetProgram) (o : Option MSet) :
    setProgramBlocks (p.keepSet o).1 = setProgramBlocks p ++ o.toList.flatMap setBlocks := by
  cases o with
  | none => exact (List.append_nil _).symm
  | some s =>
    show programBlocks p.base ++ setsBlocks (p.sets ++ [some s]) = _
    rw [sets_append, ← List.append_assoc]
    show _ ++ (setBlocks s ++ [] ++ []) = _ ++ (setBlocks s ++ [])
    rw [List.append_nil, List.append_nil]
    rfl

theorem arrayGet_mem {l : List α} {i : Int} {a : α} (h : arrayGet l i = .ok a) : a ∈ l := by
  unfold arrayGet at h
  split at h
  · cases h
  · split at h
    · cases h; exact List.mem_of_getElem? ‹_›
    · cases h

theorem SetOk.keepSec {p : SetProgram} (hp : SetOk p) {i : Nat} {r : Res MSection}
    (hi : i < p.sets.length) (hr : ∀ s, r = .ok s → ∀ t, p.sets[i]? = some (some t) → s ∈ t.sections) :
    SetOk (p.keepSec i r).1 := by
  cases r with
  | ok s =>
    refine ⟨hp.base, fun j x hx => ?_, hp.values⟩
    rcases List.mem_append.1 hx with h | h
    · exact hp.secs j x h
    · cases List.mem_singleton.1 h
      exact ⟨hi, hr s rfl⟩
  | err => exact hp
  | ub => exact hp
  | hang => exact hp

theorem SetOk.keepValue {p : SetProgram} (hp : SetOk p) {i : Nat} {r : Res MValue}
    (hi : i < p.sets.length)
    (hr : ∀ v, r = .ok v → ∀ t, p.sets[i]? = some (some t) → ∃ s, s ∈ t.sections ∧ v ∈ s.values) :
    SetOk (p.keepValue i r).1 := by
  cases r with
  | ok s =>
    refine ⟨hp.base, hp.secs, fun j x hx => ?_⟩
    rcases List.mem_append.1 hx with h | h
    · exact hp.values j x h
    · cases List.mem_singleton.1 h
      exact ⟨hi, hr s rfl⟩
  | err => exact hp
  | ub => exact hp
  | hang => exact hp

theorem keepSec_blocks (p : SetProgram) (i : Nat) (r : Res MSection) :
    setProgramBlocks (p.keepSec i r).1 = setProgramBlocks p := by cases r <;> rfl

theorem keepValue_blocks (p : SetProgram) (i : Nat) (r : Res MValue) :
    setProgramBlocks (p.keepValue i r).1 = setProgramBlocks p := by cases r <;> rfl

theorem SetOk.freeSet {p : SetProgram} (hp : SetOk p) (i : Nat) :
    SetOk { p with sets := p.sets.set i none } := by
  have hget : ∀ {j} {t : MSet}, (p.sets.set i none)[j]? = some (some t) →
      p.sets[j]? = some (some t) := fun {j t} ht => by
    rw [List.getElem?_set] at ht
    split at ht
    · split at ht <;> cases ht
    · exact ht
  refine ⟨hp.base, fun j x hx => ?_, fun j x hx => ?_⟩
  · obtain ⟨h1, h2⟩ := hp.secs j x hx
    exact ⟨by simpa using h1, fun t ht => h2 t (hget ht)⟩
  · obtain ⟨h1, h2⟩ := hp.values j x hx
    exact ⟨by simpa using h1, fun t ht => h2 t (hget ht)⟩

/-! ### The steps on sets, sections and values -/

section
variable {pre : List Nat}

theorem memSetClassId_looks {s : MSet} (h : ∀ b ∈ setBlocks s, b ∈ pre) (size : Nat) :
    Looks pre (memSetClassId s size : Mem σ (Res Bytes)) (fun _ => copyClassId s.classId size) :=
  looks_use (h _ (by simp [setBlocks])) (looks_pure fun _ => rfl)

theorem memSetCount_looks {s : MSet} (h : ∀ b ∈ setBlocks s, b ∈ pre) :
    Looks pre (memSetCount s : Mem σ Int) (fun _ => s.sections.length) :=
  looks_use (h _ (by simp [setBlocks])) (looks_use (h _ (by simp [setBlocks])) (looks_pure fun _ => rfl))

theorem memSetSection_looks {s : MSet} (h : ∀ b ∈ setBlocks s, b ∈ pre) (i : Int) :
    Looks pre (memSetSection s i : Mem σ (Res MSection)) (fun _ => arrayGet s.sections i) :=
  looks_use (h _ (by simp [setBlocks])) (looks_use (h _ (by simp [setBlocks])) (looks_pure fun _ => rfl))

theorem memSectionClassId_looks {s : MSection} (h : ∀ b ∈ sectionBlocks s, b ∈ pre) (size : Nat) :
    Looks pre (memSectionClassId s size : Mem σ (Res Bytes)) (fun _ => copyClassId s.classId size) :=
  looks_use (h _ (by simp [sectionBlocks])) (looks_pure fun _ => rfl)

theorem memSectionCount_looks {s : MSection} (h : ∀ b ∈ sectionBlocks s, b ∈ pre) :
    Looks pre (memSectionCount s : Mem σ Int) (fun _ => s.values.length) :=
  looks_use (h _ (by simp [sectionBlocks])) (looks_use (h _ (by simp [sectionBlocks]))
    (looks_pure fun _ => rfl))

theorem memSectionProperty_looks {s : MSection} (h : ∀ b ∈ sectionBlocks s, b ∈ pre) (i : Int) :
    Looks pre (memSectionProperty s i : Mem σ (Res MValue)) (fun _ => arrayGet s.values i) :=
  looks_use (h _ (by simp [sectionBlocks])) (looks_use (h _ (by simp [sectionBlocks]))
    (looks_pure fun _ => rfl))

theorem memValueGet_looks {v : MValue} (h : ∀ b ∈ valueBlocks v, b ∈ pre) (get : PropValue → α) :
    Looks pre (memValueGet v get : Mem σ α) (fun _ => get v.view) := by
  refine looks_use (h _ (by simp [valueBlocks])) (looks_useOpt (fun b hb => h b ?_)
    (looks_useOpt (fun b hb => h b ?_) (looks_pure fun _ => rfl)))
  · cases hv : v.data with
    | none => rw [hv] at hb; simp at hb
    | some d => rw [hv] at hb; simp at hb; simp [valueBlocks, hv, fvalueBlocks, hb]
  · cases hv : v.data with
    | none => rw [hv] at hb; simp at hb
    | some d => rw [hv] at hb; simp at hb; simp [valueBlocks, hv, fvalueBlocks, hb]

end

/-- What a step that only looks does, whatever the memory. -/
def SetAt (m : Mem World (SetProgram × SetReply)) (w : World) (v : PureSets × SetReply) : Prop :=
  ∀ h, ∃ r h', m w h = (.ok r, w, h') ∧ h'.grant = h.grant ∧ h'.asked = h.asked ∧
    (setProgramValue r.1 w, r.2) = v

theorem setAt_pure {p : SetProgram} {a : SetReply} {w : World} {v : PureSets × SetReply}
    (h1 : (setProgramValue p w, a) = v) : SetAt (pure (p, a)) w v :=
  fun h => ⟨_, h, rfl, rfl, rfl, h1⟩

theorem setAt_looks {pre : List Nat} {m : Mem World α} {k : α → Mem World (SetProgram × SetReply)}
    {f : World → α} {w : World} {v : PureSets × SetReply} (hm : Looks pre m f)
    (hk : SetAt (k (f w)) w v) : SetAt (m >>= k) w v := by
  intro h
  obtain ⟨h', e, g, a⟩ := hm.gives w h
  rw [mem_bind]
  unfold Mem.bind
  rw [e]
  obtain ⟨r, h'', k1, k2, k3, k4⟩ := hk h'
  exact ⟨r, h'', k1, k2.trans g, k3.trans a, k4⟩

theorem memFreeSet_quiet (s : MSet) : Quiet (memFreeSet s) := by
  intro w h
  obtain ⟨h1, h2, h3⟩ := quiet_freeSet s 0 h
  unfold memFreeSet
  rw [mem_bind]
  unfold Mem.bind inStream
  revert h1 h2 h3
  rcases freeSet s 0 h with ⟨r, o, h'⟩
  intro h1 h2 h3
  dsimp only at h1 h2 h3
  subst h1
  exact ⟨rfl, rfl, h3⟩

theorem memFreeSet_asked (s : MSet) (w : World) (h : Heap) : (memFreeSet s w h).2.2.asked = h.asked := by
  obtain ⟨h1, h2, h3, h4⟩ := frees_freeSet s 0 h
  unfold memFreeSet
  rw [mem_bind]
  unfold Mem.bind inStream
  revert h1 h2 h3 h4
  rcases freeSet s 0 h with ⟨r, o, h'⟩
  intro h1 h2 h3 h4
  dsimp only at h1 h2 h3
  subst h1
  exact h4

theorem memFreeSet_triple (s : MSet) (fr : List Nat) :
    Triple (setBlocks s ++ fr) (memFreeSet s) (fun _ => fr) (fun _ => False) := by
  intro w h rest hok hl
  obtain ⟨k1, k2, k3, -⟩ := freeSet_triple (exc := fun _ => False) s fr 0 h rest hok hl
  have hq := (quiet_freeSet s 0 h).1
  unfold memFreeSet
  rw [mem_bind]
  unfold Mem.bind inStream
  revert k1 k2 k3 hq
  rcases freeSet s 0 h with ⟨r, o, h'⟩
  intro k1 k2 k3 hq
  dsimp only at k1 k2 k3 hq
  subst hq
  exact ⟨k1, k2, fun _ _ => k3 _ rfl, fun he => by cases he⟩

/-- The step is on a set, a section or a value. -/
def SetStep.Looking : SetStep → Prop
  | .base _ => False
  | .getSet _ => False
  | _ => True

theorem arrayGet_map (f : α → β) (l : List α) (i : Int) :
    arrayGet (l.map f) i = match arrayGet l i with
      | .ok a => .ok (f a)
      | .err => .err
      | .ub => .ub
      | .hang => .hang := by
  unfold arrayGet
  split
  · rfl
  · rw [List.getElem?_map]
    cases l[i.toNat]? <;> rfl

theorem sets_get {p : SetProgram} {w : World} {i : Nat} :
    (setProgramValue p w).sets[i]? = p.sets[i]?.map (·.map MSet.view) := List.getElem?_map ..

theorem secs_get {p : SetProgram} {w : World} {i : Nat} :
    (setProgramValue p w).secs[i]? = p.secs[i]?.map (·.map fun x => (x.1, x.2.view)) :=
  List.getElem?_map ..

theorem values_get {p : SetProgram} {w : World} {i : Nat} :
    (setProgramValue p w).values[i]? = p.values[i]?.map (·.map fun x => (x.1, x.2.view)) :=
  List.getElem?_map ..

theorem look_at (cmp : Bytes → Bytes → Option Bool) (p : SetProgram) {s : SetStep}
    (hl : SetStep.Looking s) (w : World) :
    SetAt (s.run cmp p) w (s.answer cmp (setProgramValue p w)) := by
  cases s with
  | base s => cases hl
  | getSet k => cases hl
  | set i c =>
    unfold SetStep.run SetStep.answer
    dsimp only
    rw [sets_get]
    cases hi : p.sets[i]? with
    | none => exact setAt_pure rfl
    | some o =>
      cases o with
      | none => exact setAt_pure rfl
      | some s =>
        dsimp only [Option.map_some]
        cases c with
        | classId size => exact setAt_looks (memSetClassId_looks (fun _ h => h) size) (setAt_pure rfl)
        | count =>
          refine setAt_looks (memSetCount_looks (fun _ h => h)) (setAt_pure ?_)
          dsimp only [PropSet.numberOfSections, MSet.view]
          rw [List.length_map]
        | sec index =>
          refine setAt_looks (memSetSection_looks (fun _ h => h) index) (setAt_pure ?_)
          dsimp only [PropSet.section_, MSet.view]
          rw [arrayGet_map]
          cases arrayGet s.sections index with
          | ok t =>
            unfold setProgramValue
            dsimp only
            rw [List.map_append]
            rfl
          | err => rfl
          | ub => rfl
          | hang => rfl
  | sec j c =>
    unfold SetStep.run SetStep.answer
    dsimp only
    rw [secs_get]
    cases hi : p.secs[j]? with
    | none => exact setAt_pure rfl
    | some o =>
      cases o with
      | none => exact setAt_pure rfl
      | some x =>
        obtain ⟨i, s⟩ := x
        dsimp only [Option.map_some]
        cases c with
        | classId size =>
          exact setAt_looks (memSectionClassId_looks (fun _ h => h) size) (setAt_pure rfl)
        | count =>
          refine setAt_looks (memSectionCount_looks (fun _ h => h)) (setAt_pure ?_)
          dsimp only [PropSection.numberOfProperties, MSection.view]
          rw [List.length_map]
        | property index =>
          refine setAt_looks (memSectionProperty_looks (fun _ h => h) index) (setAt_pure ?_)
          dsimp only [PropSection.property, MSection.view]
          rw [arrayGet_map]
          cases arrayGet s.values index with
          | ok t =>
            unfold setProgramValue
            dsimp only
            rw [List.map_append]
            rfl
          | err => rfl
          | ub => rfl
          | hang => rfl
  | value j get =>
    unfold SetStep.run SetStep.answer
    dsimp only
    rw [values_get]
    cases hi : p.values[j]? with
    | none => exact setAt_pure rfl
    | some o =>
      cases o with
      | none => exact setAt_pure rfl
      | some x =>
        obtain ⟨i, v⟩ := x
        exact setAt_looks (memValueGet_looks (fun _ h => h) get) (setAt_pure rfl)
  | freeSet i =>
    unfold SetStep.run SetStep.answer
    dsimp only
    rw [sets_get]
    cases hi : p.sets[i]? with
    | none => exact setAt_pure rfl
    | some o =>
      cases o with
      | none => exact setAt_pure rfl
      | some s =>
        intro h
        obtain ⟨e1, e2, e3⟩ := memFreeSet_quiet s w h
        have e4 := memFreeSet_asked s w h
        dsimp only
        rw [mem_bind]
        unfold Mem.bind
        revert e1 e2 e3 e4
        rcases memFreeSet s w h with ⟨r, w', h'⟩
        intro e1 e2 e3 e4
        dsimp only at e1 e2 e3 e4
        subst e1 e2
        refine ⟨_, _, rfl, e3, e4, ?_⟩
        unfold setProgramValue
        dsimp only [Option.map_some]
        rw [List.map_set]
        rfl
  | freeSec j =>
    refine setAt_pure ?_
    unfold setProgramValue SetStep.answer
    dsimp only
    rw [List.map_set]
    rfl
  | freeValue j =>
    refine setAt_pure ?_
    unfold setProgramValue SetStep.answer
    dsimp only
    rw [List.map_set]
    rfl

/-! ### The blocks -/

theorem alive_mem {p : SetProgram} {i : Nat} {t : MSet} (h : p.sets[i]? = some (some t)) (fr : List Nat)
    {b : Nat} (hb : b ∈ setBlocks t) : b ∈ setProgramBlocks p ++ fr :=
  List.mem_append_left _ (List.mem_append_right _ (sets_mem (List.mem_of_getElem? h) hb))

theorem setStep_call (cmp : Bytes → Bytes → Option Bool) {p : SetProgram} (hp : SetOk p) {s : SetStep}
    (hs : s.Allowed p) (hn : ∀ k, s ≠ .getSet k) (fr : List Nat) :
    Call (setProgramBlocks p ++ fr) (s.run cmp p) (fun r => setProgramBlocks r.1 ++ fr)
      (fun r => SetOk r.1) := by
  cases s with
  | base s =>
    have := step_call cmp hp.base hs (setsBlocks p.sets ++ fr)
    rw [← List.append_assoc] at this
    exact call_bind this fun r hr => call_pure
      (by show List.Perm _ (programBlocks r.1 ++ setsBlocks p.sets ++ fr); rw [List.append_assoc])
      (hp.withBase hr)
  | getSet k => exact absurd rfl (hn k)
  | set i c =>
    unfold SetStep.run
    dsimp only
    split
    · rename_i t hi
      have hb : ∀ b ∈ setBlocks t, b ∈ setProgramBlocks p ++ fr := fun b h => alive_mem hi fr h
      have hlt : i < p.sets.length := (List.getElem?_eq_some_iff.1 hi).1
      cases c with
      | classId size => exact looks_call (memSetClassId_looks hb size) fun _ => call_pure (.refl _) hp
      | count => exact looks_call (memSetCount_looks hb) fun _ => call_pure (.refl _) hp
      | sec index =>
        refine looks_call (memSetSection_looks hb index) fun _ => call_pure
          (by rw [keepSec_blocks]) (hp.keepSec hlt fun s h t' ht' => ?_)
        rw [hi] at ht'
        cases ht'
        exact arrayGet_mem h
    · exact call_pure (.refl _) hp
  | sec j c =>
    unfold SetStep.run
    dsimp only
    split
    · rename_i i x hj
      obtain ⟨t, ht⟩ := hs i x hj
      obtain ⟨hlt, hm⟩ := hp.secs i x (List.mem_of_getElem? hj)
      have hb : ∀ b ∈ sectionBlocks x, b ∈ setProgramBlocks p ++ fr := fun b h =>
        alive_mem ht fr (section_mem (hm t ht) h)
      cases c with
      | classId size => exact looks_call (memSectionClassId_looks hb size) fun _ => call_pure (.refl _) hp
      | count => exact looks_call (memSectionCount_looks hb) fun _ => call_pure (.refl _) hp
      | property index =>
        exact looks_call (memSectionProperty_looks hb index) fun _ => call_pure
          (by rw [keepValue_blocks])
          (hp.keepValue hlt fun v h t' ht' => ⟨x, hm t' ht', arrayGet_mem h⟩)
    · exact call_pure (.refl _) hp
  | value j get =>
    unfold SetStep.run
    dsimp only
    split
    · rename_i i v hj
      obtain ⟨t, ht⟩ := hs i v hj
      obtain ⟨hlt, hm⟩ := hp.values i v (List.mem_of_getElem? hj)
      obtain ⟨x, h1, h2⟩ := hm t ht
      have hb : ∀ b ∈ valueBlocks v, b ∈ setProgramBlocks p ++ fr := fun b h =>
        alive_mem ht fr (section_mem h1 (value_mem h2 h))
      exact looks_call (memValueGet_looks hb get) fun _ => call_pure (.refl _) hp
    · exact call_pure (.refl _) hp
  | freeSet i =>
    unfold SetStep.run
    dsimp only
    split
    · rename_i t hi
      refine call_quiet (memFreeSet_quiet _)
        (triple_pre (memFreeSet_triple t
          (setProgramBlocks { p with sets := p.sets.set i none } ++ fr)) ?_)
        (call_pure (.refl _) (hp.freeSet i))
      have := sets_set_none hi
      unfold setProgramBlocks
      dsimp only
      refine ((this.append_left _).append_right fr).trans ?_
      blocks
    · exact call_pure (.refl _) hp
  | freeSec j =>
    refine call_pure (.refl _) ⟨hp.base, fun i x hx => ?_, hp.values⟩
    rcases List.mem_or_eq_of_mem_set hx with h | h
    · exact hp.secs i x h
    · cases h
  | freeValue j =>
    refine call_pure (.refl _) ⟨hp.base, hp.secs, fun i x hx => ?_⟩
    rcases List.mem_or_eq_of_mem_set hx with h | h
    · exact hp.values i x h
    · cases h

/-! ### The request for a set -/

/-- What the stream functions use of the file. -/
def streamValue (f : MFile) (it : MItem) (w : World) : Option FileCtx :=
  it.ptrs.handle.bind fun h => (MFile.value f).ctx (w.dev h)

theorem memStreamFile_looks {pre : List Nat} {f : MFile} {it : MItem} (h : Reach pre f it) :
    Looks pre (memStreamFile f it) (streamValue f it) := by
  unfold memStreamFile
  refine looks_use h.item (looks_use h.entry (looks_use h.file (looks_use h.io
    (looks_useOpt h.handle (looks_forEach (fun t ht => useTable_looks (h.sat t ht))
      (looks_forEach (fun t ht => useTable_looks (h.ssat t ht)) ?_))))))
  unfold streamValue
  cases hh : it.ptrs.handle with
  | none => exact looks_pure fun _ => rfl
  | some hd =>
    cases hs : f.sat with
    | none =>
      refine looks_pure fun w => ?_
      show (MFile.value f).ctx (w.dev hd) = none
      unfold OleFile.ctx MFile.value; rw [hs]; rfl
    | some sat =>
      cases hss : f.ssat with
      | none =>
        refine looks_pure fun w => ?_
        show (MFile.value f).ctx (w.dev hd) = none
        unfold OleFile.ctx MFile.value; rw [hs, hss]; rfl
      | some ssat =>
        refine looks_world fun dev => ⟨_, looks_pure fun _ => rfl, fun w hw => ?_⟩
        show some _ = (MFile.value f).ctx (w.dev hd)
        unfold OleFile.ctx MFile.value; rw [hs, hss, hw]; rfl

/-- The request for a set, once it is known what it reads from. -/
theorem getSet_run (cmp : Bytes → Bytes → Option Bool) {p : SetProgram} (hp : SetOk p) {k : Nat}
    {x : Held} (hk : p.base.items[k]? = some (some x)) (hf : x.fresh = true) (w : World) (h : Heap) :
    ∃ h1, h1.grant = h.grant ∧ h1.asked = h.asked ∧
      (∀ rest, Sound h → h.live.Perm (setProgramBlocks p ++ rest) →
        Sound h1 ∧ h1.live.Perm (setProgramBlocks p ++ rest)) ∧
      (SetStep.getSet k).run cmp p w h =
        match streamValue p.base.file x.item w with
        | some c =>
          match memGetSet c x.item.pos.node.value.entry x.item.offset h1 with
          | (.ok s, off, h2) =>
            (.ok (({ p with base := p.base.set k (some ⟨{ x.item with offset := off }, x.fresh⟩) } :
              SetProgram).keepSet (some s)), w, h2)
          | (.err, off, h2) =>
            (.ok (({ p with base := p.base.set k (some ⟨{ x.item with offset := off }, x.fresh⟩) } :
              SetProgram).keepSet none), w, h2)
          | (.ub, _, h2) => (.ub, w, h2)
          | (.hang, _, h2) => (.hang, w, h2)
        | none => (.ok (({ p with base := p.base.set k (some ⟨x.item, x.fresh⟩) } :
              SetProgram).keepSet none), w, h1) := by
  have hr := hp.base.reach (List.mem_of_getElem? hk) hf (setsBlocks p.sets)
  have hlooks := memStreamFile_looks hr
  obtain ⟨h1, e1, e2, e3⟩ := hlooks.gives w h
  refine ⟨h1, e2, e3, fun rest hs hl => ?_, ?_⟩
  · obtain ⟨k1, -, k3, -⟩ := hlooks.blocks w h rest hs hl
    rw [e1] at k1 k3
    exact ⟨k1, k3 _ rfl⟩
  · show SetStep.run cmp p (.getSet k) w h = _
    unfold SetStep.run
    dsimp only
    rw [hk]
    dsimp only
    rw [mem_bind]
    unfold Mem.bind memItemSet
    rw [mem_bind]
    unfold Mem.bind
    rw [e1]
    dsimp only
    cases streamValue p.base.file x.item w with
    | none => rfl
    | some c =>
      dsimp only
      rw [mem_bind]
      unfold Mem.bind inStream
      rcases memGetSet c x.item.pos.node.value.entry x.item.offset h1 with ⟨_ | _ | _ | _, off, h2⟩ <;> rfl

theorem getSet_ok {p : SetProgram} (hp : SetOk p) {k : Nat} {x : Held}
    (hk : p.base.items[k]? = some (some x)) (off : Int) :
    SetOk { p with base := p.base.set k (some ⟨{ x.item with offset := off }, x.fresh⟩) } := by
  refine hp.withBase (hp.base.set fun y hy hf => ?_)
  cases hy
  have hi := hp.base.items x (List.mem_of_getElem? hk) hf
  exact ⟨hi.tree, hi.node, hi.ptrs⟩

theorem getSet_blocks {p : SetProgram} {k : Nat} {x : Held}
    (hk : p.base.items[k]? = some (some x)) (off : Int) :
    setProgramBlocks { p with base := p.base.set k (some ⟨{ x.item with offset := off }, x.fresh⟩) } =
      setProgramBlocks p := by
  unfold setProgramBlocks
  dsimp only
  exact set_blocks hk (it := { x.item with offset := off }) rfl _

/-- What a step does to the memory. -/
theorem setStep_heap (cmp : Bytes → Bytes → Option Bool) {p : SetProgram} (hp : SetOk p) {s : SetStep}
    (ha : s.Allowed p) (w : World) {h : Heap} {rest : List Nat} (hs : Sound h)
    (hl : h.live.Perm (setProgramBlocks p ++ rest)) :
    Sound (s.run cmp p w h).2.2 ∧ (s.run cmp p w h).2.2.grant = h.grant ∧ (s.run cmp p w h).1 ≠ .err ∧
    ∀ p' a, (s.run cmp p w h).1 = .ok (p', a) → SetOk p' ∧ ∃ lost : List MSection,
      lost.length ≤ failedSets [a] ∧
      (s.run cmp p w h).2.2.live.Perm (setProgramBlocks p' ++ (lost.flatMap sectionBlocks ++ rest)) := by
  by_cases hg : ∃ k, s = .getSet k
  · obtain ⟨k, rfl⟩ := hg
    cases hk : p.base.items[k]? with
    | none =>
      have : (SetStep.getSet k).run cmp p = pure (p, .nothing) := by
        unfold SetStep.run; dsimp only; rw [hk]
      rw [this]
      exact ⟨hs, rfl, fun h => (by cases h), fun p' a h => by cases h; exact ⟨hp, [], Nat.le_refl _, hl⟩⟩
    | some o =>
      cases o with
      | none =>
        have : (SetStep.getSet k).run cmp p = pure (p, .nothing) := by
          unfold SetStep.run; dsimp only; rw [hk]
        rw [this]
        exact ⟨hs, rfl, fun h => (by cases h), fun p' a h => by cases h; exact ⟨hp, [], Nat.le_refl _, hl⟩⟩
      | some x =>
        obtain ⟨h1, g1, -, b1, e1⟩ := getSet_run cmp hp hk (ha x hk) w h
        obtain ⟨s1, l1⟩ := b1 rest hs hl
        rw [e1]
        cases streamValue p.base.file x.item w with
        | none =>
          refine ⟨s1, g1, fun h => (by cases h), fun p' a he => ?_⟩
          cases he
          refine ⟨(getSet_ok hp hk x.item.offset).keepSet none, [], Nat.zero_le _, ?_⟩
          show h1.live.Perm (setProgramBlocks { p with base := p.base.set k (some ⟨{ x.item with offset := x.item.offset }, x.fresh⟩) } ++ _)
          rw [getSet_blocks hk x.item.offset]
          exact l1
        | some c =>
          dsimp only
          obtain ⟨k1, k2, k3, k4⟩ := memGetSet_spec c x.item.pos.node.value.entry x.item.offset h1
            (setProgramBlocks p ++ rest) s1 l1
          revert k1 k2 k3 k4
          rcases memGetSet c x.item.pos.node.value.entry x.item.offset h1 with ⟨r, off, h2⟩
          intro k1 k2 k3 k4
          dsimp only at k1 k2 k3 k4
          cases r with
          | ok t =>
            refine ⟨k1, k2.trans g1, fun h => (by cases h), fun p' a he => ?_⟩
            cases he
            refine ⟨(getSet_ok hp hk off).keepSet (some t), [], Nat.zero_le _, ?_⟩
            refine (k3 t rfl).trans ?_
            have := keepSet_blocks { p with base := p.base.set k (some ⟨{ x.item with offset := off }, x.fresh⟩) } (some t)
            rw [getSet_blocks hk] at this
            refine List.Perm.trans ?_ (List.Perm.of_eq (congrArg (· ++ ([] ++ rest)) this.symm))
            show (setBlocks t ++ (setProgramBlocks p ++ rest)).Perm
              (setProgramBlocks p ++ (setBlocks t ++ []) ++ ([] ++ rest))
            blocks
          | err =>
            refine ⟨k1, k2.trans g1, fun h => (by cases h), fun p' a he => ?_⟩
            cases he
            obtain ⟨leak, hk1, hk2⟩ := k4 rfl
            have hb : ∀ l : List Nat, h2.live.Perm (l ++ (setProgramBlocks p ++ rest)) →
                h2.live.Perm (setProgramBlocks { p with base := p.base.set k (some ⟨{ x.item with offset := off }, x.fresh⟩) } ++ (l ++ rest)) := by
              intro l hh
              rw [getSet_blocks hk]
              refine hh.trans ?_
              blocks
            refine ⟨(getSet_ok hp hk off).keepSet none, ?_⟩
            rcases hk1 with ⟨rfl, -⟩ | ⟨-, m, rfl⟩
            · exact ⟨[], Nat.zero_le _, hb _ hk2⟩
            · exact ⟨[m], Nat.le_refl _, by
                have := hb _ hk2
                show h2.live.Perm (_ ++ ((sectionBlocks m ++ []) ++ rest))
                rw [List.append_nil]; exact this⟩
          | ub => exact ⟨k1, k2.trans g1, fun h => (by cases h), fun p' a he => by cases he⟩
          | hang => exact ⟨k1, k2.trans g1, fun h => (by cases h), fun p' a he => by cases he⟩
  · have hcall := setStep_call cmp hp ha (fun k h => hg ⟨k, h⟩) []
    rw [List.append_nil] at hcall
    obtain ⟨k1, r, k2, k3⟩ := stage_outcome hcall.stage w hs hl
    have k4 := hcall.ensures w h r k2
    have k5 := (hcall.stage.blocks w h rest hs hl).2.1
    refine ⟨k1, k5, fun h => (by rw [k2] at h; cases h), fun p' a he => ?_⟩
    rw [k2] at he
    cases he
    rw [List.append_nil] at k3
    exact ⟨k4, [], Nat.zero_le _, k3⟩

theorem failedSets_cons (a : SetReply) (l : List SetReply) :
    failedSets (a :: l) = failedSets [a] + failedSets l := by
  rcases a with _ | (_ | _ | _ | _) | _ | _ | _ | _ | _ | _ <;> simp [failedSets, Nat.add_comm]

theorem runSetSteps_heap (cmp : Bytes → Bytes → Option Bool) (steps : List SetStep) :
    ∀ {p : SetProgram}, SetOk p → ∀ {w : World} {h : Heap} {rest : List Nat}, Sound h →
      h.live.Perm (setProgramBlocks p ++ rest) → SetCareful cmp p steps w h →
      Sound (runSetSteps cmp p steps w h).2.2 ∧ (runSetSteps cmp p steps w h).2.2.grant = h.grant ∧
      (runSetSteps cmp p steps w h).1 ≠ .err ∧
      ∀ p' as, (runSetSteps cmp p steps w h).1 = .ok (p', as) → SetOk p' ∧ as.length = steps.length ∧
        ∃ lost : List MSection, lost.length ≤ failedSets as ∧
          (runSetSteps cmp p steps w h).2.2.live.Perm
            (setProgramBlocks p' ++ (lost.flatMap sectionBlocks ++ rest)) := by
  induction steps with
  | nil =>
    intro p hp w h rest hs hl _
    refine ⟨hs, rfl, fun h => (by cases h), fun p' as he => ?_⟩
    cases he
    exact ⟨hp, rfl, [], Nat.le_refl _, hl⟩
  | cons s steps ih =>
    intro p hp w h rest hs hl hc
    obtain ⟨ha, hc⟩ := hc
    obtain ⟨k1, k2, k3, k4⟩ := setStep_heap cmp hp ha w hs hl
    unfold runSetSteps
    rw [mem_bind]
    unfold Mem.bind
    revert k1 k2 k3 k4 hc
    rcases s.run cmp p w h with ⟨o, w', h'⟩
    intro hc k1 k2 k3 k4
    dsimp only at hc k1 k2 k3 k4
    cases o with
    | err => exact absurd rfl k3
    | ub => exact ⟨k1, k2, fun h => (by cases h), fun _ _ h => by cases h⟩
    | hang => exact ⟨k1, k2, fun h => (by cases h), fun _ _ h => by cases h⟩
    | ok r =>
      obtain ⟨p1, a⟩ := r
      obtain ⟨hp1, lost, hlen, hl1⟩ := k4 p1 a rfl
      dsimp only at hc ⊢
      obtain ⟨j1, j2, j3, j4⟩ := ih hp1 k1 hl1 hc
      rw [mem_bind]
      unfold Mem.bind
      revert j1 j2 j3 j4
      rcases runSetSteps cmp p1 steps w' h' with ⟨o, w'', h''⟩
      intro j1 j2 j3 j4
      dsimp only at j1 j2 j3 j4
      cases o with
      | err => exact absurd rfl j3
      | ub => exact ⟨j1, j2.trans k2, fun h => (by cases h), fun _ _ h => by cases h⟩
      | hang => exact ⟨j1, j2.trans k2, fun h => (by cases h), fun _ _ h => by cases h⟩
      | ok r =>
        obtain ⟨p2, as⟩ := r
        obtain ⟨hp2, hlen2, lost2, hl2, hl3⟩ := j4 p2 as rfl
        refine ⟨j1, j2.trans k2, fun h => (by cases h), fun p' as' he => ?_⟩
        cases he
        refine ⟨hp2, by simp [hlen2], lost2 ++ lost, ?_, ?_⟩
        · show (lost2 ++ lost).length ≤ failedSets (a :: as)
          rw [List.length_append, failedSets_cons]; omega
        · rw [List.flatMap_append, List.append_assoc]; exact hl3

/-! ### What a step replies -/

theorem set_value {p : Program} {k : Nat} {it : MItem} {b : Bool} {w : World} :
    programValue (p.set k (some ⟨it, b⟩)) w =
      { programValue p w with items := (programValue p w).items.set k (some ⟨it.pos.item, it.offset⟩) } := by
  unfold programValue Program.set
  dsimp only
  rw [List.map_set]
  rfl

/-- What is said of the reply to a request for a set. -/
def HonestSet (p : SetProgram) (k : Nat) (x : Held) (w : World) (h h' : Heap) (p' : SetProgram)
    (a : SetReply) : Prop :=
  (setProgramValue p' w, a) = (setProgramValue p w).getSet k (heldValue x) ∨
    ∃ off, a = .set .err ∧
      p' = { p with base := p.base.set k (some ⟨{ x.item with offset := off }, x.fresh⟩) } ∧
      Refused h h'

theorem ctx_eq {p : SetProgram} (hp : SetOk p) {x : Held} (hx : some x ∈ p.base.items)
    (hf : x.fresh = true) (w : World) :
    ((setProgramValue p w).base.state.file.handle.bind fun h =>
      (setProgramValue p w).base.state.file.ctx ((setProgramValue p w).base.state.world.dev h)) =
      streamValue p.base.file x.item w := by
  have hi := hp.base.items x hx hf
  have hh : (setProgramValue p w).base.state.file.handle = x.item.ptrs.handle := by rw [hi.ptrs]; rfl
  rw [hh]
  rfl

theorem getSet_honest (cmp : Bytes → Bytes → Option Bool) {p : SetProgram} (hp : SetOk p) {k : Nat}
    {x : Held} (hk : p.base.items[k]? = some (some x)) (hf : x.fresh = true) (w : World) (h : Heap) :
    ((SetStep.getSet k).run cmp p w h).2.1 = w ∧
    Later h ((SetStep.getSet k).run cmp p w h).2.2 ∧
    match ((SetStep.getSet k).run cmp p w h).1 with
    | .ok (p', a) => HonestSet p k x w h ((SetStep.getSet k).run cmp p w h).2.2 p' a
    | .err => False
    | .ub => ((setProgramValue p w).getSet k (heldValue x)).2 = .set .ub
    | .hang => ((setProgramValue p w).getSet k (heldValue x)).2 = .set .hang := by
  obtain ⟨h1, g1, a1, -, e1⟩ := getSet_run cmp hp hk hf w h
  have hctx := ctx_eq hp (List.mem_of_getElem? hk) hf w
  rw [e1]
  unfold HonestSet PureSets.getSet
  rw [hctx]
  cases streamValue p.base.file x.item w with
  | none =>
    refine ⟨rfl, ⟨Nat.le_of_eq a1.symm, g1⟩, .inl ?_⟩
    dsimp only [SetProgram.keepSet]
    unfold Program.set
    rw [set_self hk]
  | some c =>
    obtain ⟨hlat, hfol⟩ := memGetSet_follows c x.item.pos.node.value.entry x.item.offset h1
    have hv : (heldValue x).item.entry = x.item.pos.node.value.entry := rfl
    have ho : (heldValue x).offset = x.item.offset := rfl
    dsimp only
    rw [hv, ho]
    revert hlat hfol
    rcases memGetSet c x.item.pos.node.value.entry x.item.offset h1 with ⟨r, off, h2⟩
    rcases readSet c x.item.pos.node.value.entry x.item.offset with ⟨q, off'⟩
    intro hlat hfol
    dsimp only at hlat hfol
    obtain ⟨l1, l2⟩ := hlat
    have hlater : Later h h2 := ⟨by omega, l2.trans g1⟩
    rcases hfol with ⟨rfl, n, n1, n2, n3⟩ | ⟨rfl, hsame⟩
    · refine ⟨rfl, hlater, .inr ⟨off, rfl, rfl, n, by omega, n2, by rw [← g1]; exact n3⟩⟩
    · cases r with
      | ok t =>
        dsimp only [Same] at hsame
        subst hsame
        refine ⟨rfl, hlater, .inl ?_⟩
        dsimp only [SetProgram.keepSet]
        unfold setProgramValue
        dsimp only
        rw [List.map_append, set_value]
        rfl
      | err =>
        dsimp only [Same] at hsame
        subst hsame
        refine ⟨rfl, hlater, .inl ?_⟩
        dsimp only [SetProgram.keepSet]
        unfold setProgramValue
        dsimp only
        rw [set_value]
        rfl
      | ub =>
        dsimp only [Same] at hsame
        subst hsame
        exact ⟨rfl, hlater, rfl⟩
      | hang =>
        dsimp only [Same] at hsame
        subst hsame
        exact ⟨rfl, hlater, rfl⟩

/-- With memory for every request. -/
theorem setStep_at (cmp : Bytes → Bytes → Option Bool) {p : SetProgram} (hp : SetOk p) {s : SetStep}
    (ha : s.Allowed p) (w : World) {h : Heap} (hh : Ample h) {p' : SetProgram} {a : SetReply}
    (he : (s.run cmp p w h).1 = .ok (p', a)) :
    Ample (s.run cmp p w h).2.2 ∧
    (setProgramValue p' (s.run cmp p w h).2.1, a) = s.answer cmp (setProgramValue p w) := by
  by_cases hb : ∃ t, s = .base t
  · obtain ⟨t, rfl⟩ := hb
    obtain ⟨r, w', h', k1, k2, k3, k4⟩ := step_at cmp hp.base ha w h hh
    have hrun : (SetStep.base t).run cmp p w h = (.ok ({ p with base := r.1 }, .base r.2), w', h') := by
      show (Step.run cmp p.base t >>= fun r => (pure ({ p with base := r.1 }, SetReply.base r.2) :
        Mem World (SetProgram × SetReply))) w h = _
      rw [mem_bind]
      unfold Mem.bind
      rw [k1]
      rfl
    rw [hrun] at he ⊢
    cases he
    refine ⟨k2, ?_⟩
    unfold SetStep.answer setProgramValue
    dsimp only
    rw [k3, k4]
  by_cases hg : ∃ k, s = .getSet k
  · obtain ⟨k, rfl⟩ := hg
    unfold SetStep.answer
    dsimp only
    have hvg : (setProgramValue p w).base.items[k]? = p.base.items[k]?.map (·.map heldValue) := value_get
    rw [hvg]
    cases hk : p.base.items[k]? with
    | none =>
      have : (SetStep.getSet k).run cmp p = pure (p, .nothing) := by
        unfold SetStep.run; dsimp only; rw [hk]
      rw [this] at he ⊢
      cases he
      exact ⟨hh, rfl⟩
    | some o =>
      cases o with
      | none =>
        have : (SetStep.getSet k).run cmp p = pure (p, .nothing) := by
          unfold SetStep.run; dsimp only; rw [hk]
        rw [this] at he ⊢
        cases he
        exact ⟨hh, rfl⟩
      | some x =>
        obtain ⟨k1, k2, k3⟩ := getSet_honest cmp hp hk (ha x hk) w h
        rw [he] at k3
        dsimp only at k3
        refine ⟨(ample_congr k2.2).2 hh, ?_⟩
        rw [k1]
        rcases k3 with k3 | ⟨off, -, -, n, -, -, n3⟩
        · exact k3
        · rw [hh n] at n3; cases n3
  · have hlook : SetStep.Looking s := by
      cases s with
      | base t => exact absurd ⟨t, rfl⟩ hb
      | getSet k => exact absurd ⟨k, rfl⟩ hg
      | _ => trivial
    obtain ⟨r, h', k1, k2, k3, k4⟩ := look_at cmp p hlook w h
    rw [k1] at he ⊢
    cases he
    exact ⟨(ample_congr k2).2 hh, k4⟩

theorem runSetSteps_at (cmp : Bytes → Bytes → Option Bool) (steps : List SetStep) :
    ∀ {p : SetProgram}, SetOk p → ∀ {w : World} {h : Heap} {rest : List Nat}, Sound h →
      h.live.Perm (setProgramBlocks p ++ rest) → Ample h → SetCareful cmp p steps w h →
      ∀ p' as, (runSetSteps cmp p steps w h).1 = .ok (p', as) →
        (setProgramValue p' (runSetSteps cmp p steps w h).2.1, as) =
          setAnswers cmp (setProgramValue p w) steps := by
  induction steps with
  | nil =>
    intro p hp w h rest _ _ _ _ p' as he
    cases he
    rfl
  | cons s steps ih =>
    intro p hp w h rest hs hl hh hc p' as
    obtain ⟨ha, hc⟩ := hc
    obtain ⟨k1, -, -, k4⟩ := setStep_heap cmp hp ha w hs hl
    have k5 := fun p' a => setStep_at cmp hp ha w hh (p' := p') (a := a)
    unfold runSetSteps setAnswers
    rw [mem_bind]
    unfold Mem.bind
    revert k1 k4 k5 hc
    rcases s.run cmp p w h with ⟨o, w', h'⟩
    intro hc k1 k4 k5
    dsimp only at hc k1 k4 k5
    cases o with
    | err => intro h; cases h
    | ub => intro h; cases h
    | hang => intro h; cases h
    | ok r =>
      obtain ⟨p1, a⟩ := r
      obtain ⟨hp1, lost, hlen, hl1⟩ := k4 p1 a rfl
      obtain ⟨hh1, he1⟩ := k5 p1 a rfl
      dsimp only at hc ⊢
      have hih := ih hp1 k1 hl1 hh1 hc
      rw [mem_bind]
      unfold Mem.bind
      revert hih
      rcases runSetSteps cmp p1 steps w' h' with ⟨o, w'', h''⟩
      intro hih
      dsimp only at hih
      cases o with
      | err => intro h; cases h
      | ub => intro h; cases h
      | hang => intro h; cases h
      | ok r =>
        obtain ⟨p2, as2⟩ := r
        intro he
        cases he
        have := hih p2 as2 rfl
        dsimp only
        rw [← he1]
        dsimp only
        rw [← this]
        rfl

/-- A step returns unless the set it asks for is not defined. -/
theorem setStep_returns (cmp : Bytes → Bytes → Option Bool) {p : SetProgram} (hp : SetOk p) {s : SetStep}
    (ha : s.Allowed p) (w : World) {h : Heap} {rest : List Nat} (hs : Sound h)
    (hl : h.live.Perm (setProgramBlocks p ++ rest))
    (hd : (s.answer cmp (setProgramValue p w)).2 ≠ .set .ub)
    (hd' : (s.answer cmp (setProgramValue p w)).2 ≠ .set .hang) :
    ∃ r, (s.run cmp p w h).1 = .ok r := by
  by_cases hg : ∃ k, s = .getSet k
  · obtain ⟨k, rfl⟩ := hg
    unfold SetStep.answer at hd hd'
    dsimp only at hd hd'
    have hvg : (setProgramValue p w).base.items[k]? = p.base.items[k]?.map (·.map heldValue) := value_get
    rw [hvg] at hd hd'
    have hnone : (∀ x, p.base.items[k]? ≠ some (some x)) →
        (SetStep.getSet k).run cmp p = pure (p, .nothing) := by
      intro hk
      unfold SetStep.run
      dsimp only
      split
      · rename_i x hx; exact absurd hx (hk x)
      · rfl
    cases hk : p.base.items[k]? with
    | none => rw [hnone (by rw [hk]; intro x h; cases h)]; exact ⟨_, rfl⟩
    | some o =>
      cases o with
      | none => rw [hnone (by rw [hk]; intro x h; cases h)]; exact ⟨_, rfl⟩
      | some x =>
        rw [hk] at hd hd'
        obtain ⟨-, -, k3⟩ := getSet_honest cmp hp hk (ha x hk) w h
        revert k3
        rcases (SetStep.getSet k).run cmp p w h with ⟨_ | _ | _ | _, w', h'⟩ <;> intro k3
        · exact ⟨_, rfl⟩
        · exact k3.elim
        · exact absurd k3 hd
        · exact absurd k3 hd'
  · have hcall := setStep_call cmp hp ha (fun k e => hg ⟨k, e⟩) []
    rw [List.append_nil] at hcall
    obtain ⟨-, r, k2, -⟩ := stage_outcome hcall.stage w hs hl
    exact ⟨r, k2⟩

theorem runSetSteps_returns (cmp : Bytes → Bytes → Option Bool) (steps : List SetStep) :
    ∀ {p : SetProgram}, SetOk p → ∀ {w : World} {h : Heap} {rest : List Nat}, Sound h →
      h.live.Perm (setProgramBlocks p ++ rest) → Ample h → SetCareful cmp p steps w h →
      SetReply.set .ub ∉ (setAnswers cmp (setProgramValue p w) steps).2 →
      SetReply.set .hang ∉ (setAnswers cmp (setProgramValue p w) steps).2 →
      ∃ r, (runSetSteps cmp p steps w h).1 = .ok r := by
  induction steps with
  | nil => intro p _ w h rest _ _ _ _ _ _; exact ⟨_, rfl⟩
  | cons s steps ih =>
    intro p hp w h rest hs hl hh hc hd hd'
    obtain ⟨ha, hc⟩ := hc
    unfold setAnswers at hd hd'
    dsimp only at hd hd'
    rw [List.mem_cons, not_or] at hd hd'
    obtain ⟨r, hr⟩ := setStep_returns cmp hp ha w hs hl (Ne.symm hd.1) (Ne.symm hd'.1)
    obtain ⟨k1, -, -, k4⟩ := setStep_heap cmp hp ha w hs hl
    obtain ⟨hh1, he1⟩ := setStep_at cmp hp ha w hh (p' := r.1) (a := r.2) hr
    obtain ⟨hp1, lost, hlen, hl1⟩ := k4 r.1 r.2 hr
    have hd := hd.2
    have hd' := hd'.2
    rw [← he1] at hd hd'
    dsimp only at hd hd'
    unfold runSetSteps
    rw [mem_bind]
    unfold Mem.bind
    revert k1 hh1 hl1 hd hd' hr hc
    rcases s.run cmp p w h with ⟨o, w', h'⟩
    intro hc hr k1 hh1 hl1 hd hd'
    dsimp only at hr k1 hh1 hl1 hd hd'
    subst hr
    dsimp only at hc ⊢
    obtain ⟨q, hq⟩ := ih hp1 k1 hl1 hh1 hc hd hd'
    rw [mem_bind]
    unfold Mem.bind
    revert hq
    rcases runSetSteps cmp r.1 steps w' h' with ⟨o, w'', h''⟩
    intro hq
    dsimp only at hq
    subst hq
    exact ⟨_, rfl⟩

end Lemmas
end Olecf
