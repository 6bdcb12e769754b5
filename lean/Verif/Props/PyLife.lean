import Verif.Lemmas.PyLife

/-
  Property C74: the lifetimes of the objects of the Python bindings.
-/

namespace Olecf.Props

/-- C74: in every program, whatever it closes, keeps and drops in whatever order, no memory is
  freed twice and no object is used after it is gone; an object in a variable is alive; and when no
  variable holds an object any more, all objects are gone and all memory of the library is freed. -/
theorem C74_memory (ops : List LifeOp) :
    (lifeRun .empty ops).2.bad = false ∧
    (∀ o ∈ (lifeRun .empty ops).2.held, ∃ p, (lifeRun .empty ops).2.objs o = some p) ∧
    ((lifeRun .empty ops).2.held = [] →
      (∀ i, (lifeRun .empty ops).2.objs i = none) ∧
      ∀ c, (lifeRun .empty ops).2.alloc c = true → (lifeRun .empty ops).2.freed c = true) := by
  have h := lifeRun_wf wf_empty ops
  generalize (lifeRun .empty ops).2 = w at h
  refine ⟨h.good, h.heldLive, ?_⟩
  intro hheld
  have hnone : ∀ n i, w.next - i ≤ n → w.objs i = none := by
    intro n
    induction n with
    | zero =>
      intro i hi
      cases ho : w.objs i with
      | none => rfl
      | some p => have := h.bound i p ho; omega
    | succ n ih =>
      intro i hi
      cases ho : w.objs i with
      | none => rfl
      | some p =>
        exfalso
        have h1 := h.pos i p ho
        have hlt := h.bound i p ho
        rw [h.count i p ho, hheld, childs_none, List.count_nil, if_neg (by simp)] at h1
        · omega
        · intro j hj
          cases hoj : w.objs j with
          | none => rw [hoj] at hj; cases hj
          | some q =>
            rw [hoj] at hj
            have := ((h.shape j q hoj).parent hj).1
            rw [ih j (by omega)] at hoj
            cases hoj
  have hobjs : ∀ i, w.objs i = none := fun i => hnone _ i (Nat.le_refl _)
  refine ⟨hobjs, ?_⟩
  intro c hc
  cases hf : w.freed c with
  | true => rfl
  | false =>
    exfalso
    have hl := (h.cells c).mpr ⟨hc, hf⟩
    cases c with
    | opening g =>
      obtain ⟨f, hf⟩ := hl
      obtain ⟨p, hp, -⟩ := h.openFile f g hf
      rw [hobjs f] at hp; cases hp
    | file i => obtain ⟨p, hp, -⟩ := hl; rw [hobjs i] at hp; cases hp
    | item i => obtain ⟨p, hp, -⟩ := hl; rw [hobjs i] at hp; cases hp
    | set i => obtain ⟨p, hp, -⟩ := hl; rw [hobjs i] at hp; cases hp

/-- When a call on an object in a variable is undefined. -/
theorem use_ub_iff {w : Life} (h : WF w none) {o : Nat} {p : PyObj} (hh : o ∈ w.held)
    (ho : w.objs o = some p) : (lifeStep w (.use o)).1 = .ub ↔ ¬ Current w p := by
  rw [← usable_iff h ho]
  unfold lifeStep
  dsimp only [callOn]
  rw [if_neg (by simpa using hh), ho]
  dsimp only
  cases hc : p.cells.any w.freed with
  | true => simp
  | false => simp

/-- C74: calls on files, property sets, sections, values and the sequences of these are defined in
  every program, also when the file was closed. -/
theorem C74_no_item (ops : List LifeOp) {o : Nat} {p : PyObj}
    (hh : o ∈ (lifeRun .empty ops).2.held) (ho : (lifeRun .empty ops).2.objs o = some p)
    (hk : p.kind ≠ .item ∧ p.kind ≠ .items) :
    (lifeStep (lifeRun .empty ops).2 (.use o)).1 = .ok () := by
  have h := lifeRun_wf wf_empty ops
  generalize (lifeRun .empty ops).2 = w at h hh ho ⊢
  have hfr : Current w p := by
    intro g hg
    exfalso
    have hs := h.shape o p ho
    have hsec : ∀ q pq, w.objs q = some pq → pq.kind = .section → .opening g ∉ pq.cells := by
      intro q pq hq hkq
      have := h.shape q pq hq
      unfold Shape at this
      rw [hkq] at this
      obtain ⟨f, pf, -, h2, -⟩ := this
      rw [h2]
      simp
    unfold Shape at hs
    cases hkk : p.kind <;> rw [hkk] at hs hk <;> dsimp only at hs
    · rw [hs.2] at hg; simp at hg
    · exact hk.1 rfl
    · exact hk.2 rfl
    · obtain ⟨f, pf, -, h2, -⟩ := hs; rw [h2] at hg; simp at hg
    · obtain ⟨f, pf, -, h2, -⟩ := hs; rw [h2] at hg; simp at hg
    · obtain ⟨f, pf, -, h2, -⟩ := hs; rw [h2] at hg; simp at hg
    · obtain ⟨f, pf, -, h2, -, h4, h5⟩ := hs; rw [h2] at hg; exact hsec f pf h4 h5 hg
    · obtain ⟨f, pf, -, h2, -, h4, h5⟩ := hs; rw [h2] at hg; exact hsec f pf h4 h5 hg
  unfold lifeStep
  dsimp only [callOn]
  rw [if_neg (by simpa using hh), ho]
  dsimp only
  rw [(usable_iff h ho).mpr hfr]
  rfl

/-- C74 (partial: programs that do not close files explicitly, but by dropping the file object).
  No step is undefined: items and sequences keep their file alive and open. -/
theorem C74_no_close_partial (ops : List LifeOp) (hops : ∀ f, .close f ∉ ops) :
    .ub ∉ (lifeRun .empty ops).1 := by
  have key : ∀ w, WF w none → (∀ i p, w.objs i = some p → Current w p) → .ub ∉ (lifeRun w ops).1 := by
    induction ops with
    | nil => intro w _ _ hm; cases hm
    | cons op ops ih =>
      intro w h hf hm
      unfold lifeRun at hm
      dsimp only at hm
      rcases List.mem_cons.mp hm with hm | hm
      · have call : ∀ o k, (∀ p, (k p).1 ≠ .ub) → (callOn w o k).1 ≠ .ub := by
          intro o k hk
          unfold callOn
          split
          · simp
          · next hh =>
            rw [Decidable.not_not] at hh
            obtain ⟨p, ho⟩ := h.heldLive o hh
            rw [ho]
            dsimp only
            rw [(usable_iff h ho).mpr (hf o p ho)]
            exact hk p
        cases op with
        | newFile => cases hm
        | openFile f =>
          refine call f _ (fun p => ?_) hm.symm
          split
          · simp
          · split <;> simp
        | close f => exact hops f (List.mem_cons_self ..)
        | derive k o =>
          refine call o _ (fun p => ?_) hm.symm
          split <;> simp
        | use o => exact call o _ (fun p => by simp) hm.symm
        | keep o =>
          unfold lifeStep at hm
          dsimp only at hm
          split at hm <;> cases hm
        | drop o =>
          unfold lifeStep at hm
          dsimp only at hm
          split at hm <;> cases hm
      · refine ih (fun f hm => hops f (List.mem_cons_of_mem _ hm)) (lifeStep w op).2
          (lifeStep_wf h op).1 (allFresh_step h hf op ?_) hm
        intro f he
        exact hops f (by rw [he]; exact List.mem_cons_self ..)
  exact key .empty wf_empty (fun i p h => by cases h)

/-- C74 (partial: the file is not closed meanwhile).  An object that is in a variable can be used
  as long as it is in a variable, whatever else the program drops, opens and closes: in particular
  after the variables of the file and of other items are gone. -/
theorem C74_kept_partial (before after : List LifeOp) {o : Nat} {p : PyObj}
    (ho : (lifeRun .empty before).2.objs o = some p) (hh : o ∈ (lifeRun .empty before).2.held)
    (hu : (lifeStep (lifeRun .empty before).2 (.use o)).1 = .ok ())
    (hc : ∀ f, .file f ∈ p.cells → .close f ∉ after)
    (hh' : o ∈ (lifeRun (lifeRun .empty before).2 after).2.held) :
    (lifeStep (lifeRun (lifeRun .empty before).2 after).2 (.use o)).1 = .ok () := by
  have h := lifeRun_wf wf_empty before
  generalize (lifeRun .empty before).2 = w at h ho hh hu hh' ⊢
  have hf : Current w p := by
    refine Classical.byContradiction fun hn => ?_
    rw [(use_ub_iff h hh ho).mpr hn] at hu
    cases hu
  have h' := lifeRun_wf h after
  obtain ⟨q, hq⟩ := h'.heldLive o hh'
  rcases fresh_run h (.inl ⟨ho, hf⟩) after hc with ⟨h1, h2⟩ | ⟨h1, -⟩
  · unfold lifeStep
    dsimp only [callOn]
    rw [if_neg (by simpa using hh'), h1]
    dsimp only
    rw [(usable_iff h' h1).mpr h2]
    rfl
  · rw [h1] at hq; cases hq

/-- C74 is violated by `close`: in every program, closing a file makes every item in a variable that
  could be used, and is one of this file, an object whose use is undefined. -/
theorem C74_close_violated (ops : List LifeOp) {f o : Nat} {p : PyObj}
    (ho : (lifeRun .empty ops).2.objs o = some p) (hh : o ∈ (lifeRun .empty ops).2.held)
    (hf : f ∈ (lifeRun .empty ops).2.held) (hk : p.kind = .item) (hp : p.parent = some f)
    (hu : (lifeStep (lifeRun .empty ops).2 (.use o)).1 = .ok ()) :
    (lifeStep (lifeRun .empty ops).2 (.close f)).1 = .ok () ∧
    (lifeStep (lifeStep (lifeRun .empty ops).2 (.close f)).2 (.use o)).1 = .ub := by
  have h := lifeRun_wf wf_empty ops
  generalize (lifeRun .empty ops).2 = w at h ho hh hu hf ⊢
  have hs := h.shape o p ho
  unfold Shape at hs
  rw [hk] at hs
  obtain ⟨f', g, pf, h1, h2, h3, h4, h5⟩ := hs
  rw [hp] at h1
  cases h1
  have hfr : Current w p := by
    refine Classical.byContradiction fun hn => ?_
    rw [(use_ub_iff h hh ho).mpr hn] at hu
    cases hu
  obtain ⟨f', hm, hop⟩ := hfr g (by rw [h2]; simp)
  have : f' = f := by
    rw [h2] at hm
    simpa using hm
  subst this
  have hpf : pf.cells.any w.freed = false := by
    have hs := h.shape f' pf h4
    unfold Shape at hs
    rw [h5] at hs
    rw [hs.2]
    simp [((h.cells (.file f')).mp ⟨pf, h4, h5⟩).2]
  have hclose : lifeStep w (.close f') = (.ok (), closeOpening w f' g) := by
    unfold lifeStep
    dsimp only [callOn]
    rw [if_neg (by simpa using hf), h4]
    dsimp only
    rw [hpf]
    simp only [Bool.false_eq_true, if_false]
    rw [if_neg (by simpa using h5), hop]
  rw [hclose]
  refine ⟨rfl, ?_⟩
  unfold lifeStep
  dsimp only [callOn, closeOpening, freeCell]
  rw [if_neg (by simpa using hh), ho]
  dsimp only
  rw [if_pos]
  rw [h2]
  simp

/-- A program that drops the variable of the file and uses an item: file 0, item 1, its sub items 2,
  sub item 3, its property set 4, section 5, value 6. -/
def droppingProgram : List LifeOp :=
  [.newFile, .openFile 0, .derive .item 0, .drop 0, .derive .items 1, .drop 1, .derive .item 2,
    .drop 2, .derive .set 3, .derive .section 4, .drop 4, .derive .value 5, .drop 5, .use 6, .use 3,
    .drop 3, .drop 6]

example : .ub ∉ (lifeRun .empty droppingProgram).1 :=
  C74_no_close_partial droppingProgram (by intro f h; simp [droppingProgram] at h)

/-- All its steps succeed, and at its end no variable holds an object. -/
example : (lifeRun .empty droppingProgram).1 = List.replicate 17 (.ok ()) ∧
    (lifeRun .empty droppingProgram).2.held = [] := by decide +kernel

/-- A program that closes the file and uses the item and a value of a property set of it. -/
example : (lifeRun .empty [.newFile, .openFile 0, .derive .item 0, .derive .set 1, .derive .section 2,
    .derive .value 3, .close 0, .use 4, .use 1]).1 =
    [.ok (), .ok (), .ok (), .ok (), .ok (), .ok (), .ok (), .ok (), .ub] := by decide +kernel

/-- The hypotheses of `C74_close_violated`. -/
example : (lifeStep (lifeStep (lifeRun .empty [.newFile, .openFile 0, .derive .item 0]).2
    (.close 0)).2 (.use 1)).1 = .ub :=
  (C74_close_violated (f := 0) (o := 1) (p := ⟨.item, some 0, [.item 1, .opening 0, .file 0]⟩)
    _ (by decide +kernel) (by decide +kernel) (by decide +kernel) rfl rfl (by decide +kernel)).2

end Olecf.Props
