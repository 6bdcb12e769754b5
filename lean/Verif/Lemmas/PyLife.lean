import Verif.Model.PyLife

/-
  Lemmas for property C74: reference counts, parents and memory of the objects of the bindings.
-/

namespace Olecf

@[simp] theorem setAt_same [DecidableEq α] (f : α → β) (i : α) (v : β) : setAt f i v i = v :=
  if_pos rfl

theorem setAt_ne [DecidableEq α] (f : α → β) {i j : α} (v : β) (h : j ≠ i) : setAt f i v j = f j :=
  if_neg h

/-- The number of objects below `n` whose parent is `o`. -/
def childs (objs : Nat → Option PyObj) (o : Nat) : Nat → Nat
  | 0 => 0
  | n + 1 => childs objs o n + (if (objs n).bind (·.parent) = some o then 1 else 0)

theorem childs_setAt_ge (objs : Nat → Option PyObj) (o x : Nat) (v : Option PyObj) (n : Nat)
    (h : n ≤ x) : childs (setAt objs x v) o n = childs objs o n := by
  induction n with
  | zero => rfl
  | succ n ih =>
    unfold childs
    rw [ih (by omega), setAt_ne _ _ (by omega)]

theorem childs_remove (objs : Nat → Option PyObj) (o x n : Nat) (h : x < n) :
    childs (setAt objs x none) o n + (if (objs x).bind (·.parent) = some o then 1 else 0) =
      childs objs o n := by
  induction n with
  | zero => omega
  | succ n ih =>
    unfold childs
    by_cases hx : x = n
    · subst hx
      rw [childs_setAt_ge _ _ _ _ _ (Nat.le_refl _), setAt_same]
      simp
    · rw [setAt_ne _ _ (by omega), ← ih (by omega)]
      omega

theorem childs_zero {objs : Nat → Option PyObj} {o n : Nat} (h : childs objs o n = 0) {i : Nat}
    (hi : i < n) : (objs i).bind (·.parent) ≠ some o := by
  induction n with
  | zero => omega
  | succ n ih =>
    unfold childs at h
    by_cases hx : i = n
    · subst hx
      intro he
      rw [if_pos he] at h
      omega
    · exact ih (by omega) (by omega)

theorem childs_none {objs : Nat → Option PyObj} {o : Nat} (n : Nat)
    (h : ∀ i, (objs i).bind (·.parent) ≠ some o) : childs objs o n = 0 := by
  induction n with
  | zero => rfl
  | succ n ih => unfold childs; rw [ih, if_neg (h n)]

/-- What an object of each class points to, and what its parent is. -/
def Shape (objs : Nat → Option PyObj) (i : Nat) (p : PyObj) : Prop :=
  match p.kind with
  | .file => p.parent = none ∧ p.cells = [.file i]
  | .item => ∃ f g pf, p.parent = some f ∧ p.cells = [.item i, .opening g, .file f] ∧ f < i ∧
      objs f = some pf ∧ pf.kind = .file
  | .items => ∃ q pq, p.parent = some q ∧ p.cells = pq.cells ∧ q < i ∧
      objs q = some pq ∧ pq.kind = .item
  | .set => ∃ q pq, p.parent = some q ∧ p.cells = [.set i] ∧ q < i ∧
      objs q = some pq ∧ pq.kind = .item
  | .sections => ∃ q pq, p.parent = some q ∧ p.cells = [.set q] ∧ q < i ∧
      objs q = some pq ∧ pq.kind = .set
  | .section => ∃ q pq, p.parent = some q ∧ p.cells = [.set q] ∧ q < i ∧
      objs q = some pq ∧ pq.kind = .set
  | .values => ∃ q pq, p.parent = some q ∧ p.cells = pq.cells ∧ q < i ∧
      objs q = some pq ∧ pq.kind = .section
  | .value => ∃ q pq, p.parent = some q ∧ p.cells = pq.cells ∧ q < i ∧
      objs q = some pq ∧ pq.kind = .section

theorem Shape.parent {objs : Nat → Option PyObj} {i q : Nat} {p : PyObj} (h : Shape objs i p)
    (hq : p.parent = some q) : q < i ∧ ∃ pq, objs q = some pq := by
  unfold Shape at h
  split at h
  · rw [h.1] at hq; cases hq
  · obtain ⟨f, g, pf, h1, -, h2, h3, -⟩ := h
    rw [h1] at hq; cases hq
    exact ⟨h2, pf, h3⟩
  all_goals
    obtain ⟨f, pf, h1, -, h2, h3, -⟩ := h
    rw [h1] at hq; cases hq
    exact ⟨h2, pf, h3⟩

theorem Shape.congr {objs objs' : Nat → Option PyObj} {i : Nat} {p : PyObj} (h : Shape objs i p)
    (hq : ∀ q, p.parent = some q → objs' q = objs q) : Shape objs' i p := by
  unfold Shape at h ⊢
  split at h
  · exact h
  · obtain ⟨f, g, pf, h1, h4, h2, h3, h5⟩ := h
    exact ⟨f, g, pf, h1, h4, h2, by rw [hq f h1]; exact h3, h5⟩
  all_goals
    obtain ⟨f, pf, h1, h4, h2, h3, h5⟩ := h
    exact ⟨f, pf, h1, h4, h2, by rw [hq f h1]; exact h3, h5⟩

/-- The memory in use: of live objects, and of the current openings. -/
def cellLive (w : Life) : Cell → Prop
  | .file i => ∃ p, w.objs i = some p ∧ p.kind = .file
  | .item i => ∃ p, w.objs i = some p ∧ p.kind = .item
  | .set i => ∃ p, w.objs i = some p ∧ p.kind = .set
  | .opening g => ∃ f, w.opened f = some g

/-- Memory is named after objects and openings there have been. -/
def cellBound (w : Life) : Cell → Prop
  | .file i => i < w.next
  | .item i => i < w.next
  | .set i => i < w.next
  | .opening g => g < w.gens

/-- The invariant.  `x`: an object with one reference that is about to be given up. -/
structure WF (w : Life) (x : Option Nat) : Prop where
  bound : ∀ i p, w.objs i = some p → i < w.next
  heldLive : ∀ i ∈ w.held, ∃ p, w.objs i = some p
  count : ∀ i p, w.objs i = some p →
    w.rc i = w.held.count i + childs w.objs i w.next + (if x = some i then 1 else 0)
  pos : ∀ i p, w.objs i = some p → 0 < w.rc i
  shape : ∀ i p, w.objs i = some p → Shape w.objs i p
  openFile : ∀ f g, w.opened f = some g → ∃ p, w.objs f = some p ∧ p.kind = .file
  openInj : ∀ f f' g, w.opened f = some g → w.opened f' = some g → f = f'
  cells : ∀ c, cellLive w c ↔ w.alloc c = true ∧ w.freed c = false
  allocBound : ∀ c, w.alloc c = true → cellBound w c
  freedAlloc : ∀ c, w.freed c = true → w.alloc c = true
  origin : ∀ i p g, w.objs i = some p → p.kind = .item → .opening g ∈ p.cells →
    w.alloc (.opening g) = true ∧ ∀ f, w.opened f = some g → p.parent = some f
  good : w.bad = false

theorem wf_empty : WF .empty none where
  bound i p h := by cases h
  heldLive i h := by cases h
  count i p h := by cases h
  pos i p h := by cases h
  shape i p h := by cases h
  openFile f g h := by cases h
  openInj f f' g h := by cases h
  cells c := by
    constructor
    · intro h
      cases c <;> obtain ⟨_, h⟩ := h
      · cases h.1
      · cases h
      · cases h.1
      · cases h.1
    · intro h; cases h.1
  allocBound c h := by cases h
  freedAlloc c h := by cases h
  origin i p g h := by cases h
  good := rfl

/-- The memory freed with an object. -/
def freedWith (w : Life) (x : Nat) : PyKind → List Cell
  | .file => match w.opened x with
    | some g => [.opening g, .file x]
    | none => [.file x]
  | .item => [.item x]
  | .set => [.set x]
  | _ => []

theorem dealloc_eq (w : Life) (x : Nat) (k : PyKind) :
    dealloc w x k = { w with
      freed := fun c => w.freed c || decide (c ∈ freedWith w x k)
      bad := w.bad || (freedWith w x k).any fun c => w.freed c || !w.alloc c
      opened := if k = .file then setAt w.opened x none else w.opened } := by
  have hf : ∀ (f : Cell → Bool) c, setAt f c true = fun d => f d || decide (d ∈ [c]) := by
    intro f c
    funext d
    unfold setAt
    by_cases h : d = c
    · simp [h]
    · simp [h]
  cases k with
  | file =>
    unfold dealloc freedWith
    cases ho : w.opened x with
    | none =>
      have hs : setAt w.opened x none = w.opened := by
        funext j
        unfold setAt
        split
        · next h => rw [h, ho]
        · rfl
      simp [freeCell, hf, hs, Bool.or_assoc]
    | some g =>
      simp [freeCell, closeOpening, hf, Bool.or_assoc]
  | item => simp [dealloc, freedWith, freeCell, hf, Bool.or_assoc]
  | set => simp [dealloc, freedWith, freeCell, hf, Bool.or_assoc]
  | items => simp [dealloc, freedWith]
  | sections => simp [dealloc, freedWith]
  | «section» => simp [dealloc, freedWith]
  | values => simp [dealloc, freedWith]
  | value => simp [dealloc, freedWith]

/-- The last reference to an object is given up: the object is freed, and its reference to its parent
  is about to be given up. -/
theorem WF.remove {w : Life} {x : Nat} (h : WF w (some x)) {p : PyObj} (hx : w.objs x = some p)
    (hr : w.rc x = 1) :
    WF (dealloc { w with rc := setAt w.rc x 0, objs := setAt w.objs x none } x p.kind) p.parent := by
  have hc := h.count x p hx
  rw [if_pos rfl, hr] at hc
  have hheld : x ∉ w.held := by
    intro hm
    have := List.count_pos_iff.mpr hm
    omega
  have hchild : ∀ i q, w.objs i = some q → q.parent ≠ some x := by
    intro i q hi he
    have := childs_zero (objs := w.objs) (o := x) (n := w.next) (by omega) (h.bound i q hi)
    rw [hi] at this
    exact this he
  have hobj : ∀ i q, setAt w.objs x none i = some q ↔ i ≠ x ∧ w.objs i = some q := by
    intro i q
    by_cases hi : i = x
    · subst hi; simp
    · rw [setAt_ne _ _ hi]; simp [hi]
  have hxlt := h.bound x p hx
  have hlive : ∀ c ∈ freedWith w x p.kind, cellLive w c := by
    intro c hm
    cases hk : p.kind <;> rw [hk] at hm <;> unfold freedWith at hm
    · cases ho : w.opened x with
      | none =>
        rw [ho] at hm
        simp only [List.mem_singleton] at hm
        subst hm
        exact ⟨p, hx, hk⟩
      | some g =>
        rw [ho] at hm
        simp only [List.mem_cons, List.not_mem_nil, or_false] at hm
        rcases hm with rfl | rfl
        · exact ⟨x, ho⟩
        · exact ⟨p, hx, hk⟩
    · simp only [List.mem_singleton] at hm
      subst hm
      exact ⟨p, hx, hk⟩
    · cases hm
    · simp only [List.mem_singleton] at hm
      subst hm
      exact ⟨p, hx, hk⟩
    all_goals cases hm
  rw [dealloc_eq]
  have hfw : freedWith { w with rc := setAt w.rc x 0, objs := setAt w.objs x none } x p.kind =
      freedWith w x p.kind := rfl
  rw [hfw]
  have hopen : ∀ f g, (if p.kind = .file then setAt w.opened x none else w.opened) f = some g →
      w.opened f = some g := by
    intro f g hf
    split at hf
    · by_cases hfx : f = x
      · rw [hfx, setAt_same] at hf; cases hf
      · rwa [setAt_ne _ _ hfx] at hf
    · exact hf
  refine ⟨?_, ?_, ?_, ?_, ?_, ?_, ?_, ?_, h.allocBound, ?_, ?_, ?_⟩
  · intro i q hi
    exact h.bound i q ((hobj i q).mp hi).2
  · intro i hi
    obtain ⟨q, hq⟩ := h.heldLive i hi
    exact ⟨q, (hobj i q).mpr ⟨fun he => hheld (he ▸ hi), hq⟩⟩
  · intro i q hi
    obtain ⟨h1, h2⟩ := (hobj i q).mp hi
    have h3 := h.count i q h2
    rw [if_neg (fun he => h1 (Option.some.inj he).symm)] at h3
    have h4 := childs_remove w.objs i x w.next hxlt
    rw [hx] at h4
    dsimp only [Option.bind_some] at h4
    dsimp only
    rw [setAt_ne _ _ h1, h3]
    omega
  · intro i q hi
    obtain ⟨h1, h2⟩ := (hobj i q).mp hi
    dsimp only
    rw [setAt_ne _ _ h1]
    exact h.pos i q h2
  · intro i q hi
    obtain ⟨h1, h2⟩ := (hobj i q).mp hi
    refine (h.shape i q h2).congr fun r hr => setAt_ne _ _ ?_
    intro he
    exact hchild i q h2 (he ▸ hr)
  · intro f g hf
    have key : f ≠ x ∧ w.opened f = some g := by
      dsimp only at hf
      split at hf
      · by_cases hfx : f = x
        · rw [hfx, setAt_same] at hf; cases hf
        · rw [setAt_ne _ _ hfx] at hf
          exact ⟨hfx, hf⟩
      · next hk =>
        refine ⟨?_, hf⟩
        intro hfx
        subst hfx
        obtain ⟨q, h1, h2⟩ := h.openFile f g hf
        rw [hx] at h1
        cases h1
        exact hk h2
    obtain ⟨q, h1, h2⟩ := h.openFile f g key.2
    exact ⟨q, (hobj f q).mpr ⟨key.1, h1⟩, h2⟩
  · intro f f' g hf hf'
    exact h.openInj f f' g (hopen f g hf) (hopen f' g hf')
  · intro c
    have h1 := h.cells c
    have key : cellLive (dealloc { w with rc := setAt w.rc x 0, objs := setAt w.objs x none } x
        p.kind) c ↔ cellLive w c ∧ c ∉ freedWith w x p.kind := by
      rw [dealloc_eq]
      cases c with
      | opening g =>
        unfold cellLive
        dsimp only
        constructor
        · rintro ⟨f, hf⟩
          split at hf
          · next hk =>
            by_cases hfx : f = x
            · rw [hfx, setAt_same] at hf; cases hf
            · rw [setAt_ne _ _ hfx] at hf
              refine ⟨⟨f, hf⟩, ?_⟩
              rw [hk]
              unfold freedWith
              intro hm
              cases ho : w.opened x with
              | none => rw [ho] at hm; simp at hm
              | some g' =>
                rw [ho] at hm
                simp only [List.mem_cons, Cell.opening.injEq, reduceCtorEq, List.not_mem_nil,
                  or_false] at hm
                subst hm
                exact hfx (h.openInj f x g hf ho)
          · next hk =>
            refine ⟨⟨f, hf⟩, ?_⟩
            intro hm
            cases hk' : p.kind <;> rw [hk'] at hm <;> unfold freedWith at hm <;> simp at hm
            exact hk hk'
        · rintro ⟨⟨f, hf⟩, hn⟩
          refine ⟨f, ?_⟩
          split
          · next hk =>
            rw [setAt_ne _ _]
            · exact hf
            · intro hfx
              subst hfx
              rw [hk] at hn
              unfold freedWith at hn
              rw [hf] at hn
              simp at hn
          · exact hf
      | file i =>
        unfold cellLive
        dsimp only
        constructor
        · rintro ⟨q, hq, hk⟩
          obtain ⟨h1, h2⟩ := (hobj i q).mp hq
          refine ⟨⟨q, h2, hk⟩, ?_⟩
          intro hm
          cases hk' : p.kind <;> rw [hk'] at hm <;> unfold freedWith at hm <;> simp at hm
          cases ho : w.opened x <;> simp [ho] at hm <;> exact h1 hm
        · rintro ⟨⟨q, hq, hk⟩, hn⟩
          refine ⟨q, (hobj i q).mpr ⟨?_, hq⟩, hk⟩
          intro he
          subst he
          rw [hx] at hq
          cases hq
          rw [hk] at hn
          unfold freedWith at hn
          cases ho : w.opened i <;> simp [ho] at hn
      | item i =>
        unfold cellLive
        dsimp only
        constructor
        · rintro ⟨q, hq, hk⟩
          obtain ⟨h1, h2⟩ := (hobj i q).mp hq
          refine ⟨⟨q, h2, hk⟩, ?_⟩
          intro hm
          cases hk' : p.kind <;> rw [hk'] at hm <;> unfold freedWith at hm
          · cases ho : w.opened x <;> simp [ho] at hm
          all_goals simp at hm
          exact h1 hm
        · rintro ⟨⟨q, hq, hk⟩, hn⟩
          refine ⟨q, (hobj i q).mpr ⟨?_, hq⟩, hk⟩
          intro he
          subst he
          rw [hx] at hq
          cases hq
          rw [hk] at hn
          unfold freedWith at hn
          simp at hn
      | set i =>
        unfold cellLive
        dsimp only
        constructor
        · rintro ⟨q, hq, hk⟩
          obtain ⟨h1, h2⟩ := (hobj i q).mp hq
          refine ⟨⟨q, h2, hk⟩, ?_⟩
          intro hm
          cases hk' : p.kind <;> rw [hk'] at hm <;> unfold freedWith at hm
          · cases ho : w.opened x <;> simp [ho] at hm
          all_goals simp at hm
          exact h1 hm
        · rintro ⟨⟨q, hq, hk⟩, hn⟩
          refine ⟨q, (hobj i q).mpr ⟨?_, hq⟩, hk⟩
          intro he
          subst he
          rw [hx] at hq
          cases hq
          rw [hk] at hn
          unfold freedWith at hn
          simp at hn
    rw [dealloc_eq] at key
    refine key.trans ?_
    dsimp only
    rw [h1, hfw.symm]
    simp only [Bool.or_eq_false_iff, decide_eq_false_iff_not]
    rw [and_assoc]
  · intro c hc
    dsimp only at hc ⊢
    rw [Bool.or_eq_true, decide_eq_true_eq] at hc
    rcases hc with hc | hc
    · exact h.freedAlloc c hc
    · exact ((h.cells c).mp (hlive c hc)).1
  · intro i q g hi hk hm
    obtain ⟨h1, h2⟩ := h.origin i q g ((hobj i q).mp hi).2 hk hm
    exact ⟨h1, fun f hf => h2 f (hopen f g hf)⟩
  · dsimp only
    rw [h.good, Bool.false_or, List.any_eq_false]
    intro c hm
    obtain ⟨h1, h2⟩ := (h.cells c).mp (hlive c hm)
    simp [h1, h2]

/-- What giving up references leaves as it was. -/
structure RefFrame (w w' : Life) : Prop where
  held : w'.held = w.held
  next : w'.next = w.next
  gens : w'.gens = w.gens
  objs : ∀ i p, w'.objs i = some p → w.objs i = some p
  opened : ∀ i, (∃ p, w'.objs i = some p) → w'.opened i = w.opened i

theorem decRef_wf (fuel x : Nat) (w : Life) (h : WF w (some x)) (hf : x < fuel)
    (hx : ∃ p, w.objs x = some p) : WF (decRef fuel x w) none ∧ RefFrame w (decRef fuel x w) := by
  induction fuel generalizing x w with
  | zero => omega
  | succ fuel ih =>
    obtain ⟨p, hx⟩ := hx
    unfold decRef
    rw [hx]
    dsimp only
    split
    · next hr =>
      have hrem := h.remove hx hr
      have hframe : RefFrame w
          (dealloc { w with rc := setAt w.rc x 0, objs := setAt w.objs x none } x p.kind) := by
        rw [dealloc_eq]
        refine ⟨rfl, rfl, rfl, ?_, ?_⟩
        · intro i q hi
          by_cases hix : i = x
          · subst hix
            dsimp only at hi
            rw [setAt_same] at hi
            cases hi
          · dsimp only at hi
            rwa [setAt_ne _ _ hix] at hi
        · rintro i ⟨q, hi⟩
          have hix : i ≠ x := by
            intro he
            subst he
            dsimp only at hi
            rw [setAt_same] at hi
            cases hi
          dsimp only
          split
          · rw [setAt_ne _ _ hix]
          · rfl
      cases hq : p.parent with
      | none =>
        rw [hq] at hrem
        exact ⟨hrem, hframe⟩
      | some q =>
        rw [hq] at hrem
        obtain ⟨hlt, pq, hpq⟩ := (h.shape x p hx).parent hq
        have hlive : ∃ p', (dealloc { w with rc := setAt w.rc x 0, objs := setAt w.objs x none } x
            p.kind).objs q = some p' := by
          rw [dealloc_eq]
          refine ⟨pq, ?_⟩
          dsimp only
          rw [setAt_ne _ _ (by omega)]
          exact hpq
        obtain ⟨h1, h2⟩ := ih q _ hrem (by omega) hlive
        refine ⟨h1, h2.held.trans hframe.held, h2.next.trans hframe.next, h2.gens.trans hframe.gens,
          fun i r hi => hframe.objs i r (h2.objs i r hi), ?_⟩
        intro i hi
        rw [h2.opened i hi]
        obtain ⟨r, hi⟩ := hi
        exact hframe.opened i ⟨r, h2.objs i r hi⟩
    · next hr =>
      refine ⟨⟨h.bound, h.heldLive, ?_, ?_, h.shape, h.openFile, h.openInj, h.cells, h.allocBound,
        h.freedAlloc, h.origin, h.good⟩, ⟨rfl, rfl, rfl, fun _ _ hi => hi, fun _ _ => rfl⟩⟩
      · intro i q hi
        have hc := h.count i q hi
        dsimp only
        by_cases hix : i = x
        · subst hix
          rw [if_pos rfl] at hc
          rw [setAt_same, if_neg (by simp)]
          omega
        · rw [if_neg (fun he => hix (Option.some.inj he).symm)] at hc
          rw [setAt_ne _ _ hix, if_neg (by simp)]
          exact hc
      · intro i q hi
        dsimp only
        by_cases hix : i = x
        · subst hix
          rw [setAt_same]
          have := h.pos i q hi
          omega
        · rw [setAt_ne _ _ hix]
          exact h.pos i q hi

/-- The memory allocated with an object of a class. -/
def ownCell (i : Nat) : PyKind → Option Cell
  | .file => some (.file i)
  | .item => some (.item i)
  | .set => some (.set i)
  | _ => none

theorem newObj_wf {w : Life} (h : WF w none) {p : PyObj} {c : Option Cell}
    (hc : c = ownCell w.next p.kind) (hs : Shape w.objs w.next p)
    (ho : ∀ g, p.kind = .item → .opening g ∈ p.cells →
      w.alloc (.opening g) = true ∧ ∀ f, w.opened f = some g → p.parent = some f) :
    WF (newObj w p c) none := by
  have hnone : w.objs w.next = none := by
    cases hn : w.objs w.next with
    | none => rfl
    | some q => have := h.bound _ _ hn; omega
  have hobj : ∀ i q, setAt w.objs w.next (some p) i = some q ↔
      (i = w.next ∧ q = p) ∨ w.objs i = some q := by
    intro i q
    by_cases hi : i = w.next
    · subst hi; rw [setAt_same, hnone]; simp [eq_comm]
    · rw [setAt_ne _ _ hi]; simp [hi]
  have hch : ∀ o, childs (setAt w.objs w.next (some p)) o (w.next + 1) =
      childs w.objs o w.next + (if p.parent = some o then 1 else 0) := by
    intro o
    rw [childs, childs_setAt_ge _ _ _ _ _ (Nat.le_refl _), setAt_same]
    rfl
  have hnoheld : w.next ∉ w.held := by
    intro hm
    obtain ⟨q, hq⟩ := h.heldLive _ hm
    rw [hnone] at hq; cases hq
  have hshape : ∀ i q, setAt w.objs w.next (some p) i = some q →
      Shape (setAt w.objs w.next (some p)) i q := by
    have aux : ∀ i q, Shape w.objs i q → i ≤ w.next → Shape (setAt w.objs w.next (some p)) i q := by
      intro i q hq hi
      refine hq.congr fun r hr => setAt_ne _ _ ?_
      have := (hq.parent hr).1
      omega
    intro i q hi
    rcases (hobj i q).mp hi with ⟨rfl, rfl⟩ | hi
    · exact aux _ _ hs (Nat.le_refl _)
    · exact aux _ _ (h.shape i q hi) (Nat.le_of_lt (h.bound i q hi))
  -- the reference to the parent object
  obtain ⟨rc', hrc, bad', hbad, heq⟩ : ∃ rc', (∀ o q, w.objs o = some q →
      rc' o = w.rc o + (if p.parent = some o then 1 else 0)) ∧ ∃ bad', bad' = false ∧
      newObj w p c = { w with
        objs := setAt w.objs w.next (some p)
        rc := setAt rc' w.next 1
        held := w.next :: w.held
        next := w.next + 1
        alloc := allocWith w.alloc c
        bad := bad' } := by
    cases hp : p.parent with
    | none =>
      refine ⟨w.rc, fun o q _ => by simp, w.bad, h.good, ?_⟩
      unfold newObj
      rw [hp]
    | some q =>
      obtain ⟨hlt, pq, hpq⟩ := hs.parent hp
      refine ⟨setAt w.rc q (w.rc q + 1), ?_, w.bad || (w.objs q).isNone, ?_, ?_⟩
      · intro o r hr
        by_cases hoq : o = q
        · subst hoq; simp
        · rw [setAt_ne _ _ hoq, if_neg (fun he => hoq (Option.some.inj he).symm)]
          rfl
      · rw [h.good, hpq]; rfl
      · unfold newObj incRef
        rw [hp]
  rw [heq]
  have hfresh : ∀ d, ownCell w.next p.kind = some d → w.alloc d = false := by
    intro d hd
    cases ha : w.alloc d with
    | false => rfl
    | true =>
      exfalso
      have := h.allocBound d ha
      cases hk : p.kind <;> rw [hk] at hd <;> simp [ownCell] at hd <;> subst hd <;>
        exact Nat.lt_irrefl _ this
  have hown : ∀ d, ownCell w.next p.kind = some d → ∀ g, d ≠ .opening g := by
    intro d hd g he
    subst he
    cases hk : p.kind <;> rw [hk] at hd <;> simp [ownCell] at hd
  have halloc : ∀ d, allocWith w.alloc c d = true ↔ w.alloc d = true ∨ ownCell w.next p.kind = some d := by
    intro d
    rw [hc]
    cases hown' : ownCell w.next p.kind with
    | none => simp [allocWith]
    | some e =>
      dsimp only [allocWith]
      by_cases hde : d = e
      · subst hde; simp
      · rw [setAt_ne _ _ hde]
        exact ⟨.inl, fun h => h.elim id fun he => absurd (Option.some.inj he).symm hde⟩
  refine ⟨?_, ?_, ?_, ?_, hshape, ?_, h.openInj, ?_, ?_, ?_, ?_, hbad⟩
  · intro i q hi
    rcases (hobj i q).mp hi with ⟨rfl, -⟩ | hi
    · exact Nat.lt_succ_self _
    · exact Nat.lt_succ_of_lt (h.bound i q hi)
  · intro i hi
    rcases List.mem_cons.mp hi with rfl | hi
    · exact ⟨p, setAt_same _ _ _⟩
    · obtain ⟨q, hq⟩ := h.heldLive i hi
      exact ⟨q, (hobj i q).mpr (.inr hq)⟩
  · intro i q hi
    dsimp only at hi ⊢
    rw [hch]
    rcases (hobj i q).mp hi with ⟨rfl, rfl⟩ | hi
    · rw [setAt_same, List.count_cons_self, List.count_eq_zero_of_not_mem hnoheld,
        childs_none _ ?_, if_neg ?_]
      · rfl
      · intro he
        have := (hs.parent he).1
        omega
      · intro i he
        cases hi : w.objs i with
        | none => rw [hi] at he; cases he
        | some r =>
          rw [hi] at he
          have h1 := ((h.shape i r hi).parent he).1
          have h2 := h.bound i r hi
          omega
    · have hne : i ≠ w.next := by
        have := h.bound i q hi
        omega
      have h1 := h.count i q hi
      rw [setAt_ne _ _ hne, hrc i q hi, h1, List.count_cons_of_ne (fun he => hne he.symm)]
      omega
  · intro i q hi
    dsimp only at hi ⊢
    rcases (hobj i q).mp hi with ⟨rfl, rfl⟩ | hi
    · rw [setAt_same]; exact Nat.one_pos
    · have hne : i ≠ w.next := by
        have := h.bound i q hi
        omega
      rw [setAt_ne _ _ hne, hrc i q hi]
      have := h.pos i q hi
      omega
  · intro f g hf
    obtain ⟨q, h1, h2⟩ := h.openFile f g hf
    exact ⟨q, (hobj f q).mpr (.inr h1), h2⟩
  · intro d
    have h1 := h.cells d
    have key : cellLive { w with
        objs := setAt w.objs w.next (some p)
        rc := setAt rc' w.next 1
        held := w.next :: w.held
        next := w.next + 1
        alloc := allocWith w.alloc c
        bad := bad' } d ↔ cellLive w d ∨ ownCell w.next p.kind = some d := by
      cases d with
      | opening g =>
        exact ⟨.inl, fun h => h.elim id fun he => absurd rfl (hown _ he g)⟩
      | file i =>
        unfold cellLive
        dsimp only
        constructor
        · rintro ⟨q, hq, hk⟩
          rcases (hobj i q).mp hq with ⟨rfl, rfl⟩ | hq
          · exact .inr (by rw [hk]; rfl)
          · exact .inl ⟨q, hq, hk⟩
        · rintro (⟨q, hq, hk⟩ | he)
          · exact ⟨q, (hobj i q).mpr (.inr hq), hk⟩
          · cases hk : p.kind <;> rw [hk] at he <;> simp [ownCell] at he
            exact ⟨p, (hobj i p).mpr (.inl ⟨he.symm, rfl⟩), hk⟩
      | item i =>
        unfold cellLive
        dsimp only
        constructor
        · rintro ⟨q, hq, hk⟩
          rcases (hobj i q).mp hq with ⟨rfl, rfl⟩ | hq
          · exact .inr (by rw [hk]; rfl)
          · exact .inl ⟨q, hq, hk⟩
        · rintro (⟨q, hq, hk⟩ | he)
          · exact ⟨q, (hobj i q).mpr (.inr hq), hk⟩
          · cases hk : p.kind <;> rw [hk] at he <;> simp [ownCell] at he
            exact ⟨p, (hobj i p).mpr (.inl ⟨he.symm, rfl⟩), hk⟩
      | set i =>
        unfold cellLive
        dsimp only
        constructor
        · rintro ⟨q, hq, hk⟩
          rcases (hobj i q).mp hq with ⟨rfl, rfl⟩ | hq
          · exact .inr (by rw [hk]; rfl)
          · exact .inl ⟨q, hq, hk⟩
        · rintro (⟨q, hq, hk⟩ | he)
          · exact ⟨q, (hobj i q).mpr (.inr hq), hk⟩
          · cases hk : p.kind <;> rw [hk] at he <;> simp [ownCell] at he
            exact ⟨p, (hobj i p).mpr (.inl ⟨he.symm, rfl⟩), hk⟩
    rw [key]
    dsimp only
    rw [halloc d, h1]
    constructor
    · rintro (⟨h2, h3⟩ | h2)
      · exact ⟨.inl h2, h3⟩
      · refine ⟨.inr h2, ?_⟩
        cases hf : w.freed d with
        | false => rfl
        | true =>
          have h3 := h.freedAlloc d hf
          rw [hfresh d h2] at h3
          cases h3
    · rintro ⟨h2 | h2, h3⟩
      · exact .inl ⟨h2, h3⟩
      · exact .inr h2
  · intro d hd
    rcases (halloc d).mp hd with hd | hd
    · have := h.allocBound d hd
      cases d with
      | opening g => exact this
      | file i => exact Nat.lt_succ_of_lt this
      | item i => exact Nat.lt_succ_of_lt this
      | set i => exact Nat.lt_succ_of_lt this
    · cases hk : p.kind <;> rw [hk] at hd <;> simp [ownCell] at hd <;> subst hd <;>
        exact Nat.lt_succ_self _
  · intro d hd
    exact (halloc d).mpr (.inl (h.freedAlloc d hd))
  · intro i q g hi hk hm
    rcases (hobj i q).mp hi with ⟨rfl, rfl⟩ | hi
    · obtain ⟨h1, h2⟩ := ho g hk hm
      exact ⟨(halloc _).mpr (.inl h1), h2⟩
    · obtain ⟨h1, h2⟩ := h.origin i q g hi hk hm
      exact ⟨(halloc _).mpr (.inl h1), h2⟩

/-- What a call gives: an object of the class asked for, with a parent that is alive and memory that
  is. -/
theorem childOf_ok {w : Life} (h : WF w none) {o : Nat} {p : PyObj} (ho : w.objs o = some p)
    {k : PyKind} {q : PyObj} {c : Option Cell} (hc : childOf w o p k = some (q, c)) :
    q.kind = k ∧ c = ownCell w.next k ∧ Shape w.objs w.next q ∧
      (∀ g, q.kind = .item → .opening g ∈ q.cells →
        w.alloc (.opening g) = true ∧ ∀ f, w.opened f = some g → q.parent = some f) := by
  have hlt := h.bound o p ho
  have hsh := h.shape o p ho
  have sub : ∀ i r, w.objs i = some r → r.kind = .item →
      Shape w.objs w.next ⟨.item, r.parent, .item w.next :: r.cells.tail⟩ ∧
      ∀ g, Cell.opening g ∈ (.item w.next :: r.cells.tail : List Cell) →
        w.alloc (.opening g) = true ∧ ∀ f, w.opened f = some g → r.parent = some f := by
    intro i r hi hk
    have hr := h.shape i r hi
    have hlt := h.bound i r hi
    unfold Shape at hr
    rw [hk] at hr
    obtain ⟨f, g, pf, h1, h2, h3, h4, h5⟩ := hr
    refine ⟨⟨f, g, pf, h1, by rw [h2]; rfl, by omega, h4, h5⟩, ?_⟩
    intro g' hm
    refine h.origin i r g' hi hk ?_
    rw [h2] at hm ⊢
    simpa using hm
  unfold childOf at hc
  cases k with
  | file => cases hc
  | item =>
    dsimp only at hc
    cases hk : p.kind with
    | file =>
      rw [hk] at hc
      dsimp only at hc
      cases hg : w.opened o with
      | none => rw [hg] at hc; cases hc
      | some g =>
        rw [hg] at hc
        cases hc
        refine ⟨rfl, rfl, ⟨o, g, p, rfl, rfl, hlt, ho, hk⟩, ?_⟩
        intro g' _ hm
        simp only [List.mem_cons, reduceCtorEq, Cell.opening.injEq, List.not_mem_nil, or_false,
          false_or] at hm
        subst hm
        refine ⟨((h.cells (.opening g')).mp ⟨o, hg⟩).1, ?_⟩
        intro f hf
        rw [h.openInj f o g' hf hg]
    | item =>
      rw [hk] at hc
      cases hc
      obtain ⟨h1, h2⟩ := sub o p ho hk
      exact ⟨rfl, rfl, h1, fun g _ => h2 g⟩
    | items =>
      rw [hk] at hc
      dsimp only at hc
      unfold Shape at hsh
      rw [hk] at hsh
      obtain ⟨r, pr, h1, h2, h3, h4, h5⟩ := hsh
      rw [h1, Option.bind_some, h4] at hc
      cases hc
      obtain ⟨h6, h7⟩ := sub r pr h4 h5
      exact ⟨rfl, rfl, h6, fun g _ => h7 g⟩
    | set => rw [hk] at hc; cases hc
    | sections => rw [hk] at hc; cases hc
    | «section» => rw [hk] at hc; cases hc
    | values => rw [hk] at hc; cases hc
    | value => rw [hk] at hc; cases hc
  | items =>
    dsimp only at hc
    split at hc
    · next hk =>
      cases hc
      exact ⟨rfl, rfl, ⟨o, p, rfl, rfl, hlt, ho, hk⟩, fun g hk' => by cases hk'⟩
    · cases hc
  | set =>
    dsimp only at hc
    split at hc
    · next hk =>
      cases hc
      exact ⟨rfl, rfl, ⟨o, p, rfl, rfl, hlt, ho, hk⟩, fun g hk' => by cases hk'⟩
    · cases hc
  | sections =>
    dsimp only at hc
    split at hc
    · next hk =>
      cases hc
      unfold Shape at hsh
      rw [hk] at hsh
      obtain ⟨r, pr, h1, h2, -⟩ := hsh
      exact ⟨rfl, rfl, ⟨o, p, rfl, h2, hlt, ho, hk⟩, fun g hk' => by cases hk'⟩
    · cases hc
  | «section» =>
    dsimp only at hc
    cases hk : p.kind with
    | set =>
      rw [hk] at hc
      cases hc
      unfold Shape at hsh
      rw [hk] at hsh
      obtain ⟨r, pr, h1, h2, -⟩ := hsh
      exact ⟨rfl, rfl, ⟨o, p, rfl, h2, hlt, ho, hk⟩, fun g hk' => by cases hk'⟩
    | sections =>
      rw [hk] at hc
      cases hc
      unfold Shape at hsh
      rw [hk] at hsh
      obtain ⟨r, pr, h1, h2, h3, h4, h5⟩ := hsh
      exact ⟨rfl, rfl, ⟨r, pr, h1, h2, by omega, h4, h5⟩, fun g hk' => by cases hk'⟩
    | _ => rw [hk] at hc; cases hc
  | values =>
    dsimp only at hc
    split at hc
    · next hk =>
      cases hc
      exact ⟨rfl, rfl, ⟨o, p, rfl, rfl, hlt, ho, hk⟩, fun g hk' => by cases hk'⟩
    · cases hc
  | value =>
    dsimp only at hc
    cases hk : p.kind with
    | «section» =>
      rw [hk] at hc
      cases hc
      exact ⟨rfl, rfl, ⟨o, p, rfl, rfl, hlt, ho, hk⟩, fun g hk' => by cases hk'⟩
    | values =>
      rw [hk] at hc
      cases hc
      unfold Shape at hsh
      rw [hk] at hsh
      obtain ⟨r, pr, h1, h2, h3, h4, h5⟩ := hsh
      exact ⟨rfl, rfl, ⟨r, pr, h1, h2, by omega, h4, h5⟩, fun g hk' => by cases hk'⟩
    | _ => rw [hk] at hc; cases hc

/-- What a step leaves as it was. -/
structure LifeFrame (w w' : Life) (op : LifeOp) : Prop where
  next : w.next ≤ w'.next
  objs : ∀ i p, w'.objs i = some p → w.objs i = some p ∨ w.next ≤ i
  opened : ∀ f g, w.opened f = some g → (∃ p, w'.objs f = some p) → op ≠ .close f →
    w'.opened f = some g

theorem LifeFrame.refl (w : Life) (op : LifeOp) : LifeFrame w w op :=
  ⟨Nat.le_refl _, fun _ _ h => .inl h, fun _ _ h _ _ => h⟩

theorem newObj_frame (w : Life) (p : PyObj) (c : Option Cell) (op : LifeOp) :
    LifeFrame w (newObj w p c) op := by
  have key : (newObj w p c).objs = setAt w.objs w.next (some p) ∧ (newObj w p c).opened = w.opened := by
    unfold newObj
    cases p.parent with
    | none => exact ⟨rfl, rfl⟩
    | some q => exact ⟨rfl, rfl⟩
  refine ⟨Nat.le_succ _, ?_, ?_⟩
  · intro i q hi
    rw [key.1] at hi
    by_cases hx : i = w.next
    · exact .inr (by omega)
    · rw [setAt_ne _ _ hx] at hi
      exact .inl hi
  · intro f g hf _ _
    rw [key.2]
    exact hf

theorem lifeStep_wf {w : Life} (h : WF w none) (op : LifeOp) :
    WF (lifeStep w op).2 none ∧ LifeFrame w (lifeStep w op).2 op := by
  have call : ∀ o k, (∀ p, w.objs o = some p → o ∈ w.held →
      WF (k p).2 none ∧ LifeFrame w (k p).2 op) →
      WF (callOn w o k).2 none ∧ LifeFrame w (callOn w o k).2 op := by
    intro o k hk
    unfold callOn
    split
    · exact ⟨h, .refl _ _⟩
    · next hm =>
      rw [Decidable.not_not] at hm
      cases ho : w.objs o with
      | none => exact ⟨h, .refl _ _⟩
      | some p =>
        dsimp only
        split
        · exact ⟨h, .refl _ _⟩
        · exact hk p ho hm
  cases op with
  | newFile =>
    refine ⟨newObj_wf h rfl ⟨rfl, rfl⟩ ?_, newObj_frame _ _ _ _⟩
    intro g hk
    cases hk
  | openFile f =>
    refine call f _ fun p hp _ => ?_
    split
    · exact ⟨h, .refl _ _⟩
    · next hk =>
      rw [Decidable.not_not] at hk
      cases ho : w.opened f with
      | some g => exact ⟨h, .refl _ _⟩
      | none =>
        dsimp only
        have hop : ∀ f' g, setAt w.opened f (some w.gens) f' = some g ↔
            (f' = f ∧ g = w.gens) ∨ w.opened f' = some g := by
          intro f' g
          by_cases hf : f' = f
          · subst hf; rw [setAt_same, ho]; simp [eq_comm]
          · rw [setAt_ne _ _ hf]; simp [hf]
        have hfresh : w.alloc (.opening w.gens) = false := by
          cases ha : w.alloc (.opening w.gens) with
          | false => rfl
          | true => exact absurd (h.allocBound _ ha) (Nat.lt_irrefl _)
        have hnot : ∀ f', w.opened f' ≠ some w.gens := by
          intro f' hf
          have := ((h.cells (.opening w.gens)).mp ⟨f', hf⟩).1
          rw [hfresh] at this; cases this
        have hal : ∀ c, setAt w.alloc (.opening w.gens) true c = true ↔
            c = .opening w.gens ∨ w.alloc c = true := by
          intro c
          by_cases hc : c = .opening w.gens
          · subst hc; simp
          · rw [setAt_ne _ _ hc]; simp [hc]
        refine ⟨⟨h.bound, h.heldLive, h.count, h.pos, h.shape, ?_, ?_, ?_, ?_, ?_, ?_, h.good⟩,
          ⟨Nat.le_refl _, fun _ _ hi => .inl hi, ?_⟩⟩
        · intro f' g hf
          rcases (hop f' g).mp hf with ⟨rfl, -⟩ | hf
          · exact ⟨p, hp, hk⟩
          · exact h.openFile f' g hf
        · intro f1 f2 g h1 h2
          rcases (hop f1 g).mp h1 with ⟨rfl, rfl⟩ | k1 <;> rcases (hop f2 _).mp h2 with ⟨rfl, h3⟩ | k2
          · rfl
          · exact absurd k2 (hnot f2)
          · subst h3; exact absurd k1 (hnot f1)
          · exact h.openInj f1 f2 g k1 k2
        · intro c
          dsimp only
          rw [hal c]
          have h1 := h.cells c
          cases c with
          | opening g =>
            constructor
            · rintro ⟨f', hf⟩
              rcases (hop f' g).mp hf with ⟨rfl, rfl⟩ | hf
              · refine ⟨.inl rfl, ?_⟩
                cases hfr : w.freed (.opening w.gens) with
                | false => rfl
                | true =>
                  have := h.freedAlloc _ hfr
                  rw [hfresh] at this; cases this
              · obtain ⟨h2, h3⟩ := h1.mp ⟨f', hf⟩
                exact ⟨.inr h2, h3⟩
            · rintro ⟨h2 | h2, h3⟩
              · cases h2
                exact ⟨f, setAt_same _ _ _⟩
              · obtain ⟨f', hf⟩ := h1.mpr ⟨h2, h3⟩
                exact ⟨f', (hop f' g).mpr (.inr hf)⟩
          | file i => simpa [cellLive] using h1
          | item i => simpa [cellLive] using h1
          | set i => simpa [cellLive] using h1
        · intro c hc
          rcases (hal c).mp hc with rfl | hc
          · exact Nat.lt_succ_self _
          · have := h.allocBound c hc
            cases c with
            | opening g => exact Nat.lt_succ_of_lt this
            | file i => exact this
            | item i => exact this
            | set i => exact this
        · intro c hc
          exact (hal c).mpr (.inr (h.freedAlloc c hc))
        · intro i q g hi hk' hm
          obtain ⟨h1, h2⟩ := h.origin i q g hi hk' hm
          refine ⟨(hal _).mpr (.inr h1), ?_⟩
          intro f' hf
          rcases (hop f' g).mp hf with ⟨-, rfl⟩ | hf
          · rw [hfresh] at h1; cases h1
          · exact h2 f' hf
        · intro f' g hf _ _
          exact (hop f' g).mpr (.inr hf)
  | close f =>
    refine call f _ fun p hp _ => ?_
    split
    · exact ⟨h, .refl _ _⟩
    · next hk =>
      cases ho : w.opened f with
      | none => exact ⟨h, .refl _ _⟩
      | some g0 =>
        dsimp only [closeOpening, freeCell]
        have hop : ∀ f' g, setAt w.opened f none f' = some g ↔ f' ≠ f ∧ w.opened f' = some g := by
          intro f' g
          by_cases hf : f' = f
          · subst hf; simp
          · rw [setAt_ne _ _ hf]; simp [hf]
        obtain ⟨ha, hfr⟩ := (h.cells (.opening g0)).mp ⟨f, ho⟩
        have hfd : ∀ c, setAt w.freed (.opening g0) true c = false ↔
            c ≠ .opening g0 ∧ w.freed c = false := by
          intro c
          by_cases hc : c = .opening g0
          · subst hc; simp
          · rw [setAt_ne _ _ hc]; simp [hc]
        refine ⟨⟨h.bound, h.heldLive, h.count, h.pos, h.shape, ?_, ?_, ?_, h.allocBound, ?_, ?_, ?_⟩,
          ⟨Nat.le_refl _, fun _ _ hi => .inl hi, ?_⟩⟩
        · intro f' g hf
          exact h.openFile f' g ((hop f' g).mp hf).2
        · intro f1 f2 g h1 h2
          exact h.openInj f1 f2 g ((hop f1 g).mp h1).2 ((hop f2 g).mp h2).2
        · intro c
          dsimp only
          rw [hfd c]
          have h1 := h.cells c
          cases c with
          | opening g =>
            constructor
            · rintro ⟨f', hf⟩
              obtain ⟨h2, h3⟩ := (hop f' g).mp hf
              obtain ⟨h4, h5⟩ := h1.mp ⟨f', h3⟩
              refine ⟨h4, ?_, h5⟩
              intro he
              cases he
              exact h2 (h.openInj f' f g0 h3 ho)
            · rintro ⟨h2, h3, h4⟩
              obtain ⟨f', hf⟩ := h1.mpr ⟨h2, h4⟩
              refine ⟨f', (hop f' g).mpr ⟨?_, hf⟩⟩
              intro he
              subst he
              rw [ho] at hf
              cases hf
              exact h3 rfl
          | file i => simpa [cellLive] using h1
          | item i => simpa [cellLive] using h1
          | set i => simpa [cellLive] using h1
        · intro c hc
          dsimp only at hc
          by_cases he : c = .opening g0
          · subst he; exact ha
          · rw [setAt_ne _ _ he] at hc
            exact h.freedAlloc c hc
        · intro i q g hi hk' hm
          obtain ⟨h1, h2⟩ := h.origin i q g hi hk' hm
          exact ⟨h1, fun f' hf => h2 f' ((hop f' g).mp hf).2⟩
        · dsimp only
          rw [h.good, hfr, ha]; rfl
        · intro f' g hf _ hne
          exact (hop f' g).mpr ⟨fun he => hne (by rw [he]), hf⟩
  | derive k o =>
    refine call o _ fun p hp _ => ?_
    cases hc : childOf w o p k with
    | none => exact ⟨h, .refl _ _⟩
    | some qc =>
      obtain ⟨q, c⟩ := qc
      obtain ⟨h1, h2, h3, h4⟩ := childOf_ok h hp hc
      exact ⟨newObj_wf h (by rw [h1]; exact h2) h3 h4, newObj_frame _ _ _ _⟩
  | use o => exact call o _ fun p hp _ => ⟨h, .refl _ _⟩
  | keep o =>
    unfold lifeStep
    dsimp only
    split
    · exact ⟨h, .refl _ _⟩
    · next hm =>
      rw [Decidable.not_not] at hm
      obtain ⟨p, hp⟩ := h.heldLive o hm
      dsimp only [incRef]
      refine ⟨⟨h.bound, ?_, ?_, ?_, h.shape, h.openFile, h.openInj, h.cells, h.allocBound,
        h.freedAlloc, h.origin, ?_⟩, ⟨Nat.le_refl _, fun _ _ hi => .inl hi, fun _ _ hf _ _ => hf⟩⟩
      · intro i hi
        rcases List.mem_cons.mp hi with rfl | hi
        · exact ⟨p, hp⟩
        · exact h.heldLive i hi
      · intro i q hi
        have h1 := h.count i q hi
        dsimp only
        by_cases hio : i = o
        · subst hio
          rw [setAt_same, List.count_cons_self]
          omega
        · rw [setAt_ne _ _ hio, List.count_cons_of_ne (fun he => hio he.symm)]
          exact h1
      · intro i q hi
        have h1 := h.pos i q hi
        dsimp only
        by_cases hio : i = o
        · subst hio; rw [setAt_same]; omega
        · rw [setAt_ne _ _ hio]; exact h1
      · dsimp only
        rw [h.good, hp]; rfl
  | drop o =>
    unfold lifeStep
    dsimp only
    split
    · exact ⟨h, .refl _ _⟩
    · next hm =>
      rw [Decidable.not_not] at hm
      have h1 : WF { w with held := w.held.erase o } (some o) := by
        refine ⟨h.bound, ?_, ?_, h.pos, h.shape, h.openFile, h.openInj, h.cells, h.allocBound,
          h.freedAlloc, h.origin, h.good⟩
        · intro i hi
          exact h.heldLive i (List.mem_of_mem_erase hi)
        · intro i q hi
          have h1 := h.count i q hi
          rw [if_neg (by simp)] at h1
          dsimp only
          by_cases hio : i = o
          · subst hio
            rw [if_pos rfl, List.count_erase_self]
            have := List.count_pos_iff.mpr hm
            omega
          · rw [if_neg (fun he => hio (Option.some.inj he).symm), List.count_erase_of_ne hio]
            exact h1
      obtain ⟨h2, h3⟩ := decRef_wf (o + 1) o _ h1 (Nat.lt_succ_self _) (h.heldLive o hm)
      refine ⟨h2, Nat.le_of_eq h3.next.symm, fun i p hi => .inl (h3.objs i p hi), ?_⟩
      intro f g hf hl _
      rw [h3.opened f hl]
      exact hf

/-- An object points into the current opening of its file, or into none. -/
def Current (w : Life) (p : PyObj) : Prop :=
  ∀ g, .opening g ∈ p.cells → ∃ f, .file f ∈ p.cells ∧ w.opened f = some g

/-- The memory an object points to: its own, or its parents', or that of an opening of a file, which
  is then its file. -/
theorem cells_of {w : Life} (h : WF w none) {o : Nat} {p : PyObj} (ho : w.objs o = some p) :
    ((∀ c ∈ p.cells, cellLive w c) ∧ ∀ g, .opening g ∉ p.cells) ∨
    ∃ f g i, p.cells = [.item i, .opening g, .file f] ∧ cellLive w (.item i) ∧ cellLive w (.file f) ∧
      w.alloc (.opening g) = true ∧ ∀ f', w.opened f' = some g → f' = f := by
  have item : ∀ i r, w.objs i = some r → r.kind = .item →
      ∃ f g, r.cells = [.item i, .opening g, .file f] ∧ cellLive w (.item i) ∧ cellLive w (.file f) ∧
        w.alloc (.opening g) = true ∧ ∀ f', w.opened f' = some g → f' = f := by
    intro i r hi hk
    have hr := h.shape i r hi
    unfold Shape at hr
    rw [hk] at hr
    obtain ⟨f, g, pf, h1, h2, h3, h4, h5⟩ := hr
    obtain ⟨h6, h7⟩ := h.origin i r g hi hk (by rw [h2]; simp)
    refine ⟨f, g, h2, ⟨r, hi, hk⟩, ⟨pf, h4, h5⟩, h6, ?_⟩
    intro f' hf
    have := h7 f' hf
    rw [h1] at this
    exact (Option.some.inj this).symm
  have sect : ∀ i r, w.objs i = some r → r.kind = .section →
      ∃ s, r.cells = [.set s] ∧ cellLive w (.set s) := by
    intro i r hi hk
    have hr := h.shape i r hi
    unfold Shape at hr
    rw [hk] at hr
    obtain ⟨f, pf, h1, h2, h3, h4, h5⟩ := hr
    exact ⟨f, h2, pf, h4, h5⟩
  have single : ∀ c, p.cells = [c] → cellLive w c → (∀ g, c ≠ .opening g) →
      (∀ c ∈ p.cells, cellLive w c) ∧ ∀ g, .opening g ∉ p.cells := by
    intro c hc hl hn
    rw [hc]
    refine ⟨?_, ?_⟩
    · intro d hd
      rw [List.mem_singleton.mp hd]
      exact hl
    · intro g hg
      exact hn g (List.mem_singleton.mp hg).symm
  have hs := h.shape o p ho
  unfold Shape at hs
  cases hk : p.kind <;> rw [hk] at hs <;> dsimp only at hs
  · exact .inl (single _ hs.2 ⟨p, ho, hk⟩ (by simp))
  · obtain ⟨f, g, h1⟩ := item o p ho hk
    exact .inr ⟨f, g, o, h1⟩
  · obtain ⟨q, pq, h1, h2, h3, h4, h5⟩ := hs
    obtain ⟨f, g, h6⟩ := item q pq h4 h5
    rw [← h2] at h6
    exact .inr ⟨f, g, q, h6⟩
  · obtain ⟨q, pq, h1, h2, h3, h4, h5⟩ := hs
    exact .inl (single _ h2 ⟨p, ho, hk⟩ (by simp))
  · obtain ⟨q, pq, h1, h2, h3, h4, h5⟩ := hs
    exact .inl (single _ h2 ⟨pq, h4, h5⟩ (by simp))
  · obtain ⟨q, pq, h1, h2, h3, h4, h5⟩ := hs
    exact .inl (single _ h2 ⟨pq, h4, h5⟩ (by simp))
  · obtain ⟨q, pq, h1, h2, h3, h4, h5⟩ := hs
    obtain ⟨s, h6, h7⟩ := sect q pq h4 h5
    exact .inl (single _ (h2.trans h6) h7 (by simp))
  · obtain ⟨q, pq, h1, h2, h3, h4, h5⟩ := hs
    obtain ⟨s, h6, h7⟩ := sect q pq h4 h5
    exact .inl (single _ (h2.trans h6) h7 (by simp))

/-- The memory an object points to is in use exactly if it points into no opening that is over. -/
theorem usable_iff {w : Life} (h : WF w none) {o : Nat} {p : PyObj} (ho : w.objs o = some p) :
    p.cells.any w.freed = false ↔ Current w p := by
  rcases cells_of h ho with ⟨h1, h2⟩ | ⟨f, g, i, h1, h2, h3, h4, h5⟩
  · refine ⟨fun _ g hg => absurd hg (h2 g), fun _ => ?_⟩
    rw [List.any_eq_false]
    intro c hc
    rw [((h.cells c).mp (h1 c hc)).2]
    simp
  · have hfi := ((h.cells _).mp h2).2
    have hff := ((h.cells _).mp h3).2
    have : p.cells.any w.freed = w.freed (.opening g) := by
      rw [h1]
      simp [hfi, hff]
    rw [this]
    constructor
    · intro hg g' hm
      rw [h1] at hm
      have : g' = g := by simpa using hm
      subst this
      obtain ⟨f', hf⟩ := (h.cells (.opening g')).mpr ⟨h4, hg⟩
      rw [h5 f' hf] at hf
      exact ⟨f, by rw [h1]; simp, hf⟩
    · intro hfr
      obtain ⟨f', -, hf⟩ := hfr g (by rw [h1]; simp)
      exact ((h.cells (.opening g)).mp ⟨f', hf⟩).2

theorem lifeRun_wf {w : Life} (h : WF w none) (ops : List LifeOp) : WF (lifeRun w ops).2 none := by
  induction ops generalizing w with
  | nil => exact h
  | cons op ops ih => exact ih (lifeStep_wf h op).1

/-- A step does not end the opening an object points into, unless it closes the file. -/
theorem fresh_step {w : Life} (h : WF w none) {o : Nat} {p : PyObj}
    (hf : Current w p) (op : LifeOp) (hop : ∀ f, .file f ∈ p.cells → op ≠ .close f)
    (ho' : (lifeStep w op).2.objs o = some p) : Current (lifeStep w op).2 p := by
  obtain ⟨h', fr⟩ := lifeStep_wf h op
  intro g hg
  obtain ⟨f, hm, hfo⟩ := hf g hg
  refine ⟨f, hm, fr.opened f g hfo ?_ (hop f hm)⟩
  rcases cells_of h' ho' with ⟨h1, h2⟩ | ⟨f', g', i, h1, h2, ⟨pf, h3, -⟩, -⟩
  · exact absurd hg (h2 g)
  · have : f = f' := by
      rw [h1] at hm
      simpa using hm
    rw [this]
    exact ⟨pf, h3⟩

theorem fresh_run {w : Life} (h : WF w none) {o : Nat} {p : PyObj}
    (hst : (w.objs o = some p ∧ Current w p) ∨ (w.objs o = none ∧ o < w.next)) (ops : List LifeOp)
    (hop : ∀ f, .file f ∈ p.cells → .close f ∉ ops) :
    ((lifeRun w ops).2.objs o = some p ∧ Current (lifeRun w ops).2 p) ∨
      ((lifeRun w ops).2.objs o = none ∧ o < (lifeRun w ops).2.next) := by
  induction ops generalizing w with
  | nil => exact hst
  | cons op ops ih =>
    obtain ⟨h', fr⟩ := lifeStep_wf h op
    refine ih h' ?_ fun f hf hm => hop f hf (List.mem_cons_of_mem _ hm)
    have hlt : o < w.next := by
      rcases hst with ⟨h1, -⟩ | ⟨-, h1⟩
      · exact h.bound o p h1
      · exact h1
    cases ho' : (lifeStep w op).2.objs o with
    | none => exact .inr ⟨ho', Nat.lt_of_lt_of_le hlt fr.next⟩
    | some q =>
      rcases fr.objs o q ho' with hq | hq
      · rcases hst with ⟨h1, h2⟩ | ⟨h1, -⟩
        · rw [h1] at hq
          cases hq
          refine .inl ⟨ho', fresh_step h h2 op ?_ ho'⟩
          intro f hf he
          exact hop f hf (by rw [he]; exact List.mem_cons_self ..)
        · rw [h1] at hq; cases hq
      · omega

/-- Without a call to close, every object points into the current opening of its file. -/
theorem allFresh_step {w : Life} (h : WF w none) (hf : ∀ i p, w.objs i = some p → Current w p)
    (op : LifeOp) (hop : ∀ f, op ≠ .close f) :
    ∀ i p, (lifeStep w op).2.objs i = some p → Current (lifeStep w op).2 p := by
  obtain ⟨h', fr⟩ := lifeStep_wf h op
  intro i p hi
  rcases fr.objs i p hi with h1 | h1
  · exact fresh_step h (hf i p h1) op (fun f _ => hop f) hi
  -- a new object
  have new : ∀ q c, (∀ g, .opening g ∈ q.cells → ∃ f, .file f ∈ q.cells ∧ w.opened f = some g) →
      (newObj w q c).objs i = some p → Current (newObj w q c) p := by
    intro q c hq hi
    have key : (newObj w q c).objs = setAt w.objs w.next (some q) ∧
        (newObj w q c).opened = w.opened := by
      unfold newObj
      cases q.parent with
      | none => exact ⟨rfl, rfl⟩
      | some r => exact ⟨rfl, rfl⟩
    intro g hg
    rw [key.1] at hi
    rw [key.2]
    by_cases hx : i = w.next
    · rw [hx, setAt_same] at hi
      cases hi
      exact hq g hg
    · rw [setAt_ne _ _ hx] at hi
      exact absurd (h.bound i p hi) (by omega)
  have old : w.objs i = some p → False := fun ho => absurd (h.bound i p ho) (by omega)
  have call : ∀ o k, (callOn w o k).2.objs i = some p →
      (∀ r, w.objs o = some r → (k r).2.objs i = some p → Current (k r).2 p) →
      Current (callOn w o k).2 p := by
    intro o k hi hk
    unfold callOn at hi ⊢
    split at hi
    · exact absurd hi old
    · next hm =>
      rw [if_neg hm]
      cases ho : w.objs o with
      | none => rw [ho] at hi; exact absurd hi old
      | some r =>
        rw [ho] at hi
        dsimp only at hi ⊢
        split at hi
        · exact absurd hi old
        · next hc =>
          rw [if_neg hc]
          exact hk r ho hi
  cases op with
  | newFile =>
    refine new _ _ ?_ hi
    intro g hg
    simp at hg
  | openFile f =>
    refine call f _ hi fun r hr hi => ?_
    split at hi
    · exact absurd hi old
    · split at hi
      · exact absurd hi old
      · exact absurd hi old
  | close f => exact absurd rfl (hop f)
  | derive k o =>
    refine call o _ hi fun r hr hi => ?_
    cases hc : childOf w o r k with
    | none => rw [hc] at hi; exact absurd hi old
    | some qc =>
      obtain ⟨q, c⟩ := qc
      rw [hc] at hi
      refine new q c ?_ hi
      have sub : ∀ j r, w.objs j = some r → r.kind = .item →
          ∀ g, Cell.opening g ∈ (.item w.next :: r.cells.tail : List Cell) →
          ∃ f, Cell.file f ∈ (.item w.next :: r.cells.tail : List Cell) ∧ w.opened f = some g := by
        intro j r hj hk g hg
        have hs := h.shape j r hj
        unfold Shape at hs
        rw [hk] at hs
        obtain ⟨f, g', pf, -, h2, -⟩ := hs
        obtain ⟨f', h3, h4⟩ := hf j r hj g (by rw [h2] at hg ⊢; simpa using hg)
        exact ⟨f', by rw [h2] at h3 ⊢; simpa using h3, h4⟩
      have same : ∀ g, Cell.opening g ∈ r.cells →
          ∃ f, Cell.file f ∈ r.cells ∧ w.opened f = some g := hf o r hr
      unfold childOf at hc
      cases k with
      | file => cases hc
      | item =>
        dsimp only at hc
        cases hk : r.kind with
        | file =>
          rw [hk] at hc
          dsimp only at hc
          cases hg : w.opened o with
          | none => rw [hg] at hc; cases hc
          | some g =>
            rw [hg] at hc
            cases hc
            intro g' hm
            have : g' = g := by simpa using hm
            subst this
            exact ⟨o, by simp, hg⟩
        | item =>
          rw [hk] at hc
          cases hc
          exact sub o r hr hk
        | items =>
          rw [hk] at hc
          dsimp only at hc
          have hsh := h.shape o r hr
          unfold Shape at hsh
          rw [hk] at hsh
          obtain ⟨s, ps, h1, h2, h3, h4, h5⟩ := hsh
          rw [h1, Option.bind_some, h4] at hc
          cases hc
          exact sub s ps h4 h5
        | _ => rw [hk] at hc; cases hc
      | items => dsimp only at hc; split at hc <;> cases hc; exact same
      | set =>
        dsimp only at hc
        split at hc <;> cases hc
        intro g hg
        simp at hg
      | sections => dsimp only at hc; split at hc <;> cases hc; exact same
      | «section» => dsimp only at hc; split at hc <;> cases hc <;> exact same
      | values => dsimp only at hc; split at hc <;> cases hc; exact same
      | value => dsimp only at hc; split at hc <;> cases hc <;> exact same
  | use o => exact call o _ hi fun r hr hi => absurd hi old
  | keep o =>
    unfold lifeStep at hi
    dsimp only at hi
    split at hi
    · exact absurd hi old
    · exact absurd hi old
  | drop o =>
    have h2 := h'.bound i p hi
    unfold lifeStep at hi
    dsimp only at hi
    split at hi
    · exact absurd hi old
    · next hm =>
      rw [Decidable.not_not] at hm
      have hnext : (lifeStep w (.drop o)).2.next = w.next := by
        unfold lifeStep
        dsimp only
        rw [if_neg (by simpa using hm)]
        have h1 : WF { w with held := w.held.erase o } (some o) := by
          refine ⟨h.bound, ?_, ?_, h.pos, h.shape, h.openFile, h.openInj, h.cells, h.allocBound,
            h.freedAlloc, h.origin, h.good⟩
          · intro i hi
            exact h.heldLive i (List.mem_of_mem_erase hi)
          · intro i q hi
            have h1 := h.count i q hi
            rw [if_neg (by simp)] at h1
            dsimp only
            by_cases hio : i = o
            · subst hio
              rw [if_pos rfl, List.count_erase_self]
              have := List.count_pos_iff.mpr hm
              omega
            · rw [if_neg (fun he => hio (Option.some.inj he).symm), List.count_erase_of_ne hio]
              exact h1
        exact (decRef_wf (o + 1) o _ h1 (Nat.lt_succ_self _) (h.heldLive o hm)).2.next
      rw [hnext] at h2
      omega

end Olecf
