import Verif.Spec.Tree
import Verif.Lemmas.Directory

namespace Olecf
open Olecf.Spec

/-- A visited entry: the path of links from the root, the node it is inserted under, the
  entry. -/
structure Visit where
  path : List Link
  key : NodeKey
  entry : DirEntry

theorem dirLookup_find (list : List DirEntry) (id : Nat) :
    dirLookup list id = list.find? (fun x => x.id = id) := by
  induction list with
  | nil => rfl
  | cons d rest ih =>
    rw [dirLookup, List.find?_cons]
    by_cases h : d.id = id
    · simp [h]
    · simp [h, ih]

section
variable (list : List DirEntry) (cmp : Bytes → Bytes → Option Bool) (rid : Nat)

/-- The items a link gives rise to. -/
def linkWork (path : List Link) (P : Option NodeKey) (d : DirEntry) (k : Link) : List Visit :=
  match target list rid d k, P with
  | some c, some p => [⟨path ++ [k], p, c⟩]
  | _, _ => []

def work (path : List Link) (node : NodeKey) (P : Option NodeKey) (d : DirEntry) : List Visit :=
  linkWork list rid path (some node) d .sub ++
    (linkWork list rid path P d .prev ++ linkWork list rid path P d .next)

/-- The entries visited from a list of items, in order. -/
inductive Visits : List Visit → List Visit → Prop
  | nil : Visits [] []
  | cons {v : Visit} {rest es1 es2 : List Visit} : NextOk list rid v.entry →
      Visits (work list rid v.path (some v.entry.id) (some v.key) v.entry) es1 → Visits rest es2 →
      Visits (v :: rest) (v :: (es1 ++ es2))

def insertSorted (c : DirEntry) (l : List DirEntry) : List DirEntry := (insertUnique c l).getD l

def addVisit (st : TreeState) (v : Visit) : TreeState :=
  ⟨v.entry.id :: st.marks,
    fun k => if k = v.key then insertSorted v.entry (st.kids v.key) else st.kids k⟩

def addVisits (st : TreeState) (es : List Visit) : TreeState := es.foldl addVisit st

def Fresh (es : List Visit) (marks : List Nat) : Prop :=
  (es.map (·.entry.id)).Nodup ∧ ∀ v ∈ es, v.entry.id ∉ marks

structure TreeInv (st : TreeState) : Prop where
  sub : ∀ k, ∀ x ∈ st.kids k, x.id ∈ st.marks
  sorted : ∀ k, ((st.kids k).map (·.id)).Pairwise (· < ·)

def CmpOk (d : DirEntry) : Prop := summaryCheck cmp d = .ok ()

theorem insertUnique_some {c : DirEntry} : ∀ {l : List DirEntry}, (∀ x ∈ l, x.id ≠ c.id) →
    ∃ l', insertUnique c l = some l'
  | [], _ => ⟨[c], rfl⟩
  | d :: rest, h => by
    rw [insertUnique]
    have hd := h d (by simp)
    by_cases h1 : c.id < d.id
    · exact ⟨_, if_pos h1⟩
    · rw [if_neg h1, if_neg (fun h => hd h.symm)]
      obtain ⟨l', hl⟩ := insertUnique_some (c := c) (l := rest) fun x hx => h x (by simp [hx])
      rw [hl]; exact ⟨_, rfl⟩

theorem insertUnique_mem {c x : DirEntry} : ∀ {l l' : List DirEntry},
    insertUnique c l = some l' → (x ∈ l' ↔ x = c ∨ x ∈ l)
  | [], l', h => by cases h; simp
  | d :: rest, l', h => by
    rw [insertUnique] at h
    split at h
    · cases h; simp
    · split at h
      · cases h
      · split at h
        · next rest' hr =>
          cases h
          have := insertUnique_mem (x := x) hr
          simp only [List.mem_cons, this]
          constructor
          · rintro (h | h | h) <;> simp [h]
          · rintro (h | h | h) <;> simp [h]
        · cases h

theorem insertUnique_sorted {c : DirEntry} : ∀ {l l' : List DirEntry},
    (l.map (·.id)).Pairwise (· < ·) → insertUnique c l = some l' →
    (l'.map (·.id)).Pairwise (· < ·)
  | [], l', _, h => by cases h; simp
  | d :: rest, l', hs, h => by
    simp only [List.map_cons, List.pairwise_cons, List.mem_map, forall_exists_index, and_imp,
      forall_apply_eq_imp_iff₂] at hs
    rw [insertUnique] at h
    split at h
    · next hlt =>
      cases h
      simp only [List.map_cons, List.pairwise_cons, List.mem_cons, List.mem_map,
        forall_eq_or_imp, forall_exists_index, and_imp, forall_apply_eq_imp_iff₂]
      exact ⟨⟨hlt, fun a ha => Nat.lt_trans hlt (hs.1 a ha)⟩, hs⟩
    · next hlt =>
      split at h
      · cases h
      · next hne =>
        split at h
        · next rest' hr =>
          cases h
          have := insertUnique_sorted hs.2 hr
          simp only [List.map_cons, List.pairwise_cons, List.mem_map, forall_exists_index,
            and_imp, forall_apply_eq_imp_iff₂]
          refine ⟨fun a ha => ?_, this⟩
          rcases (insertUnique_mem hr).1 ha with rfl | ha
          · omega
          · exact hs.1 a ha
        · cases h

theorem addVisit_inv {st : TreeState} (h : TreeInv st) (v : Visit) : TreeInv (addVisit st v) := by
  constructor
  · intro k x hx
    simp only [addVisit] at hx ⊢
    by_cases hk : k = v.key
    · rw [if_pos hk] at hx
      unfold insertSorted at hx
      cases hi : insertUnique v.entry (st.kids v.key) with
      | none => rw [hi] at hx; exact List.mem_cons_of_mem _ (h.sub _ _ hx)
      | some l' =>
        rw [hi] at hx
        rcases (insertUnique_mem hi).1 hx with rfl | hx
        · simp
        · exact List.mem_cons_of_mem _ (h.sub _ _ hx)
    · rw [if_neg hk] at hx
      exact List.mem_cons_of_mem _ (h.sub _ _ hx)
  · intro k
    simp only [addVisit]
    by_cases hk : k = v.key
    · rw [if_pos hk]
      unfold insertSorted
      cases hi : insertUnique v.entry (st.kids v.key) with
      | none => exact h.sorted _
      | some l' => exact insertUnique_sorted (h.sorted _) hi
    · rw [if_neg hk]; exact h.sorted _

theorem addVisits_inv {es : List Visit} : ∀ {st : TreeState}, TreeInv st →
    TreeInv (addVisits st es) := by
  induction es with
  | nil => intro st h; exact h
  | cons v es ih => intro st h; exact ih (addVisit_inv h v)

theorem addVisits_append (st : TreeState) (a b : List Visit) :
    addVisits st (a ++ b) = addVisits (addVisits st a) b := by
  simp [addVisits]

theorem addVisits_marks (es : List Visit) : ∀ (st : TreeState) (i : Nat),
    i ∈ (addVisits st es).marks ↔ i ∈ es.map (·.entry.id) ∨ i ∈ st.marks := by
  induction es with
  | nil => intro st i; simp [addVisits]
  | cons v es ih =>
    intro st i
    rw [addVisits, List.foldl_cons]
    have := ih (addVisit st v) i
    rw [addVisits] at this
    rw [this]
    simp only [addVisit, List.mem_cons, List.map_cons]
    constructor
    · rintro (h | h | h) <;> simp [h]
    · rintro ((h | h) | h) <;> simp [h]

theorem Fresh_append {a b : List Visit} {st : TreeState} :
    Fresh (a ++ b) st.marks ↔ Fresh a st.marks ∧ Fresh b (addVisits st a).marks := by
  unfold Fresh
  simp only [addVisits_marks, List.map_append, List.nodup_append, List.mem_append]
  constructor
  · rintro ⟨⟨h1, h2, h3⟩, h4⟩
    refine ⟨⟨h1, fun v hv => h4 v (Or.inl hv)⟩, h2, fun v hv => ?_⟩
    rintro (h | h)
    · exact h3 _ h _ (List.mem_map_of_mem hv) rfl
    · exact h4 v (Or.inr hv) h
  · rintro ⟨⟨h1, h2⟩, h3, h4⟩
    refine ⟨⟨h1, h3, fun i hi j hj hij => ?_⟩, ?_⟩
    · subst hij
      rw [List.mem_map] at hj
      obtain ⟨v, hv, rfl⟩ := hj
      exact h4 v hv (Or.inl hi)
    · rintro v (hv | hv)
      · exact h2 v hv
      · exact fun h => h4 v hv (Or.inr h)

theorem Visits_append {w1 w2 es : List Visit} :
    Visits list rid (w1 ++ w2) es ↔
      ∃ es1 es2, es = es1 ++ es2 ∧ Visits list rid w1 es1 ∧ Visits list rid w2 es2 := by
  induction w1 generalizing es with
  | nil =>
    constructor
    · intro h; exact ⟨[], es, rfl, .nil, h⟩
    · rintro ⟨es1, es2, rfl, h1, h2⟩
      cases h1; exact h2
  | cons v w1 ih =>
    constructor
    · intro h
      rw [List.cons_append] at h
      cases h with
      | @cons _ _ a b hn h1 h2 =>
        obtain ⟨c, d, rfl, h3, h4⟩ := ih.1 h2
        exact ⟨v :: (a ++ c), d, by simp, .cons hn h1 h3, h4⟩
    · rintro ⟨es1, es2, rfl, h1, h2⟩
      cases h1 with
      | @cons _ _ a b hn h1 h3 =>
        have := ih.2 ⟨b, es2, rfl, h3, h2⟩
        have := Visits.cons hn h1 this
        simpa using this

/-- One link: the check, the insertion and the recursion. -/
def linkRun (fuel : Nat) (P : Option NodeKey) (o : Option DirEntry) (st : TreeState) :
    Res TreeState :=
  match o with
  | none => .ok st
  | some c => do
    let st ← attach P c st
    processEntry list cmp rid fuel (some c.id) P c st

instance (d : DirEntry) : Decidable (NextOk list rid d) := by
  unfold NextOk; infer_instance

theorem target_sub (d : DirEntry) : target list rid d .sub =
    if d.sub ≠ UNUSED ∧ d.sub ≠ 0 ∧ rid = 0 then dirLookup list d.sub else none := by
  simp only [target, linkUsed, linkId, dirLookup_find, UNUSED]; congr

theorem target_prev (d : DirEntry) : target list rid d .prev =
    if d.prev ≠ UNUSED then dirLookup list d.prev else none := by
  simp only [target, linkUsed, linkId, dirLookup_find, UNUSED]; congr

theorem target_next (d : DirEntry) : target list rid d .next =
    if d.next ≠ UNUSED then dirLookup list d.next else none := by
  simp only [target, linkUsed, linkId, dirLookup_find, UNUSED]; congr

theorem processEntry_eq (fuel : Nat) (node : NodeKey) (P : Option NodeKey) (d : DirEntry)
    (st : TreeState) :
    processEntry list cmp rid (fuel + 1) node P d st = (do
      summaryCheck cmp d
      let st ← linkRun list cmp rid fuel (some node) (target list rid d .sub) st
      let st ← linkRun list cmp rid fuel P (target list rid d .prev) st
      if NextOk list rid d then linkRun list cmp rid fuel P (target list rid d .next) st
      else .err) := by
  rw [processEntry]
  congr 1
  funext _
  congr 1
  · rw [target_sub]
    unfold linkRun
    split
    · cases dirLookup list d.sub <;> rfl
    · rfl
  funext st
  congr 1
  · rw [target_prev]
    unfold linkRun
    split
    · cases dirLookup list d.prev <;> rfl
    · rfl
  funext st
  have ht := target_next list rid d
  by_cases h : d.next = UNUSED
  · rw [if_neg (by simpa using h)] at ht
    rw [if_pos (show NextOk list rid d from Or.inl h), if_neg (by simpa using h), ht]
    rfl
  · rw [if_pos h] at ht
    rw [if_pos h, ht]
    cases hl : dirLookup list d.next with
    | none =>
      rw [if_neg]
      rintro (h' | h')
      · exact h h'
      · rw [ht, hl] at h'; cases h'
    | some c =>
      rw [if_pos (show NextOk list rid d from Or.inr (by rw [ht, hl]; rfl))]
      rfl

theorem attach_ok {P : Option NodeKey} {c : DirEntry} {st st' : TreeState} (hinv : TreeInv st) :
    attach P c st = .ok st' ↔
      ∃ p, P = some p ∧ c.id ∉ st.marks ∧ ∀ path, st' = addVisit st ⟨path, p, c⟩ := by
  unfold attach
  by_cases hm : c.id ∈ st.marks
  · rw [if_pos hm]
    constructor
    · intro h; cases h
    · rintro ⟨p, _, h, _⟩; exact absurd hm h
  · rw [if_neg hm]
    cases P with
    | none =>
      constructor
      · intro h; cases h
      · rintro ⟨p, h, _⟩; cases h
    | some p =>
      obtain ⟨l, hl⟩ := insertUnique_some (c := c) (l := st.kids p) fun x hx he =>
        hm (he ▸ hinv.sub p x hx)
      simp only [hl, Res.ok.injEq]
      have : ∀ path, addVisit st ⟨path, p, c⟩ =
          ⟨c.id :: st.marks, fun k => if k = p then l else st.kids k⟩ := by
        intro path
        simp [addVisit, insertSorted, hl]
      constructor
      · intro h
        exact ⟨p, rfl, hm, fun path => by rw [this, h]⟩
      · rintro ⟨p', hp, _, h⟩
        cases hp
        rw [h [], this]

theorem bind_ok {α β : Type} {x : Res α} {f : α → Res β} {b : β} :
    (x >>= f) = .ok b ↔ ∃ a, x = .ok a ∧ f a = .ok b := by
  cases x <;> simp

def LinkOk (P : Option NodeKey) (o : Option DirEntry) : Prop := o = none ∨ P ≠ none

/-- What a successful run of the recursion has done. -/
def RunOk (path : List Link) (node : NodeKey) (P : Option NodeKey) (d : DirEntry)
    (st st' : TreeState) (es : List Visit) : Prop :=
  CmpOk cmp d ∧ NextOk list rid d ∧ LinkOk P (target list rid d .prev) ∧
    LinkOk P (target list rid d .next) ∧ Visits list rid (work list rid path node P d) es ∧
    Fresh es st.marks ∧ (∀ v ∈ es, CmpOk cmp v.entry) ∧ st' = addVisits st es

def LinkRunOk (path : List Link) (P : Option NodeKey) (d : DirEntry) (k : Link)
    (st st' : TreeState) (es : List Visit) : Prop :=
  LinkOk P (target list rid d k) ∧ Visits list rid (linkWork list rid path P d k) es ∧
    Fresh es st.marks ∧ (∀ v ∈ es, CmpOk cmp v.entry) ∧ st' = addVisits st es

theorem Fresh_nil (marks : List Nat) : Fresh [] marks := by simp [Fresh]

theorem Fresh_cons {v : Visit} {es : List Visit} {st : TreeState} :
    Fresh (v :: es) st.marks ↔ v.entry.id ∉ st.marks ∧ Fresh es (addVisit st v).marks := by
  have := @Fresh_append [v] es st
  rw [List.singleton_append] at this
  rw [this]
  simp [Fresh, addVisits]

theorem linkRun_ok {fuel : Nat}
    (ih : ∀ path node P d st st', TreeInv st →
      processEntry list cmp rid fuel node P d st = .ok st' →
      ∃ es, RunOk list cmp rid path node P d st st' es)
    (path : List Link) {P : Option NodeKey} {d : DirEntry} {k : Link} {st st' : TreeState}
    (hinv : TreeInv st)
    (h : linkRun list cmp rid fuel P (target list rid d k) st = .ok st') :
    ∃ es, LinkRunOk list cmp rid path P d k st st' es := by
  unfold LinkRunOk linkWork
  cases ht : target list rid d k with
  | none =>
    rw [ht] at h
    cases h
    exact ⟨[], Or.inl rfl, .nil, Fresh_nil _, by simp, rfl⟩
  | some c =>
    rw [ht] at h
    simp only [linkRun, bind_ok] at h
    obtain ⟨st1, h1, h2⟩ := h
    obtain ⟨p, rfl, hm, hst⟩ := (attach_ok hinv).1 h1
    have hst := hst (path ++ [k])
    subst hst
    obtain ⟨es, hc, hn, _, _, hv, hf, hcs, rfl⟩ :=
      ih (path ++ [k]) (some c.id) (some p) c _ st' (addVisit_inv hinv _) h2
    refine ⟨⟨path ++ [k], p, c⟩ :: es, Or.inr (by simp), ?_, Fresh_cons.2 ⟨hm, hf⟩, ?_, rfl⟩
    · have := Visits.cons (list := list) (rid := rid) (v := ⟨path ++ [k], p, c⟩) hn hv Visits.nil
      simpa using this
    · intro v hv'
      rcases List.mem_cons.1 hv' with rfl | hv'
      · exact hc
      · exact hcs v hv'

theorem processEntry_sound : ∀ (fuel : Nat) (path : List Link) (node : NodeKey)
    (P : Option NodeKey) (d : DirEntry) (st st' : TreeState), TreeInv st →
    processEntry list cmp rid fuel node P d st = .ok st' →
    ∃ es, RunOk list cmp rid path node P d st st' es := by
  intro fuel
  induction fuel with
  | zero => intro path node P d st st' _ h; cases h
  | succ fuel ih =>
    intro path node P d st st' hinv h
    rw [processEntry_eq] at h
    simp only [bind_ok] at h
    obtain ⟨_, h0, st1, h1, st2, h2, h3⟩ := h
    obtain ⟨es1, a1, b1, c1, d1, rfl⟩ := linkRun_ok list cmp rid ih path hinv h1
    obtain ⟨es2, a2, b2, c2, d2, rfl⟩ := linkRun_ok list cmp rid ih path (addVisits_inv hinv) h2
    split at h3
    · next hn =>
      obtain ⟨es3, a3, b3, c3, d3, rfl⟩ :=
        linkRun_ok list cmp rid ih path (addVisits_inv (addVisits_inv hinv)) h3
      refine ⟨es1 ++ (es2 ++ es3), h0, hn, a2, a3, ?_, ?_, ?_, ?_⟩
      · unfold work
        rw [Visits_append]
        exact ⟨es1, es2 ++ es3, rfl, b1, (Visits_append _ _).2 ⟨es2, es3, rfl, b2, b3⟩⟩
      · rw [Fresh_append, Fresh_append]; exact ⟨c1, c2, c3⟩
      · intro v hv
        simp only [List.mem_append] at hv
        rcases hv with hv | hv | hv
        · exact d1 v hv
        · exact d2 v hv
        · exact d3 v hv
      · rw [addVisits_append, addVisits_append]
    · cases h3

theorem linkRun_complete {fuel : Nat}
    (ih : ∀ path node P d st st' es, TreeInv st → es.length < fuel →
      RunOk list cmp rid path node P d st st' es →
      processEntry list cmp rid fuel node P d st = .ok st')
    (path : List Link) {P : Option NodeKey} {d : DirEntry} {k : Link} {st st' : TreeState}
    {es : List Visit} (hinv : TreeInv st) (hlen : es.length < fuel + 1)
    (h : LinkRunOk list cmp rid path P d k st st' es) :
    linkRun list cmp rid fuel P (target list rid d k) st = .ok st' := by
  unfold LinkRunOk linkWork at h
  cases ht : target list rid d k with
  | none =>
    rw [ht] at h
    obtain ⟨_, h2, _, _, rfl⟩ := h
    cases h2
    rfl
  | some c =>
    rw [ht] at h
    obtain ⟨h1, h2, h3, h4, rfl⟩ := h
    cases P with
    | none => rcases h1 with h1 | h1 <;> simp at h1
    | some p =>
      simp only [] at h2
      cases h2 with
      | @cons _ _ es1 es2 hn hv hr =>
        cases hr
        rw [List.append_nil] at *
        rw [Fresh_cons] at h3
        simp only [linkRun, bind_ok]
        refine ⟨addVisit st ⟨path ++ [k], p, c⟩, (attach_ok hinv).2 ⟨p, rfl, h3.1, ?_⟩, ?_⟩
        · intro path'; rfl
        · refine ih (path ++ [k]) (some c.id) (some p) c _ _ es1 (addVisit_inv hinv _)
            (by simp at hlen; omega) ⟨?_, hn, Or.inr (by simp), Or.inr (by simp), hv, h3.2, ?_, rfl⟩
          · exact h4 ⟨path ++ [k], p, c⟩ (by simp)
          · intro v hv'; exact h4 v (by simp [hv'])

theorem processEntry_complete : ∀ (fuel : Nat) (path : List Link) (node : NodeKey)
    (P : Option NodeKey) (d : DirEntry) (st st' : TreeState) (es : List Visit), TreeInv st →
    es.length < fuel → RunOk list cmp rid path node P d st st' es →
    processEntry list cmp rid fuel node P d st = .ok st' := by
  intro fuel
  induction fuel with
  | zero => intro path node P d st st' es _ h _; omega
  | succ fuel ih =>
    intro path node P d st st' es hinv hlen h
    obtain ⟨h0, hn, hl2, hl3, hv, hf, hc, rfl⟩ := h
    unfold work at hv
    rw [Visits_append] at hv
    obtain ⟨es1, es23, rfl, hv1, hv23⟩ := hv
    rw [Visits_append] at hv23
    obtain ⟨es2, es3, rfl, hv2, hv3⟩ := hv23
    rw [Fresh_append, Fresh_append] at hf
    simp only [List.length_append] at hlen
    rw [processEntry_eq]
    simp only [bind_ok]
    refine ⟨(), h0, addVisits st es1, ?_, addVisits (addVisits st es1) es2, ?_, ?_⟩
    · exact linkRun_complete list cmp rid ih path (es := es1) hinv (by omega)
        ⟨Or.inr (by simp), hv1, hf.1, fun v hv => hc v (by simp [hv]), rfl⟩
    · exact linkRun_complete list cmp rid ih path (es := es2) (addVisits_inv hinv) (by omega)
        ⟨hl2, hv2, hf.2.1, fun v hv => hc v (by simp [hv]), rfl⟩
    · rw [if_pos hn, addVisits_append, addVisits_append]
      exact linkRun_complete list cmp rid ih path (es := es3)
        (addVisits_inv (addVisits_inv hinv)) (by omega)
        ⟨hl3, hv3, hf.2.2, fun v hv => hc v (by simp [hv]), rfl⟩

/-! ### Termination -/

/-- The number of entries that are not in the tree yet. -/
def unmarked (marks : List Nat) : Nat := (list.filter (fun x => x.id ∉ marks)).length

theorem unmarked_nil : unmarked list [] < list.length + 1 := by
  unfold unmarked
  have := List.length_filter_le (fun x : DirEntry => decide (x.id ∉ ([] : List Nat))) list
  omega

theorem unmarked_mono {m m' : List Nat} (h : ∀ i ∈ m, i ∈ m') :
    unmarked list m' ≤ unmarked list m := by
  unfold unmarked
  induction list with
  | nil => simp
  | cons x l ih =>
    simp only [List.filter_cons, decide_not]
    by_cases h1 : x.id ∈ m
    · simp [h1, h _ h1]; simpa using ih
    · by_cases h2 : x.id ∈ m'
      · simp [h1, h2]
        have := ih
        simp at this
        omega
      · simp [h1, h2]
        simpa using ih

theorem unmarked_lt {m : List Nat} {c : DirEntry} (hc : c ∈ list) (hm : c.id ∉ m) :
    unmarked list (c.id :: m) < unmarked list m := by
  unfold unmarked
  induction list with
  | nil => cases hc
  | cons x l ih =>
    have hle := unmarked_mono l (m := m) (m' := c.id :: m) (by simp_all)
    unfold unmarked at hle
    simp only [List.filter_cons]
    rcases List.mem_cons.1 hc with rfl | hc
    · simp [hm]
      simp at hle
      omega
    · have := ih hc
      by_cases h1 : x.id ∈ m
      · simp [h1]
        simpa using this
      · by_cases h2 : x.id = c.id
        · simp [h2, hm]
          simp at this
          omega
        · simp [h1, h2]
          simpa using this

theorem target_mem {d c : DirEntry} {k : Link} (h : target list rid d k = some c) :
    c ∈ list ∧ c.id = linkId d k := by
  unfold target at h
  split at h
  · have h1 := List.mem_of_find?_eq_some h
    have h2 := List.find?_some h
    exact ⟨h1, by simpa using h2⟩
  · cases h

theorem summaryCheck_cases (d : DirEntry) :
    summaryCheck cmp d = .ok () ∨ summaryCheck cmp d = .err := by
  unfold summaryCheck
  split
  · cases cmp docSummaryName d.name <;> simp
  · split
    · cases cmp summaryName d.name <;> simp
    · simp

theorem attach_cases (P : Option NodeKey) (c : DirEntry) (st : TreeState) :
    (∃ st', attach P c st = .ok st' ∧ c.id ∉ st.marks ∧ st'.marks = c.id :: st.marks) ∨
      attach P c st = .err := by
  unfold attach
  split
  · exact Or.inr rfl
  · next h =>
    split
    · exact Or.inr rfl
    · split
      · exact Or.inr rfl
      · exact Or.inl ⟨_, rfl, h, rfl⟩

/-- With more fuel than unmarked entries the recursion ends in success or error. -/
theorem processEntry_terminates : ∀ (fuel : Nat) (node : NodeKey) (P : Option NodeKey)
    (d : DirEntry) (st : TreeState), unmarked list st.marks < fuel →
    processEntry list cmp rid fuel node P d st = .err ∨
      ∃ st', processEntry list cmp rid fuel node P d st = .ok st' ∧
        ∀ i ∈ st.marks, i ∈ st'.marks := by
  intro fuel
  induction fuel with
  | zero => intro node P d st h; omega
  | succ fuel ih =>
    have link : ∀ (P : Option NodeKey) (d : DirEntry) (k : Link) (st : TreeState),
        unmarked list st.marks < fuel + 1 →
        linkRun list cmp rid fuel P (target list rid d k) st = .err ∨
        ∃ st', linkRun list cmp rid fuel P (target list rid d k) st = .ok st' ∧
          ∀ i ∈ st.marks, i ∈ st'.marks := by
      intro P d k st h
      unfold linkRun
      cases ht : target list rid d k with
      | none => exact Or.inr ⟨st, rfl, fun _ h => h⟩
      | some c =>
        simp only []
        rcases attach_cases P c st with ⟨st1, h1, h2, h3⟩ | h1
        · rw [h1]
          simp only [Res.ok_bind]
          have hlt := unmarked_lt list (target_mem list rid ht).1 h2
          rcases ih (some c.id) P c st1 (by rw [h3]; omega) with h4 | ⟨st', h4, h5⟩
          · exact Or.inl h4
          · exact Or.inr ⟨st', h4, fun i hi => h5 i (by rw [h3]; simp [hi])⟩
        · rw [h1]; exact Or.inl rfl
    intro node P d st h
    rw [processEntry_eq]
    rcases summaryCheck_cases cmp d with h0 | h0
    · rw [h0]
      simp only [Res.ok_bind]
      rcases link (some node) d .sub st h with h1 | ⟨st1, h1, m1⟩
      · rw [h1]; exact Or.inl rfl
      · rw [h1]
        simp only [Res.ok_bind]
        have u1 := unmarked_mono list m1
        rcases link P d .prev st1 (by omega) with h2 | ⟨st2, h2, m2⟩
        · rw [h2]; exact Or.inl rfl
        · rw [h2]
          simp only [Res.ok_bind]
          have u2 := unmarked_mono list m2
          split
          · rcases link P d .next st2 (by omega) with h3 | ⟨st3, h3, m3⟩
            · rw [h3]; exact Or.inl rfl
            · exact Or.inr ⟨st3, h3, fun i hi => m3 i (m2 i (m1 i hi))⟩
          · exact Or.inl rfl
    · rw [h0]; exact Or.inl rfl

/-! ### Visits and link paths -/

/-- The item a link of a visited item leads to. -/
def vnext (v : Visit) (k : Link) : Option Visit :=
  match target list rid v.entry k with
  | none => none
  | some c => some ⟨v.path ++ [k], if k = .sub then some v.entry.id else v.key, c⟩

def vreach : Visit → List Link → Option Visit
  | v, [] => some v
  | v, k :: ks => match vnext list rid v k with
    | some u => vreach u ks
    | none => none

theorem mem_work {v u : Visit} :
    u ∈ work list rid v.path (some v.entry.id) (some v.key) v.entry ↔
      ∃ k, vnext list rid v k = some u := by
  unfold work linkWork vnext
  simp only [List.mem_append]
  constructor
  · rintro (h | h | h)
    · refine ⟨.sub, ?_⟩
      cases ht : target list rid v.entry .sub <;> simp [ht] at h ⊢
      exact h.symm
    · refine ⟨.prev, ?_⟩
      cases ht : target list rid v.entry .prev <;> simp [ht] at h ⊢
      exact h.symm
    · refine ⟨.next, ?_⟩
      cases ht : target list rid v.entry .next <;> simp [ht] at h ⊢
      exact h.symm
  · rintro ⟨k, h⟩
    cases k
    · refine Or.inl ?_
      cases ht : target list rid v.entry .sub <;> simp [ht] at h ⊢
      exact h.symm
    · refine Or.inr (Or.inl ?_)
      cases ht : target list rid v.entry .prev <;> simp [ht] at h ⊢
      exact h.symm
    · refine Or.inr (Or.inr ?_)
      cases ht : target list rid v.entry .next <;> simp [ht] at h ⊢
      exact h.symm

theorem Visits_mem {w es : List Visit} (h : Visits list rid w es) (x : Visit) :
    x ∈ es ↔ ∃ u ∈ w, ∃ ks, vreach list rid u ks = some x := by
  induction h with
  | nil => simp
  | @cons v rest es1 es2 hn _ _ ih1 ih2 =>
    simp only [List.mem_cons, List.mem_append, ih1, ih2]
    constructor
    · rintro (rfl | ⟨u, hu, ks, h⟩ | ⟨u, hu, ks, h⟩)
      · exact ⟨x, Or.inl rfl, [], rfl⟩
      · obtain ⟨k, hk⟩ := (mem_work list rid).1 hu
        exact ⟨v, Or.inl rfl, k :: ks, by simp only [vreach, hk]; exact h⟩
      · exact ⟨u, Or.inr hu, ks, h⟩
    · rintro ⟨u, rfl | hu, ks, h⟩
      · cases ks with
        | nil => cases h; exact Or.inl rfl
        | cons k ks =>
          simp only [vreach] at h
          cases hk : vnext list rid u k with
          | none => simp [hk] at h
          | some u' =>
            rw [hk] at h
            exact Or.inr (Or.inl ⟨u', (mem_work list rid).2 ⟨k, hk⟩, ks, h⟩)
      · exact Or.inr (Or.inr ⟨u, hu, ks, h⟩)

theorem Visits_next {w es : List Visit} (h : Visits list rid w es) :
    ∀ v ∈ es, NextOk list rid v.entry := by
  induction h with
  | nil => simp
  | @cons v rest es1 es2 hn _ _ ih1 ih2 =>
    intro x hx
    simp only [List.mem_cons, List.mem_append] at hx
    rcases hx with rfl | hx | hx
    · exact hn
    · exact ih1 x hx
    · exact ih2 x hx

theorem vreach_reach : ∀ (ks : List Link) (u x : Visit), vreach list rid u ks = some x →
    reach list rid u.entry ks = some x.entry ∧ x.path = u.path ++ ks
  | [], u, x, h => by cases h; simp [reach]
  | k :: ks, u, x, h => by
    simp only [vreach] at h
    cases hk : vnext list rid u k with
    | none => simp [hk] at h
    | some u' =>
      rw [hk] at h
      obtain ⟨h1, h2⟩ := vreach_reach ks u' x h
      unfold vnext at hk
      cases ht : target list rid u.entry k with
      | none => simp [ht] at hk
      | some c =>
        simp only [ht, Option.some.injEq] at hk
        subst hk
        constructor
        · simp only [reach, ht]; exact h1
        · rw [h2]; simp

theorem reach_vreach : ∀ (ks : List Link) (u : Visit) (e : DirEntry),
    reach list rid u.entry ks = some e → ∃ x, vreach list rid u ks = some x ∧ x.entry = e
  | [], u, e, h => by cases h; exact ⟨u, rfl, rfl⟩
  | k :: ks, u, e, h => by
    simp only [reach] at h
    cases ht : target list rid u.entry k with
    | none => simp [ht] at h
    | some c =>
      rw [ht] at h
      obtain ⟨x, h1, h2⟩ := reach_vreach ks
        ⟨u.path ++ [k], if k = .sub then some u.entry.id else u.key, c⟩ e h
      exact ⟨x, by simp only [vreach, vnext, ht]; exact h1, h2⟩

theorem reach_append : ∀ (p q : List Link) (d : DirEntry),
    reach list rid d (p ++ q) = (reach list rid d p).bind fun c => reach list rid c q
  | [], q, d => rfl
  | k :: p, q, d => by
    simp only [List.cons_append, reach]
    cases target list rid d k with
    | none => rfl
    | some c => exact reach_append p q c

theorem vreach_append : ∀ (p q : List Link) (d : Visit),
    vreach list rid d (p ++ q) = (vreach list rid d p).bind fun c => vreach list rid c q
  | [], q, d => rfl
  | k :: p, q, d => by
    simp only [List.cons_append, vreach]
    cases vnext list rid d k with
    | none => rfl
    | some c => exact vreach_append p q c

/-- The key along sibling links is kept. -/
theorem vreach_key_sib : ∀ (ks : List Link) (u x : Visit), .sub ∉ ks →
    vreach list rid u ks = some x → x.key = u.key
  | [], u, x, _, h => by cases h; rfl
  | k :: ks, u, x, hs, h => by
    simp only [List.mem_cons, not_or] at hs
    simp only [vreach] at h
    cases hk : vnext list rid u k with
    | none => simp [hk] at h
    | some u' =>
      rw [hk] at h
      rw [vreach_key_sib ks u' x hs.2 h]
      unfold vnext at hk
      cases ht : target list rid u.entry k with
      | none => simp [ht] at hk
      | some c =>
        simp only [ht, Option.some.injEq] at hk
        subst hk
        rw [if_neg (fun h => hs.1 h.symm)]

/-- Where the key of a reached item comes from. -/
theorem vreach_key (ks : List Link) : ∀ (u x : Visit), vreach list rid u ks = some x →
    (.sub ∉ ks ∧ x.key = u.key) ∨
    ∃ p q v, ks = p ++ .sub :: q ∧ .sub ∉ q ∧ vreach list rid u p = some v ∧
      x.key = some v.entry.id := by
  induction ks with
  | nil => intro u x h; cases h; exact Or.inl ⟨by simp, rfl⟩
  | cons k ks ih =>
    intro u x h
    have h' := h
    simp only [vreach] at h
    cases hk : vnext list rid u k with
    | none => simp [hk] at h
    | some u' =>
      rw [hk] at h
      rcases ih u' x h with ⟨hs, hkey⟩ | ⟨p, q, v, rfl, hq, hv, hkey⟩
      · by_cases hks : k = .sub
        · subst hks
          refine Or.inr ⟨[], ks, u, rfl, hs, rfl, ?_⟩
          rw [hkey]
          unfold vnext at hk
          cases ht : target list rid u.entry .sub with
          | none => simp [ht] at hk
          | some c =>
            simp only [ht, Option.some.injEq] at hk
            subst hk
            simp
        · have hs' : Link.sub ∉ k :: ks := by
            simp only [List.mem_cons, not_or]; exact ⟨fun h => hks h.symm, hs⟩
          exact Or.inl ⟨hs', vreach_key_sib list rid _ _ _ hs' h'⟩
      · exact Or.inr ⟨k :: p, q, v, rfl, hq, by simp only [vreach, hk]; exact hv, hkey⟩

theorem reach_mem : ∀ (ks : List Link) (d e : DirEntry), reach list rid d ks = some e → d ∈ list →
    e ∈ list
  | [], d, e, h, hd => by cases h; exact hd
  | k :: ks, d, e, h, _ => by
    simp only [reach] at h
    cases ht : target list rid d k with
    | none => simp [ht] at h
    | some c =>
      rw [ht] at h
      exact reach_mem ks c e h (target_mem list rid ht).1

/-! ### Children -/

theorem addVisits_kids (es : List Visit) : ∀ (st : TreeState), TreeInv st → Fresh es st.marks →
    ∀ (k : NodeKey) (x : DirEntry),
    x ∈ (addVisits st es).kids k ↔ x ∈ st.kids k ∨ ∃ v ∈ es, v.key = k ∧ v.entry = x := by
  induction es with
  | nil => intro st _ _ k x; simp [addVisits]
  | cons v es ih =>
    intro st hinv hf k x
    rw [Fresh_cons] at hf
    have h1 := ih (addVisit st v) (addVisit_inv hinv v) hf.2 k x
    rw [show addVisits st (v :: es) = addVisits (addVisit st v) es from rfl, h1]
    obtain ⟨l, hl⟩ := insertUnique_some (c := v.entry) (l := st.kids v.key) fun y hy he =>
      hf.1 (he ▸ hinv.sub _ y hy)
    have h2 : x ∈ (addVisit st v).kids k ↔ x ∈ st.kids k ∨ (v.key = k ∧ v.entry = x) := by
      simp only [addVisit, insertSorted, hl, Option.getD_some]
      by_cases hk : k = v.key
      · subst hk
        rw [if_pos rfl, insertUnique_mem hl]
        constructor
        · rintro (h | h)
          · exact Or.inr ⟨rfl, h.symm⟩
          · exact Or.inl h
        · rintro (h | ⟨_, h⟩)
          · exact Or.inr h
          · exact Or.inl h.symm
      · rw [if_neg hk]
        constructor
        · exact Or.inl
        · rintro (h | ⟨h, _⟩)
          · exact h
          · exact absurd h.symm hk
    rw [h2]
    simp only [List.mem_cons, exists_eq_or_imp]
    constructor
    · rintro ((h | h) | h)
      · exact Or.inl h
      · exact Or.inr (Or.inl h)
      · exact Or.inr (Or.inr h)
    · rintro (h | h | h)
      · exact Or.inl (Or.inl h)
      · exact Or.inl (Or.inr h)
      · exact Or.inr h

/-! ### Existence of the visits when link paths are unique -/

theorem Visits_exists {root : DirEntry}
    (hnext : ∀ p a, reach list rid root p = some a → NextOk list rid a)
    (hlen : ∀ p a, reach list rid root p = some a → p.length ≤ list.length) :
    ∀ (n : Nat) (w : List Visit),
      (∀ v ∈ w, reach list rid root v.path = some v.entry ∧ list.length < v.path.length + n) →
      ∃ es, Visits list rid w es := by
  intro n
  induction n with
  | zero =>
    intro w hw
    cases w with
    | nil => exact ⟨[], .nil⟩
    | cons v rest =>
      have h := hw v (by simp)
      have := hlen _ _ h.1
      omega
  | succ n ih =>
    intro w
    induction w with
    | nil => intro _; exact ⟨[], .nil⟩
    | cons v rest ihw =>
      intro hw
      obtain ⟨es2, h2⟩ := ihw fun u hu => hw u (by simp [hu])
      have hv := hw v (by simp)
      obtain ⟨es1, h1⟩ := ih (work list rid v.path (some v.entry.id) (some v.key) v.entry) (by
        intro u hu
        obtain ⟨k, hk⟩ := (mem_work list rid).1 hu
        have := vreach_reach list rid [k] v u (by simp [vreach, hk])
        rw [this.2, reach_append, hv.1]
        refine ⟨this.1, ?_⟩
        simp only [List.length_append, List.length_singleton]
        omega)
      exact ⟨_, .cons (hnext _ _ hv.1) h1 h2⟩

/-- No path is a prefix of another one. -/
def PrefixFree (ps : List (List Link)) : Prop :=
  ps.Pairwise fun a b => ¬ a <+: b ∧ ¬ b <+: a

theorem work_prefixFree (path : List Link) (n : NodeKey) (P : Option NodeKey) (d : DirEntry) :
    PrefixFree ((work list rid path n P d).map (·.path)) := by
  have key : ∀ a b : Link, a ≠ b → ¬ (path ++ [a]) <+: (path ++ [b]) := by
    intro a b hab h
    have := h.eq_of_length (by simp)
    simp at this
    exact hab this
  have hl : ∀ Q k, (linkWork list rid path Q d k).map (·.path) = [] ∨
      (linkWork list rid path Q d k).map (·.path) = [path ++ [k]] := by
    intro Q k
    unfold linkWork
    split <;> simp
  unfold PrefixFree work
  simp only [List.map_append]
  rcases hl (some n) .sub with h1 | h1 <;> rcases hl P .prev with h2 | h2 <;>
    rcases hl P .next with h3 | h3 <;> rw [h1, h2, h3] <;>
    simp [key]

theorem Visits_paths {w es : List Visit} (h : Visits list rid w es)
    (hp : PrefixFree (w.map (·.path))) : (es.map (·.path)).Nodup := by
  induction h with
  | nil => simp
  | @cons v rest es1 es2 hn hv1 hv2 ih1 ih2 =>
    have hp' := hp
    unfold PrefixFree at hp
    simp only [List.map_cons, List.pairwise_cons, List.mem_map, forall_exists_index, and_imp,
      forall_apply_eq_imp_iff₂] at hp
    have pre1 : ∀ x ∈ es1, ∃ k ks, x.path = v.path ++ k :: ks := by
      intro x hx
      obtain ⟨u, hu, ks, h⟩ := (Visits_mem list rid hv1 x).1 hx
      obtain ⟨k, hk⟩ := (mem_work list rid).1 hu
      have h1 := (vreach_reach list rid ks u x h).2
      have h2 := (vreach_reach list rid [k] v u (by simp [vreach, hk])).2
      exact ⟨k, ks, by rw [h1, h2]; simp⟩
    have pre2 : ∀ x ∈ es2, ∃ u ∈ rest, u.path <+: x.path := by
      intro x hx
      obtain ⟨u, hu, ks, h⟩ := (Visits_mem list rid hv2 x).1 hx
      exact ⟨u, hu, ks, (vreach_reach list rid ks u x h).2.symm⟩
    simp only [List.map_cons, List.map_append, List.nodup_cons, List.mem_append, List.mem_map,
      not_or, not_exists, not_and, List.nodup_append]
    refine ⟨⟨?_, ?_⟩, ih1 (work_prefixFree list rid _ _ _ _), ih2 hp.2, ?_⟩
    · intro x hx he
      obtain ⟨k, ks, h⟩ := pre1 x hx
      rw [he] at h
      have := congrArg List.length h
      simp at this
    · intro x hx he
      obtain ⟨u, hu, h⟩ := pre2 x hx
      rw [he] at h
      exact (hp.1 u hu).2 h
    · rintro _ ⟨x, hx, rfl⟩ _ ⟨y, hy, rfl⟩ he
      obtain ⟨k, ks, h⟩ := pre1 x hx
      obtain ⟨u, hu, h'⟩ := pre2 y hy
      rw [← he] at h'
      have hv : v.path <+: x.path := ⟨_, h.symm⟩
      rcases List.prefix_or_prefix_of_prefix hv h' with h'' | h''
      · exact (hp.1 u hu).1 h''
      · exact (hp.1 u hu).2 h''

/-! ### The whole tree -/

/-- What a successful run over a directory with the given root means. -/
theorem run_iff {root : DirEntry} {st' : TreeState} :
    processEntry list cmp rid (list.length + 1) none none root ⟨[], fun _ => []⟩ = .ok st' ↔
      ∃ es, RunOk list cmp rid [] none none root ⟨[], fun _ => []⟩ st' es := by
  have hinv : TreeInv ⟨[], fun _ => []⟩ := ⟨by simp, by simp⟩
  constructor
  · exact processEntry_sound list cmp rid _ [] _ _ _ _ _ hinv
  · rintro ⟨es, h⟩
    refine processEntry_complete list cmp rid _ [] _ _ _ _ _ es hinv ?_ h
    obtain ⟨_, _, _, _, hv, hf, _, _⟩ := h
    have h1 : (es.map (·.entry.id)).length ≤ (list.map (·.id)).length := by
      refine hf.1.length_le_of_subset ?_
      intro i hi
      rw [List.mem_map] at hi
      obtain ⟨v, hv', rfl⟩ := hi
      obtain ⟨u, hu, ks, hr⟩ := (Visits_mem list rid hv v).1 hv'
      have hul : u.entry ∈ list := by
        unfold work linkWork at hu
        simp only [List.mem_append] at hu
        rcases hu with hu | hu | hu <;> split at hu <;> simp at hu <;> subst hu <;>
          exact (target_mem list rid (by assumption)).1
      exact List.mem_map_of_mem (reach_mem list rid ks _ _ (vreach_reach list rid ks u v hr).1 hul)
    simp only [List.length_map] at h1
    omega

/-- The start of the visits at the root. -/
def start0 (c : DirEntry) : Visit := ⟨[.sub], none, c⟩

theorem root_work (root : DirEntry) :
    work list rid [] none none root =
      (match target list rid root .sub with | some c => [start0 c] | none => []) := by
  unfold work linkWork start0
  cases target list rid root .sub <;> simp

/-- The visits from the root are the nonempty link paths. -/
theorem root_visits {root : DirEntry} {es : List Visit}
    (hp : target list rid root .prev = none) (hn : target list rid root .next = none)
    (hv : Visits list rid (work list rid [] none none root) es) :
    (∀ x ∈ es, reach list rid root x.path = some x.entry ∧ x.path ≠ []) ∧
    (∀ p a, p ≠ [] → reach list rid root p = some a → ∃ x ∈ es, x.path = p ∧ x.entry = a) := by
  rw [root_work] at hv
  constructor
  · intro x hx
    obtain ⟨u, hu, ks, hr⟩ := (Visits_mem list rid hv x).1 hx
    cases ht : target list rid root .sub with
    | none => rw [ht] at hu; cases hu
    | some c =>
      rw [ht] at hu
      simp only [List.mem_singleton] at hu
      subst hu
      obtain ⟨h1, h2⟩ := vreach_reach list rid ks _ x hr
      rw [h2]
      simp only [start0, List.singleton_append, reach, ht]
      exact ⟨h1, by simp⟩
  · intro p a hne h
    cases p with
    | nil => exact absurd rfl hne
    | cons k ks =>
      simp only [reach] at h
      cases k with
      | prev => simp [hp] at h
      | next => simp [hn] at h
      | sub =>
        cases ht : target list rid root .sub with
        | none => simp [ht] at h
        | some c =>
          rw [ht] at h
          obtain ⟨x, h1, h2⟩ := reach_vreach list rid ks (start0 c) a h
          refine ⟨x, (Visits_mem list rid hv x).2 ⟨start0 c, by simp [ht], ks, h1⟩, ?_, h2⟩
          rw [(vreach_reach list rid ks _ x h1).2]
          rfl

theorem nodup_map_inj {α β : Type} {f : α → β} : ∀ {l : List α}, (l.map f).Nodup →
    ∀ {a b : α}, a ∈ l → b ∈ l → f a = f b → a = b
  | [], _, _, _, h, _, _ => by cases h
  | x :: l, hnd, a, b, ha, hb, he => by
    simp only [List.map_cons, List.nodup_cons, List.mem_map, not_exists, not_and] at hnd
    rcases List.mem_cons.1 ha with h1 | h1 <;> rcases List.mem_cons.1 hb with h2 | h2
    · rw [h1, h2]
    · subst h1; exact absurd he.symm (hnd.1 b h2)
    · subst h2; exact absurd he (hnd.1 a h1)
    · exact nodup_map_inj hnd.2 h1 h2 he

/-- Success of the recursion, in terms of the link graph. -/
theorem run_graph_iff {root : DirEntry} (hroot : root ∈ list)
    (hnd : (list.map (·.id)).Nodup) :
    (∃ st', processEntry list cmp rid (list.length + 1) none none root ⟨[], fun _ => []⟩ = .ok st') ↔
      (∀ p q a b, reach list rid root p = some a → reach list rid root q = some b →
        a.id = b.id → p = q) ∧
      (∀ p a, reach list rid root p = some a → NextOk list rid a) ∧
      target list rid root .prev = none ∧ target list rid root .next = none ∧
      (∀ p a, reach list rid root p = some a → CmpOk cmp a) := by
  have hinv : TreeInv ⟨[], fun _ => []⟩ := ⟨by simp, by simp⟩
  constructor
  · rintro ⟨st', h⟩
    rw [run_iff list cmp rid] at h
    obtain ⟨es, hc, hn, hlp, hln, hv, hf, hcs, _⟩ := h
    have hp' : target list rid root .prev = none := by
      rcases hlp with h | h
      · exact h
      · exact absurd rfl h
    have hn' : target list rid root .next = none := by
      rcases hln with h | h
      · exact h
      · exact absurd rfl h
    obtain ⟨v1, v2⟩ := root_visits list rid hp' hn' hv
    have uniq : ∀ p q a b, p ≠ [] → q ≠ [] → reach list rid root p = some a →
        reach list rid root q = some b → a.id = b.id → p = q := by
      intro p q a b hp hq ha hb hab
      obtain ⟨x, hx, rfl, rfl⟩ := v2 p a hp ha
      obtain ⟨y, hy, rfl, rfl⟩ := v2 q b hq hb
      rw [nodup_map_inj hf.1 hx hy hab]
    have noloop : ∀ q b, q ≠ [] → reach list rid root q = some b → b.id ≠ root.id := by
      intro q b hq hb he
      have hbr : b = root := nodup_map_inj hnd (reach_mem list rid q _ _ hb hroot) hroot he
      subst hbr
      have h2 : reach list rid b (q ++ q) = some b := by
        rw [reach_append, hb]; exact hb
      have := uniq q (q ++ q) b b hq (by simp [hq]) hb h2 rfl
      have := congrArg List.length this
      simp at this
      exact hq this
    refine ⟨?_, ?_, hp', hn', ?_⟩
    · intro p q a b ha hb hab
      by_cases hp : p = []
      · by_cases hq : q = []
        · rw [hp, hq]
        · subst hp
          cases ha
          exact absurd hab.symm (noloop q b hq hb)
      · by_cases hq : q = []
        · subst hq
          cases hb
          exact absurd hab (noloop p a hp ha)
        · exact uniq p q a b hp hq ha hb hab
    · intro p a ha
      by_cases hp : p = []
      · subst hp; cases ha; exact hn
      · obtain ⟨x, hx, rfl, rfl⟩ := v2 p a hp ha
        exact Visits_next list rid hv x hx
    · intro p a ha
      by_cases hp : p = []
      · subst hp; cases ha; exact hc
      · obtain ⟨x, hx, rfl, rfl⟩ := v2 p a hp ha
        exact hcs x hx
  · rintro ⟨huniq, hnext, hp', hn', hcmp⟩
    -- the entries along a path are distinct, so paths are no longer than the list
    have hlen : ∀ p a, reach list rid root p = some a → p.length ≤ list.length := by
      intro p a ha
      have hpre : ∀ i, i ≤ p.length → ∃ e, reach list rid root (p.take i) = some e := by
        intro i hi
        have h := ha
        rw [← List.take_append_drop i p, reach_append] at h
        cases hr : reach list rid root (p.take i) with
        | none => rw [hr] at h; cases h
        | some e => exact ⟨e, rfl⟩
      let ids := (List.range (p.length + 1)).map fun i =>
        ((reach list rid root (p.take i)).getD root).id
      have hids : ids.Nodup := by
        unfold List.Nodup
        rw [List.pairwise_map]
        refine List.Pairwise.imp_of_mem ?_ List.nodup_range
        intro i j hi hj hij he
        simp only [List.mem_range] at hi hj
        obtain ⟨e, h1⟩ := hpre i (by omega)
        obtain ⟨f, h2⟩ := hpre j (by omega)
        rw [h1, h2] at he
        have := congrArg List.length (huniq _ _ _ _ h1 h2 he)
        simp only [List.length_take] at this
        omega
      have hsub : ids ⊆ list.map (·.id) := by
        intro i hi
        simp only [ids, List.mem_map, List.mem_range] at hi
        obtain ⟨j, hj, rfl⟩ := hi
        obtain ⟨e, h1⟩ := hpre j (by omega)
        rw [h1]
        exact List.mem_map_of_mem (reach_mem list rid _ _ _ h1 hroot)
      have := hids.length_le_of_subset hsub
      simp [ids] at this
      omega
    obtain ⟨es, hv⟩ := Visits_exists list rid hnext hlen (list.length + 1)
      (work list rid [] none none root) (by
        intro v hv
        rw [root_work] at hv
        cases ht : target list rid root .sub with
        | none => rw [ht] at hv; cases hv
        | some c =>
          rw [ht] at hv
          simp only [List.mem_singleton] at hv
          subst hv
          simp only [start0, reach, ht, List.length_singleton]
          exact ⟨trivial, by omega⟩)
    obtain ⟨v1, v2⟩ := root_visits list rid hp' hn' hv
    have hpaths := Visits_paths list rid hv (work_prefixFree list rid _ _ _ _)
    refine ⟨addVisits ⟨[], fun _ => []⟩ es, (run_iff list cmp rid).2
      ⟨es, hcmp [] root rfl, hnext [] root rfl, Or.inl hp', Or.inl hn', hv, ⟨?_, by simp⟩, ?_, rfl⟩⟩
    · unfold List.Nodup at hpaths ⊢
      rw [List.pairwise_map] at hpaths ⊢
      refine hpaths.imp_of_mem ?_
      intro x y hx hy hxy he
      exact hxy (huniq _ _ _ _ (v1 x hx).1 (v1 y hy).1 he)
    · intro v hv'
      exact hcmp _ _ (v1 v hv').1

/-- The children in the final state. -/
theorem run_kids {root : DirEntry} {st' : TreeState} (hroot : root ∈ list)
    (hnd : (list.map (·.id)).Nodup)
    (h : processEntry list cmp rid (list.length + 1) none none root ⟨[], fun _ => []⟩ = .ok st') :
    TreeInv st' ∧
    (∀ x, x ∈ st'.kids none ↔ LinkedUnder list rid root x) ∧
    (∀ p d, p ≠ [] → reach list rid root p = some d →
      ∀ x, x ∈ st'.kids (some d.id) ↔ LinkedUnder list rid d x) ∧
    (∀ k k' x y, x ∈ st'.kids k → y ∈ st'.kids k' → x.id = y.id → k = k' ∧ x = y) ∧
    (∀ k x, x ∈ st'.kids k → ∃ p, p ≠ [] ∧ reach list rid root p = some x) := by
  have hgraph := (run_graph_iff list cmp rid hroot hnd).1 ⟨st', h⟩
  obtain ⟨huniq, -, hp', hn', -⟩ := hgraph
  rw [run_iff list cmp rid] at h
  have hinv : TreeInv ⟨[], fun _ => []⟩ := ⟨by simp, by simp⟩
  obtain ⟨es, -, -, -, -, hv, hf, -, rfl⟩ := h
  obtain ⟨v1, v2⟩ := root_visits list rid hp' hn' hv
  have hk : ∀ k x, x ∈ (addVisits ⟨[], fun _ => []⟩ es).kids k ↔
      ∃ v ∈ es, v.key = k ∧ v.entry = x := by
    intro k x
    rw [addVisits_kids es _ hinv hf]
    simp
  have hmem : ∀ x, x ∈ es ↔ ∃ c, target list rid root .sub = some c ∧
      ∃ ks, vreach list rid (start0 c) ks = some x := by
    intro x
    rw [root_work] at hv
    rw [Visits_mem list rid hv]
    cases target list rid root .sub <;> simp
  refine ⟨addVisits_inv hinv, ?_, ?_, ?_, ?_⟩
  · intro x
    rw [hk]
    constructor
    · rintro ⟨v, hv', hkey, rfl⟩
      obtain ⟨c, hc, ks, hr⟩ := (hmem v).1 hv'
      rcases vreach_key list rid ks _ _ hr with ⟨hs, _⟩ | ⟨p, q, u, _, _, _, hk'⟩
      · exact ⟨c, hc, ks, hs, (vreach_reach list rid ks _ _ hr).1⟩
      · rw [hkey] at hk'; cases hk'
    · rintro ⟨c, hc, ks, hs, hr⟩
      obtain ⟨v, h1, h2⟩ := reach_vreach list rid ks (start0 c) x hr
      exact ⟨v, (hmem v).2 ⟨c, hc, ks, h1⟩, vreach_key_sib list rid ks _ _ hs h1, h2⟩
  · intro p d hp hd x
    rw [hk]
    constructor
    · rintro ⟨v, hv', hkey, rfl⟩
      obtain ⟨c, hc, ks, hr⟩ := (hmem v).1 hv'
      rcases vreach_key list rid ks _ _ hr with ⟨_, hk'⟩ | ⟨p', q, u, rfl, hq, hu, hk'⟩
      · rw [hkey] at hk'; cases hk'
      · rw [hkey] at hk'
        have hid : d.id = u.entry.id := Option.some.inj hk'
        have hu1 := (vreach_reach list rid p' _ _ hu)
        have hur := (v1 u ((hmem u).2 ⟨c, hc, p', hu⟩)).1
        have := huniq _ _ _ _ hd hur hid
        subst this
        rw [hd] at hur
        have hdu : d = u.entry := Option.some.inj hur
        subst hdu
        rw [vreach_append, hu] at hr
        have hr' := (vreach_reach list rid _ _ _ hr).1
        simp only [reach] at hr'
        cases ht : target list rid u.entry .sub with
        | none => simp [ht] at hr'
        | some e =>
          rw [ht] at hr'
          exact ⟨e, ht, q, hq, hr'⟩
    · rintro ⟨e, he, ks, hs, hr⟩
      obtain ⟨u, hu, hup, hue⟩ := v2 p d hp hd
      subst hue
      obtain ⟨c, hc, qs, hq⟩ := (hmem u).1 hu
      have hr' : reach list rid u.entry (.sub :: ks) = some x := by
        simp only [reach, he]; exact hr
      obtain ⟨v, h1, h2⟩ := reach_vreach list rid _ u x hr'
      refine ⟨v, (hmem v).2 ⟨c, hc, qs ++ .sub :: ks, ?_⟩, ?_, h2⟩
      · rw [vreach_append, hq]; exact h1
      · simp only [vreach, vnext, he] at h1
        rw [vreach_key_sib list rid ks _ _ hs h1]
        simp
  · intro k k' x y hx hy hxy
    rw [hk] at hx hy
    obtain ⟨v, hv1, rfl, rfl⟩ := hx
    obtain ⟨w, hw1, rfl, rfl⟩ := hy
    have := nodup_map_inj hf.1 hv1 hw1 hxy
    subst this
    exact ⟨rfl, rfl⟩
  · intro k x hx
    rw [hk] at hx
    obtain ⟨v, hv1, rfl, rfl⟩ := hx
    exact ⟨v.path, (v1 v hv1).2, (v1 v hv1).1⟩

theorem findRoot_eq (l : List DirEntry) : findRoot l = l.find? (fun x => x.type = 5) := by
  induction l with
  | nil => rfl
  | cons d rest ih =>
    rw [findRoot, List.find?_cons]
    by_cases h : d.type = 5
    · simp [h, typeRoot]
    · simp [h, typeRoot, ih]

end
end Olecf
