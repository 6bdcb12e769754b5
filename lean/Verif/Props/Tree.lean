import Verif.Model.Item
import Verif.Lemmas.Tree
import Verif.Props.Directory

/-
  C16 - C20: the item hierarchy.

  `list` is the directory (C13 shows that its identifiers are distinct, being the positions of the
  slots); `cmp` is the name comparison of libuna.  `root` is the first entry of the root storage
  type.
-/

namespace Olecf.Props
open Olecf Olecf.Spec

/-- The item reached from an item by a list of sub item indices (repeated use of
  `libolecf_item_get_sub_item`). -/
def itemFrom (t : Tree) : Item → List Nat → Option Item
  | it, [] => some it
  | it, i :: p => match getSubItem t it i with
    | .ok c => itemFrom t c p
    | _ => none

/-- The item at a position of the hierarchy. -/
def itemAt (t : Tree) (p : List Nat) : Option Item := itemFrom t ⟨none, t.root⟩ p

theorem cmpOk_iff (cmp : Bytes → Bytes → Option Bool) (d : DirEntry) :
    CmpOk cmp d ↔ NameComparable cmp d := by
  unfold CmpOk NameComparable summaryCheck
  by_cases h1 : d.name.length = 28
  · simp only [h1, if_true]
    cases cmp docSummaryName d.name <;> simp
  · by_cases h2 : d.name.length = 20
    · simp only [h2]
      cases cmp summaryName d.name <;> simp
    · simp [h1, h2]

/-- A tree was created. -/
theorem createTree_some {list : List DirEntry} {cmp : Bytes → Bytes → Option Bool} {t : Tree}
    {m : List Nat} (h : (createTree list cmp).res = .ok (some (t, m))) :
    t.root ∈ list ∧ list.find? (fun x => x.type = 5) = some t.root ∧ t.root.sub ≠ UNUSED ∧
    ∃ st, processEntry list cmp t.root.id (list.length + 1) none none t.root ⟨[], fun _ => []⟩ =
      .ok st ∧ t.kids = st.kids ∧ m = t.root.id :: st.marks := by
  unfold createTree at h
  cases list with
  | nil => cases h
  | cons x l =>
    simp only [] at h
    cases hr : findRoot (x :: l) with
    | none => rw [hr] at h; cases h
    | some root =>
      rw [hr] at h
      simp only [] at h
      by_cases hs : root.sub = UNUSED
      · rw [if_pos hs] at h; cases h
      · rw [if_neg hs] at h
        rw [findRoot_eq] at hr
        cases hp : processEntry (x :: l) cmp root.id ((x :: l).length + 1) none none root
            ⟨[], fun _ => []⟩ with
        | ok st =>
          rw [hp] at h
          cases h
          exact ⟨List.mem_of_find?_eq_some hr, hr, hs, st, hp, rfl, rfl⟩
        | err => rw [hp] at h; cases h
        | ub => rw [hp] at h; cases h
        | hang => rw [hp] at h; cases h

theorem getSubItem_ok {t : Tree} {it c : Item} {i : Nat} :
    getSubItem t it i = .ok c ↔ ∃ e, (t.kids it.node)[i]? = some e ∧ c = .ofEntry e := by
  unfold getSubItem
  rw [if_neg (by omega), Int.toNat_natCast]
  cases (t.kids it.node)[i]? with
  | none => simp
  | some e =>
    simp only [Res.ok.injEq, Option.some.injEq, exists_eq_left']
    exact eq_comm

theorem itemFrom_snoc (t : Tree) : ∀ (p : List Nat) (it : Item) (i : Nat) (c : Item),
    itemFrom t it (p ++ [i]) = some c ↔
      ∃ m, itemFrom t it p = some m ∧ getSubItem t m i = .ok c
  | [], it, i, c => by
    simp only [List.nil_append, itemFrom, Option.some.injEq, exists_eq_left']
    cases getSubItem t it i <;> simp
  | j :: p, it, i, c => by
    simp only [List.cons_append, itemFrom]
    cases getSubItem t it j with
    | ok m => exact itemFrom_snoc t p m i c
    | _ => simp

/-- Every item but the root is a sub item of another item. -/
theorem itemAt_cases {t : Tree} {p : List Nat} {it : Item} (h : itemAt t p = some it) :
    (p = [] ∧ it = ⟨none, t.root⟩) ∨
    ∃ q i m e, p = q ++ [i] ∧ itemAt t q = some m ∧ (t.kids m.node)[i]? = some e ∧
      it = .ofEntry e := by
  rcases List.eq_nil_or_concat p with rfl | ⟨q, i, rfl⟩
  · cases h; exact Or.inl ⟨rfl, rfl⟩
  · rw [List.concat_eq_append] at h
    obtain ⟨m, h1, h2⟩ := (itemFrom_snoc t q _ i it).1 h
    obtain ⟨e, h3, h4⟩ := getSubItem_ok.1 h2
    exact Or.inr ⟨q, i, m, e, by simp, h1, h3, h4⟩

/-! ### C16 -/

/-- No directory entry occurs at two positions of the hierarchy, and all items are entries of
  the directory. -/
theorem C16_no_item_twice (list : List DirEntry) (cmp : Bytes → Bytes → Option Bool)
    (hnd : (list.map (·.id)).Nodup) (t : Tree) (m : List Nat)
    (h : (createTree list cmp).res = .ok (some (t, m))) :
    (∀ p a, itemAt t p = some a → a.entry ∈ list) ∧
    (∀ p q a b, itemAt t p = some a → itemAt t q = some b → a.entry.id = b.entry.id → p = q) := by
  obtain ⟨hroot, _, _, st, hp, hk, _⟩ := createTree_some h
  obtain ⟨hinv, _, _, huk, hrk⟩ := run_kids list cmp _ hroot hnd hp
  obtain ⟨huniq, _⟩ := (run_graph_iff list cmp _ hroot hnd).1 ⟨st, hp⟩
  rw [← hk] at huk hrk
  have hsorted := hinv.sorted
  rw [← hk] at hsorted
  constructor
  · intro p a ha
    rcases itemAt_cases ha with ⟨_, rfl⟩ | ⟨q, i, mm, e, _, _, he, rfl⟩
    · exact hroot
    · obtain ⟨ks, _, hr⟩ := hrk _ e (List.mem_of_getElem? he)
      exact reach_mem list _ ks _ _ hr hroot
  · have key : ∀ n p q a b, p.length = n → itemAt t p = some a → itemAt t q = some b →
        a.entry.id = b.entry.id → p = q := by
      intro n
      induction n with
      | zero =>
        intro p q a b hn ha hb hab
        have hpn : p = [] := List.length_eq_zero_iff.1 hn
        subst hpn
        cases ha
        rcases itemAt_cases hb with ⟨rfl, _⟩ | ⟨q', i, mm, e, rfl, _, he, rfl⟩
        · rfl
        · obtain ⟨ks, hne, hr⟩ := hrk _ e (List.mem_of_getElem? he)
          exact absurd (huniq [] ks _ _ rfl hr hab).symm hne
      | succ n ih =>
        intro p q a b hn ha hb hab
        rcases itemAt_cases ha with ⟨rfl, _⟩ | ⟨p', i, ma, e, rfl, hma, he, rfl⟩
        · simp at hn
        · rcases itemAt_cases hb with ⟨rfl, rfl⟩ | ⟨q', j, mb, f, rfl, hmb, hf, rfl⟩
          · obtain ⟨ks, hne, hr⟩ := hrk _ e (List.mem_of_getElem? he)
            exact absurd (huniq [] ks _ _ rfl hr hab.symm).symm hne
          · obtain ⟨hkk, hee⟩ := huk _ _ _ _ (List.mem_of_getElem? he) (List.mem_of_getElem? hf) hab
            have hsame : p' = q' := by
              rcases itemAt_cases hma with ⟨rfl, rfl⟩ | ⟨p2, i2, m2, e2, hp2, hm2, he2, rfl⟩
              · rcases itemAt_cases hmb with ⟨rfl, _⟩ | ⟨q2, j2, n2, f2, rfl, _, _, rfl⟩
                · rfl
                · cases hkk
              · rcases itemAt_cases hmb with ⟨rfl, rfl⟩ | ⟨q2, j2, n2, f2, hq2, _, _, rfl⟩
                · cases hkk
                · refine ih p' q' _ _ (by simp at hn; exact hn) hma hmb ?_
                  exact Option.some.inj hkk
            subst hsame
            rw [hma] at hmb
            have hmm := Option.some.inj hmb
            subst hmm
            subst hee
            have hij : i = j := by
              have hs := hsorted ma.node
              obtain ⟨hi, hi'⟩ := List.getElem?_eq_some_iff.1 he
              obtain ⟨hj, hj'⟩ := List.getElem?_eq_some_iff.1 hf
              rw [List.pairwise_map] at hs
              rw [List.pairwise_iff_getElem] at hs
              rcases Nat.lt_trichotomy i j with hlt | heq | hlt
              · have := hs i j hi hj hlt; rw [hi', hj'] at this; omega
              · exact heq
              · have := hs j i hj hi hlt; rw [hi', hj'] at this; omega
            rw [hij]
    intro p q a b
    exact key _ p q a b rfl

/-! ### C17 -/

/-- Building the hierarchy always ends, with a recursion depth of at most the number of entries
  plus one (the depth `createTree` allows; `hang` would be the outcome otherwise), and without
  undefined behaviour. -/
theorem C17_terminates (list : List DirEntry) (cmp : Bytes → Bytes → Option Bool) :
    (createTree list cmp).res.Defined := by
  unfold createTree
  cases list with
  | nil => trivial
  | cons x l =>
    simp only []
    cases findRoot (x :: l) with
    | none => trivial
    | some root =>
      simp only []
      split
      · trivial
      · rcases processEntry_terminates (x :: l) cmp root.id ((x :: l).length + 1) none none root
          ⟨[], fun _ => []⟩ (unmarked_nil _) with h | ⟨st, h, _⟩ <;> rw [h] <;> trivial

/-- The outcome for a directory whose root storage has a sub link. -/
theorem createTree_res (list : List DirEntry) (cmp : Bytes → Bytes → Option Bool) (root : DirEntry)
    (hroot : list.find? (fun x => x.type = 5) = some root) (hsub : root.sub ≠ 0xffffffff) :
    (createTree list cmp).res = .err ∨
      ∃ st, processEntry list cmp root.id (list.length + 1) none none root ⟨[], fun _ => []⟩ =
        .ok st ∧ (createTree list cmp).res = .ok (some (⟨root, st.kids⟩, root.id :: st.marks)) := by
  unfold createTree
  cases list with
  | nil => cases hroot
  | cons x l =>
    rw [findRoot_eq, hroot]
    simp only []
    rw [if_neg (show ¬ root.sub = UNUSED from hsub)]
    rcases processEntry_terminates (x :: l) cmp root.id ((x :: l).length + 1) none none root
      ⟨[], fun _ => []⟩ (unmarked_nil _) with h | ⟨st, h, _⟩
    · rw [h]; exact Or.inl rfl
    · rw [h]; exact Or.inr ⟨st, rfl, rfl⟩

/-- The outcome, in terms of the link graph. -/
theorem C20_accepted_iff (list : List DirEntry) (cmp : Bytes → Bytes → Option Bool)
    (hnd : (list.map (·.id)).Nodup) (root : DirEntry)
    (hroot : list.find? (fun x => x.type = 5) = some root) (hsub : root.sub ≠ 0xffffffff) :
    (∃ r, (createTree list cmp).res = .ok (some r)) ↔
      UniquePaths list root ∧
      (∀ p a, reach list root.id root p = some a → NextOk list root.id a) ∧
      (target list root.id root .prev = none ∧ target list root.id root .next = none) ∧
      (∀ p a, reach list root.id root p = some a → NameComparable cmp a) := by
  have hmem : root ∈ list := List.mem_of_find?_eq_some hroot
  have hg := run_graph_iff list cmp root.id hmem hnd
  have heq : (∃ r, (createTree list cmp).res = .ok (some r)) ↔
      ∃ st, processEntry list cmp root.id (list.length + 1) none none root ⟨[], fun _ => []⟩ =
        .ok st := by
    constructor
    · rintro ⟨⟨t, m⟩, h⟩
      obtain ⟨_, hr, _, st, hp, _⟩ := createTree_some h
      rw [hroot] at hr
      cases hr
      exact ⟨st, hp⟩
    · rintro ⟨st, hp⟩
      rcases createTree_res list cmp root hroot hsub with h | ⟨st', h1, h2⟩
      · exfalso
        unfold createTree at h
        cases list with
        | nil => cases hroot
        | cons x l =>
          rw [findRoot_eq, hroot] at h
          simp only [] at h
          rw [if_neg (show ¬ root.sub = UNUSED from hsub), hp] at h
          cases h
      · exact ⟨_, h2⟩
  rw [heq, hg]
  simp only [cmpOk_iff]
  constructor
  · rintro ⟨h1, h2, h3, h4, h5⟩; exact ⟨h1, h2, ⟨h3, h4⟩, h5⟩
  · rintro ⟨h1, h2, ⟨h3, h4⟩, h5⟩; exact ⟨h1, h2, h3, h4, h5⟩

/-- If following the links reaches an entry along two different paths (a cycle, or an entry
  that is linked twice) the directory is rejected. -/
theorem C17_cycles_rejected (list : List DirEntry) (cmp : Bytes → Bytes → Option Bool)
    (hnd : (list.map (·.id)).Nodup) (root : DirEntry)
    (hroot : list.find? (fun x => x.type = 5) = some root) (hsub : root.sub ≠ 0xffffffff)
    (p q : List Link) (a b : DirEntry) (hp : reach list root.id root p = some a)
    (hq : reach list root.id root q = some b) (hab : a.id = b.id) (hne : p ≠ q) :
    (createTree list cmp).res = .err := by
  rcases createTree_res list cmp root hroot hsub with h | ⟨st, _, h⟩
  · exact h
  · exact absurd (((C20_accepted_iff list cmp hnd root hroot hsub).1 ⟨_, h⟩).1 p q a b hp hq hab) hne

/-- The outcomes when there is no root storage or it has no sub link. -/
theorem C20_no_root (list : List DirEntry) (cmp : Bytes → Bytes → Option Bool) :
    (list = [] → (createTree list cmp).res = .ok none) ∧
    (list ≠ [] → (∀ d ∈ list, d.type ≠ 5) → (createTree list cmp).res = .err) ∧
    (∀ root, list.find? (fun x => x.type = 5) = some root → root.sub = 0xffffffff →
      (createTree list cmp).res = .ok none) := by
  refine ⟨fun h => by subst h; rfl, fun h1 h2 => ?_, fun root hr hs => ?_⟩
  · unfold createTree
    cases list with
    | nil => exact absurd rfl h1
    | cons x l =>
      have : (x :: l).find? (fun x => x.type = 5) = none := by
        rw [List.find?_eq_none]; intro d hd; simpa using h2 d hd
      rw [findRoot_eq, this]
  · unfold createTree
    cases list with
    | nil => cases hr
    | cons x l =>
      rw [findRoot_eq, hr]
      simp only []
      rw [if_pos (show root.sub = UNUSED from hs)]

/-- A well formed directory is accepted: the links reach every entry along at most one path, all
  next links in use have a target, the root storage has a sub link and no siblings. -/
theorem C20_well_formed_accepted (list : List DirEntry) (cmp : Bytes → Bytes → Option Bool)
    (hnd : (list.map (·.id)).Nodup) (root : DirEntry)
    (hroot : list.find? (fun x => x.type = 5) = some root) (hsub : root.sub ≠ 0xffffffff)
    (hprev : root.prev = 0xffffffff) (hnext : root.next = 0xffffffff)
    (huniq : UniquePaths list root)
    (hdangling : ∀ d ∈ list, d.next ≠ 0xffffffff → ∃ c ∈ list, c.id = d.next)
    (hcmp : ∀ d ∈ list, NameComparable cmp d) :
    ∃ r, (createTree list cmp).res = .ok (some r) := by
  have hmem : root ∈ list := List.mem_of_find?_eq_some hroot
  refine (C20_accepted_iff list cmp hnd root hroot hsub).2 ⟨huniq, ?_, ⟨?_, ?_⟩, ?_⟩
  · intro p a ha
    have hal := reach_mem list root.id p _ _ ha hmem
    by_cases h : a.next = 0xffffffff
    · exact Or.inl h
    · obtain ⟨c, hc, hce⟩ := hdangling a hal h
      refine Or.inr ?_
      unfold target
      rw [if_pos (show linkUsed root.id a .next from h), List.find?_isSome]
      exact ⟨c, hc, decide_eq_true hce⟩
  · unfold target
    rw [if_neg (show ¬ linkUsed root.id root .prev from fun h => h hprev)]
  · unfold target
    rw [if_neg (show ¬ linkUsed root.id root .next from fun h => h hnext)]
  · intro p a ha
    exact hcmp a (reach_mem list root.id p _ _ ha hmem)

/-! ### C18, C19 -/

/-- The sub items of an item are exactly the entries linked under it, and every entry that the
  links lead to is an item of the hierarchy. -/
theorem C18_sub_items_exact (list : List DirEntry) (cmp : Bytes → Bytes → Option Bool)
    (hnd : (list.map (·.id)).Nodup) (t : Tree) (m : List Nat)
    (h : (createTree list cmp).res = .ok (some (t, m))) :
    (∀ p it, itemAt t p = some it → ∀ x,
      (∃ i : Nat, getSubItem t it i = .ok ⟨some x.id, x⟩) ↔
        LinkedUnder list t.root.id it.entry x) ∧
    (∀ ks d, reach list t.root.id t.root ks = some d → ∃ p it, itemAt t p = some it ∧
      it.entry = d) := by
  obtain ⟨hroot, _, _, st, hp, hk, _⟩ := createTree_some h
  obtain ⟨hinv, hkr, hkc, huk, hrk⟩ := run_kids list cmp _ hroot hnd hp
  rw [← hk] at hkr hkc huk hrk
  have hsub : ∀ it x, (∃ i : Nat, getSubItem t it i = .ok ⟨some x.id, x⟩) ↔ x ∈ t.kids it.node := by
    intro it x
    constructor
    · rintro ⟨i, h⟩
      obtain ⟨e, he, hx⟩ := getSubItem_ok.1 h
      have hxe : x = e := congrArg Item.entry hx
      exact hxe ▸ List.mem_of_getElem? he
    · intro hx
      obtain ⟨i, hi, he⟩ := List.mem_iff_getElem.1 hx
      exact ⟨i, getSubItem_ok.2 ⟨x, List.getElem?_eq_some_iff.2 ⟨hi, he⟩, rfl⟩⟩
  have hmain : ∀ p it, itemAt t p = some it → ∀ x,
      x ∈ t.kids it.node ↔ LinkedUnder list t.root.id it.entry x := by
    intro p it hit x
    rcases itemAt_cases hit with ⟨_, rfl⟩ | ⟨q, i, mm, e, _, _, he, rfl⟩
    · exact hkr x
    · obtain ⟨ks, hne, hr⟩ := hrk _ e (List.mem_of_getElem? he)
      exact hkc ks e hne hr x
  refine ⟨fun p it hit x => (hsub it x).trans (hmain p it hit x), ?_⟩
  -- completeness, by induction on the length of the path
  have hpos : ∀ n ks d, ks.length ≤ n → reach list t.root.id t.root ks = some d →
      ∃ p, itemAt t p = some ⟨if ks = [] then none else some d.id, d⟩ := by
    intro n
    induction n with
    | zero =>
      intro ks d hl hr
      have : ks = [] := List.length_eq_zero_iff.1 (by omega)
      subst this
      cases hr
      exact ⟨[], rfl⟩
    | succ n ih =>
      intro ks d hl hr
      by_cases hne : ks = []
      · subst hne
        cases hr
        exact ⟨[], rfl⟩
      · rw [if_neg hne]
        have hlast : ∀ ks : List Link, .sub ∈ ks → ∃ a b, ks = a ++ .sub :: b ∧ .sub ∉ b := by
          intro ks
          induction ks with
          | nil => simp
          | cons k ks ih =>
            intro h
            by_cases h' : Link.sub ∈ ks
            · obtain ⟨a, b, rfl, hb⟩ := ih h'
              exact ⟨k :: a, b, rfl, hb⟩
            · rcases List.mem_cons.1 h with rfl | h
              · exact ⟨[], ks, rfl, h'⟩
              · exact absurd h h'
        obtain ⟨_, _, hp', hn', _⟩ := (run_graph_iff list cmp _ hroot hnd).1 ⟨st, hp⟩
        have hmem : Link.sub ∈ ks := by
          cases ks with
          | nil => exact absurd rfl hne
          | cons k ks =>
            cases k with
            | sub => simp
            | prev => simp [reach, hp'] at hr
            | next => simp [reach, hn'] at hr
        obtain ⟨a, b, rfl, hb⟩ := hlast ks hmem
        rw [reach_append] at hr
        cases ha : reach list t.root.id t.root a with
        | none => rw [ha] at hr; cases hr
        | some e =>
          rw [ha] at hr
          simp only [Option.bind_some, reach] at hr
          cases ht : target list t.root.id e .sub with
          | none => rw [ht] at hr; cases hr
          | some c =>
            rw [ht] at hr
            have hlu : LinkedUnder list t.root.id e d := ⟨c, ht, b, hb, hr⟩
            obtain ⟨p, hpq⟩ := ih a e (by simp at hl; omega) ha
            obtain ⟨i, hi⟩ := (hsub _ d).2 ((hmain p _ hpq d).2 hlu)
            exact ⟨p ++ [i], (itemFrom_snoc t p _ i _).2 ⟨_, hpq, hi⟩⟩
  intro ks d hr
  obtain ⟨p, hpq⟩ := hpos _ ks d (Nat.le_refl _) hr
  exact ⟨p, _, hpq, rfl⟩

/-- Sub items are enumerated in strictly increasing order of their identifiers; exactly the
  indices below the number of sub items are valid. -/
theorem C19_sub_items_sorted (list : List DirEntry) (cmp : Bytes → Bytes → Option Bool)
    (hnd : (list.map (·.id)).Nodup) (t : Tree) (m : List Nat)
    (h : (createTree list cmp).res = .ok (some (t, m))) (it : Item) :
    (∀ (i j : Int) (a b : Item), getSubItem t it i = .ok a → getSubItem t it j = .ok b → i < j →
      a.entry.id < b.entry.id) ∧
    (∀ i : Int, (∃ a, getSubItem t it i = .ok a) ↔ 0 ≤ i ∧ i < numberOfSubItems t it) ∧
    (∀ i : Int, ¬ (0 ≤ i ∧ i < numberOfSubItems t it) → getSubItem t it i = .err) := by
  obtain ⟨hroot, _, _, st, hp, hk, _⟩ := createTree_some h
  obtain ⟨hinv, _⟩ := run_kids list cmp _ hroot hnd hp
  have hs := hinv.sorted it.node
  rw [← hk, List.pairwise_map, List.pairwise_iff_getElem] at hs
  have key : ∀ (i : Int) (a : Item), getSubItem t it i = .ok a → 0 ≤ i ∧
      ∃ e, (t.kids it.node)[i.toNat]? = some e ∧ a = .ofEntry e := by
    intro i a ha
    have hi : 0 ≤ i := by
      unfold getSubItem at ha
      split at ha
      · cases ha
      · omega
    obtain ⟨n, rfl⟩ := Int.eq_ofNat_of_zero_le hi
    exact ⟨hi, by simpa using getSubItem_ok.1 ha⟩
  refine ⟨?_, ?_, ?_⟩
  · intro i j a b ha hb hij
    obtain ⟨hi, e, he, rfl⟩ := key i a ha
    obtain ⟨hj, f, hf, rfl⟩ := key j b hb
    obtain ⟨h1, h2⟩ := List.getElem?_eq_some_iff.1 he
    obtain ⟨h3, h4⟩ := List.getElem?_eq_some_iff.1 hf
    have := hs _ _ h1 h3 (by omega)
    rw [h2, h4] at this
    exact this
  · intro i
    unfold getSubItem numberOfSubItems
    split
    · next hneg =>
      constructor
      · rintro ⟨a, ha⟩; cases ha
      · rintro ⟨h0, _⟩; omega
    · next hneg =>
      cases hg : (t.kids it.node)[i.toNat]? with
      | none =>
        have := List.getElem?_eq_none_iff.1 hg
        constructor
        · rintro ⟨a, ha⟩; cases ha
        · rintro ⟨_, _⟩; omega
      | some e =>
        obtain ⟨h1, _⟩ := List.getElem?_eq_some_iff.1 hg
        exact ⟨fun _ => ⟨by omega, by omega⟩, fun _ => ⟨_, rfl⟩⟩
  · intro i hi
    unfold getSubItem numberOfSubItems at *
    split
    · rfl
    · have : (t.kids it.node)[i.toNat]? = none := by
        rw [List.getElem?_eq_none_iff]; omega
      rw [this]

/-! ### Instances

  A directory with a root storage (0), a storage (2) and three streams: 3 and 1 are siblings of
  2, 4 lies in the storage. -/

def entry (id type prev next sub : Nat) : DirEntry :=
  { id, type, name := [97, 0], prev, next, sub, created := 0, modified := 0, start := 0,
    size := 0 }

def sampleDir : List DirEntry :=
  [entry 0 5 UNUSED UNUSED 2, entry 1 2 UNUSED UNUSED UNUSED, entry 2 1 1 3 4,
   entry 3 2 UNUSED UNUSED UNUSED, entry 4 2 UNUSED UNUSED UNUSED]

def cmpNone : Bytes → Bytes → Option Bool := fun a b => some (a == b)

/-- The identifiers of the sub items, or `none` when no tree was made. -/
def kidIds (list : List DirEntry) (k : NodeKey) : Option (List Nat) :=
  match (createTree list cmpNone).res with
  | .ok (some (t, _)) => some ((t.kids k).map (·.id))
  | _ => none

example : (sampleDir.map (·.id)).Nodup ∧ sampleDir.find? (fun x => x.type = 5) =
    some (entry 0 5 UNUSED UNUSED 2) := by decide
example : kidIds sampleDir none = some [1, 2, 3] ∧ kidIds sampleDir (some 2) = some [4] := by
  decide
example : ∃ r, (createTree sampleDir cmpNone).res = .ok (some r) := ⟨_, rfl⟩

/-- The premises of `C20_well_formed_accepted` are met by the sample directory; that its paths
  are unique follows from `C20_accepted_iff`, as the tree is created. -/
example : UniquePaths sampleDir (entry 0 5 UNUSED UNUSED 2) :=
  ((C20_accepted_iff sampleDir cmpNone (by decide) (entry 0 5 UNUSED UNUSED 2) (by decide)
    (by decide)).1 ⟨_, rfl⟩).1
example : (∀ d ∈ sampleDir, d.next ≠ 0xffffffff → ∃ c ∈ sampleDir, c.id = d.next) ∧
    (∀ d ∈ sampleDir, NameComparable cmpNone d) := by
  refine ⟨by decide, ?_⟩
  intro d _
  simp [NameComparable, cmpNone]

/-- A cycle: the sibling link of 3 leads back to 2. -/
def cyclicDir : List DirEntry :=
  [entry 0 5 UNUSED UNUSED 2, entry 1 2 UNUSED UNUSED UNUSED, entry 2 1 1 3 UNUSED,
   entry 3 2 UNUSED 2 UNUSED]

example : reach cyclicDir 0 (entry 0 5 UNUSED UNUSED 2) [.sub] = some (entry 2 1 1 3 UNUSED) ∧
    reach cyclicDir 0 (entry 0 5 UNUSED UNUSED 2) [.sub, .next, .next] =
      some (entry 2 1 1 3 UNUSED) := by decide

end Olecf.Props
