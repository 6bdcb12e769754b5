import Verif.Model.Stack
import Verif.Lemmas.Tree
import Verif.Lemmas.File
import Verif.Props.Tree

/-
  The depth of the recursion that makes the tree of items.
-/

namespace Olecf.Lemmas
open Olecf Olecf.Spec Olecf.Props

section
variable (list : List DirEntry) (cmp : Bytes → Bytes → Option Bool) (rid : Nat)

theorem res_bind_hang {α β : Type} {x : Res α} {f : α → Res β} (h : (x >>= f) ≠ .hang) : x ≠ .hang := by
  rintro rfl
  exact h rfl

theorem linkRun_more {fuel fuel' : Nat} {P : Option NodeKey} {o : Option DirEntry} {st : TreeState}
    (ih : ∀ node P d st, processEntry list cmp rid fuel node P d st ≠ .hang →
      processEntry list cmp rid fuel' node P d st = processEntry list cmp rid fuel node P d st)
    (h : linkRun list cmp rid fuel P o st ≠ .hang) :
    linkRun list cmp rid fuel' P o st = linkRun list cmp rid fuel P o st := by
  unfold linkRun at h ⊢
  cases o with
  | none => rfl
  | some c =>
    simp only at h ⊢
    cases ha : attach P c st with
    | ok st' =>
      rw [ha] at h
      exact ih _ _ _ _ h
    | err => rfl
    | ub => rfl
    | hang => rfl

/-- More room on the stack does not change the outcome. -/
theorem processEntry_more : ∀ (fuel fuel' : Nat), fuel ≤ fuel' → ∀ node P d st,
    processEntry list cmp rid fuel node P d st ≠ .hang →
    processEntry list cmp rid fuel' node P d st = processEntry list cmp rid fuel node P d st := by
  intro fuel
  induction fuel with
  | zero => intro fuel' _ node P d st h; exact absurd rfl h
  | succ fuel ih =>
    intro fuel' hle node P d st h
    obtain ⟨k, rfl⟩ : ∃ k, fuel' = k + 1 := ⟨fuel' - 1, by omega⟩
    have ih' := ih k (by omega)
    rw [processEntry_eq] at h
    rw [processEntry_eq, processEntry_eq]
    cases hs : summaryCheck cmp d with
    | err => rfl
    | ub => rfl
    | hang => rfl
    | ok u =>
      rw [hs] at h
      show (linkRun list cmp rid k (some node) (target list rid d .sub) st >>= _) =
        (linkRun list cmp rid fuel (some node) (target list rid d .sub) st >>= _)
      replace h : (linkRun list cmp rid fuel (some node) (target list rid d .sub) st >>= _) ≠ .hang := h
      rw [linkRun_more list cmp rid ih' (res_bind_hang h)]
      cases h1 : linkRun list cmp rid fuel (some node) (target list rid d .sub) st with
      | err => rfl
      | ub => rfl
      | hang => rfl
      | ok st1 =>
        rw [h1] at h
        show (linkRun list cmp rid k P (target list rid d .prev) st1 >>= _) =
          (linkRun list cmp rid fuel P (target list rid d .prev) st1 >>= _)
        replace h : (linkRun list cmp rid fuel P (target list rid d .prev) st1 >>= _) ≠ .hang := h
        rw [linkRun_more list cmp rid ih' (res_bind_hang h)]
        cases h2 : linkRun list cmp rid fuel P (target list rid d .prev) st1 with
        | err => rfl
        | ub => rfl
        | hang => rfl
        | ok st2 =>
          rw [h2] at h
          show (if NextOk list rid d then linkRun list cmp rid k P (target list rid d .next) st2 else .err) =
            (if NextOk list rid d then linkRun list cmp rid fuel P (target list rid d .next) st2 else .err)
          replace h : (if NextOk list rid d then linkRun list cmp rid fuel P (target list rid d .next) st2
            else .err) ≠ .hang := h
          by_cases hn : NextOk list rid d
          · rw [if_pos hn] at h ⊢
            rw [if_pos hn]
            exact linkRun_more list cmp rid ih' h
          · rw [if_neg hn, if_neg hn]

/-- A call that ends well went along all paths of links from its entry. -/
theorem processEntry_paths : ∀ (fuel : Nat) node P d st st',
    processEntry list cmp rid fuel node P d st = .ok st' →
    ∀ path e, reach list rid d path = some e → path.length < fuel := by
  intro fuel
  induction fuel with
  | zero => intro node P d st st' h; cases h
  | succ fuel ih =>
    have link : ∀ (P : Option NodeKey) (d : DirEntry) (k : Link) (st st' : TreeState),
        linkRun list cmp rid fuel P (target list rid d k) st = .ok st' →
        ∀ path e, reach list rid d (k :: path) = some e → path.length < fuel := by
      intro P d k st st' h path e hr
      unfold reach at hr
      cases ht : target list rid d k with
      | none => rw [ht] at hr; cases hr
      | some c =>
        rw [ht] at hr h
        unfold linkRun at h
        obtain ⟨st1, _, h2⟩ := bind_ok.1 h
        exact ih _ _ _ _ _ h2 path e hr
    intro node P d st st' h path e hr
    cases path with
    | nil => simp
    | cons k path =>
      rw [processEntry_eq] at h
      obtain ⟨_, _, h⟩ := bind_ok.1 h
      obtain ⟨st1, h1, h⟩ := bind_ok.1 h
      obtain ⟨st2, h2, h⟩ := bind_ok.1 h
      have : path.length < fuel := by
        cases k with
        | sub => exact link _ _ _ _ _ h1 path e hr
        | prev => exact link _ _ _ _ _ h2 path e hr
        | next =>
          split at h
          · exact link _ _ _ _ _ h path e hr
          · cases h
      simpa using this

/-- A call that ends well needs no more room than the paths of links from its entry. -/
theorem processEntry_room : ∀ (fuel k : Nat) node P d st st',
    processEntry list cmp rid fuel node P d st = .ok st' →
    (∀ path e, reach list rid d path = some e → path.length < k) →
    processEntry list cmp rid k node P d st = .ok st' := by
  intro fuel
  induction fuel with
  | zero => intro k node P d st st' h; cases h
  | succ fuel ih =>
    intro k node P d st st' h hp
    obtain ⟨k, rfl⟩ : ∃ j, k = j + 1 := ⟨k - 1, by have := hp [] d rfl; simp at this; omega⟩
    have link : ∀ (P : Option NodeKey) (l : Link) (st st' : TreeState),
        linkRun list cmp rid fuel P (target list rid d l) st = .ok st' →
        linkRun list cmp rid k P (target list rid d l) st = .ok st' := by
      intro P l st st' h
      cases ht : target list rid d l with
      | none => rw [ht] at h; exact h
      | some c =>
        rw [ht] at h
        unfold linkRun at h ⊢
        obtain ⟨st1, h1, h2⟩ := bind_ok.1 h
        refine bind_ok.2 ⟨st1, h1, ih _ _ _ _ _ _ h2 fun path e hr => ?_⟩
        have := hp (l :: path) e (by unfold reach; rw [ht]; exact hr)
        simpa using this
    rw [processEntry_eq] at h
    obtain ⟨u, h0, h⟩ := bind_ok.1 h
    obtain ⟨st1, h1, h⟩ := bind_ok.1 h
    obtain ⟨st2, h2, h⟩ := bind_ok.1 h
    rw [processEntry_eq]
    refine bind_ok.2 ⟨u, h0, bind_ok.2 ⟨st1, link _ _ _ _ h1, bind_ok.2 ⟨st2, link _ _ _ _ h2, ?_⟩⟩⟩
    split at h
    · rename_i hn
      rw [if_pos hn]
      exact link _ _ _ _ h
    · cases h

end

end Olecf.Lemmas
