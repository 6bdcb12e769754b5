import Verif.Spec.Frame
import Verif.Props.Stream

/-
  C48: items do not influence each other.
-/

namespace Olecf.Props

open Spec

/-- C48: in every history over any number of items, what a user sees of one item is what that item
  answers when it is used alone: it depends on the file, the directory entry and the operations on
  this item only. -/
theorem C48_items_independent (f : FileCtx) (items : Nat → DirEntry) (i : Nat) :
    ∀ (ops : List (Nat × ItemOp)) (st : Nat → Int),
      only i (together f items st ops) = alone f (items i) (st i) (only i ops) := by
  intro ops
  induction ops with
  | nil => intro st; rfl
  | cons x ops ih =>
    intro st
    obtain ⟨j, op⟩ := x
    have hst := ih fun k => if k = j then (op.run f (items j) (st j)).2 else st k
    unfold only at hst ⊢
    rw [together]
    by_cases h : j = i
    · subst h
      rw [List.filter_cons_of_pos (by simp), List.filter_cons_of_pos (by simp)]
      simp only [List.map_cons, alone, List.cons.injEq, true_and]
      rw [hst, if_pos rfl]
    · rw [List.filter_cons_of_neg (by simp [h]), List.filter_cons_of_neg (by simp [h]), hst,
        if_neg (fun e => h e.symm)]

/-- C48: two handles on the same entry that are used in the same way, in whatever interleaving and
  between whatever other operations, give the same answers. -/
theorem C48_same_entry_same_answers (f : FileCtx) (items : Nat → DirEntry) (i j : Nat)
    (hij : items i = items j) (ops : List (Nat × ItemOp)) (hops : only i ops = only j ops) :
    only i (together f items (fun _ => 0) ops) = only j (together f items (fun _ => 0) ops) := by
  rw [C48_items_independent, C48_items_independent, hij, hops]

/-- Two handles on a stream, and one on another stream. -/
example : only 0 (together sampleCtx
      (fun k => if k < 2 then streamEntry 2 20 else streamEntry 3 7) (fun _ => 0)
      [(0, .read 2), (1, .seek 18 .set), (2, .read 1), (0, .read 2), (1, .read 5), (0, .getOffset)]) =
    [.data (.ok [148, 149]), .data (.ok [150, 151]), .number (.ok 4)] ∧
    only 1 (together sampleCtx
      (fun k => if k < 2 then streamEntry 2 20 else streamEntry 3 7) (fun _ => 0)
      [(0, .read 2), (1, .seek 18 .set), (2, .read 1), (0, .read 2), (1, .read 5), (0, .getOffset)]) =
    [.number (.ok 18), .data (.ok [134, 135])] := by
  decide +kernel

end Olecf.Props
