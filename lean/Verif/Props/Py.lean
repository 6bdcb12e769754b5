import Verif.Spec.Py
import Verif.Lemmas.PyInt
import Verif.Props.PropSet
import Verif.Props.RoundTrip
import Verif.Props.PyTime

/-
  Properties C69 to C73: the Python bindings.
-/

namespace Olecf.Props
open Olecf.Spec Olecf.Lemmas

/-! ### C69: sequences -/

theorem next_spec {get : Int → Res α} {l : List α} (h : Enumerates get l) {k : Nat}
    (hk : k ≤ l.length) :
    (⟨get, k, l.length⟩ : PySeq α).next =
      match l[k]? with
      | some a => (.item a, ⟨get, (k + 1 : Nat), l.length⟩)
      | none => (.stop, ⟨get, k, l.length⟩) := by
  unfold PySeq.next
  dsimp only
  rw [if_neg (by omega), if_neg (by omega)]
  cases hg : l[k]? with
  | none =>
    rw [List.getElem?_eq_none_iff] at hg
    rw [if_pos (by omega)]
  | some a =>
    have hlt := (List.getElem?_eq_some_iff.1 hg).1
    rw [if_neg (by omega), h k a hg]
    simp

theorem nextAnswers_from {get : Int → Res α} {l : List α} (h : Enumerates get l)
    (us : List SeqUse) : ∀ k, k ≤ l.length →
    nextAnswers (seqAnswers (⟨get, k, l.length⟩ : PySeq α) us) =
      ((l.drop k).map PyNext.item ++ List.replicate (nextCalls us) PyNext.stop).take (nextCalls us) := by
  induction us with
  | nil => intro k _; simp [seqAnswers, nextAnswers, nextCalls]
  | cons u us ih =>
    intro k hk
    cases u with
    | index i => simpa [seqAnswers, SeqUse.run, nextAnswers, nextCalls] using ih k hk
    | length => simpa [seqAnswers, SeqUse.run, nextAnswers, nextCalls] using ih k hk
    | next =>
      have hn : nextCalls (.next :: us) = nextCalls us + 1 := by simp [nextCalls]
      rw [hn]
      have hrun : seqAnswers (⟨get, k, l.length⟩ : PySeq α) (.next :: us) =
          .next (⟨get, k, l.length⟩ : PySeq α).next.1 ::
            seqAnswers (⟨get, k, l.length⟩ : PySeq α).next.2 us := rfl
      rw [hrun, next_spec h hk]
      cases hg : l[k]? with
      | none =>
        have hk' := hg
        rw [List.getElem?_eq_none_iff] at hk'
        have hdrop : l.drop k = [] := by simp; omega
        have := ih k hk
        rw [hdrop] at this ⊢
        simp only [nextAnswers, List.filterMap_cons]
        simp only [nextAnswers, List.map_nil, List.nil_append] at this ⊢
        rw [this]
        simp [List.replicate_succ]
      | some a =>
        have hlt := (List.getElem?_eq_some_iff.1 hg).1
        have hdrop : l.drop k = a :: l.drop (k + 1) := by
          rw [List.drop_eq_getElem_cons hlt, (List.getElem?_eq_some_iff.1 hg).2]
        have := ih (k + 1) hlt
        rw [hdrop]
        simp only [nextAnswers, List.filterMap_cons]
        simp only [nextAnswers] at this
        rw [this, List.map_cons, List.cons_append, List.take_succ_cons]
        congr 1
        have hrep : ∀ (A : List (PyNext α)) (n : Nat) (x : PyNext α),
            (A ++ List.replicate (n + 1) x).take n = (A ++ List.replicate n x).take n := by
          intro A n x
          rw [List.replicate_succ', ← List.append_assoc,
            List.take_append_of_le_length (by simp)]
        rw [hrep]

/-- C69: however the uses of a sequence object are mixed, the calls of `next()` give its elements
  once each and in order, and stop after the last. -/
theorem C69_history {get : Int → Res α} {l : List α} (h : Enumerates get l) (us : List SeqUse) :
    nextAnswers (seqAnswers (PySeq.new get l.length) us) =
      (l.map PyNext.item ++ List.replicate (nextCalls us) PyNext.stop).take (nextCalls us) :=
  nextAnswers_from h us 0 (Nat.zero_le _)

/-- C69: the length is the number of elements; an index in range gives the element, any other index
  is an error. -/
theorem C69_index {get : Int → Res α} {l : List α} (h : Enumerates get l) (c : Int) :
    (⟨get, c, l.length⟩ : PySeq α).len = l.length ∧
    (∀ (i : Nat) (a : α), l[i]? = some a → (⟨get, c, l.length⟩ : PySeq α).getitem i = .ok a) ∧
    ∀ i : Int, (i < 0 ∨ l.length ≤ i) → (⟨get, c, l.length⟩ : PySeq α).getitem i = .err := by
  refine ⟨rfl, ?_, ?_⟩
  · intro i a ha
    have := (List.getElem?_eq_some_iff.1 ha).1
    unfold PySeq.getitem
    dsimp only
    rw [if_neg (by omega), if_neg (by omega)]
    exact h i a ha
  · intro i hi
    unfold PySeq.getitem
    dsimp only
    rw [if_neg (by omega), if_pos hi]

theorem forLoop_from {get : Int → Res α} {l : List α} (h : Enumerates get l) (n : Nat) : ∀ k,
    k ≤ l.length → l.length - k < n →
    (⟨get, k, l.length⟩ : PySeq α).forLoop n = (l.drop k, .ok (), ⟨get, l.length, l.length⟩) := by
  induction n with
  | zero => intro k _ hn; omega
  | succ n ih =>
    intro k hk hn
    unfold PySeq.forLoop
    rw [next_spec h hk]
    cases hg : l[k]? with
    | none =>
      rw [List.getElem?_eq_none_iff] at hg
      have : k = l.length := by omega
      subst this
      simp
    | some a =>
      have hlt := (List.getElem?_eq_some_iff.1 hg).1
      dsimp only
      rw [ih (k + 1) hlt (by omega)]
      dsimp only
      rw [List.drop_eq_getElem_cons hlt, (List.getElem?_eq_some_iff.1 hg).2]

/-- C69 (partial: the first loop only).  A loop over a new sequence object sees the elements once
  each and in order, and ends. -/
theorem C69_for_loop_partial {get : Int → Res α} {l : List α} (h : Enumerates get l) :
    ∃ s, (PySeq.new get l.length).forLoop (l.length + 1) = (l, .ok (), s) :=
  ⟨_, forLoop_from h _ 0 (Nat.zero_le _) (by omega)⟩

/-- C69 is violated for a second loop over the same sequence object: it sees nothing. -/
theorem C69_second_loop_violated {get : Int → Res α} {l : List α} (h : Enumerates get l)
    {n : Nat} {s : PySeq α} {l' : List α} (hs : (PySeq.new get l.length).forLoop n = (l', .ok (), s)) :
    s.forLoop 1 = ([], .ok (), s) := by
  have key : ∀ n k, k ≤ l.length → ∀ l' s,
      (⟨get, k, l.length⟩ : PySeq α).forLoop n = (l', .ok (), s) →
      s = ⟨get, l.length, l.length⟩ := by
    intro n
    induction n with
    | zero => intro k _ l' s h; simp [PySeq.forLoop] at h
    | succ n ih =>
      intro k hk l' s hl
      unfold PySeq.forLoop at hl
      rw [next_spec h hk] at hl
      cases hg : l[k]? with
      | none =>
        rw [hg] at hl
        dsimp only at hl
        rw [List.getElem?_eq_none_iff] at hg
        have : k = l.length := by omega
        subst this
        simp only [Prod.mk.injEq] at hl
        exact hl.2.2.symm
      | some a =>
        rw [hg] at hl
        dsimp only at hl
        have hlt := (List.getElem?_eq_some_iff.1 hg).1
        generalize hr : (⟨get, (k + 1 : Nat), l.length⟩ : PySeq α).forLoop n = r at hl
        obtain ⟨l2, r2, s2⟩ := r
        simp only [Prod.mk.injEq] at hl
        obtain ⟨_, rfl, rfl⟩ := hl
        exact ih (k + 1) hlt l2 _ hr
  have := key n 0 (Nat.zero_le _) l' s hs
  subst this
  unfold PySeq.forLoop
  rw [next_spec h (Nat.le_refl _)]
  simp

theorem arrayGet_enumerates (l : List α) : Enumerates (arrayGet l) l := by
  intro i a ha
  unfold arrayGet
  rw [if_neg (by omega), Int.toNat_natCast, ha]

/-- C69 for the sections of a property set and the properties of a section. -/
theorem C69_property_sets (s : PropSet) (sec : PropSection) :
    Enumerates s.section_ s.sections ∧ (pySections s).number = s.sections.length ∧
      Enumerates sec.property sec.properties ∧
        (pyProperties sec).number = sec.properties.length :=
  ⟨arrayGet_enumerates _, rfl, arrayGet_enumerates _, rfl⟩

/-- C69 for the sub items: the objects for the entries below an item, in their order, if all names
  can be converted. -/
theorem C69_sub_items {utf8Name : DirEntry → Option Bytes} {t : Tree} {p : PyItem}
    (hn : ∀ c ∈ t.kids p.item.node, c.type = typeStream → utf8Name c ≠ none) :
    ∃ l, Enumerates (pySubItem utf8Name t p) l ∧ (pySubItems utf8Name t p).number = l.length ∧
      l.map (·.item) = (t.kids p.item.node).map Item.ofEntry ∧
      ∀ q ∈ l, itemClass utf8Name q.item.entry = .ok q.cls := by
  have hcls : ∀ c ∈ t.kids p.item.node, ∃ k, itemClass utf8Name c = .ok k := by
    intro c hc
    unfold itemClass
    split
    · rename_i ht
      cases hu : utf8Name c with
      | none => exact absurd hu (hn c hc ht)
      | some name =>
        dsimp only
        split
        · exact ⟨_, rfl⟩
        · split <;> exact ⟨_, rfl⟩
    · exact ⟨_, rfl⟩
  let clsOf : DirEntry → PyClass := fun c =>
    match itemClass utf8Name c with | .ok k => k | _ => .item
  have hclsOf : ∀ c ∈ t.kids p.item.node, itemClass utf8Name c = .ok (clsOf c) := by
    intro c hc
    obtain ⟨k, hk⟩ := hcls c hc
    simp only [clsOf, hk]
  refine ⟨(t.kids p.item.node).map fun c => ⟨clsOf c, Item.ofEntry c⟩, ?_, ?_, ?_, ?_⟩
  · intro i a ha
    rw [List.getElem?_map] at ha
    cases hc : (t.kids p.item.node)[i]? with
    | none => rw [hc] at ha; cases ha
    | some c =>
      rw [hc] at ha
      cases ha
      unfold pySubItem getSubItem
      rw [if_neg (by omega), Int.toNat_natCast, hc]
      have hm : c ∈ t.kids p.item.node := List.mem_of_getElem? hc
      simp only [Res.ok_bind, Item.ofEntry, hclsOf c hm, Res.pure_eq]
  · simp [pySubItems, PySeq.new, numberOfSubItems]
  · simp [Function.comp_def]
  · intro q hq
    obtain ⟨c, hc, rfl⟩ := List.mem_map.1 hq
    exact hclsOf c hc

/-- The functions behind the sequences have no undefined outcome. -/
theorem C69_gets_defined (utf8Name : DirEntry → Option Bytes) (t : Tree) (p : PyItem)
    (s : PropSet) (sec : PropSection) (i : Int) :
    (pySubItem utf8Name t p i).Defined ∧ (s.section_ i).Defined ∧ (sec.property i).Defined := by
  have harr : ∀ {α : Type} (l : List α) (i : Int), (arrayGet l i).Defined := by
    intro α l i
    unfold arrayGet
    split
    · trivial
    · split <;> trivial
  refine ⟨?_, harr _ _, harr _ _⟩
  unfold pySubItem getSubItem
  split
  · trivial
  · split
    · simp only [Res.ok_bind]
      unfold itemClass
      split
      · split
        · trivial
        · split
          · trivial
          · split <;> trivial
      · trivial
    · trivial

/-- Three elements: the first loop sees them, the second nothing. -/
example : ((PySeq.new (arrayGet [7, 8, 9]) 3).forLoop 4).1 = [7, 8, 9] ∧
    (((PySeq.new (arrayGet [7, 8, 9]) 3).forLoop 4).2.2.forLoop 4).1 = [] := by decide +kernel

/-! ### C70: reading -/

theorem pyUnsigned64_eq {n : Int} (h0 : 0 ≤ n) (h : n < 2 ^ 63) : pyUnsigned64 n = .ok n.toNat := by
  have hl : (if n < 2 ^ 63 then n else n - 2 ^ 64) = n := if_pos h
  unfold pyUnsigned64
  rw [if_neg (by omega)]
  dsimp only
  rw [hl, if_neg (by omega)]

theorem pyUnsigned64_err {n : Int} (h : n < 0 ∨ 2 ^ 63 ≤ n) : pyUnsigned64 n = .err := by
  unfold pyUnsigned64
  by_cases h1 : n < 0 ∨ 2 ^ 64 ≤ n
  · rw [if_pos h1]
  · have hl : (if n < 2 ^ 63 then n else n - 2 ^ 64) = n - 2 ^ 64 := if_neg (by omega)
    rw [if_neg h1]
    dsimp only
    rw [hl, if_pos (by omega)]

/-- C70: a size that is negative, 2 GiB or more, or not an integer is refused and moves nothing, by
  both ways to read, at any offset; so is an offset outside of 64 bits. -/
theorem C70_refused (f : FileCtx) (d : DirEntry) (cur : Int) (offset : Int) :
    (∀ n : Int, (n < 0 ∨ 2 ^ 31 ≤ n) → pyRead f d cur (.int n) = (.err, cur) ∧
      pyReadAt f d cur (.int n) offset = (.err, cur)) ∧
    pyRead f d cur .other = (.err, cur) ∧ pyReadAt f d cur .other offset = (.err, cur) ∧
    ∀ size, (offset < -(2 ^ 63) ∨ 2 ^ 63 ≤ offset) → pyReadAt f d cur size offset = (.err, cur) := by
  refine ⟨?_, rfl, ?_, ?_⟩
  · intro n hn
    rcases (show (n < 0 ∨ 2 ^ 63 ≤ n) ∨ (2 ^ 31 ≤ n ∧ n < 2 ^ 63) by omega) with h | ⟨h1, h2⟩
    · unfold pyRead pyReadAt pyReadSize
      dsimp only
      rw [pyUnsigned64_err h]
      dsimp only
      exact ⟨rfl, by split <;> rfl⟩
    · have hne : ¬ n.toNat = 0 := by omega
      have hgt : n.toNat > INT_MAX ∨ n.toNat > SSIZE_MAX := by left; unfold INT_MAX; omega
      unfold pyRead pyReadAt pyReadSize
      dsimp only
      rw [pyUnsigned64_eq (by omega) h2]
      dsimp only
      rw [if_neg hne, if_pos hgt]
      exact ⟨rfl, by split <;> rfl⟩
  · unfold pyReadAt
    split <;> rfl
  · intro size h
    unfold pyReadAt
    rw [if_pos (by unfold inOff64; omega)]

/-- C70: a size from 1 to 2 GiB - 1 gives what the library gives for it, in either way; the size 0
  gives an empty answer. -/
theorem C70_size_given (f : FileCtx) (d : DirEntry) (cur : Int) :
    (∀ n : Nat, 0 < n → n < 2 ^ 31 →
      pyRead f d cur (.int n) = ((streamRead f d cur n).1.res, (streamRead f d cur n).2) ∧
      ∀ offset : Int, -(2 ^ 63) ≤ offset → offset < 2 ^ 63 →
        pyReadAt f d cur (.int n) offset =
          ((streamReadAt f d cur n offset).1.res, (streamReadAt f d cur n offset).2)) ∧
    pyRead f d cur (.int 0) = (.ok [], cur) ∧
    ∀ offset : Int, -(2 ^ 63) ≤ offset → offset < 2 ^ 63 →
      pyReadAt f d cur (.int 0) offset = (.ok [], cur) := by
  have hz : pyUnsigned64 0 = .ok 0 := by decide +kernel
  refine ⟨?_, ?_, ?_⟩
  rotate_left
  · unfold pyRead pyReadSize
    dsimp only
    rw [hz]
    rfl
  · intro offset h1 h2
    unfold pyReadAt
    rw [if_neg (by unfold inOff64; omega)]
    dsimp only
    rw [hz]
    rfl
  intro n h0 h
  have hle : ¬ (n > INT_MAX ∨ n > SSIZE_MAX) := by unfold INT_MAX SSIZE_MAX; omega
  have hu : pyUnsigned64 (n : Int) = .ok n := by
    rw [pyUnsigned64_eq (by omega) (by omega), Int.toNat_natCast]
  refine ⟨?_, ?_⟩
  · unfold pyRead pyReadSize
    dsimp only
    rw [hu]
    dsimp only
    rw [if_neg (by omega), if_neg hle]
  · intro offset h1 h2
    unfold pyReadAt
    rw [if_neg (by unfold inOff64; omega)]
    dsimp only
    rw [hu]
    dsimp only
    rw [if_neg (by omega), if_neg hle]

/-- C70: a read without size, or with the size `None`, asks for as much as the stream has. -/
theorem C70_size_omitted (f : FileCtx) (d : DirEntry) (cur : Int) :
    pyRead f d cur .missing = pyRead f d cur .none ∧
      (d.size < 2 ^ 31 → pyRead f d cur .missing = pyRead f d cur (.int d.size)) ∧
      (2 ^ 31 ≤ d.size → pyRead f d cur .missing = (.err, cur)) := by
  refine ⟨rfl, ?_, ?_⟩
  · intro h
    unfold pyRead pyReadSize
    dsimp only
    rw [pyUnsigned64_eq (by omega) (by omega), Int.toNat_natCast]
  · intro h
    have h0 : ¬ d.size = 0 := by omega
    have h1 : d.size > INT_MAX ∨ d.size > SSIZE_MAX := by left; unfold INT_MAX; omega
    unfold pyRead pyReadSize
    dsimp only
    rw [if_neg h0, if_pos h1]

theorem read_at_shown {f : FileCtx} {d : DirEntry} {data : Bytes} (ht : d.type = typeStream)
    (hr : ∀ cur size : Nat, size ≤ 2 ^ 63 - 1 →
      (streamRead f d cur size).1.res = .ok ((data.drop cur).take size))
    (cur n offset : Nat) (hn : n < 2 ^ 31) (ho : offset < 2 ^ 63) :
    (streamReadAt f d cur n offset).1.res = .ok ((data.drop offset).take n) := by
  have hs : streamSeek d cur offset .set = (.ok (offset : Int), (offset : Int)) := by
    unfold streamSeek
    rw [if_neg (by simp [ht]), if_neg (by omega), if_neg (by simp)]
    dsimp only
    rw [if_neg (by unfold inOff64; omega), if_neg (by omega)]
  unfold streamReadAt
  rw [hs]
  exact hr offset n (by omega)

theorem read_shown {f : FileCtx} {d : DirEntry} {data : Bytes}
    (hr : ∀ cur size : Nat, size ≤ 2 ^ 63 - 1 →
      (streamRead f d cur size).1.res = .ok ((data.drop cur).take size))
    (cur n : Nat) (hn : n < 2 ^ 31) :
    (pyRead f d cur (.int n)).1 = .ok ((data.drop cur).take n) := by
  rcases Nat.eq_zero_or_pos n with h0 | h0
  · rw [h0, List.take_zero, Int.natCast_zero, (C70_size_given f d cur).2.1]
  · rw [((C70_size_given f d cur).1 n h0 hn).1]
    exact hr cur n (by omega)

/-- C70 (partial: streams below 2 GiB).  A read without size gives all the data from the current
  offset on; with a size that is accepted, the data there, as far as there is any. -/
theorem C70_read_partial {t : Tree} {f : FileCtx} {it : Item} {data : Bytes}
    (hs : Shows t f it (.stream data)) (cur : Nat) :
    (data.length < 2 ^ 31 → (pyRead f it.entry cur .missing).1 = .ok (data.drop cur)) ∧
    (∀ n : Nat, n < 2 ^ 31 →
      (pyRead f it.entry cur (.int n)).1 = .ok ((data.drop cur).take n)) ∧
    ∀ n offset : Nat, n < 2 ^ 31 → offset < 2 ^ 63 →
      (pyReadAt f it.entry cur (.int n) offset).1 = .ok ((data.drop offset).take n) := by
  cases hs with
  | stream ht hk hsz hr =>
    refine ⟨?_, fun n hn => read_shown hr cur n hn, ?_⟩
    · intro hlen
      rw [(C70_size_omitted f it.entry cur).2.1 (by omega), read_shown hr cur _ (by omega), hsz,
        List.take_of_length_le (by simp)]
    · intro n offset hn ho
      rcases Nat.eq_zero_or_pos n with h0 | h0
      · rw [h0, List.take_zero, Int.natCast_zero,
          (C70_size_given f it.entry cur).2.2 offset (by omega) (by omega)]
      · rw [((C70_size_given f it.entry cur).1 n h0 hn).2 offset (by omega) (by omega)]
        exact read_at_shown ht hr cur n offset hn ho

/-- C70 is violated for larger streams: the whole data of a stream of 2 GiB or more cannot be read
  without a size, from no offset. -/
theorem C70_large_stream_violated {t : Tree} {f : FileCtx} {it : Item} {data : Bytes}
    (hs : Shows t f it (.stream data)) (hlen : 2 ^ 31 ≤ data.length) (cur : Nat) :
    pyRead f it.entry cur .missing = (.err, (cur : Int)) := by
  cases hs with
  | stream ht hk hsz hr => exact (C70_size_omitted f it.entry cur).2.2 (by omega)

/-- C70, for a whole document: a program that walks the sub items with loops and reads every stream
  with one call sees the document. -/
theorem C70_walk_partial {utf8Name : DirEntry → Option Bytes} {t : Tree} {f : FileCtx}
    (hn : ∀ k, ∀ c ∈ t.kids k, c.type = typeStream → utf8Name c ≠ none) {it : Item} {doc : Doc}
    (hs : Shows t f it doc) (hsmall : SmallStreams doc) : ∀ cls : PyClass,
    (cls = .item ↔ it.entry.type ≠ typeStream) → PySees utf8Name t f ⟨cls, it⟩ doc := by
  induction hs with
  | @stream it data ht hk hsz hr =>
    intro cls hcls
    cases hsmall with
    | stream hlen =>
      refine .stream (fun h => hcls.1 h ht) ?_
      exact (C70_read_partial (.stream ht hk hsz hr) 0).1 hlen
  | @storage it kids kids' items ht hnum hg hp hl hname hsub ih =>
    intro cls hcls
    cases hsmall with
    | storage hsm =>
      obtain ⟨l, he, hlen, hitems, hclass⟩ := C69_sub_items (utf8Name := utf8Name) (t := t)
        (p := ⟨cls, it⟩) (hn _)
      have hnum' : l.length = items.length := by
        have := congrArg List.length hitems
        simp only [List.length_map] at this
        unfold numberOfSubItems at hnum
        omega
      have hitem : ∀ (i : Nat) (c : PyItem), l[i]? = some c → items[i]? = some c.item := by
        intro i c hc
        have h1 : (l.map (·.item))[i]? = some c.item := by rw [List.getElem?_map, hc]; rfl
        rw [hitems, List.getElem?_map] at h1
        refine (hg i c.item).1 ?_
        unfold getSubItem
        rw [if_neg (by omega), Int.toNat_natCast]
        dsimp only at h1
        cases hk : (t.kids it.node)[i]? with
        | none => rw [hk] at h1; cases h1
        | some x => rw [hk] at h1; exact congrArg Res.ok (Option.some.inj h1)
      obtain ⟨s, hloop⟩ := C69_for_loop_partial he
      refine .storage (kids' := kids') (items := l) (hcls.2 (by
        rcases ht with h | h <;> rw [h] <;> decide)) ⟨l.length + 1, s, ?_⟩ hp (by omega) ?_ ?_
      · have : pySubItems utf8Name t ⟨cls, it⟩ = PySeq.new (pySubItem utf8Name t ⟨cls, it⟩) l.length := by
          unfold pySubItems PySeq.new at hlen ⊢
          dsimp only at hlen ⊢
          rw [hlen]
        rw [this]
        exact hloop
      · intro i c k hc hk
        exact hname i c.item k (hitem i c hc) hk
      · intro i c k hc hk
        have hmem : k ∈ kids := hp.mem_iff.1 (List.mem_of_getElem? hk)
        have hcl := hclass c (List.mem_of_getElem? hc)
        refine ih i c.item k (hitem i c hc) hk (hsm k hmem) c.cls ?_
        unfold itemClass at hcl
        by_cases hst : c.item.entry.type = typeStream
        · rw [if_pos hst] at hcl
          refine ⟨fun h => ?_, fun h => absurd hst h⟩
          exfalso
          rw [h] at hcl
          cases hu : utf8Name c.item.entry with
          | none => rw [hu] at hcl; cases hcl
          | some name =>
            rw [hu] at hcl
            dsimp only at hcl
            split at hcl
            · cases hcl
            · split at hcl <;> cases hcl
        · rw [if_neg hst] at hcl
          exact ⟨fun _ => hst, fun _ => (Res.ok.inj hcl).symm⟩

/-- C70, from the file to the Python program: every stored document below the limits, opened, is
  what the program sees from the root item on. -/
theorem C70_document_seen_partial (w : Writer) (kids : List (Bytes × Doc)) (hst : Storable w kids)
    (hsmall : SmallStreams (.storage kids))
    (cmp : Bytes → Bytes → Option Bool) (hcmp : ∀ n ∈ namesOfKids kids, Comparable cmp n)
    (st : FileState) (hr : Reachable cmp st) (hclosed : st.file.handle = none)
    (h : HandleId) (hdev : st.world.dev h = Dev.ofBytes (encodeFile w kids))
    (flags : Nat) (hfl : flags % 4 = 1) (utf8Name : DirEntry → Option Bytes)
    (hutf : ∀ d, utf8Name d ≠ none) :
    (openHandle cmp h flags {} st).1 = .ok () ∧
    ∃ t f p, (openHandle cmp h flags {} st).2.file.tree = some t ∧
      (openHandle cmp h flags {} st).2.file.ctx
        ((openHandle cmp h flags {} st).2.world.dev h) = some f ∧
      pyRootItem (some t) = some p ∧ PySees utf8Name t f p (.storage kids) := by
  obtain ⟨h1, t, f, it, h2, h3, h4, h5, _⟩ :=
    C60_written_document_shown w kids hst cmp hcmp st hr hclosed h hdev flags hfl
  refine ⟨h1, t, f, ⟨fileClass it.entry, it⟩, h2, h3, ?_, ?_⟩
  · unfold pyRootItem
    rw [h4]
    rfl
  · refine C70_walk_partial (fun _ c _ _ => hutf c) h5 hsmall _ ?_
    unfold fileClass
    split
    · rename_i hs
      exact ⟨(fun h => by cases h), fun h => absurd hs h⟩
    · rename_i hs
      exact ⟨fun _ => hs, fun _ => rfl⟩

/-- A document with streams in and below the root is seen, read from its file. -/
example (e : Endian) : (openHandle cmpNone (.user 1) 1 {} (smallState e)).1 = .ok () ∧
    ∃ t f p, (openHandle cmpNone (.user 1) 1 {} (smallState e)).2.file.tree = some t ∧
      (openHandle cmpNone (.user 1) 1 {} (smallState e)).2.file.ctx
        ((openHandle cmpNone (.user 1) 1 {} (smallState e)).2.world.dev (.user 1)) = some f ∧
      pyRootItem (some t) = some p ∧
      PySees (fun d => some d.name) t f p (.storage smallDoc) :=
  C70_document_seen_partial _ smallDoc (smallDoc_storable e) (by
    unfold smallDoc
    refine .storage ?_
    intro k hk
    simp only [List.mem_cons, List.not_mem_nil, or_false] at hk
    rcases hk with rfl | rfl | rfl
    · exact .stream (by rw [longStream_length]; decide)
    · refine .storage ?_
      intro k hk
      simp only [List.mem_cons, List.not_mem_nil, or_false] at hk
      rcases hk with rfl | rfl
      · exact .stream (by decide)
      · exact .stream (by decide)
    · exact .storage (by intro k hk; cases hk)) cmpNone (by
    intro n _
    exact ⟨fun _ => by simp [cmpNone], fun _ => by simp [cmpNone]⟩) (smallState e)
    ⟨smallState e, [], ⟨rfl, rfl⟩, rfl⟩ rfl (.user 1) rfl 1 rfl _ (by simp)

/-! ### C71: the class of an item object -/

/-- C71, objects asked of an item: the class for property sets is that of the streams with the names
  of the two summary information streams, the class for streams that of the others. -/
theorem C71_class_of_item {utf8Name : DirEntry → Option Bytes} {d : DirEntry} {name : Bytes}
    (hname : utf8Name d = some name) :
    itemClass utf8Name d = .ok (if d.type ≠ 2 then .item
      else if name = pySummaryName ∨ name = pyDocumentSummaryName then .propertySetStream
      else .stream) := by
  have hl1 : pySummaryName.length = 19 := by decide
  have hl2 : pyDocumentSummaryName.length = 27 := by decide
  unfold itemClass
  by_cases ht : d.type = 2
  · rw [if_pos ht, hname, if_neg (by simp [ht])]
    dsimp only
    by_cases h1 : name = pySummaryName
    · rw [if_pos ⟨by rw [h1, hl1], h1⟩, if_pos (Or.inl h1)]
    · rw [if_neg (fun h => h1 h.2)]
      by_cases h2 : name = pyDocumentSummaryName
      · rw [if_pos ⟨by rw [h2, hl2], h2⟩, if_pos (Or.inr h2)]
      · rw [if_neg (fun h => h2 h.2), if_neg (by simp [h1, h2])]
  · rw [if_neg ht, if_pos ht]

/-- C71 (partial: not the summary information streams).  The class of the object does not depend on
  the way to it: by a path from the file, or by a name, a path or an index from another item. -/
theorem C71_same_class_partial {utf8Name : DirEntry → Option Bytes} {i : Item} {name : Bytes}
    (hname : utf8Name i.entry = some name) (h1 : name ≠ pySummaryName)
    (h2 : name ≠ pyDocumentSummaryName) {look look' : Bytes → Res (Option Item)} {p p' : Bytes}
    (hl : look p = .ok (some i)) (hl' : look' p' = .ok (some i)) {t : Tree} {q : PyItem} {k : Int}
    (hk : getSubItem t q.item k = .ok i) :
    ∃ o, pyItemByPath look p = .ok (some o) ∧ pySubItemBy utf8Name look' p' = .ok (some o) ∧
      pySubItem utf8Name t q k = .ok o := by
  have hc : itemClass utf8Name i.entry = .ok (fileClass i.entry) := by
    rw [C71_class_of_item hname, if_neg (show ¬ (name = pySummaryName ∨ name = pyDocumentSummaryName)
      by simp [h1, h2])]
    unfold fileClass
    by_cases ht : i.entry.type = 2
    · rw [if_neg (by simp [ht]), if_pos ht]
    · rw [if_pos ht, if_neg ht]
  refine ⟨⟨fileClass i.entry, i⟩, ?_, ?_, ?_⟩
  · unfold pyItemByPath
    rw [hl]
    rfl
  · unfold pySubItemBy
    rw [hl']
    simp only [Res.ok_bind, hc]
    rfl
  · unfold pySubItem
    rw [hk]
    simp only [Res.ok_bind, hc]
    rfl

/-- C71 is violated for the summary information streams: asked of the file by their path they are
  plain streams, from which the property set cannot be asked; asked of an item they are not. -/
theorem C71_summary_violated {utf8Name : DirEntry → Option Bytes} {i : Item} (ht : i.entry.type = 2)
    (hname : utf8Name i.entry = some pySummaryName ∨
      utf8Name i.entry = some pyDocumentSummaryName)
    {look look' : Bytes → Res (Option Item)} {p p' : Bytes}
    (hl : look p = .ok (some i)) (hl' : look' p' = .ok (some i)) :
    pyItemByPath look p = .ok (some ⟨.stream, i⟩) ∧
      pySubItemBy utf8Name look' p' = .ok (some ⟨.propertySetStream, i⟩) := by
  have hc : itemClass utf8Name i.entry = .ok .propertySetStream := by
    rcases hname with h | h
    · rw [C71_class_of_item h, if_neg (by simp [ht]), if_pos (Or.inl rfl)]
    · rw [C71_class_of_item h, if_neg (by simp [ht]), if_pos (Or.inr rfl)]
  refine ⟨?_, ?_⟩
  · unfold pyItemByPath fileClass
    rw [hl]
    simp only [Res.ok_bind]
    rw [if_pos ht]
    rfl
  · unfold pySubItemBy
    rw [hl']
    simp only [Res.ok_bind, hc]
    rfl

/-- The summary information stream by both ways, and another stream. -/
example : let d := setEntry []
    fileClass d = .stream ∧
    itemClass (fun _ => some pySummaryName) d = .ok .propertySetStream ∧
    itemClass (fun _ => some [65]) d = .ok .stream := by
  decide

/-! ### C72: the values of properties -/

/-- The number that the library reads of a property of one of the integer types. -/
theorem integer_read {f : FileCtx} (h : WellFormedCtx f) {d : DirEntry} (hd : StreamOk f d)
    {e : Endian} {p : PropValue} (hp : ReadProperty f d e p) {n : Nat}
    (hn : (p.type, n) ∈ fixedTypes) {rd : Endian → Bytes → Nat → Res Nat}
    {dec : Endian → Bytes → Nat → Nat}
    (hrd : ∀ e b, b.length = n → rd e b 0 = .ok (dec e b 0))
    (hdec : ∀ b : Bytes, b.length = n → dec e b 0 = leVal (orient e b)) :
    ∃ b v, p.data = .ok b ∧ b.length = n ∧ v < 256 ^ n ∧ p.copyInt n rd = .ok v ∧
      ∀ z : Int, b = integerBytes e n z ↔ z % ((256 ^ n : Nat) : Int) = v := by
  obtain ⟨b, hb, hc⟩ := copyInt_iff h hd hp hn hrd
  obtain ⟨_, b', _, _, hb', hl⟩ := C39_fixed_size h hd hp hn
  rw [hb] at hb'
  cases hb'
  refine ⟨b, leVal (orient e b), hb, hl, ?_, by rw [hc, hdec b hl], ?_⟩
  · have := leVal_lt (orient e b)
    have hl' : (orient e b).length = n := by cases e <;> simp [orient, hl]
    rwa [hl'] at this
  · intro z
    rw [integerBytes_iff hl]
    simp

/-- C72: the integer of a property that was read is the number whose bytes, in two's complement for
  the signed types, are the data of the property; there is one for the integer types and FILETIME
  only. -/
theorem C72_integer {f : FileCtx} (h : WellFormedCtx f) {d : DirEntry} (hd : StreamOk f d)
    {e : Endian} {p : PropValue} (hp : ReadProperty f d e p) (z : Int) :
    pyInteger p = .ok z ↔ ∃ size signed, (p.type, size, signed) ∈ integerTypes ∧
      HeldIn size signed z ∧ p.data = .ok (integerBytes e size z) := by
  have key : ∀ {size : Nat} {signed : Bool} {b : Bytes} {v : Nat} {r : Int},
      (p.type, size, signed) ∈ integerTypes →
      (∀ s s', (p.type, s, s') ∈ integerTypes → s = size ∧ s' = signed) →
      p.data = .ok b → v < 256 ^ size →
      (∀ z : Int, b = integerBytes e size z ↔ z % ((256 ^ size : Nat) : Int) = v) →
      (∀ z : Int, z = r ↔ HeldIn size signed z ∧ z % ((256 ^ size : Nat) : Int) = v) →
      pyInteger p = .ok r →
      (pyInteger p = .ok z ↔ ∃ size signed, (p.type, size, signed) ∈ integerTypes ∧
        HeldIn size signed z ∧ p.data = .ok (integerBytes e size z)) := by
    intro size signed b v r ht hu hb hv hbytes hr hpy
    rw [hpy, hb]
    constructor
    · intro hz
      obtain ⟨h1, h2⟩ := (hr z).1 (Res.ok.inj hz).symm
      exact ⟨size, signed, ht, h1, by rw [← (hbytes z).2 h2]⟩
    · rintro ⟨s, s', ht', hh, hbz⟩
      obtain ⟨rfl, rfl⟩ := hu s s' ht'
      rw [(hr z).2 ⟨hh, (hbytes z).1 (Res.ok.inj hbz)⟩]
  have hun : ∀ t : Nat, t ∈ integerTypes.map (·.1) → ∀ a b : Nat × Bool, (t, a.1, a.2) ∈ integerTypes →
      (t, b.1, b.2) ∈ integerTypes → a.1 = b.1 ∧ a.2 = b.2 := by
    intro t _ a b ha hb
    unfold integerTypes at ha hb
    simp only [List.mem_cons, Prod.mk.injEq, List.not_mem_nil, or_false] at ha hb
    rcases a with ⟨a, a'⟩
    rcases b with ⟨b, b'⟩
    dsimp only at ha hb ⊢
    rcases ha with ⟨_, h1, h2⟩ | ⟨_, h1, h2⟩ | ⟨_, h1, h2⟩ | ⟨_, h1, h2⟩ | ⟨_, h1, h2⟩ | ⟨_, h1, h2⟩ |
      ⟨_, h1, h2⟩ <;>
    rcases hb with ⟨_, h3, h4⟩ | ⟨_, h3, h4⟩ | ⟨_, h3, h4⟩ | ⟨_, h3, h4⟩ | ⟨_, h3, h4⟩ | ⟨_, h3, h4⟩ |
      ⟨_, h3, h4⟩ <;> first
        | (exfalso; omega)
        | exact ⟨h1.trans h3.symm, h2.trans h4.symm⟩
  have hu : ∀ {size : Nat} {signed : Bool}, (p.type, size, signed) ∈ integerTypes →
      ∀ s s', (p.type, s, s') ∈ integerTypes → s = size ∧ s' = signed := by
    intro size signed ht s s' h'
    exact hun p.type (List.mem_map.2 ⟨_, ht, rfl⟩) (s, s') (size, signed) h' ht
  by_cases h16 : p.type = 0x2 ∨ p.type = 0x12
  · obtain ⟨b, v, hb, hl, hv, hc, hbytes⟩ := integer_read h hd hp (n := 2)
      (by rcases h16 with ht | ht <;> rw [ht] <;> decide) (rd := rd16) (dec := u16At)
      (fun e b hb => rd16_ok e (by omega)) (fun b hb => u16_leVal e hb)
    have h16v : p.as16 = .ok v := by
      unfold PropValue.as16
      rw [if_neg (by omega), hc]
    have hv' : v < 65536 := hv
    rcases h16 with ht | ht
    · refine key (size := 2) (signed := true) (by rw [ht]; decide) (hu (by rw [ht]; decide)) hb hv
        hbytes (r := toSigned 16 v) ?_ ?_
      · intro z
        rw [signed_iff (bits := 16) (m := 256 ^ 2) (by decide) (by decide) hv]
        rfl
      · simp [pyInteger, ht, h16v]
    · refine key (size := 2) (signed := false) (by rw [ht]; decide) (hu (by rw [ht]; decide)) hb hv
        hbytes (r := v) ?_ ?_
      · intro z
        rw [unsigned_iff hv]
        rfl
      · simp [pyInteger, ht, h16v, toUnsigned64]
        omega
  · by_cases h32 : p.type = 0x3 ∨ p.type = 0x13
    · obtain ⟨b, v, hb, hl, hv, hc, hbytes⟩ := integer_read h hd hp (n := 4)
        (by rcases h32 with ht | ht <;> rw [ht] <;> decide) (rd := rd32) (dec := u32At)
        (fun e b hb => rd32_ok e (by omega)) (fun b hb => u32_leVal e hb)
      have h32v : p.as32 = .ok v := by
        unfold PropValue.as32
        rw [if_neg (by omega), hc]
      have hv' : v < 4294967296 := hv
      rcases h32 with ht | ht
      · refine key (size := 4) (signed := true) (by rw [ht]; decide) (hu (by rw [ht]; decide)) hb hv
          hbytes (r := toSigned 32 v) ?_ ?_
        · intro z
          rw [signed_iff (bits := 32) (m := 256 ^ 4) (by decide) (by decide) hv]
          rfl
        · simp [pyInteger, ht, h32v]
      · refine key (size := 4) (signed := false) (by rw [ht]; decide) (hu (by rw [ht]; decide)) hb hv
          hbytes (r := v) ?_ ?_
        · intro z
          rw [unsigned_iff hv]
          rfl
        · simp [pyInteger, ht, h32v, toUnsigned64]
          omega
    · have hcast : ∀ v : Nat, v < 2 ^ 64 → toUnsigned64 (toSigned 64 v) = v := by
        intro v hv
        unfold toUnsigned64 toSigned
        rw [Nat.mod_eq_of_lt hv]
        split <;> omega
      by_cases h64 : p.type = 0x14 ∨ p.type = 0x15
      · obtain ⟨b, v, hb, hl, hv, hc, hbytes⟩ := integer_read h hd hp (n := 8)
          (by rcases h64 with ht | ht <;> rw [ht] <;> decide) (rd := rd64) (dec := u64At)
          (fun e b hb => rd64_ok e (by omega)) (fun b hb => u64_leVal e hb)
        have h64v : p.as64 = .ok v := by
          unfold PropValue.as64
          rw [if_neg (by omega), hc]
        have hv' : v < 2 ^ 64 := hv
        rcases h64 with ht | ht
        · refine key (size := 8) (signed := true) (by rw [ht]; decide) (hu (by rw [ht]; decide)) hb hv
            hbytes (r := toSigned 64 v) ?_ ?_
          · intro z
            rw [signed_iff (bits := 64) (m := 256 ^ 8) (by decide) (by decide) hv]
            rfl
          · simp [pyInteger, ht, h64v]
        · refine key (size := 8) (signed := false) (by rw [ht]; decide) (hu (by rw [ht]; decide)) hb
            hv hbytes (r := v) ?_ ?_
          · intro z
            rw [unsigned_iff hv]
            rfl
          · simp [pyInteger, ht, h64v, hcast v hv']
      · by_cases hft : p.type = 0x40
        · obtain ⟨b, v, hb, hl, hv, hc, hbytes⟩ := integer_read h hd hp (n := 8)
            (by rw [hft]; decide) (rd := rd64) (dec := u64At)
            (fun e b hb => rd64_ok e (by omega)) (fun b hb => u64_leVal e hb)
          have hftv : p.asFiletime = .ok v := by
            unfold PropValue.asFiletime
            rw [if_neg (by omega), hc]
          have hv' : v < 2 ^ 64 := hv
          refine key (size := 8) (signed := false) (by rw [hft]; decide) (hu (by rw [hft]; decide)) hb
            hv hbytes (r := v) ?_ ?_
          · intro z
            rw [unsigned_iff hv]
            rfl
          · simp [pyInteger, hft, hftv, hcast v hv']
        · constructor
          · intro hz
            unfold pyInteger at hz
            rw [if_neg h16, if_neg h32, if_neg h64, if_neg hft] at hz
            cases hz
          · rintro ⟨size, signed, ht, _⟩
            unfold integerTypes at ht
            simp only [List.mem_cons, Prod.mk.injEq, List.not_mem_nil, or_false] at ht
            omega

/-- C72: the date and time of a property that was read is that of the FILETIME in its data, for
  the dates of C68; there is none for other types. -/
theorem C72_datetime_partial {f : FileCtx} (h : WellFormedCtx f) {d : DirEntry} (hd : StreamOk f d)
    {e : Endian} {p : PropValue} (hp : ReadProperty f d e p) {api : DateTimeApi}
    (hapi : IsPython api) (t : PyDateTime) :
    (pyDatetime api p = .ok t → p.type = 0x40 ∧ ∃ ft : Nat, ft < 2 ^ 64 ∧
      p.data = .ok (integerBytes e 8 ft) ∧ ValidDateTime t ∧ microsOf t = filetimeMicros ft) ∧
    (p.type = 0x40 → ∀ ft : Nat, ft < 2 ^ 64 → p.data = .ok (integerBytes e 8 ft) →
      dayNumber 1601 1 1 + ft / 864000000000 ≠ dayNumber 1699 12 31 →
      ValidDateTime t → microsOf t = filetimeMicros ft → pyDatetime api p = .ok t) := by
  by_cases hft : p.type = 0x40
  · obtain ⟨b, v, hb, hl, hv, hc, hbytes⟩ := integer_read h hd hp (n := 8)
      (by rw [hft]; decide) (rd := rd64) (dec := u64At)
      (fun e b hb => rd64_ok e (by omega)) (fun b hb => u64_leVal e hb)
    have hftv : p.asFiletime = .ok v := by
      unfold PropValue.asFiletime
      rw [if_neg (by omega), hc]
    have hv' : v < 2 ^ 64 := hv
    have hpy : pyDatetime api p = datetimeFromFiletime api v := by
      unfold pyDatetime
      rw [if_pos hft, hftv]
    rw [hpy, hb]
    refine ⟨?_, ?_⟩
    · intro ht
      obtain ⟨h1, h2⟩ := C68_never_wrong hapi hv' ht
      exact ⟨hft, v, hv', by rw [← (hbytes v).2 (Int.emod_eq_of_lt (by omega) (by omega))], h1, h2⟩
    · intro _ ft hft64 hd' hday hval hm
      have : v = ft := by
        have h1 := (hbytes ft).1 (Res.ok.inj hd')
        rw [Int.emod_eq_of_lt (by omega) (show (ft : Int) < ((256 ^ 8 : Nat) : Int) by
          have : (256 : Nat) ^ 8 = 2 ^ 64 := by decide
          rw [this]; omega)] at h1
        omega
      subst this
      rcases Nat.lt_or_ge (filetimeMicros v) (dayNumber 10000 1 1 * 86400000000) with hr | hr
      · obtain ⟨t', h1, h2, h3⟩ := C68_datetime_partial hapi hv' hr hday
        rw [h1, C68_instant_unique h2 hval (by rw [h3, hm])]
      · exfalso
        have hy := hval.year
        have hmo := hval.month
        have hdy := hval.day
        have h1 := hval.hour; have h2 := hval.minute; have h3 := hval.second; have h4 := hval.micro
        have hlt := daysBeforeMonth_lt (y := t.year) (m := t.month) (n := 13) hmo.1 (by omega)
          (Nat.le_refl _)
        rw [daysBeforeMonth_all] at hlt
        have hmono : daysBeforeYear t.year + yearDays t.year ≤ daysBeforeYear 10000 :=
          daysBeforeYear_lt hy.1 (by omega)
        rw [← hm] at hr
        unfold microsOf dayNumber at hr
        rw [daysBeforeMonth_one] at hr
        omega
  · refine ⟨?_, fun h => absurd h hft⟩
    unfold pyDatetime
    rw [if_neg hft]
    intro h
    cases h

/-- C72: the boolean of a property that was read is whether the byte of its data is not zero. -/
theorem C72_boolean {f : FileCtx} (h : WellFormedCtx f) {d : DirEntry} (hd : StreamOk f d)
    {e : Endian} {p : PropValue} (hp : ReadProperty f d e p) (x : Bool) :
    pyBoolean p = .ok x ↔ p.type = 0xb ∧ ∃ b, p.data = .ok b ∧ (x = true ↔ byteAt b 0 ≠ 0) := by
  have hb := C40_boolean h hd hp
  unfold pyBoolean
  constructor
  · intro hx
    cases hv : p.asBoolean with
    | ok v =>
      rw [hv] at hx
      cases hx
      obtain ⟨h1, b, h2, h3⟩ := (hb v).1 hv
      exact ⟨h1, b, h2, by rw [← h3]; simp⟩
    | err => rw [hv] at hx; cases hx
    | ub => rw [hv] at hx; cases hx
    | hang => rw [hv] at hx; cases hx
  · rintro ⟨h1, b, h2, h3⟩
    rw [(hb (byteAt b 0)).2 ⟨h1, b, h2, rfl⟩]
    show Res.ok (decide (byteAt b 0 ≠ 0)) = Res.ok x
    congr 1
    rw [Bool.eq_iff_iff, h3]
    simp

/-- The properties that were read include integers (`C39`, `C40`); the numbers of some data. -/
example :
    pyInteger ⟨7, 0x2, some ⟨.byteOrder .little, some [0xfe, 0xff]⟩⟩ = .ok (-2) ∧
    pyInteger ⟨7, 0x12, some ⟨.byteOrder .little, some [0xfe, 0xff]⟩⟩ = .ok 65534 ∧
    pyInteger ⟨7, 0x3, some ⟨.byteOrder .big, some [0xff, 0xff, 0xff, 0xfd]⟩⟩ = .ok (-3) ∧
    pyInteger ⟨7, 0x15, some ⟨.byteOrder .big,
      some [0xff, 0xff, 0xff, 0xff, 0xff, 0xff, 0xff, 0xfc]⟩⟩ = .ok (2 ^ 64 - 4) ∧
    integerBytes .big 4 (-3) = [0xff, 0xff, 0xff, 0xfd] ∧ HeldIn 4 true (-3) := by
  unfold HeldIn
  decide +kernel

/-! ### C73: the format version -/

/-- What the format version of an opened file is: that of its header. -/
theorem opened_version {cmp : Bytes → Bytes → Option Bool} {st : FileState} (hr : Reachable cmp st)
    {h : HandleId} {content : Bytes} (hdev : st.world.dev h = Dev.ofBytes content) {e : Endian}
    {hf : HeaderFields} (hfits : hf.Fits) (hpre : encodeHeader e hf <+: content) {flags : Nat}
    {flt : Faults} (hok : (openHandle cmp h flags flt st).1 = .ok ()) :
    getFormatVersion (openHandle cmp h flags flt st).2.file = (hf.major, hf.minor) := by
  obtain ⟨l, hdr, t0, list, tree, ho, _, _⟩ := openHandle_loaded (reachable_inv hr).closed hok
  have hh := ho.hheader
  rw [hdev] at hh
  have hlen : (encodeHeader e hf).length = 512 := encodeHeader_length e hf hfits
  have hget : (Dev.ofBytes content).get 0 512 = some (encodeHeader e hf) := by
    obtain ⟨r, rfl⟩ := hpre
    unfold Dev.get Dev.ofBytes
    dsimp only
    rw [List.drop_zero, List.take_append_of_le_length (by omega), List.take_of_length_le (by omega),
      if_pos hlen]
  unfold headerRead at hh
  rw [hget] at hh
  dsimp only at hh
  rw [C02_header_roundtrip e hf hfits] at hh
  have hhdr : hdr = parsedFields e hf := by cases hh; rfl
  unfold getFormatVersion
  rw [ho.hio, hhdr]
  cases (createTree list cmp).shortStart <;> rfl

/-- C73 (partial).  The format version is a string of the two numbers with a point between them for
  files with one-digit numbers, and an error for all others. -/
theorem C73_format_version_partial {cmp : Bytes → Bytes → Option Bool} {st : FileState}
    (hr : Reachable cmp st) {h : HandleId} {content : Bytes}
    (hdev : st.world.dev h = Dev.ofBytes content) {e : Endian} {hf : HeaderFields} (hfits : hf.Fits)
    (hpre : encodeHeader e hf <+: content) {flags : Nat} {flt : Faults}
    (hok : (openHandle cmp h flags flt st).1 = .ok ()) :
    (hf.major < 10 ∧ hf.minor < 10 →
      pyFormatVersion (openHandle cmp h flags flt st).2.file =
        .ok (((toString hf.major ++ "." ++ toString hf.minor).toList.map
          fun c => UInt8.ofNat c.toNat))) ∧
    (¬ (hf.major < 10 ∧ hf.minor < 10) →
      pyFormatVersion (openHandle cmp h flags flt st).2.file = .err) := by
  have hv := opened_version hr hdev hfits hpre hok
  unfold pyFormatVersion
  rw [hv]
  dsimp only
  refine ⟨?_, ?_⟩
  · rintro ⟨h1, h2⟩
    rw [if_neg (by omega), if_neg (by omega)]
    generalize hf.major = a at h1
    generalize hf.minor = b at h2
    have : ∀ a < 10, ∀ b < 10, (Res.ok [UInt8.ofNat (48 + a), 46, UInt8.ofNat (48 + b)] : Res Bytes) =
        .ok (((toString a ++ "." ++ toString b).toList.map fun c => UInt8.ofNat c.toNat)) := by
      decide +kernel
    exact this a h1 b h2
  · intro hn
    by_cases h1 : hf.major < 10
    · rw [if_neg (by omega), if_pos (by omega)]
    · rw [if_pos (by omega)]

/-- C73 is violated for every file with the usual minor version of the format, 0x3e: such as every
  document of C60 stored with it, whose format version the library gives and the bindings refuse. -/
theorem C73_usual_version_violated (w : Writer) (kids : List (Bytes × Doc)) (hst : Storable w kids)
    (hminor : w.marks.minor = 0x3e)
    (cmp : Bytes → Bytes → Option Bool) (hcmp : ∀ n ∈ namesOfKids kids, Comparable cmp n)
    (st : FileState) (hr : Reachable cmp st) (hclosed : st.file.handle = none)
    (h : HandleId) (hdev : st.world.dev h = Dev.ofBytes (encodeFile w kids))
    (flags : Nat) (hfl : flags % 4 = 1) :
    (openHandle cmp h flags {} st).1 = .ok () ∧
      getFormatVersion (openHandle cmp h flags {} st).2.file = (w.marks.major, 0x3e) ∧
      pyFormatVersion (openHandle cmp h flags {} st).2.file = .err := by
  obtain ⟨h1, _⟩ := C60_written_document_shown w kids hst cmp hcmp st hr hclosed h hdev flags hfl
  obtain ⟨e, sat, ssat, root, cids, clast, csecs, hl, _⟩ := encodeFile_held hst
  exact ⟨h1, (opened_version hr hdev hl.fits hl.header h1).trans (by rw [← hminor]; rfl),
    (C73_format_version_partial hr hdev hl.fits hl.header h1).2 (by
      rintro ⟨_, h⟩
      have h : w.marks.minor < 10 := h
      rw [hminor] at h
      exact absurd h (by decide))⟩

/-- The sample file, with the minor version 0, has the format version "3.0"; the file with the small
  document has none. -/
example (e : Endian) :
    pyFormatVersion (openHandle cmpNone (.user 1) 1 {}
      ⟨OleFile.new, { sampleWorld with dev := fun _ => Dev.ofBytes (sampleFile e) }⟩).2.file =
        .ok [51, 46, 48] ∧
    pyFormatVersion (openHandle cmpNone (.user 1) 1 {} (smallState e)).2.file = .err := by
  have hr : Reachable cmpNone
      ⟨OleFile.new, { sampleWorld with dev := fun _ => Dev.ofBytes (sampleFile e) }⟩ :=
    ⟨_, [], ⟨rfl, rfl⟩, rfl⟩
  obtain ⟨h1, _⟩ := C47_document_shown (sample_holds e) cmpNone (sample_comparable _) _ hr rfl
    (.user 1) rfl 1 rfl
  refine ⟨?_, (C73_usual_version_violated _ smallDoc (smallDoc_storable e) rfl cmpNone (by
    intro n _
    exact ⟨fun _ => by simp [cmpNone], fun _ => by simp [cmpNone]⟩) (smallState e)
    ⟨smallState e, [], ⟨rfl, rfl⟩, rfl⟩ rfl (.user 1) rfl 1 rfl).2.2⟩
  rw [(C73_format_version_partial hr (content := sampleFile e) rfl sampleFileHeader_fits
    (List.prefix_append _ _) h1).1 ⟨by decide, by decide⟩]
  decide +kernel

end Olecf.Props
