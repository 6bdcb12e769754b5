import Verif.Spec.PyThreads
import Verif.Props.PyStream
import Verif.Props.DokanThreads

/-
  C118: threads of a Python program.
-/

namespace Olecf.Props
open Olecf Olecf.Spec

/-- The parts of a method are those of `PyStreamOp.run`. -/
theorem run_parts (f : FileCtx) (d : DirEntry) (cur : Int) (op : PyStreamOp) :
    op.run f d cur = match op.before d with
      | .inr a => (a, cur)
      | .inl c => (op.after (callAlone f d cur c).1, (callAlone f d cur c).2) := by
  cases op with
  | read size =>
    unfold PyStreamOp.run PyStreamOp.before pyRead
    dsimp only
    generalize pyReadSize d size = x
    cases x with
    | ok n =>
      dsimp only
      by_cases h1 : n = 0
      · rw [if_pos h1, if_pos h1]; rfl
      · rw [if_neg h1, if_neg h1]
        by_cases h2 : n > INT_MAX ∨ n > SSIZE_MAX
        · rw [if_pos h2, if_pos h2]; rfl
        · rw [if_neg h2, if_neg h2]; rfl
    | _ => rfl
  | readAt size o =>
    unfold PyStreamOp.run PyStreamOp.before pyReadAt
    dsimp only
    by_cases h0 : ¬ inOff64 o
    · rw [if_pos h0, if_pos h0]; rfl
    · rw [if_neg h0, if_neg h0]
      cases size with
      | int v =>
        dsimp only
        generalize pyUnsigned64 v = x
        cases x with
        | ok n =>
          dsimp only
          by_cases h1 : n = 0
          · rw [if_pos h1, if_pos h1]; rfl
          · rw [if_neg h1, if_neg h1]
            by_cases h2 : n > INT_MAX ∨ n > SSIZE_MAX
            · rw [if_pos h2, if_pos h2]; rfl
            · rw [if_neg h2, if_neg h2]; rfl
        | _ => rfl
      | _ => rfl
  | seek o w =>
    unfold PyStreamOp.run PyStreamOp.before pySeek
    dsimp only
    by_cases h0 : ¬ inOff64 o ∨ w < -(2 ^ 31) ∨ 2 ^ 31 ≤ w
    · rw [if_pos h0, if_pos h0]; rfl
    · rw [if_neg h0, if_neg h0]
      dsimp only [callAlone, PyStreamOp.after]
      generalize streamSeek d cur o _ = x
      obtain ⟨r, c⟩ := x
      cases r <;> rfl
  | tell => rfl

theorem client_uses (entry : Nat → DirEntry) (S : Nat → Prop) : ∀ p : PyProgram, PyUses S p → Uses S (p.client entry)
  | .done, _ => trivial
  | .call i op k, h => by
    unfold PyProgram.client
    split
    · exact client_uses entry S (k _) (h.2 _)
    · exact ⟨h.1, fun r => client_uses entry S (k _) (h.2 _)⟩

theorem program_on_files {t : Tree} {f : FileCtx} {entry : Nat → DirEntry} {data : Nat → Bytes}
    (hs : ∀ i, ∃ it : Item, it.entry = entry i ∧ Shows t f it (.stream (data i))) :
    ∀ (p : PyProgram) (pos : Nat → Nat), ProgramInReach data pos p →
      p.answers entry (clientAlone f entry (fun i => (pos i : Int)) (p.client entry)) = programOnFiles data pos p
  | .done, _, _ => rfl
  | .call i op k, pos, h => by
    obtain ⟨it, he, hsh⟩ := hs i
    cases hsh with
    | stream ht _ hsize hread =>
      rw [he] at ht hsize hread
      obtain ⟨h1, h2⟩ := py_call_on_file ht hsize hread (pos i) op h.1
      have hrun := run_parts f (entry i) (pos i) op
      unfold PyProgram.client PyProgram.answers programOnFiles
      rw [← h1]
      cases hb : op.before (entry i) with
      | inr a =>
        rw [hb] at hrun
        dsimp only at hrun ⊢
        rw [hrun] at h1 h2 ⊢
        dsimp only at h1 h2 ⊢
        congr 1
        have hpos : (fun j => if j = i then (fileCall (data i) (pos i) op).2 else pos j) = pos := by
          funext j
          split
          · rename_i hj; subst hj; omega
          · rfl
        rw [hpos]
        refine program_on_files hs (k a) pos ?_
        have := h.2
        rw [hpos, ← h1] at this
        exact this
      | inl c =>
        rw [hb] at hrun
        dsimp only at hrun
        rw [hrun] at h1 h2 ⊢
        dsimp only at h1 h2 ⊢
        unfold clientAlone
        dsimp only
        congr 1
        rw [h1]
        have := program_on_files hs (k _) _ h.2
        rw [← this]
        congr 2
        funext j
        unfold threadSet
        rw [h2]
        split <;> rfl

/-- C118 (partial: separate objects, no seek beyond 2^63 - 1).  A file that holds a document has been opened, whatever
  was done before, and stream objects of it were made, also several of one stream.  Threads of which no two use the
  same object call methods, at the same time, in any order of their steps: each thread that has ended got the
  answers of files with the content of the streams, which nobody else uses; and each thread ends once it made
  enough steps.

  Missing for the full property: threads that share an object (`C118_shared_bytes_violated`,
  `C118_shared_overflow_violated`), and seeks beyond 2^63 - 1 (`C117_seek_overflow_violated`). -/
theorem C118_document_partial {content : Bytes} {names : List Bytes} {doc : Doc} (hf : FileHolds content names doc)
    (cmp : Bytes → Bytes → Option Bool) (hcmp : ∀ n ∈ names, Comparable cmp n)
    (st : FileState) (hst : Reachable cmp st) (hclosed : st.file.handle = none)
    (h : HandleId) (hdev : st.world.dev h = Dev.ofBytes content) (flags : Nat) (hfl : flags % 4 = 1)
    (path : Nat → List Bytes) (data : Nat → Bytes) (hpath : ∀ i, DocAt doc (path i) (.stream (data i))) :
    (openHandle cmp h flags {} st).1 = .ok () ∧
    ∃ t f root, (openHandle cmp h flags {} st).2.file.tree = some t ∧
      (openHandle cmp h flags {} st).2.file.ctx ((openHandle cmp h flags {} st).2.world.dev h) = some f ∧
      rootItem (some t) = some root ∧
      ∃ item : Nat → Item, (∀ i, NamedFrom t (·.name) root (path i) (item i)) ∧
        ∀ (program : Nat → PyProgram), PySeparate program → (∀ u, ProgramInReach data (fun _ => 0) (program u)) →
          ∀ u, ∃ n, ∀ schedule,
            (n ≤ schedule.count u → ∃ rs, ((pyThreads f (fun i => (item i).entry) (fun _ => 0) program).run f.dev
              schedule).act u = .ret rs) ∧
            ∀ rs, ((pyThreads f (fun i => (item i).entry) (fun _ => 0) program).run f.dev schedule).act u = .ret rs →
              (program u).answers (fun i => (item i).entry) rs = programOnFiles data (fun _ => 0) (program u) := by
  obtain ⟨h1, t, f, root, h2, h3, h4, h5⟩ := C47_document_shown hf cmp hcmp st hst hclosed h hdev flags hfl
  refine ⟨h1, t, f, root, h2, h3, h4, ?_⟩
  have hitem : ∀ i, ∃ it, NamedFrom t (·.name) root (path i) it ∧ Shows t f it (.stream (data i)) := by
    intro i
    obtain ⟨it, k1, k2⟩ := docAt_named (g := id) h5 (hpath i)
    rw [List.map_id] at k1
    exact ⟨it, k1, k2⟩
  refine ⟨fun i => (hitem i).choose, fun i => (hitem i).choose_spec.1, ?_⟩
  intro program hsep hreach u
  obtain ⟨S, hS, hd⟩ := hsep
  refine ⟨(((program u).client fun i => ((hitem i).choose).entry).steps f (fun i => ((hitem i).choose).entry)).cost f.dev (fun _ => 0),
    fun schedule => ?_⟩
  obtain ⟨k1, k2⟩ := (run_separate f.dev hd schedule
    (pyThreads f (fun i => ((hitem i).choose).entry) (fun _ => 0) program)
    (start_within fun t => client_uses _ _ _ (hS t))).2 u
  constructor
  · intro hn
    exact ⟨_, cost_zero (k2.trans (Nat.sub_eq_zero_of_le hn))⟩
  · intro rs hrs
    rw [hrs] at k1
    have k3 : rs = clientAlone f (fun i => ((hitem i).choose).entry) (fun _ => 0)
      ((program u).client fun i => ((hitem i).choose).entry) :=
      k1.trans (steps_alone f _ _ _)
    rw [k3]
    exact program_on_files (t := t) (fun i => ⟨_, rfl, (hitem i).choose_spec.2⟩) (program u) (fun _ => 0) (hreach u)

theorem before_readAt {d : DirEntry} {n : Nat} {o : Int} (h0 : 0 < n) (hn : n < 2 ^ 31) (ho : 0 ≤ o) (ho' : o < 2 ^ 63) :
    PyStreamOp.before d (.readAt (.int n) o) = .inl (.readAt n o) := by
  unfold PyStreamOp.before
  dsimp only
  rw [if_neg (by unfold inOff64; omega), pyUnsigned64_eq (by omega) (by omega), Int.toNat_natCast]
  dsimp only
  rw [if_neg (by omega), if_neg (by unfold INT_MAX SSIZE_MAX; omega)]

theorem readAt_client {entry : Nat → DirEntry} {i n : Nat} {o : Int} (h0 : 0 < n) (hn : n < 2 ^ 31) (ho : 0 ≤ o)
    (ho' : o < 2 ^ 63) : (PyProgram.call i (.readAt (.int n) o) fun _ => .done).client entry =
      .call i (.readAt n o) fun _ => .done := by
  unfold PyProgram.client
  rw [before_readAt h0 hn ho ho']
  rfl

theorem answers_call {entry : Nat → DirEntry} {i : Nat} {op : PyStreamOp} {k : StreamAnswer → PyProgram} {c : StreamCall}
    (h : op.before (entry i) = .inl c) (r : StreamReply) (rs : List StreamReply) :
    (PyProgram.call i op k).answers entry (r :: rs) = op.after r :: (k (op.after r)).answers entry rs := by
  rw [PyProgram.answers, h]

/-- C118 fails for two threads that read from one object: `read_buffer_at_offset(n, a)` gives the bytes at the offset `b`
  of the other thread.  For every stream that is shown. -/
theorem C118_shared_bytes_violated {t : Tree} {f : FileCtx} {entry : Nat → DirEntry} {i : Nat} {it : Item}
    {data : Bytes} (he : it.entry = entry i) (hs : Shows t f it (.stream data)) (n a b : Nat) (h0 : 0 < n)
    (hn : n < 2 ^ 31) (ha : a < 2 ^ 63) (hb : b < 2 ^ 63) :
    ∃ schedule rs, ((pyThreads f entry (fun _ => 0) fun u =>
        .call i (.readAt (.int n) (if u = 0 then a else b)) fun _ => .done).run f.dev schedule).act 0 = .ret rs ∧
      (PyProgram.call i (.readAt (.int n) a) fun _ => .done).answers entry rs = [.bytes ((data.drop b).take n)] := by
  obtain ⟨schedule, h⟩ := C106_shared_bytes_violated he hs (fun _ => 0) (Int.le_refl 0) n a b (by omega) ha hb
  refine ⟨schedule, [.data (.ok ((data.drop b).take n))], ?_, ?_⟩
  · refine Eq.trans ?_ h
    have : (fun u : Nat => (PyProgram.call i (.readAt (.int n) (if u = 0 then (a : Int) else b)) fun _ => .done).client
        entry) = fun u => .call i (.readAt n (if u = 0 then (a : Int) else b)) fun _ => .done := by
      funext u
      exact readAt_client h0 hn (by split <;> omega) (by split <;> omega)
    unfold pyThreads
    rw [this]
  · rw [answers_call (before_readAt h0 hn (by omega) (by omega)), PyProgram.answers]
    rfl

/-- C118 fails for two threads that read from one object, one at the end of the stream and one at the begin: memory behind
  the bytes object of `n` bytes is overwritten.  For every stream that is shown and is longer than `n` bytes. -/
theorem C118_shared_overflow_violated {t : Tree} {f : FileCtx} {entry : Nat → DirEntry} {i : Nat} {it : Item}
    {data : Bytes} (he : it.entry = entry i) (hs : Shows t f it (.stream data)) (n : Nat) (h2 : 2 ≤ n)
    (hn : n < 2 ^ 31) (hlen : n < data.length) (h63 : data.length < 2 ^ 63) :
    ∃ schedule rs, ((pyThreads f entry (fun _ => 0) fun u =>
        .call i (.readAt (.int n) (if u = 0 then (data.length - 1 : Nat) else (0 : Nat))) fun _ => .done).run f.dev
          schedule).act 0 = .ret rs ∧
      (PyProgram.call i (.readAt (.int n) (data.length - 1 : Nat)) fun _ => .done).answers entry rs = [.undefined] := by
  obtain ⟨schedule, h⟩ := shared_readAt_overflow he hs (fun _ => 0) (Int.le_refl 0) n h2 hlen h63
  refine ⟨schedule, [.data .ub], ?_, ?_⟩
  · refine Eq.trans ?_ h
    have : (fun u : Nat => (PyProgram.call i (.readAt (.int n)
        (if u = 0 then ((data.length - 1 : Nat) : Int) else ((0 : Nat) : Int))) fun _ => .done).client entry) =
        fun u => .call i (.readAt n (if u = 0 then ((data.length - 1 : Nat) : Int) else ((0 : Nat) : Int)))
          fun _ => .done := by
      funext u
      exact readAt_client (by omega) hn (by split <;> omega) (by split <;> omega)
    unfold pyThreads
    rw [this]
  · rw [answers_call (before_readAt (by omega) hn (by omega) (by omega)), PyProgram.answers]
    rfl

/-! ### Examples -/

/-- A thread that seeks, reads and seeks back by as much as it got; another one that asks for the position, reads nothing
  and copies.  They use two objects of one stream. -/
def samplePrograms : Nat → PyProgram
  | 0 => .call 0 (.seek (-90) 2) fun _ => .call 0 (.read (.int 4)) fun
    | .bytes b => .call 0 (.seek (-b.length) 1) fun _ => .call 0 .tell fun _ => .done
    | _ => .done
  | 1 => .call 1 .tell fun _ => .call 1 (.read (.int (-1))) fun _ => .call 1 (.readAt (.int 2) 511) fun _ => .done
  | _ => .done

theorem samplePrograms_separate : PySeparate samplePrograms := by
  refine ⟨fun t i => t = i, ?_, fun t u i hne h1 h2 => hne (h1.trans h2.symm)⟩
  intro t
  match t with
  | 0 =>
    refine ⟨rfl, fun _ => ⟨rfl, fun a => ?_⟩⟩
    cases a with
    | bytes b => exact ⟨rfl, fun _ => ⟨rfl, fun _ => trivial⟩⟩
    | _ => trivial
  | 1 => exact ⟨rfl, fun _ => ⟨rfl, fun _ => ⟨rfl, fun _ => trivial⟩⟩⟩
  | _ + 2 => trivial

/-- The threads on the stream `C` of the sample file, while they run at the same time. -/
example (n : Nat) : ∃ f entry, ∀ schedule rs,
    (((pyThreads f entry (fun _ => 0) samplePrograms).run f.dev schedule).act 0 = .ret rs →
      (samplePrograms 0).answers entry rs = [.nothing, .bytes [7, 7, 8, 8], .nothing, .int 510]) ∧
    (((pyThreads f entry (fun _ => 0) samplePrograms).run f.dev schedule).act 1 = .ret rs →
      (samplePrograms 1).answers entry rs = [.int 0, .raised, .bytes [7, 8]]) := by
  obtain ⟨_, t, f, root, _, _, _, item, _, h⟩ := C118_document_partial (sample_holds .little) cmpNone
    (sample_comparable _) sampleState sampleState_reachable rfl (.user n) rfl 1 rfl (fun _ => _) (fun _ => _)
    (fun _ => sample_stream)
  have hr : ∀ u, ProgramInReach (fun _ => List.replicate 512 7 ++ List.replicate 88 8) (fun _ => 0)
      (samplePrograms u) := by
    intro u
    match u with
    | 0 =>
      have e1 : fileCall (List.replicate 512 7 ++ List.replicate 88 8) 0 (.seek (-90) 2) = (.nothing, 510) := by
        decide +kernel
      have e2 : fileCall (List.replicate 512 7 ++ List.replicate 88 8) 510 (.read (.int 4)) =
          (.bytes [7, 7, 8, 8], 514) := by decide +kernel
      have e3 : fileCall (List.replicate 512 7 ++ List.replicate 88 8) 514 (.seek (-([7, 7, 8, 8] : Bytes).length) 1) =
          (.nothing, 510) := by decide +kernel
      simp only [samplePrograms, ProgramInReach, e1, e2, e3, if_true, and_true]
      refine ⟨?_, ?_, ?_, ?_⟩ <;> intro o w p h hp <;> cases h <;> revert p <;> decide +kernel
    | 1 =>
      refine ⟨?_, ?_, ?_, trivial⟩ <;> intro o w p h hp <;> cases h
    | _ + 2 => trivial
  refine ⟨f, fun i => (item i).entry, fun schedule rs => ⟨fun hrs => ?_, fun hrs => ?_⟩⟩
  · obtain ⟨m, hm⟩ := h samplePrograms samplePrograms_separate hr 0
    rw [(hm schedule).2 rs hrs]
    decide +kernel
  · obtain ⟨m, hm⟩ := h samplePrograms samplePrograms_separate hr 1
    rw [(hm schedule).2 rs hrs]
    decide +kernel

/-- The stream `C` of the sample file, with 600 bytes: a bytes object of 16 bytes is written over. -/
example (n : Nat) : ∃ f entry schedule rs,
    ((pyThreads f entry (fun _ => 0) fun u =>
        .call 0 (.readAt (.int (16 : Nat)) (if u = 0 then (599 : Nat) else (0 : Nat))) fun _ => .done).run f.dev
      schedule).act 0 = .ret rs ∧
    (PyProgram.call 0 (.readAt (.int (16 : Nat)) (599 : Nat)) fun _ => .done).answers entry rs = [.undefined] := by
  obtain ⟨_, t, f, root, _, _, _, h⟩ := C47_document_shown (sample_holds .little) cmpNone (sample_comparable _)
    sampleState sampleState_reachable rfl (.user n) rfl 1 rfl
  obtain ⟨it, _, h2⟩ := docAt_named (g := id) h sample_stream
  have hl : (List.replicate 512 7 ++ List.replicate 88 8 : Bytes).length = 600 := by
    rw [List.length_append, List.length_replicate, List.length_replicate]
  have := C118_shared_overflow_violated (entry := fun _ => it.entry) (i := 0) rfl h2 16 (by decide) (by decide)
    (by rw [hl]; decide) (by rw [hl]; decide)
  rw [hl] at this
  exact ⟨f, _, this⟩

end Olecf.Props
