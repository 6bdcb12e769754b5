import Verif.Spec.PyStream
import Verif.Props.Py
import Verif.Props.Threads

/-
  C117: a stream object of Python is used like a file.
-/

namespace Olecf.Props
open Olecf Olecf.Spec

theorem pyRead_on_file {f : FileCtx} {d : DirEntry} {data : Bytes} (ht : d.type = 2)
    (hread : ∀ cur size : Nat, size ≤ 2 ^ 63 - 1 →
      (streamRead f d cur size).1.res = .ok ((data.drop cur).take size)) (pos : Nat) {n : Nat} (hn : n < 2 ^ 31) :
    pyRead f d pos (.int n) = (.ok ((data.drop pos).take n), ((pos + ((data.drop pos).take n).length : Nat) : Int)) := by
  rcases Nat.eq_zero_or_pos n with h0 | h0
  · subst h0
    rw [List.take_zero, Int.natCast_zero, (C70_size_given f d pos).2.1]
    rfl
  · obtain ⟨h1, h2⟩ := read_on_file ht hread pos (show n < 2 ^ 63 by omega)
    rw [((C70_size_given f d pos).1 n h0 hn).1, h1, h2]

theorem pyReadAt_on_file {f : FileCtx} {d : DirEntry} {data : Bytes} (ht : d.type = 2)
    (hread : ∀ cur size : Nat, size ≤ 2 ^ 63 - 1 →
      (streamRead f d cur size).1.res = .ok ((data.drop cur).take size)) (pos : Nat) (n o : Int) :
    (PyStreamOp.run f d pos (.readAt (.int n) o)).1 = (fileCall data pos (.readAt (.int n) o)).1 ∧
    (PyStreamOp.run f d pos (.readAt (.int n) o)).2 = (fileCall data pos (.readAt (.int n) o)).2 := by
  unfold PyStreamOp.run fileCall
  dsimp only
  obtain ⟨r1, _, _, r2⟩ := C70_refused f d pos o
  by_cases h1 : o < -2 ^ 63 ∨ 2 ^ 63 ≤ o ∨ n < 0 ∨ 2 ^ 31 ≤ n
  · rw [if_pos h1]
    have : pyReadAt f d pos (.int n) o = (.err, (pos : Int)) := by
      rcases (show (o < -(2 ^ 63) ∨ 2 ^ 63 ≤ o) ∨ (n < 0 ∨ 2 ^ 31 ≤ n) by omega) with h | h
      · exact r2 _ h
      · exact (r1 n h).2
    rw [this]
    exact ⟨rfl, rfl⟩
  · rw [if_neg h1]
    obtain ⟨g1, _, g3⟩ := C70_size_given f d pos
    obtain ⟨m, rfl⟩ := Int.eq_ofNat_of_zero_le (show 0 ≤ n by omega)
    rcases Nat.eq_zero_or_pos m with h0 | h0
    · subst h0
      rw [if_pos (by rfl)]
      have := g3 o (by omega) (by omega)
      rw [show ((0 : Nat) : Int) = 0 from rfl, this]
      exact ⟨rfl, rfl⟩
    · rw [if_neg (by omega), (g1 m h0 (by omega)).2 o (by omega) (by omega)]
      obtain ⟨k1, k2, _⟩ := C29_seek ht (Int.natCast_nonneg pos) o .set
      unfold streamReadAt
      by_cases hneg : o < 0
      · rw [if_pos hneg, k2 o rfl hneg (by omega)]
        exact ⟨rfl, rfl⟩
      · rw [if_neg hneg]
        obtain ⟨p, rfl⟩ := Int.eq_ofNat_of_zero_le (Int.not_lt.1 hneg)
        obtain ⟨h2, h3⟩ := read_on_file ht hread p (show m < 2 ^ 63 by omega)
        rw [(k1 p rfl (by omega) (by omega)).1]
        dsimp only
        rw [h2, h3]
        exact ⟨rfl, rfl⟩

theorem py_call_on_file {f : FileCtx} {d : DirEntry} {data : Bytes} (ht : d.type = 2) (hsize : d.size = data.length)
    (hread : ∀ cur size : Nat, size ≤ 2 ^ 63 - 1 →
      (streamRead f d cur size).1.res = .ok ((data.drop cur).take size)) (pos : Nat) (op : PyStreamOp)
    (hop : ∀ offset whence p, op = .seek offset whence → seeks data pos offset whence = some p → p < 2 ^ 63) :
    (op.run f d pos).1 = (fileCall data pos op).1 ∧ (op.run f d pos).2 = (fileCall data pos op).2 := by
  cases op with
  | read size =>
    unfold PyStreamOp.run fileCall
    dsimp only
    have hall : pyRead f d pos .missing = match asked data .missing with
        | some n => (.ok ((data.drop pos).take n), ((pos + ((data.drop pos).take n).length : Nat) : Int))
        | none => (.err, (pos : Int)) := by
      obtain ⟨_, h1, h2⟩ := C70_size_omitted f d pos
      unfold asked
      by_cases hl : data.length < 2 ^ 31
      · rw [if_pos hl, h1 (by omega), hsize, pyRead_on_file ht hread pos hl]
      · rw [if_neg hl, h2 (by omega)]
    cases size with
    | missing =>
      rw [hall]
      cases asked data .missing <;> exact ⟨rfl, rfl⟩
    | none =>
      rw [← (C70_size_omitted f d pos).1, hall, show asked data .none = asked data .missing from rfl]
      cases asked data .missing <;> exact ⟨rfl, rfl⟩
    | int n =>
      unfold asked
      dsimp only
      by_cases hn : 0 ≤ n ∧ n < 2 ^ 31
      · rw [if_pos hn]
        obtain ⟨m, rfl⟩ := Int.eq_ofNat_of_zero_le hn.1
        rw [pyRead_on_file ht hread pos (show m < 2 ^ 31 by omega)]
        exact ⟨rfl, rfl⟩
      · rw [if_neg hn, ((C70_refused f d pos 0).1 n (by omega)).1]
        exact ⟨rfl, rfl⟩
    | other => exact ⟨rfl, rfl⟩
  | readAt size o =>
    cases size with
    | int n => exact pyReadAt_on_file ht hread pos n o
    | other =>
      unfold PyStreamOp.run fileCall
      dsimp only
      rw [(C70_refused f d pos o).2.2.1]
      exact ⟨rfl, rfl⟩
    | missing => unfold PyStreamOp.run fileCall pyReadAt; dsimp only; split <;> exact ⟨rfl, rfl⟩
    | none => unfold PyStreamOp.run fileCall pyReadAt; dsimp only; split <;> exact ⟨rfl, rfl⟩
  | seek o w =>
    have hop := hop o w
    unfold PyStreamOp.run fileCall pySeek
    dsimp only
    unfold seeks at hop ⊢
    by_cases ho : o < -2 ^ 63 ∨ 2 ^ 63 ≤ o
    · rw [if_pos ho, if_pos (by unfold inOff64; omega)]
      exact ⟨rfl, rfl⟩
    rw [if_neg ho] at hop ⊢
    by_cases hw : w < -(2 ^ 31) ∨ 2 ^ 31 ≤ w
    · rw [if_pos (by omega), if_neg (by omega), if_neg (by omega), if_neg (by omega)]
      exact ⟨rfl, rfl⟩
    rw [if_neg (by unfold inOff64; omega)]
    have key : ∀ (wh : Whence) (p : Int), seekTarget d pos o wh = some p → p < 2 ^ 63 → -2 ^ 63 ≤ p →
        (p < 0 ∧ streamSeek d pos o wh = (.err, (pos : Int))) ∨ (¬ p < 0 ∧ streamSeek d pos o wh = (.ok p, p)) := by
      intro wh p h1 h2 h3
      obtain ⟨k1, k2, _⟩ := C29_seek ht (Int.natCast_nonneg pos) o wh
      by_cases hneg : p < 0
      · exact Or.inl ⟨hneg, k2 p h1 hneg (by omega)⟩
      · exact Or.inr ⟨hneg, (k1 p h1 (by omega) h2).1⟩
    by_cases h0 : w = 0
    · rw [if_pos h0] at hop
      rw [if_pos h0, if_pos h0]
      rcases key .set o rfl (hop o rfl rfl) (by omega) with ⟨hneg, hk⟩ | ⟨hneg, hk⟩
      · dsimp only; rw [if_pos hneg, hk]; exact ⟨rfl, rfl⟩
      · dsimp only; rw [if_neg hneg, hk]; exact ⟨rfl, by dsimp only; omega⟩
    rw [if_neg h0] at hop
    rw [if_neg h0, if_neg h0]
    by_cases h1 : w = 1
    · rw [if_pos h1] at hop
      rw [if_pos h1, if_pos h1]
      rcases key .cur (pos + o) rfl (hop _ rfl rfl) (by omega) with ⟨hneg, hk⟩ | ⟨hneg, hk⟩
      · dsimp only; rw [if_pos hneg, hk]; exact ⟨rfl, rfl⟩
      · dsimp only; rw [if_neg hneg, hk]; exact ⟨rfl, by dsimp only; omega⟩
    rw [if_neg h1] at hop
    rw [if_neg h1, if_neg h1]
    by_cases h2 : w = 2
    · rw [if_pos h2] at hop
      rw [if_pos h2, if_pos h2]
      rcases key .fromEnd (data.length + o) (by unfold seekTarget; rw [hsize]) (hop _ rfl rfl) (by omega) with
        ⟨hneg, hk⟩ | ⟨hneg, hk⟩
      · dsimp only; rw [if_pos hneg, hk]; exact ⟨rfl, rfl⟩
      · dsimp only; rw [if_neg hneg, hk]; exact ⟨rfl, by dsimp only; omega⟩
    · rw [if_neg h2, if_neg h2, (C29_seek ht (Int.natCast_nonneg pos) o .other).2.2 rfl]
      exact ⟨rfl, rfl⟩
  | tell =>
    unfold PyStreamOp.run fileCall pyTell streamGetOffset
    rw [if_neg (by simp [ht])]
    exact ⟨rfl, rfl⟩

/-! ### The theorems -/

/-- C117 (partial: no seek goes to 2^63 or beyond).  Every history of calls on an object of a stream gets the answers of
  a file with the content of the stream. -/
theorem C117_history_partial {t : Tree} {f : FileCtx} {it : Item} {data : Bytes} (hs : Shows t f it (.stream data)) :
    ∀ (ops : List PyStreamOp) (pos : Nat), InReach64 data pos ops →
      pyAnswers f it.entry pos ops = fileCalls data pos ops
  | [], _, _ => rfl
  | op :: ops, pos, h => by
    cases hs with
    | stream ht hk hsize hread =>
      obtain ⟨h1, h2⟩ := py_call_on_file ht hsize hread pos op h.1
      unfold pyAnswers fileCalls
      rw [h1, h2, C117_history_partial (.stream ht hk hsize hread) ops _ h.2]

/-- C117: a program that copies a stream in pieces of any size from 1 to 2 GiB - 1 has all of the data from the position
  on when it ends, and it ends; also if the stream has 2 GiB or more, which no single read gives. -/
theorem C117_copy {t : Tree} {f : FileCtx} {it : Item} {data : Bytes} (hs : Shows t f it (.stream data)) {n : Nat}
    (h0 : 0 < n) (hn : n < 2 ^ 31) :
    ∀ (fuel pos : Nat), data.length - pos < fuel → pyCopy f it.entry n fuel pos = .ok (data.drop pos)
  | 0, _, h => absurd h (Nat.not_lt_zero _)
  | fuel + 1, pos, h => by
    cases hs with
    | stream ht hk hsize hread =>
      unfold pyCopy
      rw [pyRead_on_file ht hread pos hn]
      dsimp only
      by_cases hp : data.length ≤ pos
      · have : data.drop pos = [] := List.drop_eq_nil_of_le hp
        rw [this, List.take_nil, if_pos rfl]
      · have hlen : 0 < ((data.drop pos).take n).length := by
          rw [List.length_take, List.length_drop]; omega
        rw [if_neg (fun hnil => by rw [hnil] at hlen; exact absurd hlen (Nat.lt_irrefl _))]
        rw [C117_copy (.stream ht hk hsize hread) h0 hn fuel _ (by omega)]
        dsimp only
        congr 1
        rw [← List.drop_drop]
        have := List.take_append_drop ((data.drop pos).take n).length (data.drop pos)
        conv => rhs; rw [← this]
        congr 1
        rw [List.length_take, List.take_eq_take_iff]
        omega

/-- C117: a file that holds a document has been opened, whatever was done before; each stream of the document is found by
  name, and every history of calls on its object, which is at the begin when it is made, gets the answers of a
  file with the content that was stored. -/
theorem C117_document_partial {content : Bytes} {names : List Bytes} {doc : Doc} (hf : FileHolds content names doc)
    (cmp : Bytes → Bytes → Option Bool) (hcmp : ∀ n ∈ names, Comparable cmp n)
    (st : FileState) (hst : Reachable cmp st) (hclosed : st.file.handle = none)
    (h : HandleId) (hdev : st.world.dev h = Dev.ofBytes content) (flags : Nat) (hfl : flags % 4 = 1) :
    (openHandle cmp h flags {} st).1 = .ok () ∧
    ∃ t f root, (openHandle cmp h flags {} st).2.file.tree = some t ∧
      (openHandle cmp h flags {} st).2.file.ctx ((openHandle cmp h flags {} st).2.world.dev h) = some f ∧
      rootItem (some t) = some root ∧
      ∀ path data, DocAt doc path (.stream data) →
        ∃ it, NamedFrom t (·.name) root path it ∧
          ∀ ops, InReach64 data 0 ops → pyAnswers f it.entry 0 ops = fileCalls data 0 ops := by
  obtain ⟨h1, t, f, root, h2, h3, h4, h5⟩ := C47_document_shown hf cmp hcmp st hst hclosed h hdev flags hfl
  refine ⟨h1, t, f, root, h2, h3, h4, fun path data hp => ?_⟩
  obtain ⟨it, k1, k2⟩ := docAt_named (g := id) h5 hp
  rw [List.map_id] at k1
  exact ⟨it, k1, fun ops hops => C117_history_partial k2 ops 0 hops⟩

/-- C117 is violated for a seek beyond 2^63 - 1: instead of an exception the behaviour is undefined, on every stream. -/
theorem C117_seek_overflow_violated {t : Tree} {f : FileCtx} {it : Item} {data : Bytes}
    (hs : Shows t f it (.stream data)) :
    pyAnswers f it.entry 0 [.seek (2 ^ 63 - 1) 0, .seek 1 1] = [.nothing, .undefined] := by
  cases hs with
  | stream ht hk hsize hread =>
    have h1 := py_call_on_file ht hsize hread 0 (.seek (2 ^ 63 - 1) 0) (by
      intro o w p h hp
      cases h
      have : seeks data 0 (2 ^ 63 - 1) 0 = some (2 ^ 63 - 1) := rfl
      rw [this] at hp
      cases hp
      decide)
    have h2 : fileCall data 0 (.seek (2 ^ 63 - 1) 0) = (.nothing, 2 ^ 63 - 1) := rfl
    rw [h2] at h1
    unfold pyAnswers
    change (PyStreamOp.run f it.entry ((0 : Nat) : Int) (.seek (2 ^ 63 - 1) 0)).1 ::
      pyAnswers f it.entry (PyStreamOp.run f it.entry ((0 : Nat) : Int) (.seek (2 ^ 63 - 1) 0)).2 _ = _
    rw [h1.1, h1.2]
    unfold pyAnswers PyStreamOp.run pySeek streamSeek
    simp [ht, inOff64, pyAnswers, StreamAnswer.of]

/-! ### Examples -/

/-- A history that meets the hypothesis on seeks, and the answers of a file: reads, a seek from the end, a seek behind
  the end, a refused seek, and reads that are refused. -/
def sampleHistory : List PyStreamOp :=
  [.read (.int 2), .tell, .seek (-1) 2, .read .missing, .tell, .seek 5 1, .read (.int 3), .tell, .seek (-20) 1, .tell,
    .readAt (.int 2) 1, .tell, .read (.int (-1)), .readAt .none 0, .seek 0 7, .read .none]

example : InReach64 [10, 11, 12, 13] 0 sampleHistory := by
  simp only [InReach64, sampleHistory, and_true]
  refine ⟨?_, ?_, ?_, ?_, ?_, ?_, ?_, ?_, ?_, ?_, ?_, ?_, ?_, ?_, ?_, ?_⟩ <;> intro o w p h hp <;> cases h <;>
    revert p <;> decide +kernel

example : fileCalls [10, 11, 12, 13] 0 sampleHistory =
    [.bytes [10, 11], .int 2, .nothing, .bytes [13], .int 4, .nothing, .bytes [], .int 9, .raised, .int 9,
      .bytes [11, 12], .int 3, .raised, .raised, .raised, .bytes [13]] := by decide +kernel

/-- The theorems on a file that was opened: this history gets these answers. -/
example (n : Nat) : ∃ t f it, Shows t f it (.stream (List.replicate 512 7 ++ List.replicate 88 8)) ∧
    pyAnswers f it.entry 0 [.seek (-90) 2, .read (.int 4), .tell, .seek 0 2, .read .none] =
      [.nothing, .bytes [7, 7, 8, 8], .int 514, .nothing, .bytes []] ∧
    pyCopy f it.entry 100 601 0 = .ok (List.replicate 512 7 ++ List.replicate 88 8) := by
  obtain ⟨_, t, f, root, _, _, _, h⟩ := C47_document_shown (sample_holds .little) cmpNone (sample_comparable _)
    sampleState sampleState_reachable rfl (.user n) rfl 1 rfl
  obtain ⟨it, _, h2⟩ := docAt_named (g := id) h sample_stream
  refine ⟨t, f, it, h2, ?_, ?_⟩
  · have := C117_history_partial h2 [.seek (-90) 2, .read (.int 4), .tell, .seek 0 2, .read .none] 0 (by
      simp only [InReach64, and_true]
      refine ⟨?_, ?_, ?_, ?_, ?_⟩ <;> intro o w p h hp <;> cases h <;> revert p <;> decide +kernel)
    refine Eq.trans this ?_
    decide +kernel
  · exact C117_copy h2 (n := 100) (by decide) (by decide) 601 0 (by decide +kernel)

end Olecf.Props
