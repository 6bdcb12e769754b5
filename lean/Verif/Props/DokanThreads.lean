import Verif.Model.DokanThreads
import Verif.Props.Threads
import Verif.Props.Dokan

/-
  C116: reads from a drive at the same time.
-/

namespace Olecf.Props
open Spec

theorem serve_uses (S : Nat → Prop) : ∀ rs : List DriveRead, (∀ r ∈ rs, S r.handle) → Uses S (serve rs)
  | [], _ => trivial
  | r :: rs, h => by
    unfold serve
    have ht := serve_uses S rs fun x hx => h x (List.mem_cons_of_mem _ hx)
    split
    · exact ht
    · exact ⟨h r (List.mem_cons_self ..), fun _ => ht⟩

/-- The answer to a request alone is that of `dokanRead`. -/
theorem driveAnswer_alone (env : DokanEnv) (h : DokanHandle) (cur : Int) (hc : 0 ≤ h.cur) (hcur : 0 ≤ cur) (size : Nat)
    (hsize : ¬ size > 2 ^ 31 - 1) (offset : Int) :
    driveAnswer (callAlone env.ctx h.entry.item.entry cur (.readAt size offset)).1 =
      (dokanRead env size offset (some h)).1 := by
  rw [(dokanRead_some env h hc size offset).1, ← (dokanRead_some env ⟨h.entry, cur⟩ hcur size offset).1]
  unfold dokanRead callAlone
  rw [if_neg hsize]
  dsimp only
  unfold mountReadW
  by_cases ht : h.entry.item.entry.type = 2
  · rw [if_neg (by simpa using ht)]
    cases hr : (streamReadAt env.ctx h.entry.item.entry cur size offset).1.res with
    | ok data =>
      show (if _ then _ else _) = _
      dsimp only
      split <;> rfl
    | err => rfl
    | ub => rfl
    | hang => rfl
  · rw [if_pos (by simpa using ht)]
    have : (streamReadAt env.ctx h.entry.item.entry cur size offset).1.res = .err := by
      unfold streamReadAt streamSeek
      rw [if_pos (by simpa using ht)]
      rfl
    rw [this]
    rfl

theorem serve_alone (env : DokanEnv) (handle : Nat → DokanHandle) (hc : ∀ i, 0 ≤ (handle i).cur) :
    ∀ (rs : List DriveRead) (cur : Nat → Int), (∀ i, 0 ≤ cur i) →
      driveAnswers rs (clientAlone env.ctx (fun i => (handle i).entry.item.entry) cur (serve rs)) =
        rs.map fun r => (dokanRead env r.size r.offset (some (handle r.handle))).1
  | [], _, _ => rfl
  | r :: rs, cur, hcur => by
    unfold serve driveAnswers
    by_cases hs : r.size > 2 ^ 31 - 1
    · rw [if_pos hs, if_pos hs, serve_alone env handle hc rs cur hcur, List.map_cons]
      congr 1
      unfold dokanRead
      rw [if_pos hs]
    · rw [if_neg hs, if_neg hs]
      unfold clientAlone
      dsimp only
      rw [driveAnswer_alone env (handle r.handle) (cur r.handle) (hc _) (hcur _) r.size hs r.offset, List.map_cons,
        serve_alone env handle hc rs _ ?_]
      intro i
      unfold threadSet
      split
      · exact readAt_nonneg env.ctx _ (hcur _) r.size r.offset
      · exact hcur i

/-- C116: any number of threads of libdokan read from a drive, with any content of the file, at the same time.  If no two
  of them are given requests for the same context, each request is answered as it is when there is nothing
  else, whatever the order of the steps is, and each thread ends once it made enough steps.  What the answers of
  `dokanRead` are is C104 and C105.

  Missing for the full property: requests for the same context (`C116_same_handle_bytes_violated`,
  `C116_same_handle_overflow_violated`). -/
theorem C116_separate_handles_partial (env : DokanEnv) (handle : Nat → DokanHandle) (hc : ∀ i, 0 ≤ (handle i).cur)
    (requests : Nat → List DriveRead)
    (hsep : ∀ t u, t ≠ u → ∀ r ∈ requests t, ∀ s ∈ requests u, r.handle ≠ s.handle) (u : Nat) :
    ∃ n, ∀ schedule,
      (n ≤ schedule.count u → ∃ rs, ((driveThreads env handle requests).run env.ctx.dev schedule).act u = .ret rs) ∧
      ∀ rs, ((driveThreads env handle requests).run env.ctx.dev schedule).act u = .ret rs →
        driveAnswers (requests u) rs =
          (requests u).map fun r => (dokanRead env r.size r.offset (some (handle r.handle))).1 := by
  have hS : ∀ t, Uses (fun i => ∃ r ∈ requests t, r.handle = i) (serve (requests t)) := fun t =>
    serve_uses _ _ fun r hr => ⟨r, hr, rfl⟩
  have hd : ∀ t v i, t ≠ v → (∃ r ∈ requests t, r.handle = i) → ¬ ∃ r ∈ requests v, r.handle = i :=
    fun t v i hne ⟨r, hr, e⟩ ⟨s, hs, e'⟩ => hsep t v hne r hr s hs (e.trans e'.symm)
  refine ⟨((serve (requests u)).steps env.ctx (fun i => (handle i).entry.item.entry)).cost env.ctx.dev
    (fun i => (handle i).cur), fun schedule => ?_⟩
  obtain ⟨k1, k2⟩ := (run_separate env.ctx.dev hd schedule (driveThreads env handle requests) (start_within hS)).2 u
  constructor
  · intro hn
    exact ⟨_, cost_zero (k2.trans (Nat.sub_eq_zero_of_le hn))⟩
  · intro rs hrs
    rw [hrs] at k1
    have k3 : rs = clientAlone env.ctx (fun i => (handle i).entry.item.entry) (fun i => (handle i).cur)
        (serve (requests u)) := k1.trans (steps_alone env.ctx _ _ _)
    rw [k3]
    exact serve_alone env handle hc (requests u) _ hc

/-- C116: a drive presents a document (C104) and files of it were opened, also several times the same one.  Threads of
  which no two are given requests for the same open file are answered with the data of the streams.

  Missing for the full property: as above. -/
theorem C116_document_partial {env : DokanEnv} {mname : Bytes → Wide} {doc : Doc} (hp : DrivePresents env mname doc)
    (path : Nat → List Bytes) (data : Nat → Bytes) (hpath : ∀ i, DocAt doc (path i) (.stream (data i)))
    (handle : Nat → DokanHandle) (hopen : ∀ i, OpensFile env (drivePath ((path i).map mname)) (.ok (.ok (handle i))))
    (requests : Nat → List DriveRead)
    (hsep : ∀ t u, t ≠ u → ∀ r ∈ requests t, ∀ s ∈ requests u, r.handle ≠ s.handle)
    (hrange : ∀ t, ∀ r ∈ requests t, r.size ≤ 2 ^ 31 - 1 ∧ 0 ≤ r.offset ∧ r.offset < 2 ^ 63) (u : Nat) :
    ∃ n, ∀ schedule,
      (n ≤ schedule.count u → ∃ rs, ((driveThreads env handle requests).run env.ctx.dev schedule).act u = .ret rs) ∧
      ∀ rs, ((driveThreads env handle requests).run env.ctx.dev schedule).act u = .ret rs →
        driveAnswers (requests u) rs =
          (requests u).map fun r => .ok (.ok (((data r.handle).drop r.offset.toNat).take r.size)) := by
  have hc : ∀ i, 0 ≤ (handle i).cur := by
    intro i
    rw [(dokanLookup_cur (opensFile_eq (hopen i)).symm).1]
    exact Int.le_refl 0
  obtain ⟨n, hn⟩ := C116_separate_handles_partial env handle hc requests hsep u
  refine ⟨n, fun schedule => ⟨(hn schedule).1, fun rs hrs => ?_⟩⟩
  rw [(hn schedule).2 rs hrs]
  refine List.map_congr_left fun r hr => ?_
  obtain ⟨h1, h2, h3⟩ := hrange u r hr
  obtain ⟨h, hh, hd⟩ := (hp.streams _ _ (hpath r.handle)).2 _ (hopen r.handle)
  cases hh
  have := hd r.size r.offset.toNat h1 (by omega)
  rw [Int.toNat_of_nonneg h2] at this
  exact this

/-- C116 fails for two requests for one context at the same time: one of them is answered with the bytes at the offset
  of the other.  For every stream that a drive shows, all offsets and sizes. -/
theorem C116_same_handle_bytes_violated (env : DokanEnv) (handle : Nat → DokanHandle) (i : Nat) {data : Bytes}
    (hs : Shows env.tree env.ctx (handle i).entry.item (.stream data)) (hc : 0 ≤ (handle i).cur) (n a b : Nat)
    (hn : n ≤ 2 ^ 31 - 1) (ha : a < 2 ^ 63) (hb : b < 2 ^ 63) :
    ∃ schedule rs, ((driveThreads env handle fun u => [⟨i, n, if u = 0 then a else b⟩]).run env.ctx.dev
        schedule).act 0 = .ret rs ∧
      driveAnswers [⟨i, n, a⟩] rs = [.ok (.ok ((data.drop b).take n))] := by
  obtain ⟨schedule, h⟩ := C106_shared_bytes_violated (entry := fun i => (handle i).entry.item.entry) (i := i) rfl hs
    (fun i => (handle i).cur) hc n a b (by omega) ha hb
  refine ⟨schedule, [.data (.ok ((data.drop b).take n))], ?_, ?_⟩
  · refine Eq.trans ?_ h
    have : (fun u : Nat => serve [(⟨i, n, if u = 0 then a else b⟩ : DriveRead)]) =
        fun u => .call i (.readAt n (if u = 0 then a else b)) fun _ => .done := by
      funext u
      unfold serve
      rw [if_neg (by show ¬ n > 2 ^ 31 - 1; omega)]
      rfl
    unfold driveThreads
    rw [this]
  · unfold driveAnswers
    rw [if_neg (by show ¬ n > 2 ^ 31 - 1; omega)]
    dsimp only
    unfold driveAnswer driveAnswers
    dsimp only
    rw [if_neg (by have := List.length_take_le n (data.drop b); omega)]

/-- Two threads read at an offset of one stream: the size is computed from the offset of the other. -/
theorem shared_readAt_overflow {t : Tree} {f : FileCtx} {entry : Nat → DirEntry} {i : Nat} {it : Item}
    {data : Bytes} (he : it.entry = entry i) (hs : Shows t f it (.stream data)) (cur : Nat → Int) (hc : 0 ≤ cur i)
    (n : Nat) (h2 : 2 ≤ n) (hn : n < data.length) (h63 : data.length < 2 ^ 63) :
    ∃ schedule, ((Threads.start f entry cur fun u =>
        .call i (.readAt n (if u = 0 then (data.length - 1 : Nat) else (0 : Nat))) fun _ => .done).run
      f.dev schedule).act 0 = .ret [.data .ub] := by
  cases hs with
  | stream ht _ hsize hread =>
    rw [he] at ht hsize hread
    generalize hs0 : (Threads.start f entry cur fun u =>
      .call i (.readAt n (if u = 0 then (data.length - 1 : Nat) else (0 : Nat))) fun _ => .done) = s0
    have hact : ∀ u, s0.act u = (seekSteps (entry i) i ((if u = 0 then data.length - 1 else 0 : Nat) : Int) .set).bind
        fun r =>
        (match r with
          | .ok _ => readSteps f (entry i) i n
          | .err => .ret .err
          | .ub => .ret .ub
          | .hang => .ret .hang).bind fun r =>
            ((Act.ret (.data r) : Act StreamReply).bind fun r => ((Client.done).steps f entry).bind fun rs =>
              .ret (r :: rs)) := by
      intro u
      rw [← hs0]
      show Act.bind (Act.bind (Act.bind _ _) _) _ = _
      rw [bind_assoc, bind_assoc, ← apply_ite (Nat.cast : Nat → Int)]
      rfl
    have hcur : s0.cur = cur := by rw [← hs0]; rfl
    obtain ⟨_, _, k1, k2, k3⟩ := seek_two f.dev (hact 0) ht (by rw [hcur]; exact hc) (by omega)
      (by rw [if_pos rfl]; omega)
    rw [if_pos rfl] at k1 k2
    dsimp only at k1
    have k4 := k3 1 (by decide)
    rw [hact 1] at k4
    obtain ⟨l1, l2, l3⟩ := read_three f.dev k1 ht (p := data.length - 1) (by rw [k2]; exact if_pos rfl) (by omega)
      (by omega) (by omega) (by omega)
    have l4 := l3 1 (by decide)
    rw [k4] at l4
    obtain ⟨_, _, m1, m2, m3⟩ := seek_two f.dev l4 ht (by rw [l2, k2]; unfold threadSet; rw [if_pos rfl]; omega)
      (by omega) (by rw [if_neg (by decide)]; decide)
    rw [if_neg (by decide)] at m2
    have m4 := m3 0 (by decide)
    rw [l1] at m4
    obtain ⟨steps, hend⟩ := run_to_end f.dev 0 (((s0.run f.dev [0, 0]).run f.dev [0, 0, 0]).run f.dev [1, 1])
    refine ⟨[0, 0] ++ [0, 0, 0] ++ [1, 1] ++ List.replicate steps 0, ?_⟩
    rw [run_append, run_append, run_append, hend, m4, m2]
    generalize ((s0.run f.dev [0, 0]).run f.dev [0, 0, 0]).cur = c0
    unfold Act.alone
    have hz : threadSet c0 i ((0 : Nat) : Int) i = 0 := if_pos rfl
    rw [hz, alone_bind]
    have hlen : (if ((entry i).size - 0 : Int) < 0 then (((entry i).size - 0 : Int) + 2 ^ 64).toNat
        else ((entry i).size - 0 : Int).toNat) = data.length := by
      rw [if_neg (by omega)]; omega
    rw [hlen]
    have hr : ∃ r, (readStream f (entry i) (threadSet c0 i ((0 : Nat) : Int) i) data.length).res = .ok r := by
      rw [hz]
      have h := hread 0 data.length (by omega)
      rw [streamRead_eq ht (show data.length ≤ SSIZE_MAX by unfold SSIZE_MAX; omega), if_neg (by omega)] at h
      have hcl : clamp (entry i) 0 data.length = data.length := by
        unfold clamp; rw [hsize]; omega
      dsimp only at h
      rw [hcl] at h
      split at h
      · rename_i x off hx; exact ⟨_, hx⟩
      all_goals cases h
    obtain ⟨r, hr⟩ := hr
    rw [readRest_over i n data.length (threadSet c0 i ((0 : Nat) : Int)) hn hr]
    rfl

/-- C116 fails for two requests for one context at the same time, one for the end of the stream and one for its begin:
  the bytes of the whole stream go to the buffer of `n` bytes of the first, and memory behind it is overwritten.  For
  every stream that a drive shows and every buffer of at least two bytes that is smaller than the stream. -/
theorem C116_same_handle_overflow_violated (env : DokanEnv) (handle : Nat → DokanHandle) (i : Nat) {data : Bytes}
    (hs : Shows env.tree env.ctx (handle i).entry.item (.stream data)) (hc : 0 ≤ (handle i).cur) (n : Nat)
    (h2 : 2 ≤ n) (hn : n ≤ 2 ^ 31 - 1) (hlen : n < data.length) (h63 : data.length < 2 ^ 63) :
    ∃ schedule rs, ((driveThreads env handle fun u => [⟨i, n, if u = 0 then (data.length - 1 : Nat) else (0 : Nat)⟩]).run
        env.ctx.dev schedule).act 0 = .ret rs ∧
      driveAnswers [⟨i, n, (data.length - 1 : Nat)⟩] rs = [.ub] := by
  obtain ⟨schedule, h⟩ := shared_readAt_overflow (entry := fun i => (handle i).entry.item.entry) (i := i) rfl hs
    (fun i => (handle i).cur) hc n h2 hlen h63
  refine ⟨schedule, [.data .ub], ?_, ?_⟩
  · refine Eq.trans ?_ h
    have : (fun u : Nat => serve [(⟨i, n, if u = 0 then (data.length - 1 : Nat) else (0 : Nat)⟩ : DriveRead)]) =
        fun u => .call i (.readAt n (if u = 0 then (data.length - 1 : Nat) else (0 : Nat))) fun _ => .done := by
      funext u
      unfold serve
      rw [if_neg (by show ¬ n > 2 ^ 31 - 1; omega)]
      rfl
    unfold driveThreads
    rw [this]
  · unfold driveAnswers
    rw [if_neg (by show ¬ n > 2 ^ 31 - 1; omega)]
    rfl

/-! ### Examples -/

/-- Three threads: two requests for file 0, one for file 1 with a negative offset and one that is too large, none. -/
def sampleReads : Nat → List DriveRead
  | 0 => [⟨0, 100, 0⟩, ⟨0, 1, 1⟩]
  | 1 => [⟨1, 1, -1⟩, ⟨1, 2 ^ 31, 0⟩]
  | _ => []

theorem sampleReads_separate : ∀ t u, t ≠ u → ∀ r ∈ sampleReads t, ∀ s ∈ sampleReads u, r.handle ≠ s.handle := by
  have h : ∀ t, ∀ r ∈ sampleReads t, r.handle = t := by
    intro t r hr
    match t, hr with
    | 0, hr => simp only [sampleReads, List.mem_cons, List.not_mem_nil, or_false] at hr; rcases hr with rfl | rfl <;> rfl
    | 1, hr => simp only [sampleReads, List.mem_cons, List.not_mem_nil, or_false] at hr; rcases hr with rfl | rfl <;> rfl
    | _ + 2, hr => cases hr
  intro t u hne r hr s hs e
  exact hne ((h t r hr).symm.trans (e.trans (h u s hs)))

/-- The file 😀 in the directory Ä of a drive, opened twice: thread 0 reads its bytes while thread 1 reads. -/
example (e : Endian) : ∃ env h, ∀ schedule rs,
    ((driveThreads env (fun _ => h) fun u => if u = 0 then [⟨0, 100, 0⟩, ⟨0, 1, 1⟩] else [⟨u, 1, 0⟩]).run env.ctx.dev
      schedule).act 0 = .ret rs → driveAnswers [⟨0, 100, 0⟩, ⟨0, 1, 1⟩] rs = [.ok (.ok [4, 5]), .ok (.ok [5])] := by
  have hr : Reachable (plainUna.cmp8 e) ⟨OleFile.new, { sampleWorld with
      dev := fun _ => Dev.ofBytes (encodeFile ⟨e, 9, 6, 4096, datedMarks⟩ (unicodeDoc e)) }⟩ :=
    ⟨_, [], ⟨rfl, rfl⟩, rfl⟩
  obtain ⟨h1, t, f, h2, h3, h4⟩ := C104_written_document_partial plainUna_isLibuna
    ⟨e, 9, 6, 4096, datedMarks⟩ (unicodeDoc e) (datedDoc_storable e) (unicodeDoc_text e)
    (unicodeDoc_driveNames e).1 (unicodeDoc_driveNames e).2 _ hr rfl (.user 1) rfl 1 rfl
  obtain ⟨mname, h5, h6, h7⟩ := h4 libWide.enc 0 false (fun _ hc => if_pos hc) (by decide)
  obtain ⟨-, g2⟩ := h6.streams _ _ (placedAt_docAt (datedDoc_placed e))
  obtain ⟨h, g8, -⟩ := g2 _ (.old (access := 0x80000000) (by decide))
  have hopen := OpensFile.old (env := ⟨⟨plainUna.dec16, libWide.enc⟩, plainUna.cmp16 e, mountItemNameW plainUna f.io,
      t, f, 0, false⟩) (p := drivePath (([[0xc4], [0x1f600]].map (storedName e)).map mname)) (access := 0x80000000) (by decide)
  rw [g8] at hopen
  refine ⟨⟨⟨plainUna.dec16, libWide.enc⟩, plainUna.cmp16 e, mountItemNameW plainUna f.io, t, f, 0, false⟩, h,
    fun schedule rs hrs => ?_⟩
  have key : ∀ t : Nat, ∀ r ∈ (if t = 0 then [⟨0, 100, 0⟩, ⟨0, 1, 1⟩] else [⟨t, 1, 0⟩] : List DriveRead),
      r.handle = t ∧ r.size ≤ 2 ^ 31 - 1 ∧ 0 ≤ r.offset ∧ r.offset < 2 ^ 63 := by
    intro t r hr
    split at hr
    · rename_i ht
      simp only [List.mem_cons, List.not_mem_nil, or_false] at hr
      rcases hr with rfl | rfl <;> exact ⟨ht.symm, by decide, by decide, by decide⟩
    · simp only [List.mem_cons, List.not_mem_nil, or_false] at hr
      rw [hr]
      exact ⟨rfl, show 1 ≤ 2 ^ 31 - 1 by decide, show (0 : Int) ≤ 0 by decide, show (0 : Int) < 2 ^ 63 by decide⟩
  obtain ⟨n, hn⟩ := C116_document_partial h6 (fun _ => _) (fun _ => _) (fun _ => placedAt_docAt (datedDoc_placed e))
    (fun _ => h) (fun _ => hopen) (fun u => if u = 0 then [⟨0, 100, 0⟩, ⟨0, 1, 1⟩] else [⟨u, 1, 0⟩])
    (fun t u hne r hr s hs e => hne ((key t r hr).1.symm.trans (e.trans (key u s hs).1)))
    (fun t r hr => (key t r hr).2) 0
  exact (hn schedule).2 rs hrs

/-- The answers of thread 1 of `sampleReads` on any drive. -/
example (env : DokanEnv) (h : WideEntry) : ∃ n, ∀ schedule, n ≤ schedule.count 1 →
    ∃ rs, ((driveThreads env (fun _ => ⟨h, 0⟩) sampleReads).run env.ctx.dev schedule).act 1 = .ret rs ∧
      driveAnswers (sampleReads 1) rs = [(dokanRead env 1 (-1) (some ⟨h, 0⟩)).1, .ok (.error .badArguments)] := by
  obtain ⟨n, hn⟩ := C116_separate_handles_partial env (fun _ => ⟨h, 0⟩) (fun _ => Int.le_refl 0) sampleReads
    sampleReads_separate 1
  refine ⟨n, fun schedule hs => ?_⟩
  obtain ⟨rs, hrs⟩ := (hn schedule).1 hs
  exact ⟨rs, hrs, (hn schedule).2 rs hrs⟩

/-- The stream `C` of the sample file, with 600 bytes: a buffer of 16 bytes is written over. -/
example (n : Nat) : ∃ env handle schedule rs,
    ((driveThreads env handle fun u => [⟨0, 16, if u = 0 then (599 : Nat) else (0 : Nat)⟩]).run env.ctx.dev
      schedule).act 0 = .ret rs ∧ driveAnswers [⟨0, 16, 599⟩] rs = [.ub] := by
  obtain ⟨_, t, f, root, _, _, _, h⟩ := C47_document_shown (sample_holds .little) cmpNone (sample_comparable _)
    sampleState sampleState_reachable rfl (.user n) rfl 1 rfl
  obtain ⟨it, _, h2⟩ := docAt_named (g := id) h sample_stream
  have hl : (List.replicate 512 7 ++ List.replicate 88 8 : Bytes).length = 600 := by
    rw [List.length_append, List.length_replicate, List.length_replicate]
  have := C116_same_handle_overflow_violated ⟨libWide, fun _ _ => none, fun _ => none, t, f, 0, false⟩
    (fun _ => ⟨⟨[], 1, it⟩, 0⟩) 0 h2 (Int.le_refl 0) 16 (by decide) (by decide) (by rw [hl]; decide) (by rw [hl]; decide)
  rw [hl] at this
  exact ⟨_, _, this⟩

end Olecf.Props
