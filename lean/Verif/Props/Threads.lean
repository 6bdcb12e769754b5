import Verif.Lemmas.Threads
import Verif.Lemmas.CompObj
import Verif.Props.ExportDoc
import Verif.Props.FileExamples

/-
  C106: threads that use the streams of one file at the same time.
-/

namespace Olecf.Props
open Olecf Olecf.Spec

/-! ### Calls on a stream that is shown -/

theorem read_on_file {f : FileCtx} {d : DirEntry} {data : Bytes} (ht : d.type = 2)
    (hread : ∀ cur size : Nat, size ≤ 2 ^ 63 - 1 →
      (streamRead f d cur size).1.res = .ok ((data.drop cur).take size)) (pos : Nat) {n : Nat} (hn : n < 2 ^ 63) :
    (streamRead f d pos n).1.res = .ok ((data.drop pos).take n) ∧
    (streamRead f d pos n).2 = (pos + ((data.drop pos).take n).length : Nat) := by
  have h := hread pos n (by omega)
  refine ⟨h, ?_⟩
  rw [streamRead_eq ht (show n ≤ SSIZE_MAX by unfold SSIZE_MAX; omega)] at h ⊢
  split at h
  · rename_i hc
    rw [if_pos hc]
    have := Res.ok.inj h
    rw [← this]; rfl
  · rename_i hc
    rw [if_neg hc]
    dsimp only at h ⊢
    split at h
    · rename_i x off hr
      split at h
      · cases h
      · rename_i hl
        rw [if_neg hl]
        have hx := Res.ok.inj h
        have ho := Lemmas.readStream_off hr
        dsimp only
        rw [ho, ← hx]
        omega
    all_goals cases h

theorem call_on_file {f : FileCtx} {d : DirEntry} {data : Bytes} (ht : d.type = 2) (hsize : d.size = data.length)
    (hread : ∀ cur size : Nat, size ≤ 2 ^ 63 - 1 →
      (streamRead f d cur size).1.res = .ok ((data.drop cur).take size)) (pos : Nat) {c : StreamCall}
    (hc : InReach data pos c) :
    (callAlone f d pos c).1 = (onFile data pos c).1 ∧ (callAlone f d pos c).2 = (onFile data pos c).2 := by
  cases c with
  | read n =>
    obtain ⟨h1, h2⟩ := read_on_file ht hread pos hc
    exact ⟨congrArg StreamReply.data h1, h2⟩
  | readAt n o =>
    obtain ⟨hn, ho1, ho2⟩ := hc
    obtain ⟨k1, k2, _⟩ := C29_seek ht (Int.natCast_nonneg pos) o .set
    unfold callAlone onFile
    dsimp only
    by_cases hneg : o < 0
    · rw [if_pos hneg]
      have := k2 o rfl hneg ho1
      unfold streamReadAt
      rw [this]
      exact ⟨rfl, rfl⟩
    · rw [if_neg hneg]
      obtain ⟨p, rfl⟩ := Int.eq_ofNat_of_zero_le (Int.not_lt.1 hneg)
      have := (k1 p rfl (by omega) ho2).1
      obtain ⟨h1, h2⟩ := read_on_file ht hread p hn
      unfold streamReadAt
      rw [this]
      exact ⟨congrArg StreamReply.data h1, h2⟩
  | seek o w =>
    obtain ⟨hw, ho1, ho2⟩ := hc
    obtain ⟨k1, k2, _⟩ := C29_seek ht (Int.natCast_nonneg pos) o w
    have hseek : seekTarget d pos o w = some (goesTo data pos o w) := by
      cases w with
      | set => rfl
      | cur => rfl
      | fromEnd => show some ((d.size : Int) + o) = some ((data.length : Int) + o); rw [hsize]
      | other => exact absurd rfl hw
    unfold callAlone onFile
    dsimp only
    by_cases hneg : goesTo data pos o w < 0
    · rw [if_pos hneg, k2 _ hseek hneg ho1]
      exact ⟨rfl, rfl⟩
    · rw [if_neg hneg, (k1 _ hseek (by omega) ho2).1]
      exact ⟨rfl, by dsimp only; omega⟩
  | getOffset =>
    unfold callAlone onFile streamGetOffset
    rw [if_neg (by simp [ht])]
    exact ⟨rfl, rfl⟩

theorem client_on_files {t : Tree} {f : FileCtx} {entry : Nat → DirEntry} {data : Nat → Bytes}
    (hs : ∀ i, ∃ it : Item, it.entry = entry i ∧ Shows t f it (.stream (data i))) :
    ∀ (client : Client) (pos : Nat → Nat), AllInReach data pos client →
    clientAlone f entry (fun i => (pos i : Int)) client = onFiles data pos client
  | .done, _, _ => rfl
  | .call i c k, pos, h => by
    obtain ⟨it, he, hsh⟩ := hs i
    cases hsh with
    | stream ht _ hsize hread =>
      rw [he] at ht hsize hread
      obtain ⟨h1, h2⟩ := call_on_file ht hsize hread (pos i) h.1
      unfold clientAlone onFiles
      dsimp only
      rw [h1, h2]
      congr 1
      rw [← client_on_files hs (k _) _ h.2]
      congr 1
      funext j
      unfold threadSet
      split <;> rfl

/-! ### Separate items -/

theorem start_within {f : FileCtx} {entry : Nat → DirEntry} {cur : Nat → Int} {client : Nat → Client}
    {S : Nat → Nat → Prop} (h : ∀ t, Uses (S t) (client t)) (t : Nat) :
    ((Threads.start f entry cur client).act t).Within (S t) := steps_within f entry (h t)

theorem cost_zero {dev : Dev} {a : Act α} {cur : Nat → Int} (h : a.cost dev cur = 0) : a = .ret (a.alone dev cur).1 := by
  cases a with
  | ret a => rfl
  | load i k => unfold Act.cost at h; omega
  | store i v k => unfold Act.cost at h; omega
  | get off size k => unfold Act.cost at h; omega

/-- C106: programs of which no two use the same item, on a file with any content.  A program that has ended got the
  replies that it gets if all others do nothing, whatever the order of the steps was. -/
theorem C106_separate_items_partial (f : FileCtx) (entry : Nat → DirEntry) (cur : Nat → Int) {client : Nat → Client}
    (hsep : Separate client) (t : Nat) :
    ∃ replies,
      (∀ schedule rs, ((Threads.start f entry cur client).run f.dev schedule).act t = .ret rs → rs = replies) ∧
      (∃ n, ∀ schedule, n ≤ schedule.count t →
        ((Threads.start f entry cur client).run f.dev schedule).act t = .ret replies) ∧
      (∃ n, ((Threads.start f entry cur fun u => if u = t then client t else .done).run f.dev
        (List.replicate n t)).act t = .ret replies) := by
  obtain ⟨S, hS, hd⟩ := hsep
  refine ⟨((((client t).steps f entry)).alone f.dev cur).1, ?_, ⟨((client t).steps f entry).cost f.dev cur, ?_⟩,
    ⟨((client t).steps f entry).cost f.dev cur, ?_⟩⟩
  · intro schedule rs h
    have := ((run_separate f.dev hd schedule (Threads.start f entry cur client) (start_within hS)).2 t).1
    rw [h] at this
    exact this
  · intro schedule h
    obtain ⟨h1, h2⟩ := (run_separate f.dev hd schedule (Threads.start f entry cur client) (start_within hS)).2 t
    rw [show ((Threads.start f entry cur client).act t) = (client t).steps f entry from rfl,
      show (Threads.start f entry cur client).cur = cur from rfl] at h1 h2
    rw [cost_zero (h2.trans (Nat.sub_eq_zero_of_le h)), h1]
  · have hu : ∀ u, Uses (S u) (if u = t then client t else .done) := by
      intro u
      split
      · rename_i hu; subst hu; exact hS _
      · trivial
    obtain ⟨h1, h2⟩ := (run_separate f.dev hd (List.replicate (((client t).steps f entry).cost f.dev cur) t)
      (Threads.start f entry cur fun u => if u = t then client t else .done) (start_within hu)).2 t
    have ha : (Threads.start f entry cur fun u => if u = t then client t else .done).act t =
        (client t).steps f entry := by
      show Client.steps f entry (if t = t then client t else .done) = _
      rw [if_pos rfl]
    rw [ha, show (Threads.start f entry cur fun u => if u = t then client t else Client.done).cur = cur from rfl]
      at h1 h2
    rw [List.count_replicate_self, Nat.sub_self] at h2
    rw [cost_zero h2, h1]

/-- C106: no two threads access the same offset at the same time when one of them changes it. -/
theorem C106_no_race_partial (f : FileCtx) (entry : Nat → DirEntry) (cur : Nat → Int) {client : Nat → Client}
    (hsep : Separate client) (schedule : List Nat) (t u : Nat) :
    ¬ Race ((Threads.start f entry cur client).run f.dev schedule) t u := by
  obtain ⟨S, hS, hd⟩ := hsep
  have hw := (run_separate f.dev hd schedule (Threads.start f entry cur client) (start_within hS)).1
  have hin : ∀ v i b, next (((Threads.start f entry cur client).run f.dev schedule).act v) = some (i, b) → S v i := by
    intro v i b h
    have := hw v
    generalize ((Threads.start f entry cur client).run f.dev schedule).act v = a at this h
    cases a with
    | ret a => cases h
    | load j k => cases h; exact this.1
    | store j x k => cases h; exact this.1
    | get off size k => cases h
  rintro ⟨hne, i, a, b, h1, h2, _⟩
  exact hd t u i hne (hin t i a h1) (hin u i b h2)

/-- C106: a file that holds a document has been opened, whatever was done before, and for each of any number of
  streams of the document (also several times for the same one) an item object was made.  Threads of which no two use
  the same item object read and seek, at the same time, in any order of their steps: each thread that has ended got
  the replies of ordinary files with the content of the streams, which nobody else uses; and each thread ends
  once it made enough steps, whatever the others do. -/
theorem C106_document_partial {content : Bytes} {names : List Bytes} {doc : Doc} (hf : FileHolds content names doc)
    (cmp : Bytes → Bytes → Option Bool) (hcmp : ∀ n ∈ names, Comparable cmp n)
    (st : FileState) (hst : Reachable cmp st) (hclosed : st.file.handle = none)
    (h : HandleId) (hdev : st.world.dev h = Dev.ofBytes content) (flags : Nat) (hfl : flags % 4 = 1)
    (path : Nat → List Bytes) (data : Nat → Bytes) (hpath : ∀ i, DocAt doc (path i) (.stream (data i))) :
    (openHandle cmp h flags {} st).1 = .ok () ∧
    ∃ t f root, (openHandle cmp h flags {} st).2.file.tree = some t ∧
      (openHandle cmp h flags {} st).2.file.ctx ((openHandle cmp h flags {} st).2.world.dev h) = some f ∧
      rootItem (some t) = some root ∧
      ∃ item : Nat → Item, (∀ i, NamedFrom t (·.name) root (path i) (item i)) ∧
        ∀ (client : Nat → Client), Separate client → (∀ u, AllInReach data (fun _ => 0) (client u)) →
          ∀ u, ∃ n, ∀ schedule,
            (n ≤ schedule.count u → ∃ rs, ((Threads.start f (fun i => (item i).entry) (fun _ => 0) client).run f.dev
              schedule).act u = .ret rs) ∧
            ∀ rs, ((Threads.start f (fun i => (item i).entry) (fun _ => 0) client).run f.dev schedule).act u = .ret rs →
              rs = onFiles data (fun _ => 0) (client u) := by
  obtain ⟨h1, t, f, root, h2, h3, h4, h5⟩ := C47_document_shown hf cmp hcmp st hst hclosed h hdev flags hfl
  refine ⟨h1, t, f, root, h2, h3, h4, ?_⟩
  have hitem : ∀ i, ∃ it, NamedFrom t (·.name) root (path i) it ∧ Shows t f it (.stream (data i)) := by
    intro i
    obtain ⟨it, k1, k2⟩ := docAt_named (g := id) h5 (hpath i)
    rw [List.map_id] at k1
    exact ⟨it, k1, k2⟩
  refine ⟨fun i => (hitem i).choose, fun i => (hitem i).choose_spec.1, ?_⟩
  intro client hsep hreach u
  obtain ⟨S, hS, hd⟩ := hsep
  refine ⟨((client u).steps f (fun i => ((hitem i).choose).entry)).cost f.dev (fun _ => 0), fun schedule => ?_⟩
  obtain ⟨k1, k2⟩ := (run_separate f.dev hd schedule
    (Threads.start f (fun i => ((hitem i).choose).entry) (fun _ => 0) client) (start_within hS)).2 u
  constructor
  · intro hn
    exact ⟨_, cost_zero (k2.trans (Nat.sub_eq_zero_of_le hn))⟩
  · intro rs hrs
    rw [hrs] at k1
    have k3 : rs = clientAlone f (fun i => ((hitem i).choose).entry) (fun _ => 0) (client u) :=
      k1.trans (steps_alone f _ (client u) _)
    rw [k3]
    exact client_on_files (t := t) (fun i => ⟨_, rfl, (hitem i).choose_spec.2⟩) (client u) (fun _ => 0) (hreach u)

/-! ### A shared item -/

theorem run_append (dev : Dev) (s : Threads) (a b : List Nat) : s.run dev (a ++ b) = (s.run dev a).run dev b :=
  List.foldl_append

/-- A thread that makes all of the steps. -/
theorem run_replicate (dev : Dev) (t : Nat) : ∀ (n : Nat) (s : Threads), (s.act t).cost dev s.cur ≤ n →
    (s.run dev (List.replicate n t)).act t = .ret ((s.act t).alone dev s.cur).1
  | 0, s, h => cost_zero (Nat.le_zero.1 h)
  | n + 1, s, h => by
    obtain ⟨h1, h2⟩ := step_self dev s t
    rw [← h1]
    exact run_replicate dev t n (s.step dev t) (by omega)

/-- A thread ends if it makes all of the steps. -/
theorem run_to_end (dev : Dev) (t : Nat) (s : Threads) : ∃ n,
    (s.run dev (List.replicate n t)).act t = .ret ((s.act t).alone dev s.cur).1 :=
  ⟨_, run_replicate dev t _ s (Nat.le_refl _)⟩

/-- More bytes are read than the buffer has. -/
theorem loop_over (io : IoHandle) (dev : Dev) (sat table : AllocTable) (short : Bool) (ss : Nat) :
    ∀ fuel room index id off size cur r, room < size →
      (streamLoop io dev sat table short ss fuel index id off size).res = .ok r →
      (loopSteps io sat table short ss fuel room index id off size).alone dev cur = (.ub, cur) := by
  intro fuel
  induction fuel with
  | zero =>
    intro room index id off size cur r h hr
    unfold streamLoop at hr
    rw [if_neg (by omega)] at hr
    cases hr
  | succ fuel ih =>
    intro room index id off size cur r h hr
    unfold streamLoop at hr
    unfold loopSteps
    rw [if_neg (by omega)] at hr ⊢
    dsimp only at hr ⊢
    split at hr
    · cases hr
    · rename_i hid
      rw [if_neg hid]
      cases hpos : streamSectorOffset io sat short id with
      | ok pos =>
        rw [hpos] at hr
        dsimp only at hr ⊢
        generalize (if off > index * ss then off - index * ss else 0) = skip at hr ⊢
        generalize (if (ss + 2 ^ 64 - skip) % 2 ^ 64 > size then size
          else (ss + 2 ^ 64 - skip) % 2 ^ 64) = len at hr ⊢
        split at hr
        · cases hr
        · rename_i hlen
          rw [if_neg hlen]
          unfold Act.alone
          cases hd : dev.get (pos + skip) len with
          | none => rw [hd] at hr; cases hr
          | some d =>
            rw [hd] at hr
            dsimp only at hr ⊢
            by_cases hroom : len > room
            · rw [if_pos hroom]; rfl
            · rw [if_neg hroom]
              cases hn : table.next id with
              | ok id' =>
                rw [hn] at hr
                dsimp only at hr ⊢
                split at hr
                · cases hr
                · rename_i hidx
                  rw [if_neg hidx, alone_bind]
                  cases ho : (streamLoop io dev sat table short ss fuel (index + 1) id' (off + len)
                    (size - len)).res with
                  | ok x => rw [ih _ _ _ _ _ _ x (by omega) ho]; rfl
                  | err => rw [ho] at hr; cases hr
                  | ub => rw [ho] at hr; cases hr
                  | hang => rw [ho] at hr; cases hr
              | err => rw [hn] at hr; cases hr
              | ub => rw [hn] at hr; cases hr
              | hang => rw [hn] at hr; cases hr
      | err => rw [hpos] at hr; cases hr
      | ub => rw [hpos] at hr; cases hr
      | hang => rw [hpos] at hr; cases hr

theorem readRest_over {f : FileCtx} {d : DirEntry} (i room size : Nat) (cur : Nat → Int) {r : Bytes × Nat}
    (h : room < size) (hr : (readStream f d (cur i) size).res = .ok r) :
    (readRestSteps f d i room size).alone f.dev cur = (.ub, cur) := by
  unfold readRestSteps
  rw [alone_bind]
  have : (readStreamSteps f d i room size).alone f.dev cur = (.ub, cur) := by
    unfold readStreamSteps
    unfold readStream at hr
    unfold Act.alone
    dsimp only
    split at hr
    · cases hr
    · rename_i h1
      rw [if_neg h1]
      split at hr
      · cases hr
      · rename_i h2
        rw [if_neg h2]
        split at hr
        · cases hr
        · rename_i h3
          rw [if_neg h3]
          dsimp only at hr ⊢
          split at hr
          · cases hr
          · rename_i h4
            rw [if_neg h4]
            cases hc : chainPos (f.table d) (toInt32 ((cur i).toNat / f.unit d)).toNat d.start with
            | ok id =>
              rw [hc] at hr
              dsimp only at hr ⊢
              rw [alone_bind, loop_over _ _ _ _ _ _ _ _ _ _ _ _ _ r h hr]
              rfl
            | err => rw [hc] at hr; cases hr
            | ub => rw [hc] at hr; cases hr
            | hang => rw [hc] at hr; cases hr
  rw [this]
  rfl

theorem bind_assoc (a : Act α) (g : α → Act β) (h : β → Act γ) :
    (a.bind g).bind h = a.bind fun x => (g x).bind h := by
  induction a with
  | ret a => rfl
  | load i k ih => exact congrArg (Act.load i) (funext fun v => ih v)
  | store i v k ih => exact congrArg (Act.store i v) ih
  | get off size k ih => exact congrArg (Act.get off size) (funext fun v => ih v)

theorem step_load (dev : Dev) {s : Threads} {t i : Nat} {k : Int → Act (List StreamReply)} (h : s.act t = .load i k) :
    s.step dev t = ⟨s.cur, fun u => if u = t then k (s.cur i) else s.act u⟩ := by
  unfold Threads.step; rw [h]

theorem step_store (dev : Dev) {s : Threads} {t i : Nat} {v : Int} {k : Act (List StreamReply)}
    (h : s.act t = .store i v k) :
    s.step dev t = ⟨threadSet s.cur i v, fun u => if u = t then k else s.act u⟩ := by
  unfold Threads.step; rw [h]; rfl

/-- A thread that seeks an offset, in two steps. -/
theorem seek_two (dev : Dev) {s : Threads} {t i : Nat} {d : DirEntry} {o : Int}
    {g : Res Int → Act (List StreamReply)} (h : s.act t = (seekSteps d i o .set).bind g)
    (ht : d.type = 2) (hc : 0 ≤ s.cur i) (h0 : 0 ≤ o) (h63 : o < 2 ^ 63) :
    (s.run dev [t]).act t = .store i o (g (.ok o)) ∧ (∀ u, u ≠ t → (s.run dev [t]).act u = s.act u) ∧
    (s.run dev [t, t]).act t = g (.ok o) ∧ (s.run dev [t, t]).cur = threadSet s.cur i o ∧
    ∀ u, u ≠ t → (s.run dev [t, t]).act u = s.act u := by
  have e : (seekSteps d i o .set).bind g = .load i fun c =>
      (if c < 0 then .ret .err else (.store i o (.ret (.ok o)) : Act (Res Int))).bind g := by
    unfold seekSteps
    rw [if_neg (by simp [ht])]
    refine congrArg (Act.load i) (funext fun c => congrArg (Act.bind · g) ?_)
    dsimp only
    split
    · rfl
    · rw [if_neg (by decide), if_neg (by simp only [inOff64]; omega), if_neg (by omega)]
  rw [e] at h
  have e1 : s.run dev [t] = s.step dev t := rfl
  have e2 : s.run dev [t, t] = (s.step dev t).step dev t := rfl
  have h1 := step_load dev h
  have ha : (s.step dev t).act t = .store i o (g (.ok o)) := by
    rw [h1]; dsimp only; rw [if_pos rfl, if_neg (by omega)]; rfl
  have h2 := step_store dev ha
  refine ⟨by rw [e1]; exact ha, fun u hu => by rw [e1]; exact step_other dev s hu, ?_, ?_, fun u hu => ?_⟩
  · rw [e2, h2]; exact if_pos rfl
  · rw [e2, h2]; dsimp only; rw [h1]
  · rw [e2, step_other dev _ hu]; exact step_other dev s hu

/-- A thread that reads at the end of a stream, up to where it computes the size. -/
theorem read_three (dev : Dev) {s : Threads} {t i n : Nat} {f : FileCtx} {d : DirEntry}
    {g : Res Bytes → Act (List StreamReply)} (h : s.act t = (readSteps f d i n).bind g)
    (ht : d.type = 2) {p : Nat} (hc : s.cur i = p) (hp : p < d.size) (hn : n ≤ d.size) (hend : d.size - n < p)
    (h63 : n < 2 ^ 63) :
    (s.run dev [t, t, t]).act t = .load i (fun c => (readRestSteps f d i n
      (if (d.size - c : Int) < 0 then ((d.size - c : Int) + 2 ^ 64).toNat else (d.size - c : Int).toNat)).bind g) ∧
    (s.run dev [t, t, t]).cur = s.cur ∧ ∀ u, u ≠ t → (s.run dev [t, t, t]).act u = s.act u := by
  have e3 : s.run dev [t, t, t] = ((s.step dev t).step dev t).step dev t := rfl
  have h1 := step_load dev (s := s) (t := t) (i := i) (h.trans (by
    unfold readSteps; rw [if_neg (by simp [ht])]; rfl))
  have ha := congrArg (fun s : Threads => s.act t) h1
  have hcur := congrArg (fun s : Threads => s.cur) h1
  dsimp only at ha hcur
  rw [if_pos rfl, if_neg (by omega), if_neg (by unfold SSIZE_MAX; omega)] at ha
  have h2 := step_load dev ha
  have ha2 := congrArg (fun s : Threads => s.act t) h2
  have hcur2 := congrArg (fun s : Threads => s.cur) h2
  dsimp only at ha2 hcur2
  rw [if_pos rfl, hcur, if_neg (by omega), if_neg (by omega)] at ha2
  have h3 := step_load dev ha2
  have ha3 := congrArg (fun s : Threads => s.act t) h3
  have hcur3 := congrArg (fun s : Threads => s.cur) h3
  dsimp only at ha3 hcur3
  rw [if_pos rfl, hcur2, hcur, if_pos (by omega)] at ha3
  refine ⟨by rw [e3]; exact ha3, by rw [e3, hcur3, hcur2, hcur], fun u hu => ?_⟩
  rw [e3, step_other dev _ hu, step_other dev _ hu, step_other dev _ hu]

/-- C106 fails for an item that two threads use: while one seeks the other accesses the same offset. -/
theorem C106_shared_race_violated (f : FileCtx) (entry : Nat → DirEntry) (cur : Nat → Int) (i : Nat)
    (ht : (entry i).type = 2) (hc : 0 ≤ cur i) :
    ∃ client : Nat → Client, (∀ t, 2 ≤ t → client t = .done) ∧
      ∃ schedule, Race ((Threads.start f entry cur client).run f.dev schedule) 0 1 := by
  let client : Nat → Client := fun t => if t = 0 then .call i (.seek 0 .set) fun _ => .done
    else if t = 1 then .call i (.read 1) fun _ => .done else .done
  refine ⟨client, fun t h => ?_, [0], by decide, i, true, false, ?_, ?_, Or.inl rfl⟩
  · show (if t = 0 then _ else if t = 1 then _ else Client.done) = _
    rw [if_neg (by omega), if_neg (by omega)]
  · have h0 : (Threads.start f entry cur client).act 0 = (seekSteps (entry i) i 0 .set).bind fun r =>
        ((Act.ret (.pos r) : Act StreamReply).bind fun r => ((Client.done).steps f entry).bind fun rs =>
          .ret (r :: rs)) := bind_assoc ..
    rw [(seek_two f.dev h0 ht hc (Int.le_refl _) (by decide)).1]
    rfl
  · show next (((Threads.start f entry cur client).step f.dev 0).act 1) = _
    rw [step_other f.dev _ (by decide)]
    show next (Act.bind (Act.bind (readSteps f (entry i) i 1) _) _) = _
    unfold readSteps
    rw [if_neg (by simp [ht])]
    rfl

/-- C106 fails for an item that two threads use: both read at an offset, and one gets the bytes at the offset of the
  other.  For every stream that is shown, all offsets and sizes. -/
theorem C106_shared_bytes_violated {t : Tree} {f : FileCtx} {entry : Nat → DirEntry} {i : Nat} {it : Item}
    {data : Bytes} (he : it.entry = entry i) (hs : Shows t f it (.stream data)) (cur : Nat → Int) (hc : 0 ≤ cur i)
    (n a b : Nat) (hn : n < 2 ^ 63) (ha : a < 2 ^ 63) (hb : b < 2 ^ 63) :
    ∃ schedule, ((Threads.start f entry cur fun u => .call i (.readAt n (if u = 0 then a else b)) fun _ => .done).run
      f.dev schedule).act 0 = .ret [.data (.ok ((data.drop b).take n))] := by
  cases hs with
  | stream ht _ hsize hread =>
    rw [he] at ht hsize hread
    generalize hs0 : (Threads.start f entry cur fun u =>
      .call i (.readAt n (if u = 0 then a else b)) fun _ => .done) = s0
    have hact : ∀ u, s0.act u = (seekSteps (entry i) i ((if u = 0 then a else b : Nat) : Int) .set).bind fun r =>
        (match r with
          | .ok _ => readSteps f (entry i) i n
          | .err => .ret .err
          | .ub => .ret .ub
          | .hang => .ret .hang).bind fun r =>
            ((Act.ret (.data r) : Act StreamReply).bind fun r => ((Client.done).steps f entry).bind fun rs =>
              .ret (r :: rs)) := by
      intro u
      rw [← hs0]
      show Act.bind (Act.bind (Act.bind _ _) _) _ = _
      rw [bind_assoc, bind_assoc, ← apply_ite (Nat.cast : Nat → Int)]
      rfl
    have hcur : s0.cur = cur := by rw [← hs0]; rfl
    obtain ⟨_, _, k1, k2, k3⟩ := seek_two f.dev (hact 0) ht (by rw [hcur]; exact hc) (by omega)
      (by rw [if_pos rfl]; omega)
    rw [if_pos rfl] at k1 k2
    dsimp only at k1
    have k4 := k3 1 (by decide)
    rw [hact 1] at k4
    obtain ⟨_, _, m1, m2, m3⟩ := seek_two f.dev k4 ht (by rw [k2]; unfold threadSet; rw [if_pos rfl]; omega) (by omega)
      (by rw [if_neg (by decide)]; omega)
    rw [if_neg (by decide)] at m2
    have m4 := m3 0 (by decide)
    rw [k1] at m4
    obtain ⟨steps, hend⟩ := run_to_end f.dev 0 ((s0.run f.dev [0, 0]).run f.dev [1, 1])
    refine ⟨[0, 0] ++ [1, 1] ++ List.replicate steps 0, ?_⟩
    rw [run_append, run_append, hend, m4, alone_bind, read_alone, m2]
    have : threadSet ((s0.run f.dev [0, 0]).cur) i (b : Int) i = b := if_pos rfl
    rw [this, hread b n (by omega)]
    rfl

/-- C106 fails for an item that two threads use: one reads a few bytes at the end, the other seeks the begin.
  The size is computed from the new offset and the bytes of the whole stream go to the buffer of `n` bytes: memory
  behind the buffer is overwritten.  For every stream that is shown and every buffer of at least two bytes that is
  smaller than the stream. -/
theorem C106_shared_overflow_violated {t : Tree} {f : FileCtx} {entry : Nat → DirEntry} {i : Nat} {it : Item}
    {data : Bytes} (he : it.entry = entry i) (hs : Shows t f it (.stream data)) (cur : Nat → Int) (hc : 0 ≤ cur i)
    (n : Nat) (h2 : 2 ≤ n) (hn : n < data.length) (h63 : data.length < 2 ^ 63) :
    ∃ schedule, ((Threads.start f entry cur fun u =>
        if u = 0 then .call i (.seek (data.length - 1 : Nat) .set) fun _ => .call i (.read n) fun _ => .done
        else .call i (.seek 0 .set) fun _ => .done).run f.dev schedule).act 0 =
      .ret [.pos (.ok (data.length - 1 : Nat)), .data .ub] := by
  cases hs with
  | stream ht _ hsize hread =>
    rw [he] at ht hsize hread
    generalize hs0 : (Threads.start f entry cur fun u =>
        if u = 0 then .call i (.seek (data.length - 1 : Nat) .set) fun _ => .call i (.read n) fun _ => .done
        else .call i (.seek 0 .set) fun _ => .done) = s0
    have hact0 : s0.act 0 = (seekSteps (entry i) i (data.length - 1 : Nat) .set).bind fun r =>
        (readSteps f (entry i) i n).bind fun x => .ret [.pos r, .data x] := by
      rw [← hs0]
      show Act.bind (Act.bind _ _) _ = _
      rw [bind_assoc]
      refine congrArg (Act.bind _) (funext fun r => ?_)
      show Act.bind (Act.bind (Act.bind _ _) _) _ = _
      rw [bind_assoc, bind_assoc]
      rfl
    have hact1 : s0.act 1 = (seekSteps (entry i) i 0 .set).bind fun r => .ret [.pos r] := by
      rw [← hs0]
      show Act.bind (Act.bind _ _) _ = _
      rw [bind_assoc]
      rfl
    have hcur : s0.cur = cur := by rw [← hs0]; rfl
    obtain ⟨_, _, k1, k2, k3⟩ := seek_two f.dev hact0 ht (by rw [hcur]; exact hc) (by omega) (by omega)
    have k4 := k3 1 (by decide)
    rw [hact1] at k4
    obtain ⟨l1, l2, l3⟩ := read_three f.dev k1 ht (p := data.length - 1) (by rw [k2]; exact if_pos rfl) (by omega)
      (by omega) (by omega) (by omega)
    have l4 := l3 1 (by decide)
    rw [k4] at l4
    obtain ⟨_, _, m1, m2, m3⟩ := seek_two f.dev l4 ht (by rw [l2, k2]; unfold threadSet; rw [if_pos rfl]; omega)
      (Int.le_refl _) (by decide)
    have m4 := m3 0 (by decide)
    rw [l1] at m4
    obtain ⟨steps, hend⟩ := run_to_end f.dev 0 (((s0.run f.dev [0, 0]).run f.dev [0, 0, 0]).run f.dev [1, 1])
    refine ⟨[0, 0] ++ [0, 0, 0] ++ [1, 1] ++ List.replicate steps 0, ?_⟩
    rw [run_append, run_append, run_append, hend, m4, m2]
    generalize ((s0.run f.dev [0, 0]).run f.dev [0, 0, 0]).cur = c0
    unfold Act.alone
    have hz : threadSet c0 i 0 i = 0 := if_pos rfl
    rw [hz, alone_bind]
    have hlen : (if ((entry i).size - 0 : Int) < 0 then (((entry i).size - 0 : Int) + 2 ^ 64).toNat
        else ((entry i).size - 0 : Int).toNat) = data.length := by
      rw [if_neg (by omega)]; omega
    rw [hlen]
    have hr : ∃ r, (readStream f (entry i) (threadSet c0 i 0 i) data.length).res = .ok r := by
      rw [hz]
      have h := hread 0 data.length (by omega)
      rw [streamRead_eq ht (show data.length ≤ SSIZE_MAX by unfold SSIZE_MAX; omega), if_neg (by omega)] at h
      have hcl : clamp (entry i) 0 data.length = data.length := by
        unfold clamp; rw [hsize]; omega
      dsimp only at h
      rw [hcl] at h
      split at h
      · rename_i x off hx; exact ⟨_, hx⟩
      all_goals cases h
    obtain ⟨r, hr⟩ := hr
    rw [readRest_over i n data.length (threadSet c0 i 0) hn hr]
    rfl

/-! ### Examples -/

/-- Two threads on two objects for the same stream of the sample file: one reads piece by piece, the other seeks. -/
def sampleClients : Nat → Client
  | 0 => .call 0 (.read 3) fun _ => .call 0 (.readAt 4 1) fun _ => .call 0 .getOffset fun _ => .done
  | 1 => .call 1 (.seek (-2) .fromEnd) fun _ => .call 1 (.read 100) fun _ => .done
  | _ => .done

theorem sampleClients_separate : Separate sampleClients := by
  refine ⟨fun t i => t = i, fun t => ?_, fun t u i hne h h' => hne (h.trans h'.symm)⟩
  match t with
  | 0 => exact ⟨rfl, fun _ => ⟨rfl, fun _ => ⟨rfl, fun _ => trivial⟩⟩⟩
  | 1 => exact ⟨rfl, fun _ => ⟨rfl, fun _ => trivial⟩⟩
  | _ + 2 => exact trivial

/-- The stream `C` of the sample document, for every item object. -/
theorem sample_stream : DocAt sampleDoc [[67, 0, 0, 0]] (.stream (List.replicate 512 7 ++ List.replicate 88 8)) :=
  .sub (path := []) .here (.tail _ (.tail _ (.head _)))

/-- The hypotheses of C106_document_partial, and the replies. -/
example (n : Nat) : ∃ f item, ∀ schedule rs,
    ((Threads.start f item (fun _ => 0) sampleClients).run f.dev schedule).act 1 = .ret rs →
      rs = [.pos (.ok 598), .data (.ok [8, 8])] := by
  obtain ⟨_, t, f, root, _, _, _, item, _, h⟩ := C106_document_partial (sample_holds .little) cmpNone
    (sample_comparable _) sampleState sampleState_reachable rfl (.user n) rfl 1 rfl (fun _ => [[67, 0, 0, 0]])
    (fun _ => List.replicate 512 7 ++ List.replicate 88 8) (fun _ => sample_stream)
  obtain ⟨k, hk⟩ := h sampleClients sampleClients_separate (fun u => by
    match u with
    | 0 => exact ⟨show 3 < 2 ^ 63 by decide, ⟨by decide, by decide, by decide⟩, trivial, trivial⟩
    | 1 =>
      refine ⟨⟨by decide, ?_, ?_⟩, show 100 < 2 ^ 63 by decide, trivial⟩
      · decide +kernel
      · decide +kernel
    | _ + 2 => exact trivial) 1
  refine ⟨f, fun i => (item i).entry, fun schedule rs hrs => ?_⟩
  rw [(hk schedule).2 rs hrs]
  show [_, _] = _
  decide +kernel

/-- The hypotheses of the theorems on a shared item. -/
example (n : Nat) : ∃ t f it, Shows t f it (.stream (List.replicate 512 7 ++ List.replicate 88 8)) ∧
    it.entry.type = 2 := by
  obtain ⟨_, t, f, root, _, _, _, h⟩ := C47_document_shown (sample_holds .little) cmpNone (sample_comparable _)
    sampleState sampleState_reachable rfl (.user n) rfl 1 rfl
  obtain ⟨it, _, h2⟩ := docAt_named (g := id) h sample_stream
  refine ⟨t, f, it, h2, ?_⟩
  cases h2 with
  | stream ht => exact ht

end Olecf.Props
