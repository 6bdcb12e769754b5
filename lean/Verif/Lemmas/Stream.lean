import Verif.Spec.Stream
import Verif.Lemmas.Readers

namespace Olecf
open Olecf.Spec

/-! ### Chains -/

theorem nth_succ (table : List Nat) (a k : Nat) :
    nth table a (k + 1) = match table[a]? with
      | some b => nth table b k
      | none => none := rfl

theorem nth_succ' {table : List Nat} {a b : Nat} (h : table[a]? = some b) (k : Nat) :
    nth table a (k + 1) = nth table b k := by rw [nth_succ, h]

theorem nth_add (table : List Nat) : ∀ (j k a : Nat),
    nth table a (j + k) = (nth table a j).bind fun b => nth table b k
  | 0, k, a => by simp [nth]
  | j + 1, k, a => by
    rw [show j + 1 + k = (j + k) + 1 by omega, nth_succ, nth_succ]
    cases table[a]? with
    | none => rfl
    | some b => exact nth_add table j k b

theorem nth_lt {table : List Nat} (hlt : ∀ v ∈ table, v < 2 ^ 32) : ∀ (k a : Nat) {b : Nat},
    a < 2 ^ 32 → nth table a k = some b → b < 2 ^ 32
  | 0, a, b, ha, h => by cases h; exact ha
  | k + 1, a, b, ha, h => by
    rw [nth_succ] at h
    cases hx : table[a]? with
    | none => rw [hx] at h; cases h
    | some c =>
      rw [hx] at h
      exact nth_lt hlt k c (hlt c (List.mem_of_getElem? hx)) h

theorem next_cases {t : AllocTable} (h : t.WF) (i : Nat) :
    t.next i = match t.ids[i]? with | some v => .ok v | none => .err := by
  cases hx : t.ids[i]? with
  | some v => exact h.next_iff.2 hx
  | none =>
    rcases next_defined t i with ⟨v, hv⟩ | hv
    · rw [h.next_iff.1 hv] at hx; cases hx
    · exact hv

theorem EOC_none {t : AllocTable} (h : t.WF) : t.ids[EOC]? = none := by
  rw [List.getElem?_eq_none_iff]
  have := h.size
  have hn : t.n = t.ids.length := rfl
  unfold EOC
  omega

theorem chainPos_eq {t : AllocTable} (h : t.WF) : ∀ (k id : Nat),
    chainPos t k id = match nth t.ids id k with | some b => .ok b | none => .err
  | 0, id => rfl
  | k + 1, id => by
    rw [chainPos, nth_succ, next_cases h]
    by_cases he : id = EOC
    · rw [if_pos he, he, EOC_none h]
    · rw [if_neg he]
      cases t.ids[id]? with
      | none => rfl
      | some b => simp only [Res.ok_bind]; exact chainPos_eq h k b

theorem containerLoop_eq {t : AllocTable} (h : t.WF) {ss : Nat} (hss : 0 < ss) :
    ∀ (fuel off id : Nat), off / ss ≤ fuel →
      containerLoop t ss fuel off id =
        match nth t.ids id (off / ss) with
        | some c => .ok (off % ss, c)
        | none => .err := by
  intro fuel
  induction fuel with
  | zero =>
    intro off id ho
    have hlt : off < ss := by
      rcases Nat.lt_or_ge off ss with hc | hc
      · exact hc
      · have := Nat.div_pos hc hss; omega
    unfold containerLoop
    rw [if_neg (by omega), Nat.div_eq_of_lt hlt, Nat.mod_eq_of_lt hlt]
    simp [nth]
  | succ fuel ih =>
    intro off id ho
    unfold containerLoop
    by_cases hge : off ≥ ss
    · rw [if_pos hge]
      simp only []
      rw [next_cases h, Nat.div_eq_sub_div hss hge, Nat.mod_eq_sub_mod hge, nth_succ]
      cases t.ids[id]? with
      | none => rfl
      | some b =>
        simp only [Res.ok_bind]
        refine ih (off - ss) b ?_
        rw [Nat.div_eq_sub_div hss hge] at ho
        omega
    · rw [if_neg hge, Nat.div_eq_of_lt (by omega), Nat.mod_eq_of_lt (by omega)]
      simp [nth]

/-! ### Positions -/

/-- Where the sector `id` of a stream starts. -/
def startPos (f : FileCtx) (short : Bool) (id : Nat) : Option Nat :=
  if short then
    match nth f.sat.ids f.io.shortStreamStart (id * f.io.shortSectorSize / f.io.sectorSize) with
    | some c => some (id * f.io.shortSectorSize % f.io.sectorSize + sectorPos f.io.sectorSize c)
    | none => none
  else some (sectorPos f.io.sectorSize id)

theorem wf_sat {f : FileCtx} (h : WellFormedCtx f) : f.sat.WF := ⟨h.sat.1, h.sat.2⟩
theorem wf_ssat {f : FileCtx} (h : WellFormedCtx f) : f.ssat.WF := ⟨h.ssat.1, h.ssat.2⟩

theorem wf_table {f : FileCtx} (h : WellFormedCtx f) (d : DirEntry) : (f.table d).WF := by
  unfold FileCtx.table
  split
  · exact wf_ssat h
  · exact wf_sat h

theorem streamSectorOffset_eq {f : FileCtx} (h : WellFormedCtx f) (short : Bool) {id : Nat}
    (hid : id < 2 ^ 32) :
    streamSectorOffset f.io f.sat short id =
      match startPos f short id with | some p => .ok p | none => .err := by
  unfold streamSectorOffset startPos
  cases short with
  | false => simp only [Bool.false_eq_true, if_false, sectorOffset_eq _ hid]
  | true =>
    simp only [if_true]
    rw [containerLoop_eq (wf_sat h) h.ss.1 _ _ _ (Nat.div_le_self _ _)]
    cases hc : nth f.sat.ids f.io.shortStreamStart
        (id * f.io.shortSectorSize / f.io.sectorSize) with
    | none => rfl
    | some c =>
      simp only [Res.ok_bind, Res.pure_eq]
      rw [sectorOffset_eq _ (nth_lt h.sat.2 _ _ h.start hc)]

theorem sectorPos_le {ss id : Nat} (hss : ss ≤ 32768) (hid : id < 2 ^ 32) :
    sectorPos ss id ≤ 2 ^ 47 := by
  unfold sectorPos
  split
  · omega
  · calc (id + 1) * ss ≤ 2 ^ 32 * 32768 := Nat.mul_le_mul (by omega) hss
      _ ≤ 2 ^ 47 := by decide

theorem startPos_le {f : FileCtx} (h : WellFormedCtx f) (short : Bool) {id p : Nat}
    (hid : id < 2 ^ 32) (hp : startPos f short id = some p) : p ≤ 2 ^ 48 := by
  unfold startPos at hp
  cases short with
  | false =>
    simp only [Bool.false_eq_true, if_false, Option.some.injEq] at hp
    have := sectorPos_le h.ss.2 hid
    omega
  | true =>
    simp only [if_true] at hp
    cases hc : nth f.sat.ids f.io.shortStreamStart
        (id * f.io.shortSectorSize / f.io.sectorSize) with
    | none => rw [hc] at hp; cases hp
    | some c =>
      rw [hc] at hp
      simp only [Option.some.injEq] at hp
      have h1 := sectorPos_le h.ss.2 (nth_lt h.sat.2 _ _ h.start hc)
      have h2 := Nat.mod_lt (id * f.io.shortSectorSize) h.ss.1
      have h3 := h.ss.2
      omega

/-! ### One iteration -/

theorem streamLoop_zero (io : IoHandle) (dev : Dev) (sat table : AllocTable) (short : Bool)
    (ss fuel index id off : Nat) :
    streamLoop io dev sat table short ss fuel index id off 0 = .of (.ok ([], off)) := by
  unfold streamLoop
  rw [if_pos rfl]

/-- The number of bytes of one iteration. -/
def pieceLen (u off size : Nat) : Nat := min (u - off % u) size

section
variable {f : FileCtx} (h : WellFormedCtx f) {table : AllocTable} (ht : table.WF) (short : Bool)
  {u : Nat} (hu : 0 < u) (hu' : u ≤ 32768)
include h ht hu hu'

theorem streamLoop_step (dev : Dev) (fuel : Nat) {id off size : Nat} (hid : id < 2 ^ 32)
    (hsz : 0 < size) (hoff : off + size < 2 ^ 62) (hidx : off + size ≤ u * INT_MAX) :
    streamLoop f.io dev f.sat table short u (fuel + 1) (off / u) id off size =
      match startPos f short id with
      | none => .of .err
      | some pos =>
        if id = EOC then .of .err
        else match dev.get (pos + off % u) (pieceLen u off size) with
          | none => ⟨[(pos + off % u, pieceLen u off size)], .err⟩
          | some d => match table.ids[id]? with
            | none => ⟨[(pos + off % u, pieceLen u off size)], .err⟩
            | some nxt =>
              let out := streamLoop f.io dev f.sat table short u fuel (off / u + 1) nxt
                (off + pieceLen u off size) (size - pieceLen u off size)
              ⟨(pos + off % u, pieceLen u off size) :: out.reads,
                match out.res with
                | .ok (rest, o) => .ok (d ++ rest, o)
                | .err => .err
                | .ub => .ub
                | .hang => .hang⟩ := by
  rw [streamLoop, if_neg (by omega)]
  rw [streamSectorOffset_eq h short hid]
  cases hp : startPos f short id with
  | none => split <;> rfl
  | some pos =>
    by_cases he : id = EOC
    · rw [if_pos he]; simp only [he, if_true]
    · rw [if_neg he]
      simp only [if_neg he]
      have hpos := startPos_le h short hid hp
      have hdm := Nat.div_add_mod off u
      have hml := Nat.mod_lt off hu
      have hcomm : off / u * u = u * (off / u) := Nat.mul_comm _ _
      have hskip : (if off > off / u * u then off - off / u * u else 0) = off % u := by
        split <;> omega
      rw [hskip]
      have hlen : (u + 2 ^ 64 - off % u) % 2 ^ 64 = u - off % u := by omega
      rw [hlen]
      have hpl : (if u - off % u > size then size else u - off % u) = pieceLen u off size := by
        unfold pieceLen; split <;> omega
      rw [hpl]
      have hpll : pieceLen u off size ≤ size := by unfold pieceLen; omega
      rw [if_neg (by omega)]
      cases hg : dev.get (pos + off % u) (pieceLen u off size) with
      | none => rfl
      | some d =>
        simp only []
        rw [next_cases ht]
        cases hn : table.ids[id]? with
        | none => rfl
        | some nxt =>
          simp only []
          have hidx' : ¬ (off / u + 1 > INT_MAX) := by
            have h1 : off < u * INT_MAX := by omega
            have := (Nat.div_lt_iff_lt_mul hu).2 (show off < INT_MAX * u by
              rw [Nat.mul_comm]; exact h1)
            omega
          rw [if_neg hidx']
          cases (streamLoop f.io dev f.sat table short u fuel (off / u + 1) nxt
            (off + pieceLen u off size) (size - pieceLen u off size)).res with
          | ok r => obtain ⟨rest, o⟩ := r; rfl
          | err => rfl
          | ub => rfl
          | hang => rfl

omit h ht hu' in
theorem piece_cases {off size : Nat} (hsz : 0 < size) :
    0 < pieceLen u off size ∧ pieceLen u off size ≤ size ∧ off % u + pieceLen u off size ≤ u ∧
    (pieceLen u off size = size ∨
      (pieceLen u off size < size ∧ off % u + pieceLen u off size = u ∧
        (off + pieceLen u off size) / u = off / u + 1 ∧ (off + pieceLen u off size) % u = 0)) := by
  have hml := Nat.mod_lt off hu
  have hdm := Nat.div_add_mod off u
  refine ⟨by unfold pieceLen; omega, by unfold pieceLen; omega, by unfold pieceLen; omega, ?_⟩
  by_cases hc : pieceLen u off size = size
  · exact Or.inl hc
  · refine Or.inr ⟨by unfold pieceLen at *; omega, by unfold pieceLen at *; omega, ?_, ?_⟩
    · have : off + pieceLen u off size = u * (off / u + 1) := by
        rw [Nat.mul_add, Nat.mul_one]
        unfold pieceLen at *
        omega
      rw [this, Nat.mul_div_cancel_left _ hu]
    · have : off + pieceLen u off size = u * (off / u + 1) := by
        rw [Nat.mul_add, Nat.mul_one]
        unfold pieceLen at *
        omega
      rw [this, Nat.mul_mod_right]

/-- Safety, for every device: the loop ends without undefined behaviour; the bytes that all reads
  together ask for are at most `size`; every read lies inside one sector of the chain. -/
theorem streamLoop_safe (dev : Dev) : ∀ (fuel id off size : Nat), id < 2 ^ 32 → size ≤ fuel →
    off + size < 2 ^ 62 → off + size ≤ u * INT_MAX →
    let out := streamLoop f.io dev f.sat table short u fuel (off / u) id off size
    (out.res = .err ∨ ∃ r, out.res = .ok r) ∧
    (out.reads.map (·.2)).sum ≤ size ∧ out.reads.length ≤ size ∧
    (∀ r ∈ out.reads, ∃ k s p, nth table.ids id k = some s ∧ startPos f short s = some p ∧
      0 < r.2 ∧ (off / u + k) * u ≤ off + size ∧ p ≤ r.1 ∧ r.1 + r.2 ≤ p + u ∧
      off ≤ (off / u + k) * u + (r.1 - p) ∧ (off / u + k) * u + (r.1 - p) + r.2 ≤ off + size) := by
  intro fuel
  induction fuel with
  | zero =>
    intro id off size hid hf _ _
    have : size = 0 := by omega
    subst this
    simp only [streamLoop_zero]
    simp
  | succ fuel ih =>
    intro id off size hid hf hoff hidx
    by_cases hz : size = 0
    · subst hz
      simp only [streamLoop_zero]
      simp
    · have hsz : 0 < size := by omega
      obtain ⟨p1, p2, p3, p4⟩ := piece_cases (u := u) hu (off := off) hsz
      have hdm := Nat.div_add_mod off u
      have hcomm : off / u * u = u * (off / u) := Nat.mul_comm _ _
      simp only []
      rw [streamLoop_step h ht short hu hu' dev fuel hid hsz hoff hidx]
      cases hp : startPos f short id with
      | none => simp
      | some pos =>
        simp only []
        have hhead : ∃ k s p, nth table.ids id k = some s ∧ startPos f short s = some p ∧
            0 < pieceLen u off size ∧ (off / u + k) * u ≤ off + size ∧ p ≤ pos + off % u ∧
            pos + off % u + pieceLen u off size ≤ p + u ∧
            off ≤ (off / u + k) * u + (pos + off % u - p) ∧
            (off / u + k) * u + (pos + off % u - p) + pieceLen u off size ≤ off + size := by
          refine ⟨0, id, pos, rfl, hp, p1, ?_, by omega, by omega, ?_, ?_⟩ <;>
            simp only [Nat.add_zero] <;> omega
        by_cases he : id = EOC
        · rw [if_pos he]; simp
        · rw [if_neg he]
          cases hg : dev.get (pos + off % u) (pieceLen u off size) with
          | none =>
            simp only [List.map_cons, List.map_nil, List.sum_cons, List.sum_nil,
              List.length_singleton, List.mem_singleton, forall_eq]
            exact ⟨by simp, by omega, by omega, hhead⟩
          | some d =>
            cases hn : table.ids[id]? with
            | none =>
              simp only [List.map_cons, List.map_nil, List.sum_cons, List.sum_nil,
                List.length_singleton, List.mem_singleton, forall_eq]
              exact ⟨by simp, by omega, by omega, hhead⟩
            | some nxt =>
              simp only []
              rcases p4 with hl | ⟨hl, hlu, hdiv, hmod⟩
              · rw [hl, Nat.sub_self]
                rw [streamLoop_zero]
                simp only [Out.of_res, Out.of_reads, List.map_cons, List.map_nil, List.sum_cons,
                  List.sum_nil, List.length_singleton, List.mem_singleton, forall_eq]
                rw [hl] at hhead
                exact ⟨Or.inr ⟨_, rfl⟩, by omega, by omega, hhead⟩
              · have hih := ih nxt (off + pieceLen u off size) (size - pieceLen u off size)
                  (ht.lt nxt (List.mem_of_getElem? hn)) (by omega) (by omega) (by omega)
                rw [hdiv] at hih
                simp only [] at hih
                obtain ⟨i1, i2, i3, i4⟩ := hih
                refine ⟨?_, ?_, ?_, ?_⟩
                · rcases i1 with i1 | ⟨⟨rest, o⟩, i1⟩
                  · rw [i1]; exact Or.inl rfl
                  · rw [i1]; exact Or.inr ⟨_, rfl⟩
                · simp only [List.map_cons, List.sum_cons]; omega
                · simp only [List.length_cons]; omega
                · intro r hr
                  rcases List.mem_cons.1 hr with rfl | hr
                  · exact hhead
                  · obtain ⟨k, s, p, j1, j2, j3, j4, j5, j6, j7, j8⟩ := i4 r hr
                    have hk : off / u + 1 + k = off / u + (k + 1) := by omega
                    rw [hk] at j4 j7 j8
                    refine ⟨k + 1, s, p, by rw [nth_succ' hn]; exact j1, j2, j3, ?_, j5, j6, ?_, ?_⟩
                    · omega
                    · omega
                    · omega

/-- Byte `j` after `off` can be read and is `b`: the chain from `id` (which is the sector of
  `off`) has the sector and a link after it. -/
def ByteOk (content : Bytes) (f : FileCtx) (table : List Nat) (short : Bool) (u id off j : Nat)
    (b : UInt8) : Prop :=
  ∃ s p, nth table id ((off + j) / u - off / u) = some s ∧
    (nth table id ((off + j) / u - off / u + 1)).isSome ∧ startPos f short s = some p ∧
    content[p + (off + j) % u]? = some b

omit h ht hu hu' in
theorem get_ofBytes_iff (content : Bytes) (o n : Nat) (d : Bytes) (hn : 0 < n) :
    (Dev.ofBytes content).get o n = some d ↔
      d.length = n ∧ ∀ j, j < n → content[o + j]? = d[j]? := by
  rw [Dev.get_ofBytes _ _ _ hn]
  unfold slice
  constructor
  · intro h
    split at h
    · next hl =>
      cases h
      refine ⟨by simp; omega, ?_⟩
      intro j hj
      rw [List.getElem?_take, if_pos hj, List.getElem?_drop]
    · cases h
  · rintro ⟨h1, h2⟩
    have hl : o + n ≤ content.length := by
      have := h2 (n - 1) (by omega)
      rw [List.getElem?_eq_getElem (show n - 1 < d.length by omega)] at this
      have := (List.getElem?_eq_some_iff.1 this).1
      omega
    rw [if_pos hl]
    congr 1
    refine List.ext_getElem? ?_
    intro j
    rw [List.getElem?_take, List.getElem?_drop]
    by_cases hj : j < n
    · rw [if_pos hj, h2 j hj]
    · rw [if_neg hj, List.getElem?_eq_none_iff.2 (by omega)]

theorem streamLoop_iff (content : Bytes) : ∀ (fuel id off size : Nat) (data : Bytes) (off' : Nat),
    id < 2 ^ 32 → size ≤ fuel → off + size < 2 ^ 62 → off + size ≤ u * INT_MAX →
    ((streamLoop f.io (Dev.ofBytes content) f.sat table short u fuel (off / u) id off size).res =
        .ok (data, off') ↔
      off' = off + size ∧ data.length = size ∧
        ∀ j b, data[j]? = some b → ByteOk content f table.ids short u id off j b) := by
  intro fuel
  induction fuel with
  | zero =>
    intro id off size data off' hid hf _ _
    have : size = 0 := by omega
    subst this
    rw [streamLoop_zero]
    simp only [Out.of_res, Res.ok.injEq, Prod.mk.injEq, Nat.add_zero]
    constructor
    · rintro ⟨rfl, rfl⟩; simp
    · rintro ⟨rfl, h2, _⟩; exact ⟨(List.length_eq_zero_iff.1 h2).symm, rfl⟩
  | succ fuel ih =>
    intro id off size data off' hid hf hoff hidx
    by_cases hz : size = 0
    · subst hz
      rw [streamLoop_zero]
      simp only [Out.of_res, Res.ok.injEq, Prod.mk.injEq, Nat.add_zero]
      constructor
      · rintro ⟨rfl, rfl⟩; simp
      · rintro ⟨rfl, h2, _⟩; exact ⟨(List.length_eq_zero_iff.1 h2).symm, rfl⟩
    · have hsz : 0 < size := by omega
      obtain ⟨p1, p2, p3, p4⟩ := piece_cases (u := u) hu (off := off) hsz
      have hdm := Nat.div_add_mod off u
      have hml := Nat.mod_lt off hu
      -- bytes of the first piece
      have hfirst : ∀ j, j < pieceLen u off size → (off + j) / u = off / u ∧
          (off + j) % u = off % u + j := by
        intro j hj
        have h1 : off + j = u * (off / u) + (off % u + j) := by omega
        constructor
        · rw [h1, Nat.mul_add_div hu, Nat.div_eq_of_lt (show off % u + j < u by omega), Nat.add_zero]
        · rw [h1, Nat.mul_add_mod, Nat.mod_eq_of_lt (show off % u + j < u by omega)]
      rw [streamLoop_step h ht short hu hu' _ fuel hid hsz hoff hidx]
      constructor
      · intro hr
        cases hp : startPos f short id with
        | none => rw [hp] at hr; cases hr
        | some pos =>
          rw [hp] at hr
          simp only [] at hr
          by_cases he : id = EOC
          · rw [if_pos he] at hr; cases hr
          · rw [if_neg he] at hr
            cases hg : (Dev.ofBytes content).get (pos + off % u) (pieceLen u off size) with
            | none => rw [hg] at hr; cases hr
            | some d =>
              rw [hg] at hr
              cases hn : table.ids[id]? with
              | none => rw [hn] at hr; cases hr
              | some nxt =>
                rw [hn] at hr
                simp only [] at hr
                obtain ⟨g1, g2⟩ := (get_ofBytes_iff content _ _ d p1).1 hg
                have hbyte : ∀ j b, j < pieceLen u off size → d[j]? = some b →
                    ByteOk content f table.ids short u id off j b := by
                  intro j b hj hb
                  obtain ⟨e1, e2⟩ := hfirst j hj
                  refine ⟨id, pos, by rw [e1, Nat.sub_self]; rfl, ?_, hp, ?_⟩
                  · rw [e1, Nat.sub_self, Nat.zero_add, nth_succ' hn]; rfl
                  · rw [e2, ← Nat.add_assoc, g2 j hj, hb]
                rcases p4 with hl | ⟨hl, hlu, hdiv, hmod⟩
                · rw [hl, Nat.sub_self] at hr
                  rw [streamLoop_zero] at hr
                  simp only [Out.of_res, Res.ok.injEq, Prod.mk.injEq, List.append_nil] at hr
                  obtain ⟨rfl, rfl⟩ := hr
                  refine ⟨rfl, by omega, ?_⟩
                  intro j b hb
                  have := (List.getElem?_eq_some_iff.1 hb).1
                  exact hbyte j b (by omega) hb
                · cases hrest : (streamLoop f.io (Dev.ofBytes content) f.sat table short u fuel
                      (off / u + 1) nxt (off + pieceLen u off size)
                      (size - pieceLen u off size)).res with
                  | ok r =>
                    obtain ⟨rest, o⟩ := r
                    rw [hrest] at hr
                    simp only [Res.ok.injEq, Prod.mk.injEq] at hr
                    obtain ⟨rfl, rfl⟩ := hr
                    have hih := ih nxt (off + pieceLen u off size) (size - pieceLen u off size)
                      rest o (ht.lt nxt (List.mem_of_getElem? hn)) (by omega) (by omega) (by omega)
                    rw [hdiv] at hih
                    obtain ⟨i1, i2, i3⟩ := hih.1 hrest
                    refine ⟨by omega, by simp; omega, ?_⟩
                    intro j b hb
                    by_cases hj : j < pieceLen u off size
                    · rw [List.getElem?_append_left (by omega)] at hb
                      exact hbyte j b hj hb
                    · rw [List.getElem?_append_right (by omega)] at hb
                      obtain ⟨s, p, k1, k2, k3, k4⟩ := i3 _ _ hb
                      have hj' : off + pieceLen u off size + (j - d.length) = off + j := by omega
                      rw [hj'] at k1 k2 k4
                      rw [hdiv] at k1 k2
                      have hge : off / u + 1 ≤ (off + j) / u := by
                        rw [← hdiv]; exact Nat.div_le_div_right (by omega)
                      have hk : (off + j) / u - off / u = (off + j) / u - (off / u + 1) + 1 := by
                        omega
                      refine ⟨s, p, ?_, ?_, k3, k4⟩
                      · rw [hk, nth_succ' hn]; exact k1
                      · rw [hk, nth_succ' hn]; exact k2
                  | err => rw [hrest] at hr; cases hr
                  | ub => rw [hrest] at hr; cases hr
                  | hang => rw [hrest] at hr; cases hr
      · rintro ⟨rfl, hdl, hbytes⟩
        have h0 : ∃ b, data[0]? = some b := ⟨data[0], List.getElem?_eq_getElem (by omega)⟩
        obtain ⟨b0, hb0⟩ := h0
        obtain ⟨s0, pos, k1, k2, hp, _⟩ := hbytes 0 b0 hb0
        simp only [Nat.add_zero, Nat.sub_self, nth, Option.some.injEq] at k1
        subst k1
        simp only [Nat.add_zero, Nat.sub_self, Nat.zero_add] at k2
        cases hn : table.ids[id]? with
        | none => rw [nth_succ, hn] at k2; cases k2
        | some nxt =>
          have he : id ≠ EOC := by
            rintro rfl
            rw [EOC_none ht] at hn; cases hn
          rw [hp]
          simp only []
          rw [if_neg he]
          have hg : (Dev.ofBytes content).get (pos + off % u) (pieceLen u off size) =
              some (data.take (pieceLen u off size)) := by
            rw [get_ofBytes_iff _ _ _ _ p1]
            refine ⟨by simp; omega, ?_⟩
            intro j hj
            obtain ⟨e1, e2⟩ := hfirst j hj
            have hb : data[j]? = some data[j] := List.getElem?_eq_getElem (by omega)
            obtain ⟨s, p, m1, m2, m3, m4⟩ := hbytes j _ hb
            rw [e1, Nat.sub_self] at m1
            cases m1
            rw [hp] at m3
            cases m3
            rw [e2, ← Nat.add_assoc] at m4
            rw [m4, List.getElem?_take, if_pos hj, hb]
          rw [hg]
          simp only []
          rcases p4 with hl | ⟨hl, hlu, hdiv, hmod⟩
          · rw [hl, Nat.sub_self]
            rw [streamLoop_zero]
            simp only [Out.of_res, Res.ok.injEq, Prod.mk.injEq, List.append_nil, and_true]
            rw [List.take_of_length_le (by omega)]
          · have hih := ih nxt (off + pieceLen u off size) (size - pieceLen u off size)
              (data.drop (pieceLen u off size)) (off + size)
              (ht.lt nxt (List.mem_of_getElem? hn)) (by omega) (by omega) (by omega)
            rw [hdiv] at hih
            rw [hih.2 ⟨by omega, by simp; omega, ?_⟩]
            · simp only [List.take_append_drop]
            · intro j b hb
              rw [List.getElem?_drop] at hb
              obtain ⟨s, p, m1, m2, m3, m4⟩ := hbytes _ _ hb
              have hge : off / u + 1 ≤ (off + (pieceLen u off size + j)) / u := by
                rw [← hdiv]; exact Nat.div_le_div_right (by omega)
              have hk : (off + (pieceLen u off size + j)) / u - off / u =
                  (off + (pieceLen u off size + j)) / u - (off / u + 1) + 1 := by omega
              rw [hk, nth_succ' hn] at m1 m2
              rw [← Nat.add_assoc] at m1 m2 m4
              unfold ByteOk
              rw [hdiv]
              exact ⟨s, p, m1, m2, m3, m4⟩

end

/-! ### The stream of a directory entry -/

theorem short_eq (f : FileCtx) (d : DirEntry) : f.short d = decide (Small f d) := rfl

theorem unit_eq (f : FileCtx) (d : DirEntry) : f.unit d = unitOf f d := by
  unfold FileCtx.unit unitOf
  rw [short_eq]
  by_cases h : Small f d
  · rw [if_pos h, decide_eq_true h, if_pos rfl]
  · rw [if_neg h, decide_eq_false h]; rfl

theorem table_eq (f : FileCtx) (d : DirEntry) : (f.table d).ids = tableOf f d := by
  unfold FileCtx.table tableOf
  rw [short_eq]
  by_cases h : Small f d
  · rw [if_pos h, decide_eq_true h, if_pos rfl]
  · rw [if_neg h, decide_eq_false h]; rfl

theorem unit_bounds {f : FileCtx} (h : WellFormedCtx f) (d : DirEntry) :
    0 < f.unit d ∧ f.unit d ≤ 32768 := by
  unfold FileCtx.unit
  split
  · exact h.short
  · exact h.ss

/-- Byte `i` of the stream is reached by the reader and is `b`. -/
def RawByte (content : Bytes) (f : FileCtx) (d : DirEntry) (i : Nat) (b : UInt8) : Prop :=
  ∃ s p, nth (tableOf f d) d.start (i / unitOf f d) = some s ∧
    (nth (tableOf f d) d.start (i / unitOf f d + 1)).isSome ∧
    startPos f (f.short d) s = some p ∧ content[p + i % unitOf f d]? = some b

theorem readStream_eq {f : FileCtx} (h : WellFormedCtx f) (d : DirEntry) {off size : Nat}
    (hoff : off < 2 ^ 32) (hsz : size ≤ SSIZE_MAX) :
    readStream f d off size =
      if off / unitOf f d < (tableOf f d).length then
        match nth (tableOf f d) d.start (off / unitOf f d) with
        | some id => streamLoop f.io f.dev f.sat (f.table d) (f.short d) (unitOf f d) size
            (off / unitOf f d) id off size
        | none => .of .err
      else .of .err := by
  have hu := (unit_bounds h d).1
  have hT := wf_table h d
  have hlen : (f.table d).n = (tableOf f d).length := by
    rw [← table_eq]
  have hdl : off / unitOf f d < 2 ^ 32 := Nat.lt_of_le_of_lt (Nat.div_le_self _ _) hoff
  unfold readStream
  rw [if_neg (by omega), if_neg (by omega), if_neg (by omega)]
  simp only [Int.toNat_natCast, unit_eq]
  have hsz25 := hT.size
  by_cases hc : off / unitOf f d < (tableOf f d).length
  · have hi : toInt32 (off / unitOf f d) = ((off / unitOf f d : Nat) : Int) := by
      unfold toInt32
      rw [Nat.mod_eq_of_lt hdl, if_pos (by omega)]
    have hi2 : ¬ (((off / unitOf f d : Nat) : Int) < 0 ∨
        ((off / unitOf f d : Nat) : Int) ≥ (f.table d).n) := by
      rw [hlen]
      generalize off / unitOf f d = k at hc
      omega
    rw [if_pos hc, hi, if_neg hi2, chainPos_eq hT, table_eq]
    simp only [Int.toNat_natCast]
    cases nth (tableOf f d) d.start (off / unitOf f d) with
    | none => rfl
    | some id => rfl
  · have hi : toInt32 (off / unitOf f d) < 0 ∨
        toInt32 (off / unitOf f d) ≥ ((f.table d).n : Int) := by
      unfold toInt32
      rw [Nat.mod_eq_of_lt hdl]
      split <;> omega
    rw [if_neg hc, if_pos hi]

theorem readStream_iff {f : FileCtx} (h : WellFormedCtx f) {d : DirEntry} (he : EntryFits d)
    {content : Bytes} (hdev : f.dev = Dev.ofBytes content) {off size : Nat}
    (hoff : off < 2 ^ 32) (hsz : off + size < 2 ^ 62) (hidx : off + size ≤ unitOf f d * INT_MAX)
    (data : Bytes) (o : Nat) :
    (readStream f d off size).res = .ok (data, o) ↔
      off / unitOf f d < (tableOf f d).length ∧
      (nth (tableOf f d) d.start (off / unitOf f d)).isSome ∧ o = off + size ∧
      data.length = size ∧ ∀ j b, data[j]? = some b → RawByte content f d (off + j) b := by
  have hu := unit_bounds h d
  rw [unit_eq] at hu
  have hT := wf_table h d
  rw [readStream_eq h d hoff (by unfold SSIZE_MAX; omega)]
  by_cases hc : off / unitOf f d < (tableOf f d).length
  · rw [if_pos hc]
    cases hn : nth (tableOf f d) d.start (off / unitOf f d) with
    | none => simp [Out.of]
    | some id =>
      have hid : id < 2 ^ 32 := by
        rw [← table_eq] at hn
        exact nth_lt hT.lt _ _ he.start hn
      simp only [Option.isSome_some, true_and, hc]
      rw [hdev, streamLoop_iff h hT (f.short d) hu.1 hu.2 content size id off size data o hid
        (Nat.le_refl _) hsz hidx]
      have key : ∀ j b, ByteOk content f (f.table d).ids (f.short d) (unitOf f d) id off j b ↔
          RawByte content f d (off + j) b := by
        intro j b
        unfold ByteOk RawByte
        have hge : off / unitOf f d ≤ (off + j) / unitOf f d := Nat.div_le_div_right (by omega)
        have e1 : ∀ k, nth (f.table d).ids id k =
            nth (tableOf f d) d.start (off / unitOf f d + k) := by
          intro k
          rw [nth_add, hn, table_eq]
          rfl
        rw [e1, e1, ← Nat.add_assoc, Nat.add_sub_cancel' hge]
      simp only [key]
  · rw [if_neg hc]
    simp [Out.of, hc]

theorem startPos_bytePos {f : FileCtx} (h : WellFormedCtx f) {d : DirEntry}
    (hdvd : Small f d → f.io.shortSectorSize ∣ f.io.sectorSize) {i s p : Nat}
    (hs : nth (tableOf f d) d.start (i / unitOf f d) = some s) :
    startPos f (f.short d) s = some p ↔ bytePos f d i = some (p + i % unitOf f d) := by
  unfold bytePos startPos
  rw [hs, short_eq]
  by_cases hsm : Small f d
  · rw [decide_eq_true hsm, if_pos rfl]
    simp only [if_pos hsm]
    have hue : unitOf f d = f.io.shortSectorSize := if_pos hsm
    rw [hue]
    unfold containerPos
    obtain ⟨q, hq⟩ := hdvd hsm
    have hr := Nat.mod_lt i h.short.1
    have hsp := h.short.1
    have hss := h.ss.1
    rw [hq] at hss ⊢
    have hq0 : 0 < q := by
      rcases Nat.eq_zero_or_pos q with hz | hz
      · subst hz; simp at hss
      · exact hz
    have e1 : (s * f.io.shortSectorSize + i % f.io.shortSectorSize) / (f.io.shortSectorSize * q) =
        s * f.io.shortSectorSize / (f.io.shortSectorSize * q) := by
      rw [← Nat.div_div_eq_div_mul, ← Nat.div_div_eq_div_mul, Nat.mul_comm s,
        Nat.mul_add_div hsp, Nat.div_eq_of_lt hr, Nat.mul_div_cancel_left _ hsp, Nat.add_zero]
    have e2 : (s * f.io.shortSectorSize + i % f.io.shortSectorSize) % (f.io.shortSectorSize * q) =
        s * f.io.shortSectorSize % (f.io.shortSectorSize * q) + i % f.io.shortSectorSize := by
      have a1 := Nat.div_add_mod (s * f.io.shortSectorSize + i % f.io.shortSectorSize)
        (f.io.shortSectorSize * q)
      have a2 := Nat.div_add_mod (s * f.io.shortSectorSize) (f.io.shortSectorSize * q)
      rw [e1] at a1
      omega
    rw [e1, e2]
    cases nth f.sat.ids f.io.shortStreamStart
        (s * f.io.shortSectorSize / (f.io.shortSectorSize * q)) with
    | none => simp
    | some c =>
      simp only [Option.some.injEq]
      omega
  · rw [decide_eq_false hsm]
    simp only [if_neg hsm, Bool.false_eq_true, if_false, Option.some.injEq]
    have hue : unitOf f d = f.io.sectorSize := if_neg hsm
    rw [hue]
    omega

theorem bytePos_ge {f : FileCtx} {d : DirEntry} {i s q : Nat}
    (h : WellFormedCtx f) (hdvd : Small f d → f.io.shortSectorSize ∣ f.io.sectorSize)
    (hs : nth (tableOf f d) d.start (i / unitOf f d) = some s) (hq : bytePos f d i = some q) :
    ∃ p, startPos f (f.short d) s = some p := by
  cases hp : startPos f (f.short d) s with
  | some p => exact ⟨p, rfl⟩
  | none =>
    exfalso
    unfold bytePos at hq
    unfold startPos at hp
    rw [hs] at hq
    rw [short_eq] at hp
    by_cases hsm : Small f d
    · rw [decide_eq_true hsm, if_pos rfl] at hp
      simp only [if_pos hsm] at hq
      unfold containerPos at hq
      obtain ⟨w, hw⟩ := hdvd hsm
      have hr := Nat.mod_lt i h.short.1
      have hsp := h.short.1
      have e1 : (s * f.io.shortSectorSize + i % f.io.shortSectorSize) / (f.io.shortSectorSize * w) =
          s * f.io.shortSectorSize / (f.io.shortSectorSize * w) := by
        rw [← Nat.div_div_eq_div_mul, ← Nat.div_div_eq_div_mul, Nat.mul_comm s,
          Nat.mul_add_div hsp, Nat.div_eq_of_lt hr, Nat.mul_div_cancel_left _ hsp, Nat.add_zero]
      rw [hw] at hp hq
      rw [e1] at hq
      cases hn : nth f.sat.ids f.io.shortStreamStart
          (s * f.io.shortSectorSize / (f.io.shortSectorSize * w)) with
      | none => rw [hn] at hq; cases hq
      | some c => rw [hn] at hp; cases hp
    · rw [decide_eq_false hsm] at hp
      simp at hp

theorem rawByte_iff {f : FileCtx} (h : WellFormedCtx f) {d : DirEntry}
    (hdvd : Small f d → f.io.shortSectorSize ∣ f.io.sectorSize) {content : Bytes} {i : Nat}
    {b : UInt8} :
    RawByte content f d i b ↔ streamByte content f d i = some b ∧
      (nth (tableOf f d) d.start (i / unitOf f d + 1)).isSome := by
  constructor
  · rintro ⟨s, p, h1, h2, h3, h4⟩
    refine ⟨?_, h2⟩
    unfold streamByte
    rw [(startPos_bytePos h hdvd h1).1 h3]
    exact h4
  · rintro ⟨h1, h2⟩
    unfold streamByte at h1
    cases hq : bytePos f d i with
    | none => rw [hq] at h1; cases h1
    | some q =>
      rw [hq] at h1
      cases hs : nth (tableOf f d) d.start (i / unitOf f d) with
      | none => unfold bytePos at hq; rw [hs] at hq; cases hq
      | some s =>
        obtain ⟨p, hp⟩ := bytePos_ge h hdvd hs hq
        have := (startPos_bytePos h hdvd hs).1 hp
        rw [hq] at this
        cases this
        exact ⟨s, p, hs, h2, hp, h1⟩

/-! ### Reading -/

/-- The number of bytes a read of `size` bytes at `cur` transfers. -/
def clamp (d : DirEntry) (cur size : Nat) : Nat := min size (d.size - cur)

theorem streamRead_eq {f : FileCtx} {d : DirEntry} (hty : d.type = typeStream) {cur size : Nat}
    (hsz : size ≤ SSIZE_MAX) :
    streamRead f d cur size =
      if d.size ≤ cur then (.of (.ok []), (cur : Int))
      else
        let out := readStream f d cur (clamp d cur size)
        match out.res with
        | .ok (data, off) =>
          if data.length ≠ clamp d cur size then (⟨out.reads, .err⟩, off)
          else (⟨out.reads, .ok data⟩, off)
        | .err => (⟨out.reads, .err⟩, cur)
        | .ub => (⟨out.reads, .ub⟩, cur)
        | .hang => (⟨out.reads, .hang⟩, cur) := by
  unfold streamRead
  rw [if_neg (by simp [hty]), if_neg (by omega), if_neg (by omega)]
  by_cases hc : d.size ≤ cur
  · rw [if_pos hc, if_pos (by omega)]
  · rw [if_neg hc, if_neg (by omega)]
    have : (if size > d.size ∨ (cur : Int).toNat > d.size - size then d.size - (cur : Int).toNat
        else size) = clamp d cur size := by
      unfold clamp
      simp only [Int.toNat_natCast]
      split <;> omega
    rw [this]
    rfl

theorem clamp_le (d : DirEntry) (cur size : Nat) :
    clamp d cur size ≤ size ∧ clamp d cur size ≤ d.size - cur := by
  unfold clamp; omega

theorem streamRead_iff {f : FileCtx} (h : WellFormedCtx f) {d : DirEntry} (hd : StreamOk f d)
    {content : Bytes} (hdev : f.dev = Dev.ofBytes content) {cur size : Nat}
    (hcur : cur < d.size) (hsz : size ≤ SSIZE_MAX) (data : Bytes) :
    (streamRead f d cur size).1.res = .ok data ↔
      cur / unitOf f d < (tableOf f d).length ∧
      (nth (tableOf f d) d.start (cur / unitOf f d)).isSome ∧
      data.length = clamp d cur size ∧
      ∀ j b, data[j]? = some b → RawByte content f d (cur + j) b := by
  have hcl := clamp_le d cur size
  have hfit := hd.fits.size
  have hsec : d.size ≤ unitOf f d * INT_MAX := hd.sectors
  have key := fun data o => readStream_iff h hd.fits hdev (off := cur) (size := clamp d cur size)
    (by omega) (by omega) (by omega) data o
  rw [streamRead_eq hd.isStream hsz, if_neg (by omega)]
  simp only []
  constructor
  · intro hr
    cases hres : (readStream f d cur (clamp d cur size)).res with
    | ok r =>
      obtain ⟨data', o⟩ := r
      rw [hres] at hr
      obtain ⟨k1, k2, k3, k4, k5⟩ := (key data' o).1 hres
      simp only [] at hr
      rw [if_neg (by omega)] at hr
      simp only [Res.ok.injEq] at hr
      subst hr
      exact ⟨k1, k2, k4, k5⟩
    | err => rw [hres] at hr; cases hr
    | ub => rw [hres] at hr; cases hr
    | hang => rw [hres] at hr; cases hr
  · rintro ⟨k1, k2, k4, k5⟩
    rw [(key data _).2 ⟨k1, k2, rfl, k4, k5⟩]
    simp only []
    rw [if_neg (by omega)]

theorem streamLoop_length {f : FileCtx} (h : WellFormedCtx f) {table : AllocTable}
    (ht : table.WF) (short : Bool) {u : Nat} (hu : 0 < u) (hu' : u ≤ 32768) (dev : Dev) :
    ∀ (fuel id off size : Nat) (data : Bytes) (o : Nat), id < 2 ^ 32 → size ≤ fuel →
    off + size < 2 ^ 62 → off + size ≤ u * INT_MAX →
    (streamLoop f.io dev f.sat table short u fuel (off / u) id off size).res = .ok (data, o) →
    data.length = size ∧ o = off + size := by
  intro fuel
  induction fuel with
  | zero =>
    intro id off size data o hid hf _ _ hr
    have : size = 0 := by omega
    subst this
    rw [streamLoop_zero] at hr
    cases hr
    simp
  | succ fuel ih =>
    intro id off size data o hid hf hoff hidx hr
    by_cases hz : size = 0
    · subst hz
      rw [streamLoop_zero] at hr
      cases hr
      simp
    · have hsz : 0 < size := by omega
      obtain ⟨p1, p2, p3, p4⟩ := piece_cases (u := u) hu (off := off) hsz
      rw [streamLoop_step h ht short hu hu' _ fuel hid hsz hoff hidx] at hr
      cases hp : startPos f short id with
      | none => rw [hp] at hr; cases hr
      | some pos =>
        rw [hp] at hr
        simp only [] at hr
        by_cases he : id = EOC
        · rw [if_pos he] at hr; cases hr
        · rw [if_neg he] at hr
          cases hg : dev.get (pos + off % u) (pieceLen u off size) with
          | none => rw [hg] at hr; cases hr
          | some dd =>
            rw [hg] at hr
            cases hn : table.ids[id]? with
            | none => rw [hn] at hr; cases hr
            | some nxt =>
              rw [hn] at hr
              simp only [] at hr
              have hdl := Dev.get_length hg
              rcases p4 with hl | ⟨hl, hlu, hdiv, hmod⟩
              · rw [hl, Nat.sub_self, streamLoop_zero] at hr
                simp only [Out.of_res, Res.ok.injEq, Prod.mk.injEq, List.append_nil] at hr
                obtain ⟨rfl, rfl⟩ := hr
                exact ⟨by omega, rfl⟩
              · cases hrest : (streamLoop f.io dev f.sat table short u fuel (off / u + 1) nxt
                    (off + pieceLen u off size) (size - pieceLen u off size)).res with
                | ok r =>
                  obtain ⟨rest, o'⟩ := r
                  rw [hrest] at hr
                  simp only [Res.ok.injEq, Prod.mk.injEq] at hr
                  obtain ⟨rfl, rfl⟩ := hr
                  have := ih nxt (off + pieceLen u off size) (size - pieceLen u off size) rest o'
                    (ht.lt nxt (List.mem_of_getElem? hn)) (by omega) (by omega) (by omega)
                    (by rw [hdiv]; exact hrest)
                  simp only [List.length_append]
                  omega
                | err => rw [hrest] at hr; cases hr
                | ub => rw [hrest] at hr; cases hr
                | hang => rw [hrest] at hr; cases hr

/-- The outcome and the device reads of a read, for every device. -/
theorem readStream_safe {f : FileCtx} (h : WellFormedCtx f) {d : DirEntry} (he : EntryFits d)
    {off size : Nat} (hoff : off < 2 ^ 32) (hsz : off + size < 2 ^ 62)
    (hidx : off + size ≤ unitOf f d * INT_MAX) :
    ((readStream f d off size).res = .err ∨
      ∃ data, (readStream f d off size).res = .ok (data, off + size) ∧ data.length = size) ∧
    ((readStream f d off size).reads.map (·.2)).sum ≤ size ∧
    (readStream f d off size).reads.length ≤ size ∧
    ∀ r ∈ (readStream f d off size).reads, 0 < r.2 ∧ ∃ i s p, off ≤ i ∧ i + r.2 ≤ off + size ∧
      i % unitOf f d + r.2 ≤ unitOf f d ∧
      nth (tableOf f d) d.start (i / unitOf f d) = some s ∧
      startPos f (f.short d) s = some p ∧ r.1 = p + i % unitOf f d := by
  have hu := unit_bounds h d
  rw [unit_eq] at hu
  have hT := wf_table h d
  rw [readStream_eq h d hoff (by unfold SSIZE_MAX; omega)]
  by_cases hc : off / unitOf f d < (tableOf f d).length
  · rw [if_pos hc]
    cases hn : nth (tableOf f d) d.start (off / unitOf f d) with
    | none => simp
    | some id =>
      have hid : id < 2 ^ 32 := by
        rw [← table_eq] at hn
        exact nth_lt hT.lt _ _ he.start hn
      simp only []
      obtain ⟨s1, s2, s3, s4⟩ := streamLoop_safe h hT (f.short d) hu.1 hu.2 f.dev size id off size hid
        (Nat.le_refl _) hsz hidx
      refine ⟨?_, s2, s3, ?_⟩
      · rcases s1 with s1 | ⟨⟨data, o⟩, s1⟩
        · exact Or.inl s1
        · obtain ⟨l1, l2⟩ := streamLoop_length h hT (f.short d) hu.1 hu.2 f.dev size id off size
            data o hid (Nat.le_refl _) hsz hidx s1
          subst l2
          exact Or.inr ⟨data, s1, l1⟩
      · intro r hr
        obtain ⟨k, s, p, j1, j2, j3, j4, j5, j6, j7, j8⟩ := s4 r hr
        have e1 : nth (tableOf f d) d.start (off / unitOf f d + k) = some s := by
          rw [nth_add, hn, ← table_eq]; exact j1
        have hlt : r.1 - p < unitOf f d := by omega
        have e2 : ((off / unitOf f d + k) * unitOf f d + (r.1 - p)) / unitOf f d =
            off / unitOf f d + k := by
          rw [Nat.mul_comm, Nat.mul_add_div hu.1, Nat.div_eq_of_lt hlt, Nat.add_zero]
        have e3 : ((off / unitOf f d + k) * unitOf f d + (r.1 - p)) % unitOf f d = r.1 - p := by
          rw [Nat.mul_comm, Nat.mul_add_mod, Nat.mod_eq_of_lt hlt]
        refine ⟨j3, (off / unitOf f d + k) * unitOf f d + (r.1 - p), s, p, j7, j8, ?_, ?_, j2, ?_⟩
        · rw [e3]; omega
        · rw [e2]; exact e1
        · rw [e3]; omega
  · rw [if_neg hc]
    simp

end Olecf
