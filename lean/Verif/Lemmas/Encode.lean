import Verif.Spec.Encode
import Verif.Lemmas.Layout
import Verif.Props.Sample
import Mathlib.Data.List.Nodup
import Mathlib.Data.List.Perm.Basic

/-
  Lemmas about the writer of files.
-/

namespace Olecf.Props
open Olecf.Spec

/-! ### Runs of sectors -/

theorem units_mul_le {u : Nat} (hu : 0 < u) (n : Nat) : n ≤ units u n * u := by
  unfold units
  have h1 := Nat.div_add_mod (n + u - 1) u
  have h2 := Nat.mod_lt (n + u - 1) hu
  rw [Nat.mul_comm] at h1
  omega

theorem units_le {u : Nat} (hu : 0 < u) {n m : Nat} (h : n ≤ m * u) : units u n ≤ m := by
  unfold units
  have : (n + u - 1) / u < m + 1 := (Nat.div_lt_iff_lt_mul hu).2 (by rw [Nat.add_mul]; omega)
  omega

theorem units_eq_zero {u : Nat} (hu : 0 < u) {n : Nat} : units u n = 0 ↔ n = 0 := by
  constructor
  · intro h
    have := units_mul_le hu n
    rw [h] at this
    omega
  · rintro rfl
    exact Nat.le_zero.1 (units_le hu (by omega))

theorem padUp_length {α : Type} {u : Nat} (hu : 0 < u) (x : α) (l : List α) :
    (padUp u x l).length = units u l.length * u := by
  have := units_mul_le hu l.length
  unfold padUp
  rw [List.length_append, List.length_replicate]
  omega

theorem chunk_length {α : Type} {u : Nat} (hu : 0 < u) {l : List α} {n : Nat} (h : l.length = n * u) :
    (chunk u l).length = n := by
  unfold chunk
  rw [List.length_map, List.length_range, h, Nat.mul_div_cancel _ hu]

theorem chunk_mem_length {α : Type} {u : Nat} (hu : 0 < u) {l : List α} {n : Nat}
    (h : l.length = n * u) : ∀ c ∈ chunk u l, c.length = u := by
  intro c hc
  unfold chunk at hc
  obtain ⟨i, hi, rfl⟩ := List.mem_map.1 hc
  rw [List.mem_range, h, Nat.mul_div_cancel _ hu] at hi
  have : (i + 1) * u ≤ n * u := Nat.mul_le_mul_right _ hi
  rw [Nat.add_mul, Nat.one_mul, Nat.mul_comm] at this
  rw [List.length_take, List.length_drop]
  omega

theorem chunk_flatten_take {α : Type} (u : Nat) (l : List α) (n : Nat) :
    ((List.range n).map fun i => (l.drop (u * i)).take u).flatten = l.take (u * n) := by
  induction n with
  | zero => simp
  | succ n ih =>
    rw [List.range_succ, List.map_append, List.flatten_append, ih, Nat.mul_succ, List.take_add]
    simp

theorem chunk_flatten {α : Type} {u : Nat} (hu : 0 < u) {l : List α} {n : Nat}
    (h : l.length = n * u) : (chunk u l).flatten = l := by
  unfold chunk
  rw [chunk_flatten_take, h, Nat.mul_div_cancel _ hu, Nat.mul_comm, ← h, List.take_length]

theorem blocks_length {u : Nat} (hu : 0 < u) (d : Bytes) : (blocks u d).length = units u d.length :=
  chunk_length hu (padUp_length hu 0 d)

theorem blocks_mem_length {u : Nat} (hu : 0 < u) (d : Bytes) : ∀ b ∈ blocks u d, b.length = u :=
  chunk_mem_length hu (padUp_length hu 0 d)

theorem blocks_flatten {u : Nat} (hu : 0 < u) (d : Bytes) : d <+: (blocks u d).flatten := by
  unfold blocks
  rw [chunk_flatten hu (padUp_length hu 0 d)]
  exact List.prefix_append _ _

theorem runLinks_length (b n : Nat) : (runLinks b n).length = n := by simp [runLinks]

theorem links_length (ns : List Nat) : ∀ b, (links b ns).length = ns.sum := by
  induction ns with
  | nil => intro b; rfl
  | cons n ns ih => intro b; simp [links, runLinks_length, ih]

theorem links_append (ns ms : List Nat) : ∀ b, links b (ns ++ ms) = links b ns ++ links (b + ns.sum) ms := by
  induction ns with
  | nil => intro b; simp [links]
  | cons n ns ih => intro b; simp [links, ih, Nat.add_assoc]

theorem links_lt (ns : List Nat) : ∀ b, b + ns.sum < 2 ^ 32 → ∀ v ∈ links b ns, v < 2 ^ 32 := by
  induction ns with
  | nil => intro b _ v hv; cases hv
  | cons n ns ih =>
    intro b hb v hv
    rw [List.sum_cons] at hb
    rcases List.mem_append.1 hv with hv | hv
    · unfold runLinks at hv
      obtain ⟨i, hi, rfl⟩ := List.mem_map.1 hv
      rw [List.mem_range] at hi
      split
      · decide
      · omega
    · exact ih _ (by omega) v hv

/-- A run in a table is a chain. -/
theorem run_chain {table A B : List Nat} {n : Nat} (h : table = A ++ runLinks A.length n ++ B) :
    Chain table (startOf A.length n) (List.range' A.length n) endOfChain := by
  have key : ∀ m j, j + m = n → Chain table (if m = 0 then endOfChain else A.length + j)
      (List.range' (A.length + j) m) endOfChain := by
    intro m
    induction m with
    | zero => intro j hj; exact .nil _
    | succ m ih =>
      intro j hj
      rw [if_neg (by omega), List.range'_succ]
      refine .cons ?_ (ih (j + 1) (by omega))
      rw [h, List.append_assoc, List.getElem?_append_right (by omega), Nat.add_sub_cancel_left,
        List.getElem?_append_left (by rw [runLinks_length]; omega)]
      unfold runLinks
      rw [List.getElem?_map, List.getElem?_range (by omega), Option.map_some]
      congr 1
      by_cases hm : m = 0
      · rw [if_pos (by omega), if_pos hm]
      · rw [if_neg (by omega), if_neg hm]; omega
  have := key n 0 (by omega)
  unfold startOf
  simpa using this

/-- The sectors of a run. -/
theorem run_sectors {content : Bytes} {ss : Nat} {secs A s B : List Bytes}
    (hsec : ∀ (i : Nat) (x : Bytes), secs[i]? = some x → sector (Dev.ofBytes content) ss i = some x)
    (h : secs = A ++ s ++ B) : SectorsAre content ss (List.range' A.length s.length) s := by
  unfold SectorsAre
  apply List.ext_getElem
  · simp
  · intro i h1 h2
    rw [List.length_map] at h2
    rw [List.getElem_map, List.getElem_map, List.getElem_range', Nat.one_mul]
    refine hsec _ _ ?_
    rw [h, List.append_assoc, List.getElem?_append_right (by omega), Nat.add_sub_cancel_left,
      List.getElem?_append_left h2, List.getElem?_eq_getElem h2]

/-- A run of a file: its links and its sectors. -/
theorem run_spec {content : Bytes} {ss : Nat} {secs restSecs : List Bytes} {sat restSat : List Nat}
    {rs pre post : List (List Bytes)} {s : List Bytes}
    (hsec : ∀ (i : Nat) (x : Bytes), secs[i]? = some x → sector (Dev.ofBytes content) ss i = some x)
    (h1 : secs = rs.flatten ++ restSecs) (h2 : sat = links 0 (rs.map List.length) ++ restSat)
    (hr : rs = pre ++ s :: post) :
    Chain sat (startOf (pre.map List.length).sum s.length)
      (List.range' (pre.map List.length).sum s.length) endOfChain ∧
    SectorsAre content ss (List.range' (pre.map List.length).sum s.length) s := by
  constructor
  · have hl := links_length (pre.map List.length) 0
    rw [← hl]
    refine run_chain (B := links ((pre.map List.length).sum + s.length) (post.map List.length) ++ restSat) ?_
    rw [hl, h2, hr, List.map_append, links_append, List.map_cons]
    simp [links]
  · have hl : (pre.map List.length).sum = pre.flatten.length := by rw [List.length_flatten]
    rw [hl]
    refine run_sectors hsec (B := post.flatten ++ restSecs) ?_
    rw [h1, hr]
    simp

/-! ### The directory -/

theorem plainSlot_name {m : EntryMarks} {name : Bytes} {type next sub start size : Nat} (i : Nat) :
    ((plainSlot m name type next sub start size).entry i).name = name := by
  simp [SlotFields.entry, plainSlot]

theorem plainSlot_fits {m : EntryMarks} (hm : m.Fits) {name : Bytes} {type next sub start size : Nat}
    (h1 : name.length ≤ 64)
    (h2 : type < 2 ^ 8) (h4 : next < 2 ^ 32) (h5 : sub < 2 ^ 32)
    (h6 : start < 2 ^ 32) (h7 : size < 2 ^ 32) : (plainSlot m name type next sub start size).Fits := by
  have := hm.color
  have := hm.classId
  have := hm.flags
  have := hm.created
  have := hm.modified
  have := hm.reserved
  constructor <;> simp [plainSlot, free] <;> omega

theorem startOf_lt {b n : Nat} (h : b + n < 2 ^ 32) : startOf b n < 2 ^ 32 := by
  unfold startOf endOfChain
  split <;> omega

mutual
theorem slotsOf_length (w : Writer) (doc : Doc) : ∀ l s i next name,
    (slotsOf w l s i next name doc).length = doc.count := by
  intro l s i next name
  match doc with
  | .stream data => simp [slotsOf, Doc.count]
  | .storage kids =>
    rw [slotsOf, Doc.count, List.length_cons, slotsOfKids_length w kids]
    omega

theorem slotsOfKids_length (w : Writer) (kids : List (Bytes × Doc)) : ∀ l s i,
    (slotsOfKids w l s i kids).length = countKids kids := by
  intro l s i
  match kids with
  | [] => simp [slotsOfKids, countKids]
  | (name, d) :: r =>
    rw [slotsOfKids, countKids, List.length_append, slotsOf_length w d, slotsOfKids_length w r]
end

theorem doc_count_pos (doc : Doc) : 0 < doc.count := by
  cases doc <;> simp [Doc.count]; omega

theorem longUnits_append (w : Writer) (a b : List Bytes) :
    w.longUnits (a ++ b) = w.longUnits a + w.longUnits b := by
  simp [Writer.longUnits, Writer.longs, List.filter_append]

theorem shortUnits_append (w : Writer) (a b : List Bytes) :
    w.shortUnits (a ++ b) = w.shortUnits a + w.shortUnits b := by
  simp [Writer.shortUnits, Writer.shorts, List.filter_append]

mutual
theorem slotsOf_fits (w : Writer) (hm : ∀ i, (w.marks.entry i).Fits) (doc : Doc) (hn : ∀ n ∈ doc.names, n.length ≤ 64)
    (hd : ∀ d ∈ doc.streams, d.length < 2 ^ 32) : ∀ l s i next name, name.length ≤ 64 →
    next < 2 ^ 32 → i + doc.count < 2 ^ 32 → l + w.longUnits doc.streams < 2 ^ 32 →
    s + w.shortUnits doc.streams < 2 ^ 32 → ∀ f ∈ slotsOf w l s i next name doc, f.Fits ∧ f.type ≠ 0 := by
  intro l s i next name hname hnext hi hl hs f hf
  match doc with
  | .stream data =>
    rw [slotsOf, List.mem_singleton] at hf
    subst hf
    rw [Doc.streams] at hl hs hd
    refine ⟨plainSlot_fits (hm i) hname (by decide) hnext (by decide) ?_ (hd data (by simp)), by simp [plainSlot]⟩
    split
    · rename_i hlt
      refine startOf_lt ?_
      simpa [Writer.shortUnits, Writer.shorts, hlt] using hs
    · rename_i hlt
      refine startOf_lt ?_
      simpa [Writer.longUnits, Writer.longs, Nat.le_of_not_lt hlt] using hl
  | .storage kids =>
    rw [Doc.count] at hi
    rw [slotsOf, List.mem_cons] at hf
    rcases hf with rfl | hf
    · refine ⟨plainSlot_fits (hm i) hname (by decide) hnext ?_ (by decide) (by decide), by simp [plainSlot]⟩
      split
      · decide
      · omega
    · rw [Doc.names] at hn
      rw [Doc.streams] at hd hl hs
      exact slotsOfKids_fits w hm kids hn hd l s (i + 1) (by omega) hl hs f hf

theorem slotsOfKids_fits (w : Writer) (hm : ∀ i, (w.marks.entry i).Fits) (kids : List (Bytes × Doc))
    (hn : ∀ n ∈ namesOfKids kids, n.length ≤ 64)
    (hd : ∀ d ∈ streamsOfKids kids, d.length < 2 ^ 32) : ∀ l s i, i + countKids kids < 2 ^ 32 →
    l + w.longUnits (streamsOfKids kids) < 2 ^ 32 → s + w.shortUnits (streamsOfKids kids) < 2 ^ 32 →
    ∀ f ∈ slotsOfKids w l s i kids, f.Fits ∧ f.type ≠ 0 := by
  intro l s i hi hl hs f hf
  match kids with
  | [] => rw [slotsOfKids] at hf; cases hf
  | (name, d) :: r =>
    rw [countKids] at hi
    rw [streamsOfKids] at hd hl hs
    rw [namesOfKids] at hn
    rw [longUnits_append] at hl
    rw [shortUnits_append] at hs
    rw [slotsOfKids] at hf
    rcases List.mem_append.1 hf with hf | hf
    · refine slotsOf_fits w hm d (fun n h => hn n (by simp [h])) (fun x h => hd x (by simp [h])) l s i _ name
        (hn name (by simp)) ?_ (by omega) (by omega) (by omega) f hf
      split
      · decide
      · omega
    · exact slotsOfKids_fits w hm r (fun n h => hn n (by simp [h])) (fun x h => hd x (by simp [h])) _ _ _
        (by omega) (by omega) (by omega) f hf
end

mutual
theorem slotsOf_marks (w : Writer) (doc : Doc) : ∀ l s i next name (j : Nat) (x : SlotFields),
    (slotsOf w l s i next name doc)[j]? = some x →
    x.created = (w.marks.entry (i + j)).created ∧ x.modified = (w.marks.entry (i + j)).modified := by
  intro l s i next name j x hx
  match doc with
  | .stream data =>
    rw [slotsOf] at hx
    match j with
    | 0 => cases hx; exact ⟨rfl, rfl⟩
    | j + 1 => cases hx
  | .storage kids =>
    rw [slotsOf] at hx
    match j with
    | 0 => cases hx; exact ⟨rfl, rfl⟩
    | j + 1 =>
      have := slotsOfKids_marks w kids _ _ _ j x hx
      rwa [show i + 1 + j = i + (j + 1) by omega] at this

theorem slotsOfKids_marks (w : Writer) (kids : List (Bytes × Doc)) : ∀ l s i (j : Nat) (x : SlotFields),
    (slotsOfKids w l s i kids)[j]? = some x →
    x.created = (w.marks.entry (i + j)).created ∧ x.modified = (w.marks.entry (i + j)).modified := by
  intro l s i j x hx
  match kids with
  | [] => rw [slotsOfKids] at hx; cases hx
  | (n, d) :: r =>
    rw [slotsOfKids] at hx
    by_cases hj : j < d.count
    · rw [List.getElem?_append_left (by rw [slotsOf_length]; exact hj)] at hx
      exact slotsOf_marks w d _ _ _ _ _ j x hx
    · rw [List.getElem?_append_right (by rw [slotsOf_length]; omega), slotsOf_length] at hx
      have := slotsOfKids_marks w r _ _ _ _ x hx
      rwa [show i + d.count + (j - d.count) = i + j by omega] at this
end

/-- The links in use of a slot. -/
def usedLinks (f : SlotFields) : List Nat := [f.sub, f.prev, f.next].filter (· ≠ free)

theorem usedLinks_plain (m : EntryMarks) (name : Bytes) (type next sub start size : Nat) :
    usedLinks (plainSlot m name type next sub start size) =
      (if sub = free then [] else [sub]) ++ (if next = free then [] else [next]) := by
  unfold usedLinks plainSlot
  by_cases h1 : sub = free <;> by_cases h2 : next = free <;> simp [h1, h2]

mutual
theorem slotsOf_links (w : Writer) (doc : Doc) : ∀ l s i next name, i + doc.count < free →
    ((slotsOf w l s i next name doc).flatMap usedLinks).Perm
      ((if next = free then [] else [next]) ++ List.range' (i + 1) (doc.count - 1)) := by
  intro l s i next name hi
  match doc with
  | .stream data => simp [slotsOf, Doc.count, usedLinks_plain]
  | .storage kids =>
    rw [Doc.count] at hi
    rw [slotsOf, Doc.count, List.flatMap_cons, usedLinks_plain, Nat.add_sub_cancel_left]
    have ih := slotsOfKids_links w kids l s (i + 1) (by omega)
    match kids with
    | [] => simp [slotsOfKids, countKids]
    | (n, d) :: r =>
      have hpos := doc_count_pos d
      have hc : countKids ((n, d) :: r) = countKids ((n, d) :: r) - 1 + 1 := by rw [countKids]; omega
      have hne : ¬ i + 1 = free := by omega
      simp only [List.isEmpty_cons, Bool.false_eq_true, if_false, if_neg hne]
      conv => rhs; rw [hc, List.range'_succ]
      refine (List.Perm.append_left _ ih).trans ?_
      rw [List.append_assoc, List.singleton_append]
      exact List.perm_middle.symm

theorem slotsOfKids_links (w : Writer) (kids : List (Bytes × Doc)) : ∀ l s i,
    i + countKids kids < free →
    ((slotsOfKids w l s i kids).flatMap usedLinks).Perm (List.range' (i + 1) (countKids kids - 1)) := by
  intro l s i hi
  match kids with
  | [] => simp [slotsOfKids, countKids]
  | (n, d) :: r =>
    rw [countKids] at hi
    rw [slotsOfKids, List.flatMap_append]
    have hpos := doc_count_pos d
    have h1 := slotsOf_links w d l s i (if r.isEmpty then free else i + d.count) n (by omega)
    have h2 := slotsOfKids_links w r (l + w.longUnits d.streams) (s + w.shortUnits d.streams)
      (i + d.count) (by omega)
    refine (h1.append h2).trans ?_
    match r with
    | [] => simp [countKids]
    | (m, c) :: r =>
      have hpos' := doc_count_pos c
      have hc : countKids ((m, c) :: r) = countKids ((m, c) :: r) - 1 + 1 := by rw [countKids]; omega
      have hne : ¬ i + d.count = free := by omega
      simp only [List.isEmpty_cons, Bool.false_eq_true, if_false, if_neg hne]
      rw [show countKids ((n, d) :: (m, c) :: r) = d.count + countKids ((m, c) :: r) from rfl]
      have hsplit : d.count + countKids ((m, c) :: r) - 1 =
          (d.count - 1) + (1 + (countKids ((m, c) :: r) - 1)) := by omega
      rw [hsplit, ← List.range'_append_1, ← List.range'_append_1 (s := i + 1 + (d.count - 1)),
        show i + 1 + (d.count - 1) = i + d.count by omega]
      simp only [List.range'_one]
      rw [List.singleton_append, List.singleton_append, List.cons_append]
      exact List.perm_middle.symm
end


/-! ### The entries -/

theorem entriesOfSlots_names (slots : List SlotFields) :
    (entriesOfSlots slots).map (·.name) =
      (slots.filter (fun f => f.type ≠ 0)).map fun f => f.name.take f.nameSize := by
  have key : ∀ (l : List SlotFields) (k : Nat),
      ((l.mapIdx fun i f => if f.type = 0 then none else some (f.entry (i + k))).filterMap id).map (·.name)
        = (l.filter (fun f => f.type ≠ 0)).map fun f => f.name.take f.nameSize := by
    intro l
    induction l with
    | nil => intro k; rfl
    | cons f l ih =>
      intro k
      have h := ih (k + 1)
      simp only [List.mapIdx_cons, Nat.zero_add]
      have he : (fun (i : Nat) (f : SlotFields) => if f.type = 0 then none else some (f.entry (i + 1 + k)))
          = fun i f => if f.type = 0 then none else some (f.entry (i + (k + 1))) := by
        funext i f
        rw [show i + 1 + k = i + (k + 1) by omega]
      rw [he]
      by_cases ht : f.type = 0
      · simpa [ht] using h
      · simp [ht]
        exact ⟨rfl, by simpa using h⟩
  exact key slots 0

mutual
theorem slotsOf_names (w : Writer) (doc : Doc) : ∀ l s i next name,
    (slotsOf w l s i next name doc).map (fun f => f.name.take f.nameSize) = name :: doc.names := by
  intro l s i next name
  match doc with
  | .stream data => simp [slotsOf, Doc.names, plainSlot]
  | .storage kids =>
    rw [slotsOf, Doc.names, List.map_cons, slotsOfKids_names w kids]
    simp [plainSlot]

theorem slotsOfKids_names (w : Writer) (kids : List (Bytes × Doc)) : ∀ l s i,
    (slotsOfKids w l s i kids).map (fun f => f.name.take f.nameSize) = namesOfKids kids := by
  intro l s i
  match kids with
  | [] => simp [slotsOfKids, namesOfKids]
  | (name, d) :: r =>
    rw [slotsOfKids, namesOfKids, List.map_append, slotsOf_names w d, slotsOfKids_names w r]
    rfl
end

/-- Slots whose links in use are the positions from 1 on, each once, have good links. -/
theorem goodLinks_of_perm {slots : List SlotFields} {f0 : SlotFields} {fs pad : List SlotFields}
    (hs : slots = f0 :: fs ++ pad) (h0 : f0.type = 5) (hsub : f0.sub = 1) (hprev : f0.prev = free)
    (hnext : f0.next = free) (hpad : ∀ f ∈ pad, f.type = 0)
    (htype : ∀ f ∈ f0 :: fs, f.type ≠ 0)
    (hperm : ((f0 :: fs).flatMap usedLinks).Perm (List.range' 1 fs.length)) :
    GoodLinks (entriesOfSlots slots) (f0.entry 0) := by
  have hmem : ∀ {d}, d ∈ entriesOfSlots slots ↔
      ∃ (i : Nat) (f : SlotFields), (f0 :: fs)[i]? = some f ∧ d = f.entry i := by
    intro d
    rw [entriesOfSlots_mem]
    constructor
    · rintro ⟨i, f, hf, ht, rfl⟩
      refine ⟨i, f, ?_, rfl⟩
      rw [hs] at hf
      by_cases hi : i < (f0 :: fs).length
      · rwa [List.getElem?_append_left hi] at hf
      · rw [List.getElem?_append_right (by omega)] at hf
        exact absurd (hpad f (List.mem_of_getElem? hf)) ht
    · rintro ⟨i, f, hf, rfl⟩
      refine ⟨i, f, ?_, htype f (List.mem_of_getElem? hf), rfl⟩
      rw [hs, List.getElem?_append_left (List.getElem?_eq_some_iff.1 hf).1, hf]
  have hlink : ∀ (i : Nat) (f : SlotFields) (k : Link), linkId (f.entry i) k ≠ 0xffffffff →
      linkId (f.entry i) k ∈ usedLinks f := by
    intro i f k hk
    unfold usedLinks
    rw [List.mem_filter]
    refine ⟨?_, decide_eq_true hk⟩
    cases k <;> simp [linkId, SlotFields.entry]
  have hrange : ∀ (i : Nat) (f : SlotFields) (k : Link), (f0 :: fs)[i]? = some f →
      linkId (f.entry i) k ≠ 0xffffffff → 1 ≤ linkId (f.entry i) k ∧ linkId (f.entry i) k ≤ fs.length := by
    intro i f k hf hk
    have := hperm.mem_iff.1 (List.mem_flatMap.2 ⟨f, List.mem_of_getElem? hf, hlink i f k hk⟩)
    rw [List.mem_range'_1] at this
    omega
  have hnd : ((f0 :: fs).flatMap usedLinks).Nodup := hperm.nodup_iff.2 (List.nodup_range' ..)
  rw [List.nodup_flatMap] at hnd
  refine ⟨?_, rfl, ?_, hprev, hnext, ?_, ?_, ?_⟩
  · have : entriesOfSlots slots = f0.entry 0 :: (((fs ++ pad).mapIdx fun i f =>
        if f.type = 0 then none else some (f.entry (i + 1))).filterMap id) := by
      rw [hs]
      unfold entriesOfSlots
      rw [List.cons_append, List.mapIdx_cons, if_neg (by rw [h0]; decide)]
      rfl
    rw [this, List.find?_cons_of_pos]
    simp [SlotFields.entry, h0]
  · show f0.sub ≠ _
    rw [hsub]; decide
  · intro d hd k
    obtain ⟨i, f, hf, rfl⟩ := hmem.1 hd
    by_cases hk : linkId (f.entry i) k = 0xffffffff
    · rw [hk]; decide
    · have := hrange i f k hf hk
      omega
  · intro d hd k hk
    obtain ⟨i, f, hf, rfl⟩ := hmem.1 hd
    have := hrange i f k hf hk
    have hlt : linkId (f.entry i) k < (f0 :: fs).length := by simp; omega
    exact ⟨((f0 :: fs)[linkId (f.entry i) k]).entry (linkId (f.entry i) k),
      hmem.2 ⟨_, _, List.getElem?_eq_getElem hlt, rfl⟩, rfl⟩
  · intro a ha b hb k l hkl hk
    obtain ⟨i, f, hf, rfl⟩ := hmem.1 ha
    obtain ⟨j, g, hg, rfl⟩ := hmem.1 hb
    have h1 := hlink i f k hk
    have h2 := hlink j g l (by rw [← hkl]; exact hk)
    obtain ⟨hi, hfi⟩ := List.getElem?_eq_some_iff.1 hf
    obtain ⟨hj, hgj⟩ := List.getElem?_eq_some_iff.1 hg
    have hpw := List.pairwise_iff_getElem.1 hnd.2
    have hij : i = j := by
      rcases Nat.lt_trichotomy i j with h | h | h
      · have hd := hpw i j hi hj h
        rw [Function.onFun, hfi, hgj] at hd
        exact absurd (hkl ▸ h2) (hd h1)
      · exact h
      · have hd := hpw j i hj hi h
        rw [Function.onFun, hfi, hgj] at hd
        exact absurd h1 (hd (hkl ▸ h2))
    subst hij
    rw [hf] at hg
    cases hg
    refine ⟨rfl, ?_⟩
    have hfn := hnd.1 f (List.mem_of_getElem? hf)
    unfold usedLinks at hfn
    have hsp : f.sub = f.prev → f.sub = free := by
      intro h
      by_contra hc
      rw [List.filter_cons_of_pos (by simpa using hc), List.filter_cons_of_pos (by simpa [← h] using hc)] at hfn
      simp [h] at hfn
    have hsn : f.sub = f.next → f.sub = free := by
      intro h
      by_contra hc
      rw [List.filter_cons_of_pos (by simpa using hc)] at hfn
      have := (List.nodup_cons.1 hfn).1
      exact this (List.mem_filter.2 ⟨by simp [h], by simpa using hc⟩)
    have hpn : f.prev = f.next → f.prev = free := by
      intro h
      by_contra hc
      have h3 : ([f.prev, f.next].filter (· ≠ free)).Nodup := by
        refine hfn.sublist (List.Sublist.filter _ (List.sublist_cons_self _ _))
      rw [List.filter_cons_of_pos (by simpa using hc), List.filter_cons_of_pos (by simpa [← h] using hc)] at h3
      simp [h] at h3
    have hk' : linkId (f.entry i) k ≠ free := hk
    cases k <;> cases l <;> simp only [linkId, SlotFields.entry] at hkl hk' <;> first
      | rfl
      | exact absurd (hsp hkl) hk'
      | exact absurd (hsn hkl) hk'
      | exact absurd (hpn hkl) hk'
      | exact absurd (hkl.trans (hsp hkl.symm)) hk'
      | exact absurd (hkl.trans (hsn hkl.symm)) hk'
      | exact absurd (hkl.trans (hpn hkl.symm)) hk'

section holds
variable {content : Bytes} {h : HeaderFields} {sat ssat : List Nat} {container : Bytes}
  {slots : List SlotFields} {w : Writer} {all : List Bytes} {base : Nat}

mutual
theorem slotsOf_holds (hcut : h.minStreamSize = w.cutoff)
    (HL : ∀ pre d post, w.longs all = pre ++ d :: post → LongData content (2 ^ h.sectorExp) sat
      (startOf (base + (pre.map fun x => units w.ss x.length).sum) (units w.ss d.length)) d)
    (HS : ∀ pre d post, w.shorts all = pre ++ d :: post → ShortData container (2 ^ h.shortExp) ssat
      (startOf ((pre.map fun x => units w.short x.length).sum) (units w.short d.length)) d)
    (doc : Doc) : ∀ l s i next name,
    (∀ (j : Nat) (x : SlotFields), (slotsOf w l s i next name doc)[j]? = some x → slots[i + j]? = some x) →
    i + doc.count < free →
    (∃ pre post, w.longs all = pre ++ w.longs doc.streams ++ post ∧
      l = base + (pre.map fun x => units w.ss x.length).sum) →
    (∃ pre post, w.shorts all = pre ++ w.shorts doc.streams ++ post ∧
      s = (pre.map fun x => units w.short x.length).sum) →
    ∃ d ∈ entriesOfSlots slots, d.id = i ∧ d.name = name ∧ d.next = next ∧ d.prev = free ∧
      Holds content h sat ssat container (entriesOfSlots slots) d doc := by
  intro l s i next name hsl hi hl hs
  match doc with
  | .stream data =>
    have hx := hsl 0 _ (by rw [slotsOf]; rfl)
    refine ⟨_, entriesOfSlots_mem.2 ⟨i, _, hx, by simp [plainSlot], rfl⟩, rfl, plainSlot_name i, rfl, rfl, ?_⟩
    rw [Doc.streams] at hl hs
    refine .stream rfl rfl rfl ?_ ?_
    · intro hlt
      have hlt' : data.length < w.cutoff := by rw [← hcut]; exact hlt
      obtain ⟨pre, post, hp, rfl⟩ := hs
      have := HS pre data post (by rw [hp]; simp [Writer.shorts, hlt'])
      simpa [SlotFields.entry, plainSlot, hlt'] using this
    · intro hle
      have hle' : w.cutoff ≤ data.length := by rw [← hcut]; exact hle
      obtain ⟨pre, post, hp, rfl⟩ := hl
      have := HL pre data post (by rw [hp]; simp [Writer.longs, hle'])
      simpa [SlotFields.entry, plainSlot, Nat.not_lt.2 hle'] using this
  | .storage kids =>
    rw [Doc.count] at hi
    have hx := hsl 0 _ (by rw [slotsOf]; rfl)
    refine ⟨_, entriesOfSlots_mem.2 ⟨i, _, hx, by simp [plainSlot], rfl⟩, rfl, plainSlot_name i, rfl, rfl, ?_⟩
    rw [Doc.streams] at hl hs
    obtain ⟨es, hsib, hlen, hkids⟩ := slotsOfKids_holds hcut HL HS kids l s (i + 1)
      (fun j x hj => by
        have := hsl (j + 1) x (by rw [slotsOf, List.getElem?_cons_succ]; exact hj)
        rwa [show i + 1 + j = i + (j + 1) by omega]) (by omega) hl hs
    exact .storage (Or.inl rfl) hsib hlen (fun j c k h1 h2 => (hkids j c k h1 h2).1)
      (fun j c k h1 h2 => (hkids j c k h1 h2).2)

theorem slotsOfKids_holds (hcut : h.minStreamSize = w.cutoff)
    (HL : ∀ pre d post, w.longs all = pre ++ d :: post → LongData content (2 ^ h.sectorExp) sat
      (startOf (base + (pre.map fun x => units w.ss x.length).sum) (units w.ss d.length)) d)
    (HS : ∀ pre d post, w.shorts all = pre ++ d :: post → ShortData container (2 ^ h.shortExp) ssat
      (startOf ((pre.map fun x => units w.short x.length).sum) (units w.short d.length)) d)
    (kids : List (Bytes × Doc)) : ∀ l s i,
    (∀ (j : Nat) (x : SlotFields), (slotsOfKids w l s i kids)[j]? = some x → slots[i + j]? = some x) →
    i + countKids kids < free →
    (∃ pre post, w.longs all = pre ++ w.longs (streamsOfKids kids) ++ post ∧
      l = base + (pre.map fun x => units w.ss x.length).sum) →
    (∃ pre post, w.shorts all = pre ++ w.shorts (streamsOfKids kids) ++ post ∧
      s = (pre.map fun x => units w.short x.length).sum) →
    ∃ es, Siblings (entriesOfSlots slots) (if kids.isEmpty then free else i) es ∧
      es.length = kids.length ∧
      ∀ (j : Nat) (c : DirEntry) (k : Bytes × Doc), es[j]? = some c → kids[j]? = some k →
        c.name = k.1 ∧ Holds content h sat ssat container (entriesOfSlots slots) c k.2 := by
  intro l s i hsl hi hl hs
  match kids with
  | [] => exact ⟨[], .none, rfl, by simp⟩
  | (name, d) :: r =>
    rw [countKids] at hi
    rw [streamsOfKids] at hl hs
    obtain ⟨pre, post, hp, rfl⟩ := hl
    obtain ⟨pre', post', hp', rfl⟩ := hs
    rw [Writer.longs, Writer.longs, List.filter_append] at hp
    rw [Writer.shorts, Writer.shorts, List.filter_append] at hp'
    rw [slotsOfKids] at hsl
    obtain ⟨c, hc, hid, hnm, hnx, hpv, hh⟩ := slotsOf_holds hcut HL HS d _ _ i _ name
      (fun j x hj => hsl j x (by
        rw [List.getElem?_append_left (List.getElem?_eq_some_iff.1 hj).1]; exact hj)) (by omega)
      ⟨pre, w.longs (streamsOfKids r) ++ post, by
        rw [Writer.longs, Writer.longs, Writer.longs, hp]; simp only [List.append_assoc], rfl⟩
      ⟨pre', w.shorts (streamsOfKids r) ++ post', by
        rw [Writer.shorts, Writer.shorts, Writer.shorts, hp']; simp only [List.append_assoc], rfl⟩
    obtain ⟨es, hsib, hlen, hkids⟩ := slotsOfKids_holds hcut HL HS r _ _ (i + d.count)
      (fun j x hj => by
        have := hsl (d.count + j) x (by
          rw [List.getElem?_append_right (by rw [slotsOf_length]; omega), slotsOf_length,
            Nat.add_sub_cancel_left]
          exact hj)
        rwa [Nat.add_assoc]) (by omega)
      ⟨pre ++ w.longs d.streams, post, by
        rw [Writer.longs, Writer.longs, Writer.longs, hp]; simp only [List.append_assoc],
        by rw [List.map_append, List.sum_append, Writer.longUnits, Nat.add_assoc]⟩
      ⟨pre' ++ w.shorts d.streams, post', by
        rw [Writer.shorts, Writer.shorts, Writer.shorts, hp']; simp only [List.append_assoc],
        by rw [List.map_append, List.sum_append, Writer.shortUnits]⟩
    have hpos := doc_count_pos d
    refine ⟨c :: es, ?_, by simp [hlen], ?_⟩
    · rw [List.isEmpty_cons, if_neg (by decide), ← hid]
      have h1 : Siblings (entriesOfSlots slots) c.prev [] := by rw [hpv]; exact .none
      have h2 : Siblings (entriesOfSlots slots) c.next es := by
        rw [hnx]
        exact hsib
      refine Siblings.node (l := []) hc ?_ h1 h2
      rw [hid]
      have : free = 0xffffffff := rfl
      omega
    · intro j x k hx hk
      match j with
      | 0 =>
        rw [List.getElem?_cons_zero] at hx hk
        cases hx
        cases hk
        exact ⟨hnm, hh⟩
      | j + 1 =>
        rw [List.getElem?_cons_succ] at hx hk
        exact hkids j x k hx hk
end
end holds

end Olecf.Props
