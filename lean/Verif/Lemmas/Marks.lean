import Verif.Lemmas.EncodeFile
import Verif.Spec.Marks
import Verif.Spec.Export
import Verif.Props.EndToEnd

/-
  The items of a stored document by position.
-/

namespace Olecf.Props
open Olecf.Spec

theorem placedAt_docAt {root : Doc} {path : List Bytes} {d : Doc} {i : Nat}
    (h : PlacedAt root path d i) : DocAt root path d := by
  induction h with
  | here => exact .here
  | sub _ ih => exact .sub ih (by simp)

theorem docAt_placedAt {root : Doc} {path : List Bytes} {d : Doc} (h : DocAt root path d) :
    ∃ i, PlacedAt root path d i := by
  induction h with
  | here => exact ⟨0, .here⟩
  | @sub path kids n d _ hm ih =>
    obtain ⟨i, hi⟩ := ih
    obtain ⟨pre, post, rfl⟩ := List.append_of_mem hm
    exact ⟨_, .sub hi⟩

theorem countKids_append (a b : List (Bytes × Doc)) : countKids (a ++ b) = countKids a + countKids b := by
  induction a with
  | nil => simp [countKids]
  | cons x a ih => obtain ⟨n, d⟩ := x; rw [List.cons_append, countKids, countKids, ih]; omega

/-- The slots of the parts behind the first ones. -/
theorem slotsOfKids_drop (w : Writer) (r : List (Bytes × Doc)) : ∀ (pre : List (Bytes × Doc)) l s i,
    ∃ head l' s', slotsOfKids w l s i (pre ++ r) = head ++ slotsOfKids w l' s' (i + countKids pre) r ∧
      head.length = countKids pre := by
  intro pre
  induction pre with
  | nil => intro l s i; exact ⟨[], l, s, by simp [countKids], by simp [countKids]⟩
  | cons x pre ih =>
    obtain ⟨n, d⟩ := x
    intro l s i
    obtain ⟨head, l', s', h1, h2⟩ := ih (l + w.longUnits d.streams) (s + w.shortUnits d.streams) (i + d.count)
    refine ⟨slotsOf w l s i (if (pre ++ r).isEmpty then free else i + d.count) n d ++ head, l', s', ?_, ?_⟩
    · rw [List.cons_append, slotsOfKids, h1, countKids, ← List.append_assoc, Nat.add_assoc]
    · rw [List.length_append, slotsOf_length, h2, countKids]

/-- The slots of the parts of a storage, as siblings. -/
theorem slotsOfKids_siblings {slots : List SlotFields} {w : Writer} :
    ∀ (kids : List (Bytes × Doc)) l s i,
    (∀ (j : Nat) (x : SlotFields), (slotsOfKids w l s i kids)[j]? = some x → slots[i + j]? = some x) →
    i + countKids kids < free →
    ∃ es, Siblings (entriesOfSlots slots) (if kids.isEmpty then free else i) es ∧
      es.length = kids.length ∧
      ∀ (j : Nat) (c : DirEntry) (k : Bytes × Doc), es[j]? = some c → kids[j]? = some k →
        c.name = k.1 ∧ c.id = i + countKids (kids.take j) := by
  intro kids
  induction kids with
  | nil => intro l s i _ _; exact ⟨[], .none, rfl, by simp⟩
  | cons x r ih =>
    obtain ⟨n, d⟩ := x
    intro l s i hsl hi
    rw [countKids] at hi
    rw [slotsOfKids] at hsl
    have hpos := doc_count_pos d
    obtain ⟨es, hsib, hlen, hkids⟩ := ih _ _ (i + d.count) (fun j x hj => by
        have := hsl (d.count + j) x (by
          rw [List.getElem?_append_right (by rw [slotsOf_length]; omega), slotsOf_length,
            Nat.add_sub_cancel_left]
          exact hj)
        rwa [Nat.add_assoc]) (by omega)
    obtain ⟨f, hf, hnm, hnx, hpv, hty⟩ : ∃ f, (slotsOf w l s i (if r.isEmpty then free else i + d.count) n d)[0]?
        = some f ∧ (f.entry i).name = n ∧ f.next = (if r.isEmpty then free else i + d.count) ∧
          f.prev = free ∧ f.type ≠ 0 := by
      cases d with
      | stream data =>
        rw [slotsOf]
        exact ⟨_, rfl, plainSlot_name i, rfl, rfl, by simp [plainSlot]⟩
      | storage ks =>
        rw [slotsOf]
        exact ⟨_, rfl, plainSlot_name i, rfl, rfl, by simp [plainSlot]⟩
    have hf' := hsl 0 f (by
      rw [List.getElem?_append_left (List.getElem?_eq_some_iff.1 hf).1]; exact hf)
    refine ⟨f.entry i :: es, ?_, by simp [hlen], ?_⟩
    · rw [List.isEmpty_cons, if_neg (by decide)]
      have h1 : Siblings (entriesOfSlots slots) (f.entry i).prev [] := by
        show Siblings _ f.prev []
        rw [hpv]; exact .none
      have h2 : Siblings (entriesOfSlots slots) (f.entry i).next es := by
        show Siblings _ f.next es
        rw [hnx]
        exact hsib
      refine Siblings.node (d := f.entry i) (l := []) (entriesOfSlots_mem.2 ⟨i, f, hf', hty, rfl⟩) ?_ h1 h2
      show i ≠ _
      have : free = 0xffffffff := rfl
      omega
    · intro j x k hx hk
      match j with
      | 0 =>
        rw [List.getElem?_cons_zero] at hx hk
        cases hx
        cases hk
        exact ⟨hnm, by simp [SlotFields.entry, countKids]⟩
      | j + 1 =>
        rw [List.getElem?_cons_succ] at hx hk
        obtain ⟨h1, h2⟩ := hkids j x k hx hk
        refine ⟨h1, ?_⟩
        rw [h2, List.take_succ_cons, countKids, Nat.add_assoc]

/-- An item under the names of a path is an item of the hierarchy. -/
theorem named_at {t : Tree} {nameOf : DirEntry → Bytes} {ns : List Bytes} {it : Item}
    (h : NamedFrom t nameOf ⟨none, t.root⟩ ns it) : ∃ q, itemAt t q = some it := by
  induction h with
  | here => exact ⟨[], rfl⟩
  | @sub ns it s i _ hi ih =>
    obtain ⟨q, hq⟩ := ih
    exact ⟨q ++ [i], (itemFrom_snoc t q _ i s).2 ⟨it, hq, hi⟩⟩

section
variable {w : Writer} {kids : List (Bytes × Doc)}

/-- The slots of a storage and of its parts are at its position. -/
theorem placed_slots {path : List Bytes} {d : Doc} {i : Nat}
    (h : PlacedAt (.storage kids) path d i) : ∀ ks, d = .storage ks →
    i + countKids ks ≤ countKids kids ∧
    ∃ l s f, (slotsOfFile w kids)[i]? = some f ∧ (ks ≠ [] → f.sub = i + 1) ∧
      ∀ (j : Nat) (x : SlotFields), (slotsOfKids w l s (i + 1) ks)[j]? = some x →
        (slotsOfFile w kids)[i + 1 + j]? = some x := by
  induction h with
  | here =>
    rintro ks ⟨⟩
    refine ⟨by omega, longBase w kids, 0, rootSlot w kids, rfl, fun _ => rfl, ?_⟩
    intro j x hj
    unfold slotsOfFile padUp
    rw [Nat.zero_add, Nat.add_comm, List.cons_append, List.getElem?_cons_succ,
      List.getElem?_append_left (List.getElem?_eq_some_iff.1 hj).1]
    exact hj
  | @sub path pre post n d i _ ih =>
    rintro ks rfl
    obtain ⟨hc, l, s, f, hf, hsub, hk⟩ := ih _ rfl
    obtain ⟨head, l', s', h1, h2⟩ := slotsOfKids_drop w ((n, .storage ks) :: post) pre l s (i + 1)
    rw [h1] at hk
    rw [countKids_append, countKids, Doc.count] at hc
    have hk' : ∀ (j : Nat) (x : SlotFields),
        (slotsOfKids w l' s' (i + 1 + countKids pre) ((n, .storage ks) :: post))[j]? = some x →
        (slotsOfFile w kids)[i + 1 + countKids pre + j]? = some x := by
      intro j x hj
      have := hk (countKids pre + j) x (by
        rw [List.getElem?_append_right (by omega), h2, Nat.add_sub_cancel_left]
        exact hj)
      rwa [← Nat.add_assoc] at this
    rw [slotsOfKids, slotsOf] at hk'
    have h0 := hk' 0 _ rfl
    refine ⟨by omega, l', s', _, h0, ?_, ?_⟩
    · intro hne
      show (if ks.isEmpty then free else _) = _
      rw [if_neg (by simpa using hne)]
    · intro j x hj
      have := hk' (j + 1) x (by
        rw [List.cons_append, List.getElem?_cons_succ,
          List.getElem?_append_left (List.getElem?_eq_some_iff.1 hj).1]
        exact hj)
      rwa [show i + 1 + countKids pre + (j + 1) = i + 1 + countKids pre + 1 + j by omega] at this

/-- The item under the names of a path is the one of the position of the part. -/
theorem placed_id (hst : Storable w kids) {cmp : Bytes → Bytes → Option Bool} {t : Tree} {m : List Nat}
    (htree : (createTree (entriesOfSlots (slotsOfFile w kids)) cmp).res = .ok (some (t, m)))
    (hdist : ∀ path ks, DocAt (.storage kids) path (.storage ks) → (ks.map (·.1)).Nodup)
    {path : List Bytes} {d : Doc} {i : Nat} (hp : PlacedAt (.storage kids) path d i) :
    ∀ it, NamedFrom t (·.name) ⟨none, t.root⟩ path it → it.entry.id = i := by
  have hnd := entriesOfSlots_nodup (slotsOfFile w kids)
  have hexact := (C18_sub_items_exact _ cmp hnd t m htree).1
  have hmem := (C16_no_item_twice _ cmp hnd t m htree).1
  obtain ⟨e, sat, ssat, root, cids, clast, csecs, hl, hg, _⟩ := encodeFile_held hst
  have hroot : t.root = root := by
    have := (createTree_some htree).2.1
    rw [hg.hroot] at this
    exact (Option.some.inj this).symm
  induction hp with
  | here =>
    intro it h
    generalize hp : ([] : List Bytes) = p at h
    cases h with
    | here => show t.root.id = 0; rw [hroot]; exact hg.first
    | sub _ _ => simp at hp
  | @sub path pre post n d i hp ih =>
    intro it h
    generalize hq : path ++ [n] = q at h
    cases h with
    | here => simp at hq
    | @sub names it' s j h1 h2 =>
      obtain ⟨rfl, hn⟩ := List.append_inj' hq rfl
      have hn : n = it.entry.name := by simpa using hn
      have hid := ih it' h1
      obtain ⟨q, hq⟩ := named_at h1
      obtain ⟨i', f', hf', hty', he'⟩ := entriesOfSlots_mem.1 (hmem q it' hq)
      rw [he'] at hid
      have hid : i' = i := hid
      subst hid
      obtain ⟨hc, l, s, f, hf, hsub, hk⟩ := placed_slots (w := w) hp _ rfl
      rw [hf'] at hf
      cases hf
      have hsub := hsub (by simp)
      have hlt : i' + 1 + countKids (pre ++ (n, d) :: post) < free := by
        have := countKids_lt hst
        have : free = 0xffffffff := rfl
        omega
      obtain ⟨es, hsib, hlen, hkids⟩ := slotsOfKids_siblings (slots := slotsOfFile w kids) _ l s (i' + 1) hk hlt
      rw [if_neg (by simp)] at hsib
      have hunder : LinkedUnder (entriesOfSlots (slotsOfFile w kids)) t.root.id it'.entry it.entry := by
        refine (hexact q it' hq it.entry).1 ⟨j, ?_⟩
        rw [h2]
        obtain ⟨e, he, hx⟩ := getSubItem_ok.1 h2
        rw [hx]
        rfl
      have hin : it.entry ∈ es := by
        obtain ⟨c, hc1, hc2⟩ := hunder
        rcases siblings_mem (rid := t.root.id) hnd hsib with ⟨h1, rfl⟩ | ⟨h1, c', hc', h3, h4⟩
        · exact absurd h1 (by
            have : free = 0xffffffff := rfl
            omega)
        · have : target (entriesOfSlots (slotsOfFile w kids)) t.root.id it'.entry .sub = some c' := by
            refine target_some hnd hc' ⟨?_, ?_⟩ ?_
            · rw [he']; show f'.sub ≠ _; rw [hsub]; exact h1
            · rw [he']
              refine ⟨?_, ?_⟩
              · show f'.sub ≠ _; rw [hsub]; omega
              · rw [hroot]; exact hg.first
            · rw [he', h3]; exact hsub.symm
          rw [hc1] at this
          cases this
          exact (h4 _).2 hc2
      obtain ⟨j', hj', hje⟩ := List.mem_iff_getElem.1 hin
      have hjk : j' < (pre ++ (n, d) :: post).length := by omega
      obtain ⟨g1, g2⟩ := hkids j' it.entry _ (List.getElem?_eq_some_iff.2 ⟨hj', hje⟩) (List.getElem?_eq_getElem hjk)
      have hndp := hdist path _ (placedAt_docAt hp)
      have hlp : pre.length < (pre ++ (n, d) :: post).length := by simp
      have : j' = pre.length := by
        refine (List.Nodup.getElem_inj_iff hndp (hi := by rw [List.length_map]; exact hjk)
          (hj := by rw [List.length_map]; exact hlp)).1 ?_
        rw [List.getElem_map, List.getElem_map, ← g1, ← hn]
        simp
      rw [g2, this, List.take_left']
      rfl

/-- The times of the item under the names of a path are those stored for the part. -/
theorem placed_times (hst : Storable w kids) {cmp : Bytes → Bytes → Option Bool} {t : Tree} {m : List Nat}
    (htree : (createTree (entriesOfSlots (slotsOfFile w kids)) cmp).res = .ok (some (t, m)))
    (hdist : ∀ path ks, DocAt (.storage kids) path (.storage ks) → (ks.map (·.1)).Nodup)
    {path : List Bytes} {d : Doc} {i : Nat} (hp : PlacedAt (.storage kids) path d i) {it : Item}
    (h : NamedFrom t (·.name) ⟨none, t.root⟩ path it) :
    it.entry.created = (w.marks.entry i).created ∧ it.entry.modified = (w.marks.entry i).modified := by
  have hnd := entriesOfSlots_nodup (slotsOfFile w kids)
  have hid := placed_id hst htree hdist hp it h
  obtain ⟨q, hq⟩ := named_at h
  obtain ⟨i', f, hf, hty, he⟩ := entriesOfSlots_mem.1 ((C16_no_item_twice _ cmp hnd t m htree).1 q it hq)
  rw [he] at hid ⊢
  have hid : i' = i := hid
  subst hid
  exact (slotsOfFile_marks hf hty).2

end

end Olecf.Props
