import Verif.Spec.Path

namespace Olecf
open Olecf.Spec

theorem nameLoop_firstMatch (cmp : List α → Bytes → Option Bool) (name : List α) :
    ∀ l, FirstMatch cmp name l (nameLoop cmp name l)
  | [] => .missing (by simp)
  | c :: rest => by
    rw [nameLoop]
    cases h : cmp name c.name with
    | none => exact .failed (before := []) (by simp) h
    | some b =>
      cases b with
      | true => exact .found (before := []) (by simp) h
      | false =>
        simp only []
        generalize hr : nameLoop cmp name rest = r
        have ih := nameLoop_firstMatch cmp name rest
        rw [hr] at ih
        cases ih with
        | @found before after d h1 h2 =>
          refine .found (before := c :: before) ?_ h2
          intro x hx
          rcases List.mem_cons.1 hx with rfl | hx
          · exact h
          · exact h1 x hx
        | missing h1 =>
          refine .missing ?_
          intro x hx
          rcases List.mem_cons.1 hx with rfl | hx
          · exact h
          · exact h1 x hx
        | @failed before after d h1 h2 =>
          refine .failed (before := c :: before) ?_ h2
          intro x hx
          rcases List.mem_cons.1 hx with rfl | hx
          · exact h
          · exact h1 x hx

theorem Decodes_length {dec : Decoder α} {s : List α} {cs : List (Nat × List α)}
    (h : Decodes dec s cs) : cs.length ≤ s.length ∧ s = (cs.map (·.2)).flatten := by
  induction h with
  | nil => simp
  | @cons c u rest cs hu _ _ ih =>
    have : 0 < u.length := List.length_pos_iff.2 hu
    constructor
    · simp only [List.length_cons, List.length_append]; omega
    · simp only [List.map_cons, List.flatten_cons, ← ih.2]

/-- The scan of one segment. -/
theorem scanSegment_eq {dec : Decoder α} (s : List α) :
    ∀ (fuel : Nat) (i : Nat) (r : List α) (cs : List (Nat × List α)), s.drop i = r → i ≤ s.length →
      Decodes dec r cs → (∀ x ∈ cs, EndsComponent x.1 → x.2.length = 1) → cs.length ≤ fuel →
      ∃ seg : List α, ∀ cur : List α,
        (∃ r' cs', scanSegment dec s fuel i = .ok (i + seg.length + 1, true) ∧
          r = seg ++ r' ∧ s.drop (i + seg.length + 1) = r'.drop 1 ∧
          i + seg.length + 1 ≤ s.length ∧ Decodes dec (r'.drop 1) cs' ∧
          (∀ x ∈ cs', x ∈ cs) ∧ cs'.length < cs.length ∧
          components cs cur = (cur ++ seg) :: components cs' []) ∨
        (scanSegment dec s fuel i = .ok (s.length, false) ∧ i + seg.length = s.length ∧ r = seg ∧
          components cs cur = if (cur ++ seg).length = 0 then [] else [cur ++ seg]) := by
  intro fuel
  induction fuel with
  | zero =>
    intro i r cs hr hi hd hs hf
    have hcs : cs = [] := List.length_eq_zero_iff.1 (by omega)
    subst hcs
    cases hd
    have hl : s.length - i = 0 := by
      have := congrArg List.length hr
      simpa using this
    refine ⟨[], fun cur => Or.inr ?_⟩
    unfold scanSegment
    rw [if_neg (by omega)]
    have : i = s.length := by omega
    subst this
    simp [components]
  | succ fuel ih =>
    intro i r cs hr hi hd hs hf
    cases hd with
    | nil =>
      have hl : s.length - i = 0 := by
        have := congrArg List.length hr
        simpa using this
      refine ⟨[], fun cur => Or.inr ?_⟩
      unfold scanSegment
      rw [if_neg (by omega)]
      have : i = s.length := by omega
      subst this
      simp [components]
    | @cons c u rest cs hu hstep hrest =>
      have hul : 0 < u.length := List.length_pos_iff.2 hu
      have hlen : s.length - i = u.length + rest.length := by
        have := congrArg List.length hr
        simpa using this
      have hlt : i < s.length := by omega
      have hscan : scanSegment dec s (fuel + 1) i =
          if c = sepChar ∨ c = 0 then .ok (i + u.length, true)
          else scanSegment dec s fuel (i + u.length) := by
        rw [scanSegment, if_pos hlt]
        rw [hr, hstep]
      have hdrop : s.drop (i + u.length) = rest := by
        rw [← List.drop_drop, hr]; simp
      by_cases hc : c = sepChar ∨ c = 0
      · have hu1 : u.length = 1 := hs (c, u) (by simp) hc
        have hone : (u ++ rest).drop 1 = rest := by rw [← hu1]; simp
        refine ⟨[], fun cur => Or.inl ⟨u ++ rest, cs, ?_, by simp, ?_, by simp; omega, ?_, ?_, by simp, ?_⟩⟩
        · rw [hscan, if_pos hc, hu1]; rfl
        · rw [show i + ([] : List α).length + 1 = i + u.length by rw [hu1]; rfl, hdrop, hone]
        · rw [hone]; exact hrest
        · intro x hx; exact List.mem_cons_of_mem _ hx
        · rw [components, if_pos (show EndsComponent c from hc)]; simp
      · obtain ⟨seg, h⟩ := ih (i + u.length) rest cs hdrop (by omega) hrest
          (fun x hx => hs x (List.mem_cons_of_mem _ hx)) (by simp at hf; omega)
        refine ⟨u ++ seg, fun cur => ?_⟩
        rcases h (cur ++ u) with ⟨r', cs', h1, h2, h3, h4, h5, h6, h7, h8⟩ | ⟨h1, h2, h3, h4⟩
        · refine Or.inl ⟨r', cs', ?_, ?_, ?_, ?_, h5, ?_, ?_, ?_⟩
          · rw [hscan, if_neg hc, h1]; simp; omega
          · rw [h2]; simp
          · rw [← h3]; simp [Nat.add_assoc]
          · simp; omega
          · intro x hx; exact List.mem_cons_of_mem _ (h6 x hx)
          · simp; omega
          · rw [components, if_neg (show ¬ EndsComponent c from hc), h8]; simp
        · refine Or.inr ⟨?_, ?_, ?_, ?_⟩
          · rw [hscan, if_neg hc, h1]
          · simp; omega
          · rw [h3]
          · rw [components, if_neg (show ¬ EndsComponent c from hc), h4]; simp

/-- The path loop is the walk over the components. -/
theorem pathLoop_eq {dec : Decoder α} {cmp : List α → Bytes → Option Bool} (t : Tree)
    (s : List α) :
    ∀ (fuel : Nat) (i : Nat) (item : Item) (found : Bool) (cs : List (Nat × List α)),
      i ≤ s.length → Decodes dec (s.drop i) cs →
      (∀ x ∈ cs, EndsComponent x.1 → x.2.length = 1) → cs.length ≤ fuel →
      (found = false → i < s.length) →
      pathLoop dec cmp (some t) s fuel (some item) i found =
        walk (getSubItemByName cmp t) item (components cs) := by
  intro fuel
  induction fuel with
  | zero =>
    intro i item found cs hi hd hs hf hfound
    have hcs : cs = [] := List.length_eq_zero_iff.1 (by omega)
    subst hcs
    generalize hr : s.drop i = r at hd
    cases hd
    have hl : s.length - i = 0 := by
      have := congrArg List.length hr
      simpa using this
    unfold pathLoop
    rw [if_neg (by omega)]
    cases found with
    | false => have := hfound rfl; omega
    | true => simp [components, walk]
  | succ fuel ih =>
    intro i item found cs hi hd hs hf hfound
    have hcl := (Decodes_length hd).1
    unfold pathLoop
    by_cases hlt : i < s.length
    · rw [if_pos hlt]
      simp only []
      have hcl' : cs.length ≤ s.length := by
        simp only [List.length_drop] at hcl; omega
      obtain ⟨seg, h⟩ := scanSegment_eq s s.length i (s.drop i) cs rfl hi hd hs hcl'
      rcases h [] with ⟨r', cs', h1, h2, h3, h4, h5, h6, h7, h8⟩ | ⟨h1, h2, h3, h4⟩
      · rw [h1, h8]
        simp only [if_true, List.nil_append, walk]
        rw [show i + seg.length + 1 - (i + 1) = seg.length by omega]
        by_cases hz : seg.length = 0
        · rw [if_pos hz, if_pos hz]
        · rw [if_neg hz, if_neg hz, h2, List.take_left]
          cases hg : getSubItemByName cmp t item seg with
          | ok o =>
            cases o with
            | none => rfl
            | some c =>
              simp only []
              refine ih _ c true cs' h4 (by rw [h3]; exact h5) (fun x hx => hs x (h6 x hx))
                (by omega) (by simp)
          | err => rfl
          | ub => rfl
          | hang => rfl
      · rw [h1, h4]
        have hz : seg.length ≠ 0 := by omega
        simp only [Bool.false_eq_true, if_false, List.nil_append, Nat.add_zero]
        rw [show s.length - i = seg.length by omega, if_neg hz, if_neg hz, walk, if_neg hz, h3,
          List.take_length]
        cases hg : getSubItemByName cmp t item seg with
        | ok o =>
          cases o with
          | none => rfl
          | some c =>
            simp only []
            have := ih s.length c true [] (Nat.le_refl _) (by simpa using Decodes.nil) (by simp)
              (by simp) (by simp)
            rw [this]
            simp [components]
        | err => rfl
        | ub => rfl
        | hang => rfl
    · rw [if_neg hlt]
      have hcs : cs = [] := by
        refine List.length_eq_zero_iff.1 ?_
        simp only [List.length_drop] at hcl; omega
      subst hcs
      cases found with
      | false => have := hfound rfl; omega
      | true => simp [components, walk]

/-! ### Undecodable strings -/

theorem DecodesBad_length {dec : Decoder α} {s : List α} {cs : List (Nat × List α)}
    (h : DecodesBad dec s cs) : cs.length < s.length := by
  induction h with
  | @bad s hs _ => exact List.length_pos_iff.2 hs
  | @cons c u rest cs hu _ _ ih =>
    have : 0 < u.length := List.length_pos_iff.2 hu
    simp only [List.length_cons, List.length_append]; omega

theorem scanSegment_bad {dec : Decoder α} (s : List α) :
    ∀ (fuel : Nat) (i : Nat) (r : List α) (cs : List (Nat × List α)), s.drop i = r → i ≤ s.length →
      DecodesBad dec r cs → (∀ x ∈ cs, EndsComponent x.1 → x.2.length = 1) → cs.length < fuel →
      ∃ seg : List α, ∀ cur : List α,
        (∃ r' cs', scanSegment dec s fuel i = .ok (i + seg.length + 1, true) ∧
          r = seg ++ r' ∧ s.drop (i + seg.length + 1) = r'.drop 1 ∧
          i + seg.length + 1 ≤ s.length ∧ DecodesBad dec (r'.drop 1) cs' ∧
          (∀ x ∈ cs', x ∈ cs) ∧ cs'.length < cs.length ∧
          closedComponents cs cur = (cur ++ seg) :: closedComponents cs' []) ∨
        (scanSegment dec s fuel i = .err ∧ closedComponents cs cur = []) := by
  intro fuel
  induction fuel with
  | zero => intro i r cs hr hi hd hs hf; omega
  | succ fuel ih =>
    intro i r cs hr hi hd hs hf
    have hlt : i < s.length := by
      have h1 := DecodesBad_length hd
      have := congrArg List.length hr
      simp only [List.length_drop] at this
      omega
    cases hd with
    | bad hne hstep =>
      refine ⟨[], fun cur => Or.inr ⟨?_, rfl⟩⟩
      rw [scanSegment, if_pos hlt]
      rw [hr, hstep]
    | @cons c u rest cs hu hstep hrest =>
      have hul : 0 < u.length := List.length_pos_iff.2 hu
      have hlen : s.length - i = u.length + rest.length := by
        have := congrArg List.length hr
        simpa using this
      have hscan : scanSegment dec s (fuel + 1) i =
          if c = sepChar ∨ c = 0 then .ok (i + u.length, true)
          else scanSegment dec s fuel (i + u.length) := by
        rw [scanSegment, if_pos hlt]
        rw [hr, hstep]
      have hdrop : s.drop (i + u.length) = rest := by
        rw [← List.drop_drop, hr]; simp
      by_cases hc : c = sepChar ∨ c = 0
      · have hu1 : u.length = 1 := hs (c, u) (by simp) hc
        have hone : (u ++ rest).drop 1 = rest := by rw [← hu1]; simp
        refine ⟨[], fun cur => Or.inl ⟨u ++ rest, cs, ?_, by simp, ?_, by simp; omega, ?_, ?_, by simp, ?_⟩⟩
        · rw [hscan, if_pos hc, hu1]; rfl
        · rw [show i + ([] : List α).length + 1 = i + u.length by rw [hu1]; rfl, hdrop, hone]
        · rw [hone]; exact hrest
        · intro x hx; exact List.mem_cons_of_mem _ hx
        · rw [closedComponents, if_pos (show EndsComponent c from hc)]; simp
      · obtain ⟨seg, h⟩ := ih (i + u.length) rest cs hdrop (by omega) hrest
          (fun x hx => hs x (List.mem_cons_of_mem _ hx)) (by simp at hf; omega)
        refine ⟨u ++ seg, fun cur => ?_⟩
        rcases h (cur ++ u) with ⟨r', cs', h1, h2, h3, h4, h5, h6, h7, h8⟩ | ⟨h1, h2⟩
        · refine Or.inl ⟨r', cs', ?_, ?_, ?_, ?_, h5, ?_, ?_, ?_⟩
          · rw [hscan, if_neg hc, h1]; simp; omega
          · rw [h2]; simp
          · rw [← h3]; simp [Nat.add_assoc]
          · simp; omega
          · intro x hx; exact List.mem_cons_of_mem _ (h6 x hx)
          · simp; omega
          · rw [closedComponents, if_neg (show ¬ EndsComponent c from hc), h8]; simp
        · refine Or.inr ⟨?_, ?_⟩
          · rw [hscan, if_neg hc, h1]
          · rw [closedComponents, if_neg (show ¬ EndsComponent c from hc), h2]

/-- The outcome of a walk after which decoding fails. -/
def thenFail (r : Res (Option Item)) : Res (Option Item) :=
  match r with
  | .ok (some _) => .err
  | r => r

theorem pathLoop_bad {dec : Decoder α} {cmp : List α → Bytes → Option Bool} (t : Tree)
    (s : List α) :
    ∀ (fuel : Nat) (i : Nat) (item : Item) (found : Bool) (cs : List (Nat × List α)),
      i ≤ s.length → DecodesBad dec (s.drop i) cs →
      (∀ x ∈ cs, EndsComponent x.1 → x.2.length = 1) → cs.length < fuel →
      pathLoop dec cmp (some t) s fuel (some item) i found =
        thenFail (walk (getSubItemByName cmp t) item (closedComponents cs)) := by
  intro fuel
  induction fuel with
  | zero => intro i item found cs hi hd hs hf; omega
  | succ fuel ih =>
    intro i item found cs hi hd hs hf
    have hcl := DecodesBad_length hd
    simp only [List.length_drop] at hcl
    unfold pathLoop
    rw [if_pos (by omega)]
    simp only []
    obtain ⟨seg, h⟩ := scanSegment_bad s s.length i (s.drop i) cs rfl hi hd hs (by omega)
    rcases h [] with ⟨r', cs', h1, h2, h3, h4, h5, h6, h7, h8⟩ | ⟨h1, h2⟩
    · rw [h1, h8]
      simp only [if_true, List.nil_append, walk]
      rw [show i + seg.length + 1 - (i + 1) = seg.length by omega]
      by_cases hz : seg.length = 0
      · rw [if_pos hz, if_pos hz]; rfl
      · rw [if_neg hz, if_neg hz, h2, List.take_left]
        cases hg : getSubItemByName cmp t item seg with
        | ok o =>
          cases o with
          | none => rfl
          | some c =>
            simp only []
            exact ih _ c true cs' h4 (by rw [h3]; exact h5) (fun x hx => hs x (h6 x hx))
              (by omega)
        | err => rfl
        | ub => rfl
        | hang => rfl
    · rw [h1, h2]
      rfl

/-- Every string decodes, completely or up to a failure. -/
theorem decodes_total {dec : Decoder α}
    (hdec : ∀ s c n, s ≠ [] → dec.step s = some (c, n) → 0 < n ∧ n ≤ s.length) :
    ∀ (n : Nat) (s : List α), s.length ≤ n → ∃ cs, Decodes dec s cs ∨ DecodesBad dec s cs := by
  intro n
  induction n with
  | zero =>
    intro s hs
    have : s = [] := List.length_eq_zero_iff.1 (by omega)
    subst this
    exact ⟨[], Or.inl .nil⟩
  | succ n ih =>
    intro s hs
    by_cases hne : s = []
    · subst hne; exact ⟨[], Or.inl .nil⟩
    · cases hst : dec.step s with
      | none => exact ⟨[], Or.inr (.bad hne hst)⟩
      | some r =>
        obtain ⟨c, k⟩ := r
        obtain ⟨h0, h1⟩ := hdec s c k hne hst
        have hsplit : s = s.take k ++ s.drop k := (List.take_append_drop k s).symm
        have hlen : (s.take k).length = k := by simp; omega
        have hne' : s.take k ≠ [] := by
          intro h; rw [h] at hlen; simp at hlen; omega
        obtain ⟨cs, h⟩ := ih (s.drop k) (by simp; omega)
        have hst' : dec.step (s.take k ++ s.drop k) = some (c, (s.take k).length) := by
          rw [List.take_append_drop, hlen, hst]
        refine ⟨(c, s.take k) :: cs, ?_⟩
        rw [hsplit]
        simp only [List.take_append_drop] at *
        rcases h with h | h
        · refine Or.inl ?_
          have := Decodes.cons (dec := dec) hne' (by rw [List.take_append_drop]; exact hst') h
          rwa [List.take_append_drop] at this
        · refine Or.inr ?_
          have := DecodesBad.cons (dec := dec) hne' (by rw [List.take_append_drop]; exact hst') h
          rwa [List.take_append_drop] at this

end Olecf
