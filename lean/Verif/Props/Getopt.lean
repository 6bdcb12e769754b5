import Verif.Lemmas.Getopt

/-
  C82: the command line of the tools.
-/

namespace Olecf.Props
open Spec

/-- Every command line can be read. -/
theorem reads_total (flags withArg : Bytes) : ∀ (n : Nat) (args : List Bytes), args.length ≤ n →
    ∃ es e, Reads flags withArg args es e
  | _, [], _ => ⟨[], _, .done⟩
  | 0, _ :: _, h => by simp at h
  | n + 1, a :: rest, h => by
    have hr : rest.length ≤ n := by simpa using h
    by_cases h1 : a.head? ≠ some 45 ∨ a = [45]
    · exact ⟨_, _, .operand h1⟩
    by_cases h2 : a = [45, 45]
    · subst h2
      exact ⟨_, _, .dashes⟩
    rw [not_or] at h1
    obtain ⟨h1, h3⟩ := h1
    rw [ne_eq, Classical.not_not] at h1
    obtain ⟨q, rfl⟩ : ∃ q, a = 45 :: q := by
      cases a with
      | nil => simp at h1
      | cons c q =>
        simp only [List.head?_cons, Option.some.injEq] at h1
        exact ⟨q, by rw [h1]⟩
    have hsplit : ∀ q : Bytes, (∀ c ∈ q, c ∈ flags) ∨
        ∃ fs c r, q = fs ++ c :: r ∧ (∀ c ∈ fs, c ∈ flags) ∧ c ∉ flags := by
      intro q
      induction q with
      | nil => exact .inl (by simp)
      | cons c q ih =>
        by_cases hc : c ∈ flags
        · rcases ih with ih | ⟨fs, d, r, rfl, hf, hd⟩
          · exact .inl (by simpa using ⟨hc, ih⟩)
          · exact .inr ⟨c :: fs, d, r, rfl, by simpa using ⟨hc, hf⟩, hd⟩
        · exact .inr ⟨[], c, q, rfl, by simp, hc⟩
    rcases hsplit q with hq | ⟨fs, c, r, rfl, hf, hc⟩
    · obtain ⟨es, e, he⟩ := reads_total flags withArg n rest hr
      exact ⟨_, _, .group (by rintro rfl; exact h3 rfl) hq he⟩
    · by_cases hw : c ∈ withArg
      · cases r with
        | nil =>
          cases rest with
          | nil => exact ⟨_, _, .missing hf hw⟩
          | cons v rest =>
            obtain ⟨es, e, he⟩ := reads_total flags withArg n rest (by
              rw [List.length_cons] at hr; omega)
            exact ⟨_, _, .separate hf hw he⟩
        | cons d r =>
          obtain ⟨es, e, he⟩ := reads_total flags withArg n rest hr
          exact ⟨_, _, .attached hf hw (by simp) he⟩
      · exact ⟨_, _, .unknown hf hc hw h2⟩

/-- What `commandOf` does behind the options. -/
def endCommand (t : Tool) (s : Settings) : End → Command
  | .unknown a _ => .invalid a
  | .missing a => .invalid a
  | .operands [] => .missingSource
  | .operands [x] => if t = .olecfmount then .missingMountPoint else .run s x none
  | .operands (x :: m :: _) => .run s x (if t = .olecfmount then some m else none)

theorem commandOf_eq (t : Tool) (es : List (UInt8 × Option Bytes)) (e : End) :
    commandOf t es e = match es.find? fun x => x.1 = 104 ∨ x.1 = 86 with
      | some x => if x.1 = 104 then .usage else .version
      | none => endCommand t (settingsOf es) e := by
  unfold commandOf
  cases es.find? fun x => x.1 = 104 ∨ x.1 = 86 with
  | some x => rfl
  | none =>
    rcases e with l | ⟨a, r⟩ | a
    · rcases l with _ | ⟨s, _ | ⟨m, l⟩⟩ <;> rfl
    · rfl
    · rfl

theorem operands_eq (t : Tool) (pre l : List Bytes) (s : Settings) :
    t.operands (pre ++ l) pre.length s = .ok (endCommand t s (.operands l)) := by
  unfold Tool.operands
  cases l with
  | nil => rw [if_pos (by simp)]; rfl
  | cons x l =>
    rw [if_neg (by simp)]
    rw [List.getElem?_append_right (Nat.le_refl _)]
    simp only [Nat.sub_self, List.getElem?_cons_zero]
    cases t with
    | olecfexport => cases l <;> rfl
    | olecfinfo => cases l <;> rfl
    | olecfmount =>
      dsimp only
      cases l with
      | nil => rw [if_pos (by simp)]; rfl
      | cons m l =>
        rw [if_neg (by simp), List.getElem?_append_right (by omega)]
        simp only [Nat.add_sub_cancel_left, List.getElem?_cons_succ, List.getElem?_cons_zero]
        rfl

/-- The same up to the argument that is shown when it is invalid. -/
def shownAs (x : Bytes) : Command → Command
  | .invalid _ => .invalid x
  | c => c

/-- The arguments that are looked at are as `olecftools_getopt` expects. -/
def Usual (t : Tool) (args : List Bytes) : Prop :=
  ∀ a, Examined (flagsOf t) (withArgOf t) args a → a ≠ [45] ∧ ∀ q, a = 45 :: 45 :: q → q = []

theorem at_arg {pre rest : List Bytes} {q : Bytes} (oa : Option Bytes) (h1 : q.head? ≠ some 45) (h2 : q ≠ []) :
    At (pre ++ (45 :: q) :: rest) ⟨pre.length, oa, none⟩ q :=
  .inr ⟨rfl, by simp, h1, h2⟩

theorem head_flag {t : Tool} {fs tail : Bytes} (hf : ∀ c ∈ fs, c ∈ flagsOf t) (hne : fs ≠ []) :
    (fs ++ tail).head? ≠ some 45 := by
  cases fs with
  | nil => exact absurd rfl hne
  | cons c fs =>
    have := (options_flag t c (hf c List.mem_cons_self)).2.1
    simpa using this

theorem loop_reads {t : Tool} {rest : List Bytes} {es : List (UInt8 × Option Bytes)} {e : End}
    (hr : Reads (flagsOf t) (withArgOf t) rest es e) :
    Usual t rest → ∀ (pre : List Bytes) (oa : Option Bytes) (fuel : Nat) (s : Settings), pre ≠ [] →
    (∀ a ∈ rest, (0 : UInt8) ∉ a) → (rest.map List.length).sum + rest.length + 1 ≤ fuel →
    ∃ x, (∀ a, e = .unknown a [] → x = a) ∧ (∀ a, e = .missing a → x = a) ∧
      t.loop (pre ++ rest) fuel ⟨pre.length, oa, none⟩ s =
        finish s es fun s' => .ok (shownAs x (endCommand t s' e)) := by
  induction hr with
  | done =>
    intro _ pre oa fuel s _ _ hfuel
    obtain ⟨fuel, rfl⟩ : ∃ f, fuel = f + 1 := ⟨fuel - 1, by omega⟩
    refine ⟨[], by simp, by simp, ?_⟩
    have hg : getopt (pre ++ []) t.options ⟨pre.length, oa, none⟩ = .ok (none, ⟨pre.length, oa, none⟩) := by
      unfold getopt
      simp
    rw [loop_succ t _ _ _ _ hg]
    exact operands_eq t pre [] s
  | @operand a rest ha =>
    intro hu pre oa fuel s _ _ hfuel
    obtain ⟨fuel, rfl⟩ : ∃ f, fuel = f + 1 := ⟨fuel - 1, by omega⟩
    refine ⟨[], by simp, by simp, ?_⟩
    have ha : a.head? ≠ some 45 := by
      rcases ha with ha | ha
      · exact ha
      · exact absurd ha (hu a .here).1
    have hg : getopt (pre ++ a :: rest) t.options ⟨pre.length, oa, none⟩ =
        .ok (none, ⟨pre.length, oa, none⟩) := by
      unfold getopt
      dsimp only
      rw [if_neg (by simp)]
      rw [List.getElem?_append_right (Nat.le_refl _)]
      simp only [Nat.sub_self, List.getElem?_cons_zero]
      cases a with
      | nil => rfl
      | cons c r =>
        simp only [StrPtr.char, Res.ok_bind]
        have : c ≠ 45 := by simpa using ha
        split <;> simp
    rw [loop_succ t _ _ _ _ hg]
    exact (operands_eq t pre _ s).trans (by cases rest <;> cases t <;> rfl)
  | @dashes rest =>
    intro hu pre oa fuel s _ _ hfuel
    obtain ⟨fuel, rfl⟩ : ∃ f, fuel = f + 1 := ⟨fuel - 1, by omega⟩
    refine ⟨[], by simp, by simp, ?_⟩
    have hg : getopt (pre ++ [45, 45] :: rest) t.options ⟨pre.length, oa, none⟩ =
        .ok (none, ⟨pre.length + 1, oa, none⟩) := by
      unfold getopt
      dsimp only
      rw [if_neg (by simp)]
      rw [List.getElem?_append_right (Nat.le_refl _)]
      simp only [Nat.sub_self, List.getElem?_cons_zero]
      rfl
    rw [loop_succ t _ _ _ _ hg]
    have := operands_eq t (pre ++ [[45, 45]]) rest s
    rw [List.append_assoc, List.length_append] at this
    refine this.trans ?_
    rcases rest with _ | ⟨a, _ | ⟨b, r⟩⟩ <;> cases t <;> rfl
  | @group fs rest es e hne hf _ ih =>
    intro hu pre oa fuel s hpre h0 hfuel
    rw [List.map_cons, List.sum_cons, List.length_cons, List.length_cons] at hfuel
    obtain ⟨g, rfl⟩ : ∃ g, fuel = g + fs.length := ⟨fuel - fs.length, by omega⟩
    have h0f : (0 : UInt8) ∉ fs := fun h => h0 _ List.mem_cons_self (List.mem_cons_of_mem _ h)
    have hhead : fs.head? ≠ some 45 := by simpa using head_flag (tail := []) hf hne
    have hl := loop_group t (pre ++ (45 :: fs) :: rest) g fs hne ⟨pre.length, oa, none⟩ s
      (at_arg oa hhead hne) h0f hf
    have hx : ∀ s', ∃ x, (∀ a, e = .unknown a [] → x = a) ∧ (∀ a, e = .missing a → x = a) ∧
      t.loop ((pre ++ [45 :: fs]) ++ rest) g ⟨(pre ++ [45 :: fs]).length, none, none⟩ s' =
        finish s' es fun s' => .ok (shownAs x (endCommand t s' e)) := fun s' =>
      ih (fun a ha => hu a (.group hne hf ha)) (pre ++ [45 :: fs]) none g s' (by simp)
        (fun a ha => h0 a (List.mem_cons_of_mem _ ha)) (by omega)
    obtain ⟨x, h1, h2, h3⟩ := hx ((fs.map (·, none)).foldl setOne s)
    refine ⟨x, h1, h2, ?_⟩
    rw [hl, finish_append, finish_find, finish_find]
    split
    · rfl
    · rw [← h3, List.append_assoc, List.length_append]
      rfl
  | @attached fs c v rest es e hf hc hv _ ih =>
    intro hu pre oa fuel s hpre h0 hfuel
    rw [List.map_cons, List.sum_cons, List.length_cons, List.length_cons, List.length_append,
      List.length_cons] at hfuel
    obtain ⟨g, rfl⟩ : ∃ g, fuel = g + 1 + fs.length := ⟨fuel - fs.length - 1, by omega⟩
    have h0f : (0 : UInt8) ∉ fs ++ c :: v := fun h => h0 _ List.mem_cons_self (List.mem_cons_of_mem _ h)
    obtain ⟨h58, h45, w, hw⟩ := options_arg t c hc
    have hhead : (fs ++ c :: v).head? ≠ some 45 := by
      by_cases hfs : fs = []
      · subst hfs
        simpa using h45
      · exact head_flag hf hfs
    obtain ⟨st', g1, g2, g3⟩ := loop_flags t (pre ++ (45 :: (fs ++ c :: v)) :: rest) (tail := c :: v)
      (by simp) (g + 1) fs ⟨pre.length, oa, none⟩ s (at_arg oa hhead (by simp)) h0f hf
    have hg := getopt_at (opts := t.options) g1
    rw [getoptChar_arg h58 hw v (fun h => h0f (by simp [h])), if_pos hv] at hg
    dsimp only at g2
    rw [g2] at hg
    have hx : ∀ s', ∃ x, (∀ a, e = .unknown a [] → x = a) ∧ (∀ a, e = .missing a → x = a) ∧
      t.loop ((pre ++ [45 :: (fs ++ c :: v)]) ++ rest) g
        ⟨(pre ++ [45 :: (fs ++ c :: v)]).length, some v, none⟩ s' =
        finish s' es fun s' => .ok (shownAs x (endCommand t s' e)) := fun s' =>
      ih (fun a ha => hu a (.attached hf hc hv ha)) (pre ++ [45 :: (fs ++ c :: v)]) (some v) g s' (by simp)
        (fun a ha => h0 a (List.mem_cons_of_mem _ ha)) (by omega)
    obtain ⟨x, h1, h2, h3⟩ := hx (setOne ((fs.map (·, none)).foldl setOne s) (c, some v))
    refine ⟨x, h1, h2, ?_⟩
    rw [g3, finish_append, finish_find, finish_find]
    split
    · rfl
    · rw [loop_succ t _ _ _ _ hg]
      unfold loopNext
      dsimp only
      obtain ⟨hs, h104, h86⟩ := switch_arg t ((fs.map (·, none)).foldl setOne s) v c hc
      rw [hs]
      unfold finish
      dsimp only
      rw [if_neg h104, if_neg h86, ← h3, List.append_assoc, List.length_append]
      rfl
  | @separate fs c v rest es e hf hc _ ih =>
    intro hu pre oa fuel s hpre h0 hfuel
    rw [List.map_cons, List.map_cons, List.sum_cons, List.sum_cons, List.length_cons, List.length_cons,
      List.length_cons, List.length_append, List.length_singleton] at hfuel
    obtain ⟨g, rfl⟩ : ∃ g, fuel = g + 1 + fs.length := ⟨fuel - fs.length - 1, by omega⟩
    have h0f : (0 : UInt8) ∉ fs ++ [c] := fun h => h0 _ List.mem_cons_self (List.mem_cons_of_mem _ h)
    obtain ⟨h58, h45, w, hw⟩ := options_arg t c hc
    have hhead : (fs ++ [c]).head? ≠ some 45 := by
      by_cases hfs : fs = []
      · subst hfs
        simpa using h45
      · exact head_flag hf hfs
    obtain ⟨st', g1, g2, g3⟩ := loop_flags t (pre ++ (45 :: (fs ++ [c])) :: v :: rest) (tail := [c])
      (by simp) (g + 1) fs ⟨pre.length, oa, none⟩ s (at_arg oa hhead (by simp)) h0f hf
    have hg := getopt_at (opts := t.options) g1
    dsimp only at g2
    have hv : (pre ++ (45 :: (fs ++ [c])) :: v :: rest)[pre.length + 1]? = some v := by
      rw [List.getElem?_append_right (by omega)]
      simp
    rw [getoptChar_arg h58 hw [] (by simp), if_neg (by simp)] at hg
    dsimp only at hg
    rw [g2, if_neg (by simp), hv] at hg
    dsimp only at hg
    have hx : ∀ s', ∃ x, (∀ a, e = .unknown a [] → x = a) ∧ (∀ a, e = .missing a → x = a) ∧
      t.loop ((pre ++ [45 :: (fs ++ [c]), v]) ++ rest) g
        ⟨(pre ++ [45 :: (fs ++ [c]), v]).length, some v, none⟩ s' =
        finish s' es fun s' => .ok (shownAs x (endCommand t s' e)) := fun s' =>
      ih (fun a ha => hu a (.separate hf hc ha)) (pre ++ [45 :: (fs ++ [c]), v]) (some v) g s' (by simp)
        (fun a ha => h0 a (List.mem_cons_of_mem _ (List.mem_cons_of_mem _ ha))) (by omega)
    obtain ⟨x, h1, h2, h3⟩ := hx (setOne ((fs.map (·, none)).foldl setOne s) (c, some v))
    refine ⟨x, h1, h2, ?_⟩
    rw [g3, finish_append, finish_find, finish_find]
    split
    · rfl
    · rw [loop_succ t _ _ _ _ hg]
      unfold loopNext
      dsimp only
      obtain ⟨hs, h104, h86⟩ := switch_arg t ((fs.map (·, none)).foldl setOne s) v c hc
      rw [hs]
      unfold finish
      dsimp only
      rw [if_neg h104, if_neg h86, ← h3, List.append_assoc, List.length_append]
      rfl
  | @unknown fs c r rest hf hc1 hc2 hne =>
    intro hu pre oa fuel s hpre h0 hfuel
    rw [List.map_cons, List.sum_cons, List.length_cons, List.length_cons, List.length_append,
      List.length_cons] at hfuel
    obtain ⟨g, rfl⟩ : ∃ g, fuel = g + 1 + fs.length := ⟨fuel - fs.length - 1, by omega⟩
    have h0f : (0 : UInt8) ∉ fs ++ c :: r := fun h => h0 _ List.mem_cons_self (List.mem_cons_of_mem _ h)
    have hhead : (fs ++ c :: r).head? ≠ some 45 := by
      by_cases hfs : fs = []
      · subst hfs
        intro h
        simp only [List.nil_append, List.head?_cons, Option.some.injEq] at h
        subst h
        have := (hu _ .here).2 r rfl
        subst this
        exact hne rfl
      · exact head_flag hf hfs
    obtain ⟨st', g1, g2, g3⟩ := loop_flags t (pre ++ (45 :: (fs ++ c :: r)) :: rest) (tail := c :: r)
      (by simp) (g + 1) fs ⟨pre.length, oa, none⟩ s (at_arg oa hhead (by simp)) h0f hf
    have hg := getopt_at (opts := t.options) g1
    dsimp only at g2
    rw [getoptChar_unknown (options_unknown t hc1 hc2) r (fun h => h0f (by simp [h]))] at hg
    have hbase : ∀ s', loopNext t (pre ++ (45 :: (fs ++ c :: r)) :: rest) g s'
        (if r = [] then { st' with next := none, optind := st'.optind + 1 } else { st' with next := none })
        (some 63) = .ok (.invalid (if r = [] then 45 :: (fs ++ c :: r) else pre.getLast hpre)) := by
      intro s'
      unfold loopNext
      have hsw : ∀ oa, t.switch 63 oa s' = .invalid := fun oa => by cases t <;> rfl
      dsimp only
      rw [hsw]
      dsimp only
      by_cases hr : r = []
      · rw [if_pos hr, if_pos hr]
        dsimp only
        rw [g2, Nat.add_sub_cancel, List.getElem?_append_right (Nat.le_refl _)]
        simp
      · rw [if_neg hr, if_neg hr]
        dsimp only
        have hl := List.length_pos_iff.2 hpre
        rw [g2, List.getElem?_append_left (by omega), List.getElem?_eq_getElem (by omega),
          List.getLast_eq_getElem]
    refine ⟨if r = [] then 45 :: (fs ++ c :: r) else pre.getLast hpre, ?_, by simp, ?_⟩
    · intro a ha
      simp only [End.unknown.injEq] at ha
      rw [if_pos ha.2, ha.1]
    · rw [g3]
      congr 1
      funext s'
      rw [loop_succ t _ _ _ _ hg]
      have := hbase s'
      by_cases hr : r = []
      · simp only [hr, if_true] at this ⊢
        exact this
      · simp only [hr, if_false] at this ⊢
        exact this
  | @missing fs c hf hc =>
    intro hu pre oa fuel s hpre h0 hfuel
    rw [List.map_cons, List.sum_cons, List.length_cons, List.length_cons, List.length_append,
      List.length_cons] at hfuel
    obtain ⟨g, rfl⟩ : ∃ g, fuel = g + 1 + fs.length := ⟨fuel - fs.length - 1, by omega⟩
    have h0f : (0 : UInt8) ∉ fs ++ [c] := fun h => h0 _ List.mem_cons_self (List.mem_cons_of_mem _ h)
    obtain ⟨h58, h45, w, hw⟩ := options_arg t c hc
    have hhead : (fs ++ [c]).head? ≠ some 45 := by
      by_cases hfs : fs = []
      · subst hfs
        simpa using h45
      · exact head_flag hf hfs
    obtain ⟨st', g1, g2, g3⟩ := loop_flags t (pre ++ [45 :: (fs ++ [c])]) (tail := [c])
      (by simp) (g + 1) fs ⟨pre.length, oa, none⟩ s (at_arg oa hhead (by simp)) h0f hf
    have hg := getopt_at (opts := t.options) g1
    dsimp only at g2
    rw [getoptChar_arg h58 hw [] (by simp), if_neg (by simp)] at hg
    dsimp only at hg
    rw [g2, if_pos (by simp)] at hg
    refine ⟨45 :: (fs ++ [c]), by simp, by simp, ?_⟩
    rw [g3]
    congr 1
    funext s'
    rw [loop_succ t _ _ _ _ hg]
    unfold loopNext
    have hsw : ∀ oa, t.switch 58 oa s' = .invalid := fun oa => by cases t <;> rfl
    dsimp only
    rw [hsw]
    dsimp only
    rw [Nat.add_sub_cancel, List.getElem?_append_right (Nat.le_refl _)]
    simp [endCommand, shownAs]

theorem reads_args {t : Tool} {rest : List Bytes} {es : List (UInt8 × Option Bytes)} {e : End}
    (hr : Reads (flagsOf t) (withArgOf t) rest es e) :
    ∀ x ∈ es, x.1 ∈ [99, 108, 116, 88] → x.2 ≠ none := by
  have hflags : ∀ fs : Bytes, (∀ c ∈ fs, c ∈ flagsOf t) → ∀ x ∈ fs.map (fun c => (c, (none : Option Bytes))),
      x.1 ∈ [99, 108, 116, 88] → x.2 ≠ none := by
    intro fs hf x hx hm
    obtain ⟨c, hc, rfl⟩ := List.mem_map.1 hx
    exact absurd hm (options_flag t c (hf c hc)).2.2.1
  induction hr with
  | done => simp
  | operand _ => simp
  | dashes => simp
  | group _ hf _ ih =>
    intro x hx
    rcases List.mem_append.1 hx with hx | hx
    · exact hflags _ hf x hx
    · exact ih x hx
  | attached hf _ _ _ ih =>
    intro x hx
    rcases List.mem_append.1 hx with hx | hx
    · exact hflags _ hf x hx
    · rcases List.mem_cons.1 hx with rfl | hx
      · simp
      · exact ih x hx
  | separate hf _ _ ih =>
    intro x hx
    rcases List.mem_append.1 hx with hx | hx
    · exact hflags _ hf x hx
    · rcases List.mem_cons.1 hx with rfl | hx
      · simp
      · exact ih x hx
  | unknown hf _ _ _ => exact hflags _ hf
  | missing hf _ => exact hflags _ hf

theorem command_reads {t : Tool} {rest : List Bytes} {es : List (UInt8 × Option Bytes)} {e : End}
    (hr : Reads (flagsOf t) (withArgOf t) rest es e) (hu : Usual t rest)
    (h0 : ∀ a ∈ rest, (0 : UInt8) ∉ a) (prog : Bytes) :
    ∃ x, (∀ a, e = .unknown a [] → x = a) ∧ (∀ a, e = .missing a → x = a) ∧
      t.command (prog :: rest) = .ok (shownAs x (commandOf t es e)) := by
  obtain ⟨x, h1, h2, h3⟩ := loop_reads hr hu [prog] none
    (((prog :: rest).map List.length).sum + (prog :: rest).length + 1) {} (by simp) h0 (by
      rw [List.map_cons, List.sum_cons, List.length_cons]; omega)
  refine ⟨x, h1, h2, ?_⟩
  refine h3.trans ?_
  rw [finish_find, foldl_setOne_settings es (reads_args hr)]
  rw [commandOf_eq]
  cases es.find? fun x => x.1 = 104 ∨ x.1 = 86 with
  | some x => dsimp only; split <;> rfl
  | none => rfl

/-- C82 as far as it holds: the tools read their command line as the utility syntax says: every option in a
  group and its argument, attached or separate, "--", the operands, -h and -V at once; they refuse unknown
  options and missing arguments and name the argument, and there is no other outcome (every command line can
  be read, reads_total).
  Missing: the operand "-" (C82_dash_violated), arguments that begin with "--" (C82_long_violated), and the
  name of the argument when an unknown option has something behind it (C82_shown_violated). -/
theorem C82_command_line_partial {t : Tool} {rest : List Bytes} {es : List (UInt8 × Option Bytes)} {e : End}
    (hr : Reads (flagsOf t) (withArgOf t) rest es e) (hu : Usual t rest)
    (h0 : ∀ a ∈ rest, (0 : UInt8) ∉ a) (hlast : ∀ a r, e = .unknown a r → r = []) (prog : Bytes) :
    t.command (prog :: rest) = .ok (commandOf t es e) := by
  obtain ⟨x, h1, h2, h3⟩ := command_reads hr hu h0 prog
  rw [h3]
  congr 1
  rw [commandOf_eq]
  cases es.find? fun x => x.1 = 104 ∨ x.1 = 86 with
  | some x => dsimp only; split <;> rfl
  | none =>
    rcases e with l | ⟨a, r⟩ | a
    · rcases l with _ | ⟨s, _ | ⟨m, l⟩⟩
      · rfl
      · dsimp only [endCommand]; split <;> rfl
      · rfl
    · have := hlast a r rfl
      subst this
      rw [h1 a rfl]
      rfl
    · rw [h2 a rfl]
      rfl

/-- C82, unknown options in general: they are refused, whatever is named. -/
theorem C82_refused_partial {t : Tool} {rest : List Bytes} {es : List (UInt8 × Option Bytes)}
    {a r : Bytes} (hr : Reads (flagsOf t) (withArgOf t) rest es (.unknown a r)) (hu : Usual t rest)
    (h0 : ∀ a ∈ rest, (0 : UInt8) ∉ a) (hes : ∀ x ∈ es, x.1 ≠ 104 ∧ x.1 ≠ 86) (prog : Bytes) :
    ∃ x, t.command (prog :: rest) = .ok (.invalid x) := by
  obtain ⟨x, -, -, h3⟩ := command_reads hr hu h0 prog
  refine ⟨x, ?_⟩
  rw [h3]
  unfold commandOf
  rw [List.find?_eq_none.2 (by simpa using hes)]
  rfl

theorem examined_mem {flags withArg : Bytes} {args : List Bytes} {a : Bytes}
    (h : Examined flags withArg args a) : a ∈ args := by
  induction h with
  | here => exact List.mem_cons_self
  | group _ _ _ ih => exact List.mem_cons_of_mem _ ih
  | attached _ _ _ _ ih => exact List.mem_cons_of_mem _ ih
  | separate _ _ _ ih => exact List.mem_cons_of_mem _ (List.mem_cons_of_mem _ ih)

/-- The loops end and nothing undefined happens, for every command line without the arguments that are not
  usual. -/
theorem C82_safe_partial (t : Tool) (prog : Bytes) (rest : List Bytes) (hu : Usual t rest)
    (h0 : ∀ a ∈ rest, (0 : UInt8) ∉ a) : ∃ c, t.command (prog :: rest) = .ok c := by
  obtain ⟨es, e, hr⟩ := reads_total (flagsOf t) (withArgOf t) _ rest (Nat.le_refl _)
  obtain ⟨x, -, -, h⟩ := command_reads hr hu h0 prog
  exact ⟨_, h⟩

/-- C82 does not hold for "-": it is an operand, but the tools read behind its end. -/
theorem C82_dash_violated (t : Tool) (prog : Bytes) (rest : List Bytes) :
    Reads (flagsOf t) (withArgOf t) ([45] :: rest) [] (.operands ([45] :: rest)) ∧
    t.command (prog :: [45] :: rest) = .ub := by
  refine ⟨.operand (.inr rfl), ?_⟩
  have hg : ∀ st : GetoptState, st = .initial → getopt (prog :: [45] :: rest) t.options st = .ub := by
    rintro st rfl
    unfold getopt GetoptState.initial
    dsimp only
    rw [if_neg (by simp)]
    show getoptChar _ _ (some []) _ = _
    unfold getoptChar
    simp only [StrPtr.char, Res.ok_bind, StrPtr.next]
    have : t.options.dropWhile (· != (0 : UInt8)) = [] := by cases t <;> rfl
    rw [if_pos (.inr this)]
    rfl
  unfold Tool.command
  rw [Tool.loop, hg _ rfl]
  rfl

/-- C82 does not hold for arguments such as "--help": they have an unknown option, but the tools take them for
  "--". -/
theorem C82_long_violated (prog q source : Bytes) (hq : q ≠ []) :
    Reads (flagsOf .olecfinfo) (withArgOf .olecfinfo) [45 :: 45 :: q, source] [] (.unknown (45 :: 45 :: q) q) ∧
    Tool.olecfinfo.command [prog, 45 :: 45 :: q, source] = .ok (.run {} source none) := by
  refine ⟨.unknown (fs := []) (c := 45) (by simp) (by decide) (by decide) (by simpa using hq), ?_⟩
  unfold Tool.command
  have hg : getopt [prog, 45 :: 45 :: q, source] Tool.olecfinfo.options .initial = .ok (none, ⟨2, none, none⟩) := rfl
  rw [loop_succ .olecfinfo _ _ _ _ hg]
  rfl

/-- C82 does not hold for the argument that is named: for "-xv", where x is not an option, it is the argument
  before, here the name of the program. -/
theorem C82_shown_violated (prog : Bytes) :
    Reads (flagsOf .olecfinfo) (withArgOf .olecfinfo) [[45, 120, 118]] [] (.unknown [45, 120, 118] [118]) ∧
    Tool.olecfinfo.command [prog, [45, 120, 118]] = .ok (.invalid prog) := by
  refine ⟨.unknown (fs := []) (c := 120) (by simp) (by decide) (by decide) (by decide), ?_⟩
  unfold Tool.command
  have hg : getopt [prog, [45, 120, 118]] Tool.olecfinfo.options .initial = .ok (some 63, .initial) := rfl
  rw [loop_succ .olecfinfo _ _ _ _ hg]
  rfl

/-- olecfexport -v -c1251 -vt out -- -file -/
example (prog : Bytes) : Tool.olecfexport.command (prog :: [[45, 118], [45, 99, 49, 50, 53, 49],
    [45, 118, 116], [111, 117, 116], [45, 45], [45, 102, 105, 108, 101]]) =
    .ok (.run { verbose := true, codepage := some [49, 50, 53, 49], target := some [111, 117, 116] }
      [45, 102, 105, 108, 101] none) := by
  have hr : Reads (flagsOf .olecfexport) (withArgOf .olecfexport) [[45, 118], [45, 99, 49, 50, 53, 49],
    [45, 118, 116], [111, 117, 116], [45, 45], [45, 102, 105, 108, 101]] _
      (.operands [[45, 102, 105, 108, 101]]) :=
    .group (fs := [118]) (by simp) (by decide)
      (.attached (fs := []) (c := 99) (v := [49, 50, 53, 49]) (by simp) (by decide) (by simp)
        (.separate (fs := [118]) (c := 116) (by decide) (by decide) .dashes))
  refine C82_command_line_partial hr (fun a ha => ?_) (by decide) (by simp) prog
  have := examined_mem ha
  simp only [List.mem_cons, List.not_mem_nil, or_false] at this
  rcases this with rfl | rfl | rfl | rfl | rfl | rfl <;> exact ⟨by decide, by simp⟩

/-- olecfmount -X allow_other without operands, and olecfinfo -q -/
example (prog : Bytes) : Tool.olecfmount.command [prog, [45, 88], [97]] = .ok .missingSource ∧
    Tool.olecfinfo.command [prog, [45, 113]] = .ok (.invalid [45, 113]) := by
  constructor
  · refine C82_command_line_partial (.separate (fs := []) (c := 88) (by simp) (by decide) .done)
      (fun a ha => ?_) (by decide) (by simp) prog
    have := examined_mem ha
    simp only [List.mem_cons, List.not_mem_nil, or_false] at this
    rcases this with rfl | rfl <;> exact ⟨by decide, by simp⟩
  · refine C82_command_line_partial (.unknown (fs := []) (c := 113) (r := []) (by simp) (by decide) (by decide)
      (by decide)) (fun a ha => ?_) (by decide) (by simp) prog
    have := examined_mem ha
    simp only [List.mem_cons, List.not_mem_nil, or_false] at this
    subst this
    exact ⟨by decide, by simp⟩

end Olecf.Props
