import Verif.Spec.Getopt

namespace Olecf
open Spec

theorem getoptChar_flag {args : List Bytes} {opts : Bytes} {c : UInt8} {st : GetoptState}
    (h58 : c ≠ 58) {w : Bytes} (hw : opts.dropWhile (· != c) = c :: w) (hn : w.headD 0 ≠ 58) :
    ∀ r : Bytes, 0 ∉ r → getoptChar args opts (some (c :: r)) st = .ok (some c,
      if r = [] then { st with optarg := none, optind := st.optind + 1 }
      else { st with optarg := none, next := some r })
  | [], _ => by
    unfold getoptChar
    simp only [StrPtr.char, StrPtr.next, Res.ok_bind]
    rw [hw, if_neg (by simp [h58]), if_pos (by simpa using hn)]
  | d :: r, h0 => by
    unfold getoptChar
    simp only [StrPtr.char, StrPtr.next, Res.ok_bind]
    rw [hw, if_neg (by simp [h58]), if_pos (by simpa using hn)]
    have : d ≠ 0 := fun h => h0 (by simp [h])
    rw [if_neg this, if_neg (by simp)]

theorem getoptChar_arg {args : List Bytes} {opts : Bytes} {c : UInt8} {st : GetoptState}
    (h58 : c ≠ 58) {w : Bytes} (hw : opts.dropWhile (· != c) = c :: 58 :: w) :
    ∀ r : Bytes, 0 ∉ r → getoptChar args opts (some (c :: r)) st =
      if r ≠ [] then .ok (some c, { st with optarg := some r, optind := st.optind + 1 })
      else if args.length ≤ st.optind + 1 then .ok (some 58, { st with optind := st.optind + 1 })
      else match args[st.optind + 1]? with
        | none => .ub
        | some v => .ok (some c, { st with optarg := some v, optind := st.optind + 1 + 1 })
  | [], _ => by
    unfold getoptChar
    simp only [StrPtr.char, StrPtr.next, Res.ok_bind]
    rw [hw, if_neg (by simp [h58]), if_neg (by simp)]
    simp only [ne_eq, not_true_eq_false, if_false]
    split <;> rfl
  | d :: r, h0 => by
    unfold getoptChar
    simp only [StrPtr.char, StrPtr.next, Res.ok_bind]
    rw [hw, if_neg (by simp [h58]), if_neg (by simp)]
    have : d ≠ 0 := fun h => h0 (by simp [h])
    rw [if_pos this, if_pos (by simp)]

theorem getoptChar_unknown {args : List Bytes} {opts : Bytes} {c : UInt8} {st : GetoptState}
    (hu : c = 58 ∨ opts.dropWhile (· != c) = []) :
    ∀ r : Bytes, 0 ∉ r → getoptChar args opts (some (c :: r)) st = .ok (some 63,
      if r = [] then { st with optind := st.optind + 1 } else st)
  | [], _ => by
    unfold getoptChar
    simp only [StrPtr.char, StrPtr.next, Res.ok_bind]
    rw [if_pos hu]
  | d :: r, h0 => by
    unfold getoptChar
    simp only [StrPtr.char, StrPtr.next, Res.ok_bind]
    rw [if_pos hu]
    have : d ≠ 0 := fun h => h0 (by simp [h])
    rw [if_neg this, if_neg (by simp)]

/-- The next character to look at is the first one of `q`. -/
def At (args : List Bytes) (st : GetoptState) (q : Bytes) : Prop :=
  st.next = some q ∨ (st.next = none ∧ args[st.optind]? = some (45 :: q) ∧ q.head? ≠ some 45 ∧ q ≠ [])

theorem getopt_at {args : List Bytes} {opts : Bytes} {st : GetoptState} {q : Bytes} (h : At args st q) :
    getopt args opts st = getoptChar args opts (some q) { st with next := none } := by
  unfold getopt
  rcases h with h | ⟨h1, h2, h3, h4⟩
  · rw [h]
  · obtain ⟨i, oa, nx⟩ := st
    dsimp only at h1 h2 ⊢
    subst h1
    have hlt : i < args.length := (List.getElem?_eq_some_iff.1 h2).1
    rw [if_neg (by omega)]
    simp only [h2, StrPtr.char, StrPtr.next, Res.ok_bind]
    rw [if_neg (by decide), if_neg (by decide)]
    cases q with
    | nil => exact absurd rfl h4
    | cons c r =>
      simp only [Res.ok_bind]
      rw [if_neg (by intro h; exact h3 (by simp [h]))]

/-- The settings after one option. -/
def setOne (s : Settings) (e : UInt8 × Option Bytes) : Settings :=
  { allocation := s.allocation || e.1 == 97
    verbose := s.verbose || e.1 == 118
    codepage := if e.1 = 99 then e.2 else s.codepage
    log := if e.1 = 108 then e.2 else s.log
    target := if e.1 = 116 then e.2 else s.target
    extended := if e.1 = 88 then e.2 else s.extended }

/-- Options up to the first -h or -V, then `k`. -/
def finish (s : Settings) (es : List (UInt8 × Option Bytes)) (k : Settings → Res Command) : Res Command :=
  match es with
  | [] => k s
  | e :: es => if e.1 = 104 then .ok .usage else if e.1 = 86 then .ok .version else finish (setOne s e) es k

theorem finish_append (k : Settings → Res Command) : ∀ (a b : List (UInt8 × Option Bytes)) (s : Settings),
    finish s (a ++ b) k = finish s a fun s' => finish s' b k
  | [], _, _ => rfl
  | e :: a, b, s => by
    rw [List.cons_append]
    unfold finish
    rw [finish_append k a b]

theorem finish_find (k : Settings → Res Command) : ∀ (es : List (UInt8 × Option Bytes)) (s : Settings),
    finish s es k = match es.find? fun x => x.1 = 104 ∨ x.1 = 86 with
      | some x => .ok (if x.1 = 104 then .usage else .version)
      | none => k (es.foldl setOne s)
  | [], _ => rfl
  | e :: es, s => by
    unfold finish
    by_cases h1 : e.1 = 104
    · rw [if_pos h1, List.find?_cons_of_pos (by simp [h1])]
      simp [h1]
    · rw [if_neg h1]
      by_cases h2 : e.1 = 86
      · rw [if_pos h2, List.find?_cons_of_pos (by simp [h2])]
        simp [h2]
      · rw [if_neg h2, List.find?_cons_of_neg (by simp [h1, h2]), finish_find k es]
        rfl

theorem lastArg_cons (e : UInt8 × Option Bytes) (es : List (UInt8 × Option Bytes)) (c : UInt8)
    (h : ∀ x ∈ e :: es, x.1 = c → x.2 ≠ none) (o : Option Bytes) :
    (lastArg (e :: es) c).or o = (lastArg es c).or (if e.1 = c then e.2 else o) := by
  unfold lastArg
  rw [List.filterMap_cons]
  by_cases hc : e.1 = c
  · rw [if_pos hc, if_pos hc]
    cases hv : e.2 with
    | none => exact absurd hv (h e List.mem_cons_self hc)
    | some v =>
      dsimp only
      generalize es.filterMap (fun e => if e.1 = c then e.2 else none) = l
      cases l with
      | nil => rfl
      | cons a l => simp [List.getLast?_cons]
  · rw [if_neg hc, if_neg hc]

theorem foldl_setOne : ∀ (es : List (UInt8 × Option Bytes)) (s : Settings),
    (∀ x ∈ es, x.1 ∈ [99, 108, 116, 88] → x.2 ≠ none) →
    es.foldl setOne s = { allocation := s.allocation || (settingsOf es).allocation
                          verbose := s.verbose || (settingsOf es).verbose
                          codepage := (settingsOf es).codepage.or s.codepage
                          log := (settingsOf es).log.or s.log
                          target := (settingsOf es).target.or s.target
                          extended := (settingsOf es).extended.or s.extended }
  | [], s, _ => by
    obtain ⟨a, v, c, l, t, e⟩ := s
    simp [settingsOf, lastArg]
  | e :: es, s, h => by
    rw [List.foldl_cons, foldl_setOne es _ fun x hx => h x (List.mem_cons_of_mem _ hx)]
    have hx : ∀ c ∈ [(99 : UInt8), 108, 116, 88], ∀ x ∈ e :: es, x.1 = c → x.2 ≠ none :=
      fun c hc x hx hxc => h x hx (hxc ▸ hc)
    have h1 := lastArg_cons e es 99 (hx 99 (by simp)) s.codepage
    have h2 := lastArg_cons e es 108 (hx 108 (by simp)) s.log
    have h3 := lastArg_cons e es 116 (hx 116 (by simp)) s.target
    have h4 := lastArg_cons e es 88 (hx 88 (by simp)) s.extended
    simp only [settingsOf, setOne, h1, h2, h3, h4, List.any_cons, Bool.or_assoc]

theorem foldl_setOne_settings (es : List (UInt8 × Option Bytes))
    (h : ∀ x ∈ es, x.1 ∈ [99, 108, 116, 88] → x.2 ≠ none) : es.foldl setOne {} = settingsOf es := by
  rw [foldl_setOne es {} h]
  simp [settingsOf]

/-! ### The options of the tools -/

theorem options_flag (t : Tool) : ∀ c ∈ flagsOf t, c ≠ 58 ∧ c ≠ 45 ∧ c ∉ [99, 108, 116, 88] ∧
    ∃ w, t.options.dropWhile (· != c) = c :: w ∧ w.headD 0 ≠ 58 := by
  intro c hc
  cases t <;> simp only [flagsOf, List.mem_cons, List.not_mem_nil, or_false] at hc
  · rcases hc with rfl | rfl | rfl <;> exact ⟨by decide, by decide, by decide, _, rfl, by decide⟩
  · rcases hc with rfl | rfl | rfl | rfl <;> exact ⟨by decide, by decide, by decide, _, rfl, by decide⟩
  · rcases hc with rfl | rfl | rfl <;> exact ⟨by decide, by decide, by decide, _, rfl, by decide⟩

theorem options_arg (t : Tool) : ∀ c ∈ withArgOf t, c ≠ 58 ∧ c ≠ 45 ∧
    ∃ w, t.options.dropWhile (· != c) = c :: 58 :: w := by
  intro c hc
  cases t <;> simp only [withArgOf, List.mem_cons, List.not_mem_nil, or_false] at hc
  · rcases hc with rfl | rfl | rfl <;> exact ⟨by decide, by decide, _, rfl⟩
  · subst hc
    exact ⟨by decide, by decide, _, rfl⟩
  · rcases hc with rfl | rfl <;> exact ⟨by decide, by decide, _, rfl⟩

theorem options_unknown (t : Tool) {c : UInt8} (h1 : c ∉ flagsOf t) (h2 : c ∉ withArgOf t) :
    c = 58 ∨ t.options.dropWhile (· != c) = [] := by
  by_cases h : c = 58
  · exact .inl h
  · right
    have hd : ∀ l : Bytes, c ∉ l → l.dropWhile (· != c) = [] := by
      intro l
      induction l with
      | nil => exact fun _ => rfl
      | cons a l ih =>
        intro hl
        rw [List.dropWhile_cons_of_pos (by simpa using fun h => hl (by simp [h]))]
        exact ih fun h => hl (List.mem_cons_of_mem _ h)
    refine hd _ ?_
    cases t <;> simp only [flagsOf, withArgOf, Tool.options, List.mem_cons, List.not_mem_nil, or_false,
      not_or] at h1 h2 ⊢ <;> simp [h1, h2, h]

theorem switch_flag (t : Tool) (s : Settings) : ∀ c ∈ flagsOf t,
    t.switch c none s = if c = 104 then .usage else if c = 86 then .version else .set (setOne s (c, none)) := by
  intro c hc
  obtain ⟨a, v, cp, l, tg, ex⟩ := s
  cases t <;> simp only [flagsOf, List.mem_cons, List.not_mem_nil, or_false] at hc
  · rcases hc with rfl | rfl | rfl <;> simp [Tool.switch, setOne]
  · rcases hc with rfl | rfl | rfl | rfl <;> simp [Tool.switch, setOne]
  · rcases hc with rfl | rfl | rfl <;> simp [Tool.switch, setOne]

theorem switch_arg (t : Tool) (s : Settings) (v : Bytes) : ∀ c ∈ withArgOf t,
    t.switch c (some v) s = .set (setOne s (c, some v)) ∧ c ≠ 104 ∧ c ≠ 86 := by
  intro c hc
  obtain ⟨a, vb, cp, l, tg, ex⟩ := s
  cases t <;> simp only [withArgOf, List.mem_cons, List.not_mem_nil, or_false] at hc
  · rcases hc with rfl | rfl | rfl <;> simp [Tool.switch, setOne]
  · subst hc
    simp [Tool.switch, setOne]
  · rcases hc with rfl | rfl <;> simp [Tool.switch, setOne]

/-! ### The loop -/

/-- The rest of a round of the loop, with what `getopt` returned. -/
def loopNext (t : Tool) (args : List Bytes) (fuel : Nat) (s : Settings) (st' : GetoptState) :
    Option UInt8 → Res Command
  | none => t.operands args st'.optind s
  | some o => match t.switch o st'.optarg s with
    | .set s => t.loop args fuel st' s
    | .usage => .ok .usage
    | .version => .ok .version
    | .invalid => match args[st'.optind - 1]? with
      | none => .ub
      | some a => .ok (.invalid a)

theorem loop_succ (t : Tool) (args : List Bytes) (fuel : Nat) (st : GetoptState) (s : Settings)
    {o : Option UInt8} {st' : GetoptState} (h : getopt args t.options st = .ok (o, st')) :
    t.loop args (fuel + 1) st s = loopNext t args fuel s st' o := by
  rw [Tool.loop, h]
  cases o <;> rfl

/-- Flags in front of something else in their argument. -/
theorem loop_flags (t : Tool) (args : List Bytes) {tail : Bytes} (htail : tail ≠ []) (fuel : Nat) :
    ∀ (fs : Bytes) (st : GetoptState) (s : Settings), At args st (fs ++ tail) → 0 ∉ fs ++ tail →
    (∀ c ∈ fs, c ∈ flagsOf t) → ∃ st', At args st' tail ∧ st'.optind = st.optind ∧
      t.loop args (fuel + fs.length) st s = finish s (fs.map (·, none)) fun s' => t.loop args fuel st' s'
  | [], st, s, hat, _, _ => ⟨st, hat, rfl, rfl⟩
  | c :: fs, st, s, hat, h0, hf => by
    obtain ⟨h58, -, -, w, hw, hn⟩ := options_flag t c (hf c List.mem_cons_self)
    have hg := getopt_at (opts := t.options) hat
    have h0' : 0 ∉ fs ++ tail := fun h => h0 (List.mem_cons_of_mem _ h)
    rw [List.cons_append] at hg
    rw [getoptChar_flag h58 hw hn _ h0', if_neg (by simp [htail])] at hg
    rw [List.length_cons, ← Nat.add_assoc, loop_succ t args _ st s hg]
    unfold loopNext
    dsimp only
    rw [switch_flag t s c (hf c List.mem_cons_self), List.map_cons]
    obtain ⟨st', h1, h2, h3⟩ := loop_flags t args htail fuel fs
      { st with optarg := none, next := some (fs ++ tail) } (setOne s (c, none)) (.inl rfl) h0'
      fun c hc => hf c (List.mem_cons_of_mem _ hc)
    refine ⟨st', h1, h2, ?_⟩
    unfold finish
    dsimp only
    by_cases h1 : c = 104
    · rw [if_pos h1, if_pos h1]
    · rw [if_neg h1, if_neg h1]
      by_cases h2 : c = 86
      · rw [if_pos h2, if_pos h2]
      · rw [if_neg h2, if_neg h2]
        exact h3

/-- A group of flags. -/
theorem loop_group (t : Tool) (args : List Bytes) (fuel : Nat) (fs : Bytes) (hne : fs ≠ []) (st : GetoptState)
    (s : Settings) (hat : At args st fs) (h0 : 0 ∉ fs) (hf : ∀ c ∈ fs, c ∈ flagsOf t) :
    t.loop args (fuel + fs.length) st s =
      finish s (fs.map (·, none)) fun s' => t.loop args fuel ⟨st.optind + 1, none, none⟩ s' := by
  obtain ⟨c, gs, rfl⟩ : ∃ c gs, fs = gs ++ [c] := by
    have := List.dropLast_concat_getLast hne
    exact ⟨_, _, this.symm⟩
  have hcf := hf c (by simp)
  obtain ⟨st', h1, h2, h3⟩ := loop_flags t args (tail := [c]) (by simp) (fuel + 1) gs st s hat h0
    fun c hc => hf c (by simp [hc])
  rw [List.length_append, List.length_singleton, show fuel + (gs.length + 1) = fuel + 1 + gs.length by omega,
    h3, List.map_append, finish_append]
  congr 1
  funext s'
  obtain ⟨h58, -, -, w, hw, hn⟩ := options_flag t c hcf
  have hg := getopt_at (opts := t.options) h1
  rw [getoptChar_flag h58 hw hn _ (by simp), if_pos rfl] at hg
  rw [loop_succ t args _ st' s' hg]
  unfold loopNext
  dsimp only
  rw [switch_flag t s' c hcf, List.map_cons]
  unfold finish
  dsimp only
  rw [h2]
  by_cases h1 : c = 104
  · rw [if_pos h1, if_pos h1]
  · rw [if_neg h1, if_neg h1]
    by_cases h2 : c = 86
    · rw [if_pos h2, if_pos h2]
    · rw [if_neg h2, if_neg h2]
      rfl

end Olecf
