import Verif.Spec.PyError

/-
  C119: what the Python bindings tell of an error.
-/

namespace Olecf.Props

open Olecf Spec

theorem withError_eq : withError = " with error: ".toUTF8.toList := by decide +kernel

theorem point_eq : ([46] : Bytes) = ".".toUTF8.toList := by decide +kernel

theorem trimPoint_point (s : Bytes) : trimPoint (s ++ [46]) = s := by
  simp [trimPoint]

theorem trimPoint_other {s : Bytes} (h : s.getLast? ≠ some 46) : trimPoint s = s := by
  rw [trimPoint, if_neg fun k => h k.2]

theorem keptText_eq {s : Bytes} (h : s.length ≤ 2047) : keptText s = s := List.take_of_length_le h

theorem bytesAsString_eq {b : Bytes} (h : 0 ∉ b) : bytesAsString b = b := by
  induction b with
  | nil => rfl
  | cons c b ih =>
    have hc : c ≠ 0 := fun e => h (e ▸ List.mem_cons_self)
    have hb : 0 ∉ b := fun e => h (List.mem_cons_of_mem _ e)
    have ih := ih hb
    rw [bytesAsString] at ih ⊢
    rw [List.takeWhile_cons_of_pos (by simpa using hc), ih]

theorem erase_append_self {l : List Nat} {n : Nat} (h : ∀ o ∈ l, o < n) : (l ++ [n]).erase n = l := by
  rw [List.erase_append_right _ fun k => Nat.lt_irrefl _ (h n k)]
  simp

theorem refs_exist {s : PyErrState} {e : PyExc} (h : Exist s e) : ∀ o ∈ s.owned ++ e.refs, o < s.next := by
  intro o ho
  obtain ⟨h1, h2, h3, h4⟩ := h
  simp only [PyExc.refs, List.mem_append, List.mem_cons, Option.mem_toList] at ho
  rcases ho with k | k | k | k
  · exact h1 o k
  · exact k ▸ h2
  · exact h3 o k
  · exact h4 o k

/-- What `errorFetch` does with an exception that has a text. -/
theorem errorFetch_text {types : PyTypes} {repr : Nat → ReprResult} {text x : Bytes} {s : PyErrState} {e : PyExc}
    {v : Nat} (hs : s.set = some (.inl e)) (hv : e.value = some v) (hx : repr v = .text (some x)) (hex : Exist s e) :
    errorFetch types repr (some text) s =
      (.ok (some (trimPoint (keptText text) ++ withError ++ bytesAsString x ++ [46])),
        { set := none, owned := s.owned ++ e.refs, next := s.next + 2 }) := by
  have h1 := refs_exist hex
  have h2 : ∀ o ∈ (s.owned ++ e.refs) ++ [s.next], o < s.next + 1 := by
    intro o ho
    rcases List.mem_append.1 ho with k | k
    · exact Nat.lt_succ_of_lt (h1 o k)
    · rw [List.mem_singleton.1 k]; exact Nat.lt_succ_self _
  have h3 := erase_append_self h1
  have h4 := erase_append_self h2
  simp only [errorFetch, fetchText, pyErrFetch, hs, Option.bind, hv, hx, newObject, releaseRef]
  rw [h4, h3]

/-- What `errorFetchAndRaise` does with an exception that has a text. -/
theorem errorFetchAndRaise_text {types : PyTypes} {repr : Nat → ReprResult} {type : Nat} {text x : Bytes}
    {s : PyErrState} {e : PyExc} {v : Nat} (hs : s.set = some (.inl e)) (hv : e.value = some v)
    (hx : repr v = .text (some x)) (hex : Exist s e) :
    errorFetchAndRaise types repr type (some text) s =
      (.ok (), { set := some (.inr ⟨type, trimPoint (keptText text) ++ withError ++ bytesAsString x ++ [46]⟩),
                 owned := s.owned ++ e.refs ++ [s.next + 1], next := s.next + 2 }) := by
  have h1 := refs_exist hex
  have h3 : (s.owned ++ e.refs ++ [s.next] ++ [s.next + 1]).erase s.next = s.owned ++ e.refs ++ [s.next + 1] := by
    rw [List.erase_append_left _ (by simp), erase_append_self h1]
  simp only [errorFetchAndRaise, fetchText, pyErrFetch, hs, Option.bind, hv, hx, newObject, releaseRef, pyErrFormat]
  rw [h3]

/-- C119: an exception of Python code is told with its text.  For every exception of which `repr` gives a text, and
  every text of the bindings that fits, with or without a point at its end, the message is the text, " with error: "
  and the text of the exception; the exception is no longer set, or the one of the bindings is set with this message.
  Missing: exceptions of which `repr` fails, see `C119_repr_violated`, and the release of the exception, see
  `C119_kept_violated`. -/
theorem C119_told_partial (types : PyTypes) (repr : Nat → ReprResult) (type : Nat) (text x : Bytes) (s : PyErrState)
    (e : PyExc) (v : Nat) (hs : s.set = some (.inl e)) (hv : e.value = some v) (hx : repr v = .text (some x))
    (h0 : 0 ∉ x) (hex : Exist s e) (hlen : text.length < 2047) (hend : text.getLast? ≠ some '.'.toUInt8)
    (t : Bytes) (ht : t = text ∨ t = text ++ ".".toUTF8.toList) :
    (errorFetch types repr (some t) s).1 = .ok (some (told text x)) ∧
    (errorFetch types repr (some t) s).2.set = none ∧
    (errorFetchAndRaise types repr type (some t) s).1 = .ok () ∧
    (errorFetchAndRaise types repr type (some t) s).2.set = some (.inr ⟨type, told text x⟩) := by
  have hkept : trimPoint (keptText t) = text := by
    rcases ht with rfl | rfl
    · rw [keptText_eq (Nat.le_of_lt hlen), trimPoint_other hend]
    · rw [← point_eq, keptText_eq (by rw [List.length_append]; exact hlen), trimPoint_point]
  rw [errorFetch_text hs hv hx hex, errorFetchAndRaise_text hs hv hx hex, hkept, bytesAsString_eq h0, withError_eq,
    point_eq]
  exact ⟨rfl, rfl, rfl, rfl⟩

/-- C119: the bindings raise also if the exception of Python code has no text that can be encoded, or there is none, and
  if their own text cannot be formatted.  In the first case the message is the text with its point, in the second the
  exception has the text that Python gives for no object, in the last a ValueError is set. -/
theorem C119_raised_without_text (types : PyTypes) (repr : Nat → ReprResult) (type : Nat) (text : Bytes)
    (s : PyErrState) (hlen : text.length < 2047) (hend : text.getLast? ≠ some '.'.toUInt8)
    (t : Bytes) (ht : t = text ∨ t = text ++ ".".toUTF8.toList) :
    (∀ e v, s.set = some (.inl e) → e.value = some v → repr v = .text none →
      (errorFetch types repr (some t) s).1 = .ok (some (text ++ ".".toUTF8.toList)) ∧
      (errorFetchAndRaise types repr type (some t) s).1 = .ok () ∧
      (errorFetchAndRaise types repr type (some t) s).2.set = some (.inr ⟨type, text ++ ".".toUTF8.toList⟩)) ∧
    (s.set = none →
      (errorFetch types repr (some t) s).1 = .ok (some (told text "<NULL>".toUTF8.toList)) ∧
      (errorFetchAndRaise types repr type (some t) s).1 = .ok () ∧
      (errorFetchAndRaise types repr type (some t) s).2.set = some (.inr ⟨type, told text "<NULL>".toUTF8.toList⟩)) ∧
    ((errorFetch types repr none s).1 = .ok none ∧
      (errorFetchAndRaise types repr type none s).1 = .ok () ∧
      (∃ m, (errorFetch types repr none s).2.set = some (.inr ⟨types.valueError, m⟩)) ∧
      ∃ m, (errorFetchAndRaise types repr type none s).2.set = some (.inr ⟨types.valueError, m⟩)) := by
  have hkept : trimPoint (keptText t) = text := by
    rcases ht with rfl | rfl
    · rw [keptText_eq (Nat.le_of_lt hlen), trimPoint_other hend]
    · rw [← point_eq, keptText_eq (by rw [List.length_append]; exact hlen), trimPoint_point]
  have hnull : bytesAsString [60, 78, 85, 76, 76, 62] = "<NULL>".toUTF8.toList := by decide +kernel
  refine ⟨fun e v hs hv hx => ?_, fun hs => ?_, rfl, rfl, ⟨_, rfl⟩, ⟨_, rfl⟩⟩
  · simp [errorFetch, errorFetchAndRaise, fetchText, pyErrFetch, hs, hv, hx, newObject, releaseRef, pyErrFormat,
      hkept]
    exact point_eq
  · simp [errorFetch, errorFetchAndRaise, fetchText, pyErrFetch, hs, nullRepr, newObject, releaseRef, pyErrFormat,
      hkept, hnull, withError_eq, point_eq, told]

/-- C119, the negation: an exception of which `repr` fails is undefined behavior in both functions, whatever the
  text. -/
theorem C119_repr_violated (types : PyTypes) (repr : Nat → ReprResult) (type : Nat) (text : Bytes) (s : PyErrState)
    (e : PyExc) (v : Nat) (hs : s.set = some (.inl e)) (hv : e.value = some v) (hx : repr v = .failed) :
    (errorFetch types repr (some text) s).1 = .ub ∧
    (errorFetchAndRaise types repr type (some text) s).1 = .ub := by
  simp [errorFetch, errorFetchAndRaise, fetchText, pyErrFetch, hs, hv, hx]

theorem errorFetches_owned {types : PyTypes} {repr : Nat → ReprResult} :
    ∀ {l : List (PyExc × Bytes)} {s : PyErrState},
      (∀ p ∈ l, Exist s p.1 ∧ ∃ v x, p.1.value = some v ∧ repr v = .text (some x)) →
      (errorFetches types repr l s).owned = s.owned ++ l.flatMap fun p => p.1.refs := by
  intro l
  induction l with
  | nil => intro s _; simp [errorFetches]
  | cons p l ih =>
    intro s h
    obtain ⟨e, text⟩ := p
    obtain ⟨hex, v, x, hv, hx⟩ := h (e, text) List.mem_cons_self
    have hex' : Exist { s with set := some (.inl e) } e := hex
    have hstep := errorFetch_text (types := types) (text := text) (s := { s with set := some (.inl e) }) rfl hv hx hex'
    rw [errorFetches, hstep]
    refine (ih fun q hq => ?_).trans ?_
    · obtain ⟨⟨_, k2, k3, k4⟩, k⟩ := h q (List.mem_cons_of_mem _ hq)
      refine ⟨⟨fun o ho => ?_, Nat.lt_add_right 2 k2, fun o ho => Nat.lt_add_right 2 (k3 o ho),
        fun o ho => Nat.lt_add_right 2 (k4 o ho)⟩, k⟩
      exact Nat.lt_add_right 2 (refs_exist hex' o ho)
    · simp

/-- C119, the negation: what Python code raised is never released.  After any number of failing calls, the bindings
  own one reference more to the type, the value and the traceback of each of the exceptions than before: an exception
  object that is raised `k` times has `k` references more, so it is not freed, nor are the frames of its
  traceback.  If the bindings raise at once, the bytes object of the text is not freed either. -/
theorem C119_kept_violated (types : PyTypes) (repr : Nat → ReprResult) (l : List (PyExc × Bytes)) (s : PyErrState)
    (h : ∀ p ∈ l, Exist s p.1 ∧ ∃ v x, p.1.value = some v ∧ repr v = .text (some x)) :
    (∀ o, references o (errorFetches types repr l s).owned =
      references o s.owned + (l.map fun p => references o p.1.refs).sum) ∧
    ∀ p ∈ l, s.set = some (.inl p.1) → ∀ type,
      ∃ bytes, bytes ∉ s.owned ∧ bytes ∉ p.1.refs ∧
        bytes ∈ (errorFetchAndRaise types repr type (some p.2) s).2.owned := by
  refine ⟨fun o => ?_, fun p hp hs type => ?_⟩
  · rw [errorFetches_owned h, references, List.count_append, List.count_flatMap]
    rfl
  · obtain ⟨hex, v, x, hv, hx⟩ := h p hp
    rw [errorFetchAndRaise_text hs hv hx hex]
    have k := refs_exist hex
    exact ⟨s.next + 1, fun m => by have := k _ (List.mem_append_left _ m); omega,
      fun m => by have := k _ (List.mem_append_right _ m); omega, by simp⟩

theorem lineLoop_length : ∀ b : Bytes, (lineLoop b).1.length = b.length := by
  intro b
  induction b with
  | nil => rfl
  | cons c b ih =>
    rw [lineLoop]
    by_cases h : c = 0
    · rw [if_pos h]
    · rw [if_neg h]; simp [ih]

theorem lineLoop_zero {s rest : Bytes} (h : 0 ∉ s) :
    lineLoop (s ++ 0 :: rest) = (onOneLine s ++ 0 :: rest, true) := by
  induction s with
  | nil => simp [lineLoop, onOneLine]
  | cons c s ih =>
    have hc : c ≠ 0 := fun e => h (e ▸ List.mem_cons_self)
    have hs : 0 ∉ s := fun e => h (List.mem_cons_of_mem _ e)
    rw [List.cons_append, lineLoop, if_neg hc, ih hs]
    rfl

theorem lineLoop_none {s : Bytes} (h : 0 ∉ s) : lineLoop s = (onOneLine s, false) := by
  induction s with
  | nil => rfl
  | cons c s ih =>
    have hc : c ≠ 0 := fun e => h (e ▸ List.mem_cons_self)
    have hs : 0 ∉ s := fun e => h (List.mem_cons_of_mem _ e)
    rw [lineLoop, if_neg hc, ih hs]
    rfl

theorem onOneLine_zero {s : Bytes} (h : 0 ∉ s) : 0 ∉ onOneLine s := by
  intro k
  obtain ⟨c, hc, k⟩ := List.mem_map.1 k
  by_cases hb : c = '\n'.toUInt8 ∨ c = '\r'.toUInt8
  · rw [if_pos hb] at k; exact absurd k (by decide)
  · rw [if_neg hb] at k; exact h (k ▸ hc)

theorem bufferString_zero {s rest : Bytes} (h : 0 ∉ s) : bufferString (s ++ 0 :: rest) = .ok s := by
  induction s with
  | nil => simp [bufferString]
  | cons c s ih =>
    have hc : c ≠ 0 := fun e => h (e ▸ List.mem_cons_self)
    have hs : 0 ∉ s := fun e => h (List.mem_cons_of_mem _ e)
    rw [List.cons_append, bufferString, if_neg hc, ih hs]

/-- A buffer holds a string and its end, or it has no end. -/
theorem buffer_cases : ∀ b : Bytes, 0 ∉ b ∨ ∃ s rest, b = s ++ 0 :: rest ∧ 0 ∉ s := by
  intro b
  induction b with
  | nil => exact Or.inl (by simp)
  | cons c b ih =>
    by_cases hc : c = 0
    · exact Or.inr ⟨[], b, by rw [hc]; rfl, by simp⟩
    · rcases ih with k | ⟨s, rest, rfl, k⟩
      · exact Or.inl fun m => (List.mem_cons.1 m).elim (fun e => hc e.symm) k
      · exact Or.inr ⟨c :: s, rest, rfl, fun m => (List.mem_cons.1 m).elim (fun e => hc e.symm) k⟩

/-- C119: an error of the library is told on one line, in bounds.  For every text and whatever is in the buffer of 2048
  bytes after the backtrace was printed into it, ended or not, an exception is set; its message is the text and, if
  there is a backtrace, a space and the string in the buffer with spaces for line breaks, of which the last byte is
  lost if the buffer has no end.  Nothing is owned in addition. -/
theorem C119_raised (types : PyTypes) (type : Nat) (text : Bytes) (hlen : text.length ≤ 2047) (s : PyErrState) :
    errorRaise types type (some text) none s = (.ok (), { s with set := some (.inr ⟨type, text⟩) }) ∧
    (∀ trace rest : Bytes, 0 ∉ trace →
      errorRaise types type (some text) (some (trace ++ 0 :: rest)) s =
        (.ok (), { s with set := some (.inr ⟨type, text ++ " ".toUTF8.toList ++ onOneLine trace⟩) })) ∧
    (∀ buffer : Bytes, 0 ∉ buffer → buffer.length = 2048 →
      errorRaise types type (some text) (some buffer) s =
        (.ok (), { s with set := some (.inr ⟨type, text ++ " ".toUTF8.toList ++ onOneLine (buffer.take 2047)⟩) })) ∧
    (∀ buffer : Bytes, buffer.length = 2048 →
      ∃ message, errorRaise types type (some text) (some buffer) s =
          (.ok (), { s with set := some (.inr ⟨type, message⟩) }) ∧
        message.length ≤ 2 * 2047 + 1 ∧
        ∃ line, message = text ++ line ∧ '\n'.toUInt8 ∉ line ∧ '\r'.toUInt8 ∉ line) := by
  have hspace : ([32] : Bytes) = " ".toUTF8.toList := by decide +kernel
  have h2 : ∀ trace rest : Bytes, 0 ∉ trace →
      errorRaise types type (some text) (some (trace ++ 0 :: rest)) s =
        (.ok (), { s with set := some (.inr ⟨type, text ++ " ".toUTF8.toList ++ onOneLine trace⟩) }) := by
    intro trace rest h
    simp only [errorRaise, lineLoop_zero h, if_true, bufferString_zero (onOneLine_zero h), pyErrFormat,
      keptText_eq hlen, hspace]
  have h3 : ∀ buffer : Bytes, 0 ∉ buffer → buffer.length = 2048 →
      errorRaise types type (some text) (some buffer) s =
        (.ok (), { s with set := some (.inr ⟨type, text ++ " ".toUTF8.toList ++ onOneLine (buffer.take 2047)⟩) }) := by
    intro buffer h hl
    have hset : (onOneLine buffer).set 2047 0 = onOneLine (buffer.take 2047) ++ 0 :: [] := by
      have hl' : (onOneLine buffer).length = 2047 + 1 := by simpa [onOneLine] using hl
      rw [List.set_eq_take_append_cons_drop, if_pos (by omega), List.drop_eq_nil_of_le (by omega)]
      simp [onOneLine, List.map_take]
    have ht : 0 ∉ buffer.take 2047 := fun m => h (List.mem_of_mem_take m)
    simp only [errorRaise, lineLoop_none h, Bool.false_eq_true, if_false, hset,
      bufferString_zero (onOneLine_zero ht), pyErrFormat, keptText_eq hlen, hspace]
  refine ⟨by simp [errorRaise, pyErrFormat, keptText_eq hlen], h2, h3, fun buffer hl => ?_⟩
  have hbreak : ∀ t : Bytes, ∀ c ∈ onOneLine t, c ≠ '\n'.toUInt8 ∧ c ≠ '\r'.toUInt8 := by
    intro t c hc
    obtain ⟨d, _, rfl⟩ := List.mem_map.1 hc
    by_cases hb : d = '\n'.toUInt8 ∨ d = '\r'.toUInt8
    · rw [if_pos hb]; decide
    · rw [if_neg hb]; exact ⟨fun e => hb (Or.inl e), fun e => hb (Or.inr e)⟩
  have hmsg : ∀ t : Bytes, t.length ≤ 2047 →
      (text ++ " ".toUTF8.toList ++ onOneLine t).length ≤ 2 * 2047 + 1 ∧
      ∃ line, text ++ " ".toUTF8.toList ++ onOneLine t = text ++ line ∧ '\n'.toUInt8 ∉ line ∧ '\r'.toUInt8 ∉ line := by
    intro t ht
    have hlength : (onOneLine t).length = t.length := by simp [onOneLine]
    rw [← hspace, List.append_assoc]
    refine ⟨by simp only [List.length_append, List.length_cons, List.length_nil, hlength]; omega, _, rfl, ?_, ?_⟩
    · intro m
      rcases List.mem_append.1 m with m | m
      · exact absurd m (by decide)
      · exact (hbreak t _ m).1 rfl
    · intro m
      rcases List.mem_append.1 m with m | m
      · exact absurd m (by decide)
      · exact (hbreak t _ m).2 rfl
  rcases buffer_cases buffer with k | ⟨t, rest, rfl, k⟩
  · exact ⟨_, h3 buffer k hl, hmsg _ (by rw [List.length_take]; omega)⟩
  · exact ⟨_, h2 t rest k, hmsg _ (by simp at hl; omega)⟩

/-- A type 1, a value 2, a traceback 3, of which `repr` is "E()"; and one of which `repr` fails. -/
def sampleExc : PyExc := ⟨1, some 2, some 3⟩

def sampleRepr : Nat → ReprResult := fun o => if o = 2 then .text (some "E()".toUTF8.toList) else .failed

def sampleTypes : PyTypes := ⟨0, ⟨4, none, none⟩, ⟨5, none, none⟩⟩

/-- The hypotheses of `C119_told_partial` are met: "f: unable to read." with an exception E(). -/
example : (errorFetch sampleTypes sampleRepr (some ("f: unable to read".toUTF8.toList ++ ".".toUTF8.toList))
    ⟨some (.inl sampleExc), [], 10⟩).1 = .ok (some "f: unable to read with error: E().".toUTF8.toList) := by
  have h := (C119_told_partial sampleTypes sampleRepr 6 "f: unable to read".toUTF8.toList "E()".toUTF8.toList
    ⟨some (.inl sampleExc), [], 10⟩ sampleExc 2 rfl rfl (by rfl) (by decide +kernel)
    ⟨by simp, by decide, by decide, by decide⟩ (by decide +kernel) (by decide +kernel) _ (Or.inr rfl)).1
  rw [h]; decide +kernel

/-- Those of `C119_repr_violated` are: the value 7 has no text. -/
example : (errorFetch sampleTypes sampleRepr (some []) ⟨some (.inl ⟨1, some 7, none⟩), [], 10⟩).1 = .ub :=
  (C119_repr_violated sampleTypes sampleRepr 6 [] ⟨some (.inl ⟨1, some 7, none⟩), [], 10⟩ ⟨1, some 7, none⟩ 7 rfl rfl
    (by decide +kernel)).1

/-- Those of `C119_kept_violated` are: after five failing reads there are five references to the exception 2. -/
example : references 2 (errorFetches sampleTypes sampleRepr (List.replicate 5 (sampleExc, [])) ⟨none, [], 10⟩).owned =
    5 := by
  refine ((C119_kept_violated sampleTypes sampleRepr (List.replicate 5 (sampleExc, [])) ⟨none, [], 10⟩
    fun p hp => ?_).1 2).trans (by decide)
  rw [List.eq_of_mem_replicate hp]
  exact ⟨⟨by simp, by decide, by decide, by decide⟩, 2, _, rfl, rfl⟩

/-- Those of `C119_raised` are: a backtrace of two lines. -/
example : (errorRaise sampleTypes 6 (some "f: failed.".toUTF8.toList) (some ("a\nb".toUTF8.toList ++ 0 :: [1, 2]))
    ⟨none, [], 10⟩).2.set = some (.inr ⟨6, "f: failed. a b".toUTF8.toList⟩) := by
  rw [(C119_raised sampleTypes 6 "f: failed.".toUTF8.toList (by decide +kernel) ⟨none, [], 10⟩).2.1
    "a\nb".toUTF8.toList [1, 2] (by decide +kernel)]
  decide +kernel

end Olecf.Props
