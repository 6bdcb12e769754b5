import Verif.Lemmas.PyTime

/-
  Property C68: the datetime that the Python bindings give for a FILETIME is its instant.
-/

namespace Olecf.Props
open Olecf.Spec Olecf.Lemmas

/-- The conversion for any 64-bit value: outside 31 December 1699 the fields given to Python's
  constructor are those of an existing date (of any year) at the instant of the FILETIME. -/
theorem filetime_fields {api : DateTimeApi} {ft : Nat} (h64 : ft < 2 ^ 64)
    (hday : ft / 864000000000 ≠ 36158) :
    ∃ t : PyDateTime, 1 ≤ t.year ∧ 1 ≤ t.month ∧ t.month ≤ 12 ∧ 1 ≤ t.day ∧
      t.day ≤ monthDays t.year t.month ∧ t.hour < 24 ∧ t.minute < 60 ∧ t.second < 60 ∧
      t.micro < 1000000 ∧ microsOf t = filetimeMicros ft ∧
      datetimeFromFiletime api ft = match api.make t with | some t => .ok t | none => .err := by
  have hd : ft / 10000000 / 60 / 60 / 24 = ft / 864000000000 := by
    simp only [Nat.div_div_eq_div_mul]
  have hdays : ∃ y m d, 1 ≤ y ∧ 1 ≤ m ∧ m ≤ 12 ∧ 1 ≤ d ∧ d ≤ monthDays y m ∧
      daysBeforeYear y + daysBeforeMonth y m + d = 584388 + (ft / 864000000000 + 1) ∧
      datetimeFromFiletime api ft =
        match api.make ⟨y, m, d, ft / 10000000 / 60 / 60 % 24, ft / 10000000 / 60 % 60,
          ft / 10000000 % 60, ft % 10000000 / 10⟩ with
        | some t => .ok t
        | none => .err := by
    unfold datetimeFromFiletime
    dsimp only
    rw [hd, Nat.mod_eq_of_lt (show ft / 864000000000 + 1 < 2 ^ 64 by omega)]
    split
    · obtain ⟨y, m, d, h1, h2, h3, h4, h5, h6, h7⟩ :=
        elements_spec (api := api) (year := 1700) (days := ft / 864000000000 + 1 - 36159)
          (ft / 10000000 / 60 / 60 % 24) (ft / 10000000 / 60 % 60)
          (ft / 10000000 % 60) (ft % 10000000 / 10) (by omega) (by omega) (by omega) (by omega)
      refine ⟨y, m, d, h1, h2, h3, h4, h5, ?_, h7⟩
      rw [h6, show (1700 : Nat) = 1699 + 1 from rfl, daysBeforeYear_closed]
      omega
    · obtain ⟨y, m, d, h1, h2, h3, h4, h5, h6, h7⟩ :=
        elements_spec (api := api) (year := 1601) (days := ft / 864000000000 + 1)
          (ft / 10000000 / 60 / 60 % 24) (ft / 10000000 / 60 % 60)
          (ft / 10000000 % 60) (ft % 10000000 / 10) (by omega) (by omega) (by omega) (by omega)
      refine ⟨y, m, d, h1, h2, h3, h4, h5, ?_, h7⟩
      rw [h6, show (1601 : Nat) = 1600 + 1 from rfl, daysBeforeYear_closed]
  obtain ⟨y, m, d, h1, h2, h3, h4, h5, h6, h7⟩ := hdays
  refine ⟨_, h1, h2, h3, h4, h5, Nat.mod_lt _ (by omega), Nat.mod_lt _ (by omega),
    Nat.mod_lt _ (by omega), by dsimp only; omega, ?_, h7⟩
  unfold microsOf filetimeMicros
  dsimp only
  rw [dayNumber_1601]
  unfold dayNumber
  rw [show daysBeforeYear y + daysBeforeMonth y m + (d - 1) = 584388 + ft / 864000000000 by omega]
  omega

/-- **C68** (partial: not 31 December 1699).  For every FILETIME before the year 10000 that does not
  lie on 31 December 1699, the bindings give an existing date and time, and it is the instant of the
  FILETIME to the microsecond. -/
theorem C68_datetime_partial {api : DateTimeApi} (hapi : IsPython api) {ft : Nat}
    (h64 : ft < 2 ^ 64) (hrange : filetimeMicros ft < dayNumber 10000 1 1 * 86400000000)
    (hday : dayNumber 1601 1 1 + ft / 864000000000 ≠ dayNumber 1699 12 31) :
    ∃ t, datetimeFromFiletime api ft = .ok t ∧ ValidDateTime t ∧ microsOf t = filetimeMicros ft := by
  have h1699 : dayNumber 1699 12 31 = 620546 := by
    unfold dayNumber
    rw [show (1699 : Nat) = 1698 + 1 from rfl, daysBeforeYear_closed]
    rfl
  rw [dayNumber_1601, h1699] at hday
  obtain ⟨t, h1, h2, h3, h4, h5, h6, h7, h8, h9, h10, h11⟩ :=
    filetime_fields (api := api) h64 (by omega)
  have hy : t.year ≤ 9999 := by
    rcases Nat.lt_or_ge 9999 t.year with hgt | hle
    · exfalso
      have hge : daysBeforeYear 10000 ≤ daysBeforeYear t.year := by
        rcases Nat.lt_or_ge 10000 t.year with h | h
        · have := daysBeforeYear_lt (y := 10000) (by omega) h
          omega
        · have h' : t.year = 10000 := by omega
          exact Nat.le_of_eq (by rw [h'])
      rw [← h10] at hrange
      unfold microsOf dayNumber at hrange
      rw [daysBeforeMonth_one] at hrange
      omega
    · exact hle
  have hv : ValidDateTime t := ⟨⟨h1, hy⟩, ⟨h2, h3⟩, ⟨h4, h5⟩, h6, h7, h8, h9⟩
  refine ⟨t, ?_, hv, h10⟩
  rw [h11, hapi.1 t hv]

/-- Different dates and times are different instants, so that the instant says all. -/
theorem C68_instant_unique {s t : PyDateTime} (hs : ValidDateTime s) (ht : ValidDateTime t)
    (h : microsOf s = microsOf t) : s = t := by
  have h1 := hs.hour; have h2 := hs.minute; have h3 := hs.second; have h4 := hs.micro
  have g1 := ht.hour; have g2 := ht.minute; have g3 := ht.second; have g4 := ht.micro
  unfold microsOf at h
  have hday : dayNumber s.year s.month s.day = dayNumber t.year t.month t.day := by omega
  have hhour : s.hour = t.hour := by omega
  have hminute : s.minute = t.minute := by omega
  have hsecond : s.second = t.second := by omega
  have hmicro : s.micro = t.micro := by omega
  clear h
  have bound : ∀ {u : PyDateTime}, ValidDateTime u →
      daysBeforeMonth u.year u.month + u.day ≤ yearDays u.year := by
    intro u hu
    have := daysBeforeMonth_lt (y := u.year) (m := u.month) (n := 13) hu.month.1
      (by have := hu.month.2; omega) (Nat.le_refl _)
    rw [daysBeforeMonth_all] at this
    have := hu.day.2
    omega
  have bs := bound hs
  have bt := bound ht
  have ds := hs.day
  have dt := ht.day
  unfold dayNumber at hday
  have hyear : s.year = t.year := by
    rcases Nat.lt_trichotomy s.year t.year with hlt | heq | hgt
    · have := daysBeforeYear_lt hs.year.1 hlt; omega
    · exact heq
    · have := daysBeforeYear_lt ht.year.1 hgt; omega
  rw [hyear] at hday ds bs
  have hmonth : s.month = t.month := by
    rcases Nat.lt_trichotomy s.month t.month with hlt | heq | hgt
    · have := daysBeforeMonth_lt (y := t.year) hs.month.1 hlt (by have := ht.month.2; omega); omega
    · exact heq
    · have := daysBeforeMonth_lt (y := t.year) ht.month.1 hgt (by have := hs.month.2; omega); omega
  rw [hmonth] at hday
  have hd : s.day = t.day := by omega
  cases s
  cases t
  simp_all

/-- On 31 December 1699 the bindings raise an error, for every time of the day. -/
theorem C68_last_day_1699 {api : DateTimeApi} (hapi : IsPython api) {ft : Nat}
    (hday : dayNumber 1601 1 1 + ft / 864000000000 = dayNumber 1699 12 31) :
    datetimeFromFiletime api ft = .err := by
  have h1699 : dayNumber 1699 12 31 = 620546 := by
    unfold dayNumber
    rw [show (1699 : Nat) = 1698 + 1 from rfl, daysBeforeYear_closed]
    rfl
  rw [dayNumber_1601, h1699] at hday
  have hd : ft / 10000000 / 60 / 60 / 24 = 36158 := by
    simp only [Nat.div_div_eq_div_mul]
    omega
  unfold datetimeFromFiletime
  dsimp only
  rw [hd]
  rw [if_pos (by omega), show (36158 + 1) % 2 ^ 64 - 36159 = 0 from rfl]
  unfold datetimeFromElements
  rw [show centuryLoop 1700 0 = (1700, 0) by unfold centuryLoop; rfl]
  dsimp only
  rw [show yearLoop 1700 0 = (1700, 0) by unfold yearLoop; rfl]
  dsimp only
  rw [show monthLoop 1700 13 1 0 = some (1, 0) from rfl]
  dsimp only
  rw [hapi.2 _ (fun hv => by have := hv.day.1; dsimp only at this; omega)]

/-- **C68 is violated**: noon of 31 December 1699 exists, is the instant of a FILETIME, and the
  bindings raise an error for that FILETIME. -/
theorem C68_datetime_violated {api : DateTimeApi} (hapi : IsPython api) :
    ∃ ft t, ft < 2 ^ 64 ∧ ValidDateTime t ∧ microsOf t = filetimeMicros ft ∧
      datetimeFromFiletime api ft = .err := by
  have h1699 : dayNumber 1699 12 31 = 620546 := by
    unfold dayNumber
    rw [show (1699 : Nat) = 1698 + 1 from rfl, daysBeforeYear_closed]
    rfl
  refine ⟨36158 * 864000000000 + 432000000000, ⟨1699, 12, 31, 12, 0, 0, 0⟩, by decide,
    ⟨by decide, by decide, by decide, by decide, by decide, by decide, by decide⟩, ?_,
    C68_last_day_1699 hapi ?_⟩
  · unfold microsOf filetimeMicros
    dsimp only
    rw [dayNumber_1601, h1699]
  · rw [dayNumber_1601, h1699]

/-- A FILETIME in the year 10000 or later is refused (Python has no such dates). -/
theorem C68_late_refused {api : DateTimeApi} (hapi : IsPython api) {ft : Nat} (h64 : ft < 2 ^ 64)
    (hrange : dayNumber 10000 1 1 * 86400000000 ≤ filetimeMicros ft) :
    datetimeFromFiletime api ft = .err := by
  have h10000 : dayNumber 10000 1 1 = 3652059 := by
    unfold dayNumber
    rw [show (10000 : Nat) = 9999 + 1 from rfl, daysBeforeYear_closed]
    rfl
  have hr := hrange
  rw [h10000] at hr
  unfold filetimeMicros at hr
  rw [dayNumber_1601] at hr
  obtain ⟨t, h1, h2, h3, h4, h5, h6, h7, h8, h9, h10, h11⟩ :=
    filetime_fields (api := api) h64 (by omega)
  rw [h11, hapi.2 t]
  intro hv
  rw [← h10] at hrange
  have hlt := daysBeforeYear_lt (y := t.year) (z := 10000) h1 (by have := hv.year.2; omega)
  have hm := daysBeforeMonth_lt (y := t.year) (m := t.month) (n := 13) h2 (by omega) (Nat.le_refl _)
  rw [daysBeforeMonth_all] at hm
  unfold microsOf dayNumber at hrange
  rw [daysBeforeMonth_one] at hrange
  omega

/-- No FILETIME gives another instant than its own: a date is right or there is an error. -/
theorem C68_never_wrong {api : DateTimeApi} (hapi : IsPython api) {ft : Nat} {t : PyDateTime}
    (h64 : ft < 2 ^ 64) (h : datetimeFromFiletime api ft = .ok t) :
    ValidDateTime t ∧ microsOf t = filetimeMicros ft := by
  by_cases hday : dayNumber 1601 1 1 + ft / 864000000000 = dayNumber 1699 12 31
  · rw [C68_last_day_1699 hapi hday] at h
    cases h
  · rcases Nat.lt_or_ge (filetimeMicros ft) (dayNumber 10000 1 1 * 86400000000) with hr | hr
    · obtain ⟨t', h1, h2, h3⟩ := C68_datetime_partial hapi h64 hr hday
      rw [h1] at h
      cases h
      exact ⟨h2, h3⟩
    · rw [C68_late_refused hapi h64 hr] at h
      cases h

/-- A constructor that meets the contract. -/
noncomputable def pythonApi : DateTimeApi :=
  open Classical in ⟨fun t => if ValidDateTime t then some t else none⟩

theorem pythonApi_isPython : IsPython pythonApi := by
  refine ⟨fun t h => ?_, fun t h => ?_⟩
  · unfold pythonApi; dsimp only; rw [if_pos h]
  · unfold pythonApi; dsimp only; rw [if_neg h]

/-- The hypotheses of `C68_datetime_partial` are met, and the date is the expected one: the FILETIME
  0x01bf53eb256d4000 is 1 January 2000. -/
example : datetimeFromFiletime pythonApi 0x01bf53eb256d4000 = .ok ⟨2000, 1, 1, 0, 0, 0, 0⟩ := by
  have h2000 : dayNumber 2000 1 1 = 730119 := by
    unfold dayNumber
    rw [show (2000 : Nat) = 1999 + 1 from rfl, daysBeforeYear_closed]
    rfl
  have h10000 : dayNumber 10000 1 1 = 3652059 := by
    unfold dayNumber
    rw [show (10000 : Nat) = 9999 + 1 from rfl, daysBeforeYear_closed]
    rfl
  have h1699 : dayNumber 1699 12 31 = 620546 := by
    unfold dayNumber
    rw [show (1699 : Nat) = 1698 + 1 from rfl, daysBeforeYear_closed]
    rfl
  obtain ⟨t, h1, h2, h3⟩ := C68_datetime_partial pythonApi_isPython
    (ft := 0x01bf53eb256d4000) (by decide)
    (by unfold filetimeMicros; rw [dayNumber_1601, h10000]; decide)
    (by rw [dayNumber_1601, h1699]; decide)
  suffices h : t = ⟨2000, 1, 1, 0, 0, 0, 0⟩ by rw [h1, h]
  refine C68_instant_unique h2 ?_ ?_
  · exact ⟨by decide, by decide, by decide, by decide, by decide, by decide, by decide⟩
  · rw [h3]
    unfold microsOf filetimeMicros
    dsimp only
    rw [dayNumber_1601, h2000]

end Olecf.Props
