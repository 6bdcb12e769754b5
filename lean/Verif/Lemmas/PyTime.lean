import Verif.Spec.PyTime

/-
  Lemmas about the calendar and the conversion of a number of days to a date.
-/

namespace Olecf.Lemmas
open Olecf.Spec

theorem leapCheck_iff (y : Nat) : leapCheck y = true ↔ Leap y := by
  unfold leapCheck Leap
  simp only [Bool.or_eq_true, Bool.and_eq_true, beq_iff_eq, bne_iff_ne, ne_eq]
  omega

theorem yearDays_le (y : Nat) : 365 ≤ yearDays y ∧ yearDays y ≤ 366 := by
  unfold yearDays; split <;> omega

theorem daysBeforeYear_succ {y : Nat} (h : 1 ≤ y) :
    daysBeforeYear (y + 1) = daysBeforeYear y + yearDays y := by
  obtain ⟨k, rfl⟩ : ∃ k, y = k + 1 := ⟨y - 1, by omega⟩
  unfold daysBeforeYear
  rw [show k + 1 + 1 - 1 = k + 1 from rfl, show k + 1 - 1 = k from rfl, List.range_succ]
  simp

/-- The closed form of the number of days before a year. -/
theorem daysBeforeYear_closed (k : Nat) :
    daysBeforeYear (k + 1) = 365 * k + k / 4 - k / 100 + k / 400 := by
  induction k with
  | zero => rfl
  | succ k ih =>
    rw [daysBeforeYear_succ (by omega), ih]
    unfold yearDays
    by_cases hl : Leap (k + 1)
    · rw [if_pos hl]; unfold Leap at hl; omega
    · rw [if_neg hl]; unfold Leap at hl; omega

theorem daysBeforeYear_century {y : Nat} (h1 : 1 ≤ y) (h : y % 100 = 0) :
    daysBeforeYear (y + 100) = daysBeforeYear y + (if y % 400 = 0 then 36525 else 36524) := by
  obtain ⟨k, rfl⟩ : ∃ k, y = k + 1 := ⟨y - 1, by omega⟩
  rw [show k + 1 + 100 = (k + 100) + 1 by omega, daysBeforeYear_closed, daysBeforeYear_closed]
  split <;> omega

theorem daysBeforeYear_ge {y : Nat} (h : 1 ≤ y) : 365 * (y - 1) ≤ daysBeforeYear y := by
  obtain ⟨k, rfl⟩ : ∃ k, y = k + 1 := ⟨y - 1, by omega⟩
  rw [daysBeforeYear_closed]
  omega

theorem daysBeforeYear_lt {y z : Nat} (h : 1 ≤ y) (hyz : y < z) :
    daysBeforeYear y + yearDays y ≤ daysBeforeYear z := by
  induction z with
  | zero => omega
  | succ z ih =>
    rcases Nat.lt_or_ge y z with hz | hz
    · have := ih hz
      rw [daysBeforeYear_succ (by omega)]
      omega
    · have : z = y := by omega
      subst this
      rw [daysBeforeYear_succ h]
      exact Nat.le_refl _

theorem monthDays_cases {y m : Nat} (h1 : 1 ≤ m) (h2 : m ≤ 12) :
    28 ≤ monthDays y m ∧ monthDays y m ≤ 31 ∧ monthCheck y m = some (monthDays y m) := by
  have hl := leapCheck_iff y
  have hcase : m = 1 ∨ m = 2 ∨ m = 3 ∨ m = 4 ∨ m = 5 ∨ m = 6 ∨ m = 7 ∨ m = 8 ∨ m = 9 ∨ m = 10 ∨
      m = 11 ∨ m = 12 := by omega
  by_cases hy : Leap y
  · have hc : leapCheck y = true := hl.2 hy
    rcases hcase with h | h | h | h | h | h | h | h | h | h | h | h <;> subst h <;>
      simp [monthDays, monthTable, monthCheck, hy, hc]
  · have hc : leapCheck y = false := by
      cases hb : leapCheck y with
      | false => rfl
      | true => exact absurd (hl.1 hb) hy
    rcases hcase with h | h | h | h | h | h | h | h | h | h | h | h <;> subst h <;>
      simp [monthDays, monthTable, monthCheck, hy, hc]

theorem daysBeforeMonth_one (y : Nat) : daysBeforeMonth y 1 = 0 := rfl

theorem daysBeforeMonth_succ {y m : Nat} (h1 : 1 ≤ m) (h2 : m ≤ 12) :
    daysBeforeMonth y (m + 1) = daysBeforeMonth y m + monthDays y m := by
  have hcase : m = 1 ∨ m = 2 ∨ m = 3 ∨ m = 4 ∨ m = 5 ∨ m = 6 ∨ m = 7 ∨ m = 8 ∨ m = 9 ∨ m = 10 ∨
      m = 11 ∨ m = 12 := by omega
  rcases hcase with h | h | h | h | h | h | h | h | h | h | h | h <;> subst h <;>
    simp [daysBeforeMonth, monthDays, monthTable] <;> omega

theorem daysBeforeMonth_all (y : Nat) : daysBeforeMonth y 13 = yearDays y := by
  unfold daysBeforeMonth monthTable yearDays
  split <;> simp

theorem daysBeforeMonth_lt {y m n : Nat} (h1 : 1 ≤ m) (hmn : m < n) (hn : n ≤ 13) :
    daysBeforeMonth y m + monthDays y m ≤ daysBeforeMonth y n := by
  induction n with
  | zero => omega
  | succ n ih =>
    rcases Nat.lt_or_ge m n with hz | hz
    · have := ih hz (by omega)
      rw [daysBeforeMonth_succ (by omega) (by omega)]
      omega
    · have : n = m := by omega
      subst this
      rw [daysBeforeMonth_succ h1 (by omega)]
      exact Nat.le_refl _

/-- The loop over the centuries keeps the day it counts to. -/
theorem centuryLoop_spec (days : Nat) : ∀ (year : Nat), 1 ≤ year → 0 < days →
    year % 100 = 0 → 365 * year + days < 365 * 65000 →
    let r := centuryLoop year days
    1 ≤ r.1 ∧ 0 < r.2 ∧ 365 * r.1 + r.2 ≤ 365 * year + days ∧
      daysBeforeYear r.1 + r.2 = daysBeforeYear year + days := by
  induction days using Nat.strongRecOn with
  | ind days ih =>
    intro year hy hd h100 hb
    unfold centuryLoop
    rw [if_pos hd]
    dsimp only
    have hc := daysBeforeYear_century hy h100
    have hcb : 36524 ≤ (if year % 400 = 0 then 36525 else 36524) := by split <;> omega
    generalize (if year % 400 = 0 then 36525 else 36524) = c at hc hcb ⊢
    split
    · exact ⟨hy, hd, Nat.le_refl _, rfl⟩
    · rename_i hgt
      have hw : (year + 100) % 2 ^ 16 = year + 100 := Nat.mod_eq_of_lt (by omega)
      rw [hw]
      have := ih (days - c) (by omega) (year + 100) (by omega) (by omega) (by omega) (by omega)
      refine ⟨this.1, this.2.1, ?_, ?_⟩
      · have := this.2.2.1; omega
      · have := this.2.2.2; omega

/-- The loop over the years ends in the year of the day. -/
theorem yearLoop_spec (days : Nat) : ∀ (year : Nat), 1 ≤ year → 0 < days →
    365 * year + days < 365 * 65000 →
    let r := yearLoop year days
    1 ≤ r.1 ∧ 0 < r.2 ∧ r.2 ≤ yearDays r.1 ∧
      daysBeforeYear r.1 + r.2 = daysBeforeYear year + days := by
  induction days using Nat.strongRecOn with
  | ind days ih =>
    intro year hy hd hb
    unfold yearLoop
    rw [if_pos hd]
    have hyd : (if leapCheck year = true then 366 else 365) = yearDays year := by
      unfold yearDays
      simp only [leapCheck_iff]
    dsimp only
    rw [hyd]
    have hs := daysBeforeYear_succ hy
    have hl := yearDays_le year
    split
    · rename_i hle
      exact ⟨hy, hd, hle, rfl⟩
    · rename_i hgt
      have hw : (year + 1) % 2 ^ 16 = year + 1 := Nat.mod_eq_of_lt (by omega)
      rw [hw]
      have := ih (days - yearDays year) (by omega) (year + 1) (by omega) (by omega) (by omega)
      refine ⟨this.1, this.2.1, this.2.2.1, ?_⟩
      have := this.2.2.2; omega

/-- The loop over the months ends in the month of the day. -/
theorem monthLoop_spec (year : Nat) (n : Nat) : ∀ (month days : Nat), 1 ≤ month → 0 < days →
    13 ≤ month + n → month ≤ 12 → daysBeforeMonth year month + days ≤ yearDays year →
    ∃ m d, monthLoop year n month days = some (m, d) ∧ 1 ≤ m ∧ m ≤ 12 ∧ 1 ≤ d ∧
      d ≤ monthDays year m ∧ daysBeforeMonth year m + d = daysBeforeMonth year month + days := by
  induction n with
  | zero => intro month days _ _ h h' _; omega
  | succ n ih =>
    intro month days hm hd hn hm12 hle
    obtain ⟨h28, h31, hchk⟩ := monthDays_cases (y := year) hm hm12
    unfold monthLoop
    rw [if_pos hd, hchk]
    dsimp only
    split
    · rename_i h
      exact ⟨month, days, rfl, hm, hm12, hd, h, rfl⟩
    · rename_i h
      have hs := daysBeforeMonth_succ (y := year) hm hm12
      rcases Nat.lt_or_ge month 12 with hlt | hge
      · obtain ⟨m, d, h1, h2, h3, h4, h5, h6⟩ :=
          ih (month + 1) (days - monthDays year month) (by omega) (by omega) (by omega) (by omega)
            (by omega)
        exact ⟨m, d, h1, h2, h3, h4, h5, by omega⟩
      · have : month = 12 := by omega
        subst this
        have := daysBeforeMonth_all year
        rw [show 12 + 1 = 13 from rfl] at hs
        omega

/-- The date found for a day. -/
theorem elements_spec {api : DateTimeApi} {year days : Nat} (hours minutes seconds micro : Nat)
    (hy : 1 ≤ year) (hd : 0 < days) (hb : 365 * year + days < 365 * 65000)
    (hc : year % 100 = 0 ∨ days ≤ 36524) :
    ∃ y m d, 1 ≤ y ∧ 1 ≤ m ∧ m ≤ 12 ∧ 1 ≤ d ∧ d ≤ monthDays y m ∧
      daysBeforeYear y + daysBeforeMonth y m + d = daysBeforeYear year + days ∧
      datetimeFromElements api year days hours minutes seconds micro =
        match api.make ⟨y, m, d, hours, minutes, seconds, micro⟩ with
        | some t => .ok t
        | none => .err := by
  have hcent : ∃ y1 d1, centuryLoop year days = (y1, d1) ∧ 1 ≤ y1 ∧ 0 < d1 ∧
      365 * y1 + d1 ≤ 365 * year + days ∧
      daysBeforeYear y1 + d1 = daysBeforeYear year + days := by
    rcases hc with hc | hc
    · exact ⟨_, _, rfl, centuryLoop_spec days year hy hd hc hb⟩
    · refine ⟨year, days, ?_, hy, hd, Nat.le_refl _, rfl⟩
      unfold centuryLoop
      rw [if_pos hd]
      dsimp only
      rw [if_pos]
      split <;> omega
  obtain ⟨y1, d1, hE1, hy1, hd1, hb1, hs1⟩ := hcent
  obtain ⟨hy2, hd2, hl2, hs2⟩ := yearLoop_spec d1 y1 hy1 hd1 (by omega)
  generalize hE2 : yearLoop y1 d1 = r2 at hy2 hd2 hl2 hs2
  obtain ⟨y2, d2⟩ := r2
  dsimp only at hy2 hd2 hl2 hs2
  obtain ⟨m, d, hE3, hm1, hm12, hdd, hdm, hs3⟩ :=
    monthLoop_spec y2 13 1 d2 (Nat.le_refl _) hd2 (by omega) (by omega)
      (by rw [daysBeforeMonth_one]; omega)
  rw [daysBeforeMonth_one] at hs3
  have h31 := (monthDays_cases (y := y2) hm1 hm12).2.1
  refine ⟨y2, m, d, hy2, hm1, hm12, hdd, hdm, by omega, ?_⟩
  unfold datetimeFromElements
  rw [hE1]
  dsimp only
  rw [hE2]
  dsimp only
  rw [hE3]
  dsimp only
  rw [show d % 2 ^ 8 = d from Nat.mod_eq_of_lt (by omega)]
  cases api.make ⟨y2, m, d, hours, minutes, seconds, micro⟩ <;> rfl

theorem dayNumber_1601 : dayNumber 1601 1 1 = 584388 := by
  unfold dayNumber
  rw [show (1601 : Nat) = 1600 + 1 from rfl, daysBeforeYear_closed]
  rfl

end Olecf.Lemmas
