import Verif.NpCal.Spec
import Verif.Date.Cal
import Mathlib.Tactic.IntervalCases
import Mathlib.Tactic.Linarith
import Mathlib.Tactic.Ring

/-! # Lemmas on the calendar of `datetime64` -/

namespace Codon.NpCal

open Codon.Date.Spec (Leap monthLen next)
open Codon.Date (dbm ordN)

theorem extract_eq (d : Int) {u : Int} (hu : 0 < u) : extract d u = (d / u, d % u) := by
  unfold extract
  have h1 := Int.mul_tdiv_add_tmod d u
  have h2 := Int.mul_ediv_add_emod d u
  have h3 := Int.emod_nonneg d (by omega : u ≠ 0)
  have h4 := Int.emod_lt_of_pos d hu
  by_cases h : 0 ≤ d
  · have h5 := Int.tdiv_eq_ediv_of_nonneg (b := u) h
    have h6 := Int.tmod_eq_emod_of_nonneg (b := u) h
    simp only [h5, h6, if_neg (by omega : ¬ d % u < 0)]
  · have h5 : Int.tmod d u ≤ 0 := by
      have := Int.tmod_nonneg (a := -d) u (by omega)
      rw [Int.neg_tmod] at this
      omega
    have h6 : -u < Int.tmod d u := by
      have := Int.tmod_lt_of_pos (-d) hu
      rw [Int.neg_tmod] at this
      omega
    by_cases h7 : Int.tmod d u < 0
    · simp only [if_pos h7]
      have : d / u = Int.tdiv d u - 1 := by
        apply Int.le_antisymm
        · apply Int.le_of_lt_add_one
          apply Int.ediv_lt_of_lt_mul hu
          linarith [Int.mul_comm u (Int.tdiv d u), Int.sub_mul (Int.tdiv d u) 1 u,
            show (Int.tdiv d u - 1 + 1) * u = u * Int.tdiv d u by ring]
        · apply Int.le_ediv_of_mul_le hu
          linarith [show (Int.tdiv d u - 1) * u = u * Int.tdiv d u - u by ring]
      rw [← this]
      congr 1
      have h8 : u * Int.tdiv d u = u * (d / u) + u := by rw [this]; ring
      linarith
    · have h8 : Int.tmod d u = 0 := by omega
      simp only [if_neg h7]
      have : d / u = Int.tdiv d u := by
        apply Int.ediv_eq_of_eq_mul_right (by omega)
        rw [h8] at h1
        linarith
      rw [this]
      congr 1
      rw [← this] at h1
      linarith

theorem idiv_nonneg (py : Bool) {a : Int} (ha : 0 ≤ a) {b : Int} (hb : 0 ≤ b) :
    idiv py a b = a / b := by
  unfold idiv
  cases py
  · exact Int.tdiv_eq_ediv_of_nonneg ha
  · exact Int.fdiv_eq_ediv_of_nonneg a hb

theorem imod_nonneg (py : Bool) {a : Int} (ha : 0 ≤ a) {b : Int} (hb : 0 ≤ b) :
    imod py a b = a % b := by
  unfold imod
  cases py
  · exact Int.tmod_eq_emod_of_nonneg ha
  · exact Int.fmod_eq_emod_of_nonneg a hb

theorem idiv_neg {a : Int} (ha : a ≤ 0) (b : Int) : idiv false a b = -((-a) / b) := by
  unfold idiv
  have h := Int.tdiv_eq_ediv_of_nonneg (b := b) (by omega : 0 ≤ -a)
  rw [Int.neg_tdiv] at h
  simp only [Bool.false_eq_true, if_false]
  omega

theorem leap_iff (y : Int) : Leap y ↔ y % 4 = 0 ∧ (y % 100 ≠ 0 ∨ y % 400 = 0) := by
  unfold Leap
  omega

theorem isLeap_iff (y : Int) : isLeap y = true ↔ Leap y := by
  rw [leap_iff]
  have h : ∀ b : Int, Int.tmod y b = 0 ↔ y % b = 0 := fun b => by
    rw [← Int.dvd_iff_tmod_eq_zero, Int.dvd_iff_emod_eq_zero]
  simp [isLeap, h]

/-- The year and the day in it. -/
theorem daysToYears_spec (py : Bool) (n : Int) :
    0 ≤ (daysToYears py n).1 ∧
    (daysToYears py n).1 < 365 + (if Leap (daysToYears py n).2 then 1 else 0) ∧
    ordN (daysToYears py n).2 1 1 + (daysToYears py n).1 = n + 719163 := by
  unfold daysToYears
  simp only [extract_eq _ (by decide : (0 : Int) < 400 * 365 + 100 - 4 + 1)]
  norm_num only
  have hr1 := Int.emod_nonneg (n - 10957) (by decide : (146097 : Int) ≠ 0)
  have hr2 := Int.emod_lt_of_pos (n - 10957) (by decide : (0 : Int) < 146097)
  have hr3 := Int.mul_ediv_add_emod (n - 10957) 146097
  generalize (n - 10957) % 146097 = r at *
  generalize (n - 10957) / 146097 = q at *
  have hd : ∀ y : Int, dbm y 1 = 0 := fun y => by simp [dbm]
  simp only [ge_iff_le, ordN, hd]
  by_cases h1 : 366 ≤ r
  · rw [if_pos h1]
    rw [idiv_nonneg py (by omega) (by omega), imod_nonneg py (by omega) (by omega)]
    have ha1 := Int.emod_nonneg (r - 1) (by decide : (36524 : Int) ≠ 0)
    have ha2 := Int.emod_lt_of_pos (r - 1) (by decide : (0 : Int) < 36524)
    have ha3 := Int.mul_ediv_add_emod (r - 1) 36524
    generalize (r - 1) % 36524 = r2 at *
    generalize (r - 1) / 36524 = a at *
    by_cases h2 : 365 ≤ r2
    · rw [if_pos h2]
      rw [idiv_nonneg py (by omega) (by omega), imod_nonneg py (by omega) (by omega)]
      have hb1 := Int.emod_nonneg (r2 + 1) (by decide : (1461 : Int) ≠ 0)
      have hb2 := Int.emod_lt_of_pos (r2 + 1) (by decide : (0 : Int) < 1461)
      have hb3 := Int.mul_ediv_add_emod (r2 + 1) 1461
      generalize (r2 + 1) % 1461 = r3 at *
      generalize (r2 + 1) / 1461 = b at *
      have hb : b ≤ 24 := by omega
      have ha : 0 ≤ a ∧ a ≤ 3 := by omega
      by_cases h3 : 366 ≤ r3
      · rw [if_pos h3]
        rw [idiv_nonneg py (by omega) (by omega), imod_nonneg py (by omega) (by omega)]
        have hc1 := Int.emod_nonneg (r3 - 1) (by decide : (365 : Int) ≠ 0)
        have hc2 := Int.emod_lt_of_pos (r3 - 1) (by decide : (0 : Int) < 365)
        have hc3 := Int.mul_ediv_add_emod (r3 - 1) 365
        generalize (r3 - 1) % 365 = r4 at *
        generalize (r3 - 1) / 365 = c at *
        have hc : 1 ≤ c ∧ c ≤ 3 := by omega
        refine ⟨by omega, ?_, ?_⟩
        · split_ifs <;> omega
        · dsimp only
          have e1 : (400 * q + 100 * a + 4 * b + c + 2000 - 1) / 4 = 100 * q + 25 * a + b + 500 := by
            omega
          have e2 : (400 * q + 100 * a + 4 * b + c + 2000 - 1) / 100 = 4 * q + a + 20 := by
            omega
          have e3 : (400 * q + 100 * a + 4 * b + c + 2000 - 1) / 400 = q + 5 := by
            omega
          rw [e1, e2, e3]
          omega
      · rw [if_neg h3]
        have hb0 : 1 ≤ b ∨ 1 ≤ a ∧ 0 ≤ b := by omega
        have hbb : 1 ≤ b := by omega
        refine ⟨by omega, ?_, ?_⟩
        · have : Leap (400 * q + 100 * a + 4 * b + 2000) := by
            rw [leap_iff]
            omega
          rw [if_pos this]
          omega
        · dsimp only
          have e1 : (400 * q + 100 * a + 4 * b + 2000 - 1) / 4 = 100 * q + 25 * a + b + 499 := by
            omega
          have e2 : (400 * q + 100 * a + 4 * b + 2000 - 1) / 100 = 4 * q + a + 20 := by
            omega
          have e3 : (400 * q + 100 * a + 4 * b + 2000 - 1) / 400 = q + 5 := by
            omega
          rw [e1, e2, e3]
          omega
    · rw [if_neg h2]
      have ha : 1 ≤ a ∧ a ≤ 3 := by omega
      refine ⟨by omega, ?_, ?_⟩
      · dsimp only
        split_ifs <;> omega
      · dsimp only
        have e1 : (400 * q + 100 * a + 2000 - 1) / 4 = 100 * q + 25 * a + 499 := by
          omega
        have e2 : (400 * q + 100 * a + 2000 - 1) / 100 = 4 * q + a + 19 := by
          omega
        have e3 : (400 * q + 100 * a + 2000 - 1) / 400 = q + 5 := by
          omega
        rw [e1, e2, e3]
        omega
  · rw [if_neg h1]
    refine ⟨by omega, ?_, ?_⟩
    · have : Leap (400 * q + 2000) := by
        rw [leap_iff]
        omega
      rw [if_pos this]
      omega
    · dsimp only
      have e1 : (400 * q + 2000 - 1) / 4 = 100 * q + 499 := by omega
      have e2 : (400 * q + 2000 - 1) / 100 = 4 * q + 19 := by omega
      have e3 : (400 * q + 2000 - 1) / 400 = q + 4 := by omega
      rw [e1, e2, e3]
      omega

theorem sum_table (y m : Int) (h : 1 ≤ m ∧ m ≤ 12) :
    ((monthTable (isLeap y)).take (m - 1).toNat).sum = dbm y m := by
  obtain ⟨h1, h2⟩ := h
  by_cases hl : Leap y
  · rw [(isLeap_iff y).2 hl]
    interval_cases m <;> simp [monthTable, dbm, hl]
  · have hl' : isLeap y = false := by
      rw [← Bool.not_eq_true, isLeap_iff]
      exact hl
    rw [hl']
    interval_cases m <;> simp [monthTable, dbm, hl]

theorem get_table (y : Int) (j : Nat) (h : j < 12) :
    (monthTable (isLeap y))[j]? = some (monthLen y (j + 1)) := by
  by_cases hl : Leap y
  · rw [(isLeap_iff y).2 hl]
    interval_cases j <;> simp [monthTable, monthLen, hl]
  · have hl' : isLeap y = false := by
      rw [← Bool.not_eq_true, isLeap_iff]
      exact hl
    rw [hl']
    interval_cases j <;> simp [monthTable, monthLen, hl]

theorem findMonth_ok (l : List Int) : ∀ (i d : Int), 0 ≤ d → d < l.sum →
    ∃ (j : Nat) (x : Int), l[j]? = some x ∧ findMonth l i d = some (i + j + 1, d - (l.take j).sum) ∧
      0 ≤ d - (l.take j).sum ∧ d - (l.take j).sum < x := by
  induction l with
  | nil => intro i d h0 h1; simp at h1; omega
  | cons a l ih =>
    intro i d h0 h1
    by_cases h : d < a
    · exact ⟨0, a, rfl, by simp [findMonth, h], by simpa using h0, by simpa using h⟩
    · obtain ⟨j, x, h2, h3, h4, h5⟩ := ih (i + 1) (d - a) (by omega)
        (by rw [List.sum_cons] at h1; omega)
      refine ⟨j + 1, x, by simpa using h2, ?_, ?_, ?_⟩
      · rw [findMonth, if_neg h, h3]
        simp only [List.take_succ_cons, List.sum_cons, Nat.cast_add, Nat.cast_one]
        congr 2
        · ring
        · ring
      · simp only [List.take_succ_cons, List.sum_cons]; omega
      · simp only [List.take_succ_cons, List.sum_cons]; omega

/-- The month and the day in it. -/
theorem findMonth_spec (y d : Int) (h0 : 0 ≤ d) (h1 : d < 365 + (if Leap y then 1 else 0)) :
    ∃ m k, findMonth (monthTable (isLeap y)) 0 d = some (m, k) ∧ Valid y m (k + 1) ∧
      dbm y m + k = d := by
  have hs : (monthTable (isLeap y)).sum = 365 + (if Leap y then 1 else 0) := by
    by_cases hl : Leap y
    · rw [(isLeap_iff y).2 hl, if_pos hl]; rfl
    · have hl' : isLeap y = false := by
        rw [← Bool.not_eq_true, isLeap_iff]
        exact hl
      rw [hl', if_neg hl]; rfl
  have hn : (monthTable (isLeap y)).length = 12 := by cases isLeap y <;> rfl
  obtain ⟨j, x, h2, h3, h4, h5⟩ := findMonth_ok (monthTable (isLeap y)) 0 d h0 (by omega)
  have hj : j < 12 := by
    have := (List.getElem?_eq_some_iff.1 h2).1
    omega
  rw [get_table y j hj] at h2
  have hx := Option.some.inj h2
  have ht := sum_table y (j + 1) (by omega)
  rw [show ((j : Int) + 1 - 1).toNat = j by omega] at ht
  rw [ht] at h3 h4 h5
  refine ⟨_, _, h3, ⟨by omega, by omega, ?_⟩, ?_⟩
  · rw [show (0 : Int) + j + 1 = j + 1 by omega, hx]
    omega
  · rw [show (0 : Int) + j + 1 = j + 1 by omega]
    omega

/-- `set_days` gives the date of the day. -/
theorem setDays_spec (py : Bool) (s : DTS) (n : Int) :
    Valid (s.setDays py n).year (s.setDays py n).month (s.setDays py n).day ∧
    ordN (s.setDays py n).year (s.setDays py n).month (s.setDays py n).day = n + 719163 ∧
    s.setDays py n = { s with
      year := (s.setDays py n).year
      month := (s.setDays py n).month
      day := (s.setDays py n).day } := by
  obtain ⟨h1, h2, h3⟩ := daysToYears_spec py n
  obtain ⟨m, k, h4, h5, h6⟩ := findMonth_spec _ _ h1 h2
  have : s.setDays py n =
      { s with year := (daysToYears py n).2, month := m, day := k + 1 } := by
    simp only [DTS.setDays, h4]
  rw [this]
  refine ⟨h5, ?_, rfl⟩
  have hd : dbm (daysToYears py n).2 1 = 0 := by simp [dbm]
  simp only [ordN, hd] at h3 ⊢
  omega

/-- `days` counts the days from 1970-01-01. -/
theorem days_eq (s : DTS) (h : 1 ≤ s.month ∧ s.month ≤ 12) :
    s.days false = ordN s.year s.month s.day - 719163 := by
  unfold DTS.days
  simp only [sum_table _ _ h, ordN]
  generalize dbm s.year s.month = b
  generalize s.year = y
  by_cases h : (y - 1970) * 365 ≥ 0
  · rw [if_pos h]
    rw [idiv_nonneg _ (by omega) (by omega), idiv_nonneg _ (by omega) (by omega),
      idiv_nonneg _ (by omega) (by omega)]
    have e1 : (y - 1970 + 1) / 4 = (y - 1) / 4 - 492 := by omega
    have e2 : (y - 1970 + 1 + 68) / 100 = (y - 1) / 100 - 19 := by omega
    have e3 : (y - 1970 + 1 + 68 + 300) / 400 = (y - 1) / 400 - 4 := by omega
    rw [e1, e2, e3]
    omega
  · rw [if_neg h]
    rw [idiv_neg (by omega), idiv_neg (by omega), idiv_neg (by omega)]
    have e1 : -(y - 1970 - 2) / 4 = 492 - (y - 1) / 4 := by omega
    have e2 : -(y - 1970 - 2 - 28) / 100 = 19 - (y - 1) / 100 := by omega
    have e3 : -(y - 1970 - 2 - 28) / 400 = 4 - (y - 1) / 400 := by omega
    rw [e1, e2, e3]
    omega

/-! ### The dates are the days -/

theorem leap_shift (y k : Int) : Leap (y + 400 * k) ↔ Leap y := by
  rw [leap_iff, leap_iff]
  omega

theorem monthLen_shift (y k m : Int) : monthLen (y + 400 * k) m = monthLen y m := by
  simp only [monthLen, leap_shift]

theorem ordN_shift (y k m d : Int) : ordN (y + 400 * k) m d = ordN y m d + 146097 * k := by
  have : dbm (y + 400 * k) m = dbm y m := by simp only [dbm, leap_shift]
  simp only [ordN, this]
  omega

theorem ordN_inj {y m d y' m' d' : Int} (h : Valid y m d) (h' : Valid y' m' d')
    (he : ordN y m d = ordN y' m' d') : y = y' ∧ m = m' ∧ d = d' := by
  obtain ⟨k, h1, h2⟩ : ∃ k : Int, 1 ≤ y + 400 * k ∧ 1 ≤ y' + 400 * k :=
    ⟨|y| + |y'| + 1, by have := neg_abs_le y; have := abs_nonneg y'; have := abs_nonneg y; omega,
      by have := neg_abs_le y'; have := abs_nonneg y; have := abs_nonneg y'; omega⟩
  have v : Date.Spec.Valid (y + 400 * k) m d :=
    ⟨h1, h.month, h.day.1, by rw [monthLen_shift]; exact h.day.2⟩
  have v' : Date.Spec.Valid (y' + 400 * k) m' d' :=
    ⟨h2, h'.month, h'.day.1, by rw [monthLen_shift]; exact h'.day.2⟩
  have := Date.ordN_inj v v' (by rw [ordN_shift, ordN_shift, he])
  simp only [Prod.mk.injEq] at this
  omega

theorem next_spec {y m d : Int} (h : Valid y m d) :
    Valid (next y m d).1 (next y m d).2.1 (next y m d).2.2 ∧
    ordN (next y m d).1 (next y m d).2.1 (next y m d).2.2 = ordN y m d + 1 := by
  obtain ⟨k, h1⟩ : ∃ k : Int, 1 ≤ y + 400 * k := ⟨|y| + 1, by
    have := neg_abs_le y; have := abs_nonneg y; omega⟩
  have v : Date.Spec.Valid (y + 400 * k) m d :=
    ⟨h1, h.month, h.day.1, by rw [monthLen_shift]; exact h.day.2⟩
  have e : next (y + 400 * k) m d = ((next y m d).1 + 400 * k, (next y m d).2.1, (next y m d).2.2) := by
    simp only [next, monthLen_shift]
    by_cases h1 : d < monthLen y m
    · simp [h1]
    · by_cases h2 : m < 12
      · simp [h1, h2]
      · simp only [h1, h2, if_false, Prod.mk.injEq, and_self, and_true]
        ring
  have h2 := Date.valid_next v
  have h3 := Date.ordN_next v
  rw [e] at h2 h3
  simp only [ordN_shift] at h3
  refine ⟨⟨h2.month, h2.day.1, ?_⟩, by omega⟩
  have := h2.day.2
  rwa [monthLen_shift] at this

theorem ordN_1970 : ordN 1970 1 1 = 719163 := by decide

theorem valid_1970 : Valid 1970 1 1 := ⟨by decide, by decide, by decide⟩

theorem dayNo_ord {y m d n : Int} (h : DayNo y m d n) : Valid y m d ∧ ordN y m d = n + 719163 := by
  induction h with
  | epoch => exact ⟨valid_1970, ordN_1970⟩
  | later _ ih =>
    obtain ⟨h1, h2⟩ := next_spec ih.1
    exact ⟨h1, by omega⟩
  | earlier hv _ ih =>
    obtain ⟨h1, h2⟩ := next_spec hv
    exact ⟨hv, by omega⟩

theorem ord_dayNo {y m d n : Int} (hv : Valid y m d) (h : ordN y m d = n + 719163) :
    DayNo y m d n := by
  have key : ∀ n : Int, DayNo (({} : DTS).setDays false n).year (({} : DTS).setDays false n).month
      (({} : DTS).setDays false n).day n := by
    have hs := setDays_spec false {}
    have hnext : ∀ n : Int, next (({} : DTS).setDays false n).year
        (({} : DTS).setDays false n).month (({} : DTS).setDays false n).day =
        ((({} : DTS).setDays false (n + 1)).year, (({} : DTS).setDays false (n + 1)).month,
          (({} : DTS).setDays false (n + 1)).day) := by
      intro n
      obtain ⟨h1, h2, _⟩ := hs n
      obtain ⟨h3, h4, _⟩ := hs (n + 1)
      obtain ⟨h5, h6⟩ := next_spec h1
      obtain ⟨e1, e2, e3⟩ := ordN_inj h5 h3 (by omega)
      exact Prod.ext e1 (Prod.ext e2 e3)
    intro n
    induction n using Int.induction_on with
    | zero => exact .epoch
    | succ i ih =>
      have := DayNo.later ih
      rw [hnext] at this
      exact this
    | pred i ih =>
      refine .earlier (hs _).1 ?_
      rw [hnext]
      rw [show -(i : Int) - 1 + 1 = -i by omega]
      exact ih
  obtain ⟨h1, h2, _⟩ := setDays_spec false {} n
  obtain ⟨e1, e2, e3⟩ := ordN_inj hv h1 (by omega)
  have := key n
  rw [← e1, ← e2, ← e3] at this
  exact this

theorem dayNo_iff {y m d n : Int} : DayNo y m d n ↔ Valid y m d ∧ ordN y m d = n + 719163 :=
  ⟨dayNo_ord, fun h => ord_dayNo h.1 h.2⟩

theorem setDays_dayNo (py : Bool) (s : DTS) (n : Int) :
    DayNo (s.setDays py n).year (s.setDays py n).month (s.setDays py n).day n :=
  ord_dayNo (setDays_spec py s n).1 (setDays_spec py s n).2.1

theorem days_dayNo {s : DTS} {n : Int} (h : DayNo s.year s.month s.day n) : s.days false = n := by
  obtain ⟨h1, h2⟩ := dayNo_ord h
  rw [days_eq s h1.month]
  omega

/-! ### Units -/

theorem setDays_time (py : Bool) (n : Int) :
    (({} : DTS).setDays py n).hour = 0 ∧ (({} : DTS).setDays py n).min = 0 ∧
    (({} : DTS).setDays py n).sec = 0 ∧ (({} : DTS).setDays py n).us = 0 ∧
    (({} : DTS).setDays py n).ps = 0 ∧ (({} : DTS).setDays py n).as_ = 0 := by
  rw [(setDays_spec py {} n).2.2]
  exact ⟨rfl, rfl, rfl, rfl, rfl, rfl⟩

theorem dayNo_1969 : DayNo 1969 12 31 (-1) :=
  ord_dayNo ⟨by decide, by decide, by decide⟩ (by decide)

/-- Value and validity of what `from_datetime64` makes, for the units of fixed length. -/
theorem fromDt_spec (py : Bool) (u : Unit') (num dt L : Int) (hL : u.len = some L)
    (hf : Fits u (dt * num)) :
    (fromDt py u num dt).Valid ∧ Instant (fromDt py u num dt) (dt * num * L) := by
  have t1 := fun n => (setDays_time py n).1
  have t2 := fun n => (setDays_time py n).2.1
  have t3 := fun n => (setDays_time py n).2.2.1
  have t4 := fun n => (setDays_time py n).2.2.2.1
  have t5 := fun n => (setDays_time py n).2.2.2.2.1
  have t6 := fun n => (setDays_time py n).2.2.2.2.2
  have hday := fun n => setDays_dayNo py {} n
  have mk : ∀ (s : DTS) (n : Int), DayNo s.year s.month s.day n →
      (0 ≤ s.hour ∧ s.hour < 24) → (0 ≤ s.min ∧ s.min < 60) → (0 ≤ s.sec ∧ s.sec < 60) →
      (0 ≤ s.us ∧ s.us < 1000000) → (0 ≤ s.ps ∧ s.ps < 1000000) → (0 ≤ s.as_ ∧ s.as_ < 1000000) →
      n * (86400 * 10 ^ 18) + s.clock = dt * num * L → s.Valid ∧ Instant s (dt * num * L) :=
    fun s n h a b c d e f g => ⟨⟨(dayNo_ord h).1, a, b, c, d, e, f⟩, n, h, g.symm⟩
  generalize hv : dt * num = v at *
  cases u with
  | Y => simp [Unit'.len] at hL
  | M => simp [Unit'.len] at hL
  | W =>
    obtain rfl := (Option.some.inj hL).symm
    simp only [fromDt, hv]
    refine mk _ (v * 7) (hday _) ?_ ?_ ?_ ?_ ?_ ?_ ?_ <;>
      simp only [DTS.clock, t1, t2, t3, t4, t5, t6] <;> omega
  | D =>
    obtain rfl := (Option.some.inj hL).symm
    simp only [fromDt, hv]
    refine mk _ v (hday _) ?_ ?_ ?_ ?_ ?_ ?_ ?_ <;>
      simp only [DTS.clock, t1, t2, t3, t4, t5, t6] <;> omega
  | h =>
    obtain rfl := (Option.some.inj hL).symm
    simp only [fromDt, hv]
    rw [extract_eq _ (by decide)]
    norm_num only
    refine mk _ _ (hday _) ?_ ?_ ?_ ?_ ?_ ?_ ?_ <;>
      simp only [DTS.clock, t1, t2, t3, t4, t5, t6] <;> omega
  | m =>
    obtain rfl := (Option.some.inj hL).symm
    simp only [fromDt, hv]
    rw [extract_eq _ (by decide), extract_eq _ (by decide)]
    norm_num only
    refine mk _ _ (hday _) ?_ ?_ ?_ ?_ ?_ ?_ ?_ <;>
      simp only [DTS.clock, t1, t2, t3, t4, t5, t6] <;> omega
  | s =>
    obtain rfl := (Option.some.inj hL).symm
    simp only [fromDt, hv]
    rw [extract_eq _ (by decide), extract_eq _ (by decide), extract_eq _ (by decide)]
    norm_num only
    refine mk _ _ (hday _) ?_ ?_ ?_ ?_ ?_ ?_ ?_ <;>
      simp only [DTS.clock, t1, t2, t3, t4, t5, t6] <;> omega
  | ms =>
    obtain rfl := (Option.some.inj hL).symm
    simp only [fromDt, hv]
    rw [extract_eq _ (by decide), extract_eq _ (by decide), extract_eq _ (by decide),
      extract_eq _ (by decide)]
    norm_num only
    refine mk _ _ (hday _) ?_ ?_ ?_ ?_ ?_ ?_ ?_ <;>
      simp only [DTS.clock, t1, t2, t3, t4, t5, t6] <;> omega
  | us =>
    obtain rfl := (Option.some.inj hL).symm
    simp only [fromDt, hv]
    rw [extract_eq _ (by decide), extract_eq _ (by decide), extract_eq _ (by decide),
      extract_eq _ (by decide)]
    norm_num only
    refine mk _ _ (hday _) ?_ ?_ ?_ ?_ ?_ ?_ ?_ <;>
      simp only [DTS.clock, t1, t2, t3, t4, t5, t6] <;> omega
  | ns =>
    obtain rfl := (Option.some.inj hL).symm
    simp only [fromDt, hv]
    rw [extract_eq _ (by decide), extract_eq _ (by decide), extract_eq _ (by decide),
      extract_eq _ (by decide), extract_eq _ (by decide)]
    norm_num only
    refine mk _ _ (hday _) ?_ ?_ ?_ ?_ ?_ ?_ ?_ <;>
      simp only [DTS.clock, t1, t2, t3, t4, t5, t6] <;> omega
  | ps =>
    obtain rfl := (Option.some.inj hL).symm
    simp only [fromDt, hv]
    rw [extract_eq _ (by decide), extract_eq _ (by decide), extract_eq _ (by decide),
      extract_eq _ (by decide), extract_eq _ (by decide)]
    norm_num only
    refine mk _ _ (hday _) ?_ ?_ ?_ ?_ ?_ ?_ ?_ <;>
      simp only [DTS.clock, t1, t2, t3, t4, t5, t6] <;> omega
  | fs =>
    obtain rfl := (Option.some.inj hL).symm
    have hf := hf (.inl rfl)
    norm_num only at hf
    simp only [fromDt, hv]
    rw [extract_eq _ (by decide), extract_eq _ (by decide), extract_eq _ (by decide),
      extract_eq _ (by decide), extract_eq _ (by decide)]
    norm_num only
    by_cases h0 : v / 3600000000000000000 < 0
    · simp only [h0, if_true]
      refine mk _ (-1) dayNo_1969
        ?_ ?_ ?_ ?_ ?_ ?_ ?_ <;> simp only [DTS.clock] <;> omega
    · simp only [h0, if_false]
      refine mk _ 0 .epoch ?_ ?_ ?_ ?_ ?_ ?_ ?_ <;> simp only [DTS.clock] <;> omega
  | as_ =>
    obtain rfl := (Option.some.inj hL).symm
    have hf := hf (.inr rfl)
    norm_num only at hf
    simp only [fromDt, hv]
    rw [extract_eq _ (by decide), extract_eq _ (by decide), extract_eq _ (by decide)]
    norm_num only
    by_cases h0 : v / 1000000000000000000 < 0
    · simp only [h0, if_true]
      refine mk _ (-1) dayNo_1969
        ?_ ?_ ?_ ?_ ?_ ?_ ?_ <;> simp only [DTS.clock] <;> omega
    · simp only [h0, if_false]
      refine mk _ 0 .epoch ?_ ?_ ?_ ?_ ?_ ?_ ?_ <;> simp only [DTS.clock] <;> omega

/-- The number of whole units. -/
theorem count_spec {s : DTS} (hs : s.Valid) {t : Int} (ht : Instant s t) (u : Unit') (L : Int)
    (hL : u.len = some L) : s.count false u = t / L := by
  obtain ⟨n, hn, rfl⟩ := ht
  obtain ⟨_, h1, h2, h3, h4, h5, h6⟩ := hs
  have hd := days_dayNo hn
  cases u with
  | Y => simp [Unit'.len] at hL
  | M => simp [Unit'.len] at hL
  | W =>
    obtain rfl := (Option.some.inj hL).symm
    simp only [DTS.count, hd, DTS.clock]
    by_cases h : n ≥ 0
    · rw [if_pos h, idiv_nonneg _ (by omega) (by omega)]
      omega
    · rw [if_neg h, idiv_neg (by omega)]
      omega
  | _ =>
    obtain rfl := (Option.some.inj hL).symm
    simp only [DTS.count, hd, DTS.clock]
    try rw [idiv_nonneg _ (by omega) (by omega)]
    omega

/-- The multiple of a unit: rounding down. -/
theorem toDt_eq (s : DTS) (u : Unit') {num : Int} (hn : 1 ≤ num) :
    s.toDt false u num = s.count false u / num := by
  unfold DTS.toDt
  by_cases h : num > 1
  · simp only [h, if_true]
    by_cases h0 : s.count false u ≥ 0
    · rw [if_pos h0, idiv_nonneg _ (by omega) (by omega)]
    · rw [if_neg h0, idiv_neg (by omega)]
      generalize s.count false u = c at *
      symm
      have h1 := Int.mul_ediv_add_emod (-(c - num + 1)) num
      have h2 := Int.emod_nonneg (-(c - num + 1)) (by omega : num ≠ 0)
      have h3 := Int.emod_lt_of_pos (-(c - num + 1)) (by omega : 0 < num)
      generalize (-(c - num + 1)) / num = q at *
      generalize (-(c - num + 1)) % num = r at *
      rw [show c = (num - 1 - r) + num * (-q) by linarith [show num * (-q) = -(num * q) by ring],
        Int.add_mul_ediv_left _ _ (by omega), Int.ediv_eq_zero_of_lt (by omega) (by omega)]
      omega
  · have : num = 1 := by omega
    simp [this]

end Codon.NpCal
