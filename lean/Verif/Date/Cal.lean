import Verif.Date.Model
import Verif.Date.Spec
import Mathlib.Tactic.IntervalCases
import Mathlib.Tactic.Linarith

/-! # Lemmas on the calendar functions -/

namespace Codon.Date

open Spec

theorem isLeap_iff {y : Int} (hy : 0 ≤ y) : isLeap y = true ↔ Leap y := by
  simp only [isLeap, Leap, Bool.and_eq_true, Bool.or_eq_true, decide_eq_true_eq,
    Int.tmod_eq_emod_of_nonneg hy]
  omega

/-- Days of a year before a month. -/
def dbm (y m : Int) : Int :=
  (if m = 1 then 0 else if m = 2 then 31 else if m = 3 then 59 else if m = 4 then 90
  else if m = 5 then 120 else if m = 6 then 151 else if m = 7 then 181 else if m = 8 then 212
  else if m = 9 then 243 else if m = 10 then 273 else if m = 11 then 304 else 334) +
  (if m > 2 ∧ Leap y then 1 else 0)

/-- The ordinal as a total function. -/
def ordN (y m d : Int) : Int :=
  (y - 1) * 365 + (y - 1) / 4 - (y - 1) / 100 + (y - 1) / 400 + dbm y m + d

theorem daysInMonth_eq {y m : Int} (hy : 0 ≤ y) (hm : 1 ≤ m ∧ m ≤ 12) :
    daysInMonth y m = .ok (monthLen y m) := by
  obtain ⟨h1, h2⟩ := hm
  unfold daysInMonth monthLen
  simp only [isLeap_iff hy]
  by_cases hl : Leap y <;> simp only [hl, and_true, and_false, if_true, if_false] <;>
  interval_cases m <;> rfl

theorem daysBeforeMonth_eq {y m : Int} (hy : 0 ≤ y) (hm : 1 ≤ m ∧ m ≤ 12) :
    daysBeforeMonth y m = .ok (dbm y m) := by
  obtain ⟨h1, h2⟩ := hm
  unfold daysBeforeMonth dbm
  simp only [isLeap_iff hy]
  by_cases hl : Leap y <;> simp only [hl, and_true, and_false, if_true, if_false] <;>
  interval_cases m <;> rfl

theorem daysBeforeYear_eq {y : Int} (hy : 1 ≤ y) :
    daysBeforeYear y = (y - 1) * 365 + (y - 1) / 4 - (y - 1) / 100 + (y - 1) / 400 := by
  have h : 0 ≤ y - 1 := by omega
  simp only [daysBeforeYear, Int.tdiv_eq_ediv_of_nonneg h]

theorem ymdToOrd_eq {y m d : Int} (hy : 1 ≤ y) (hm : 1 ≤ m ∧ m ≤ 12) :
    ymdToOrd y m d = .ok (ordN y m d) := by
  simp only [ymdToOrd, daysBeforeMonth_eq (by omega : 0 ≤ y) hm, Out.bind_ok, Out.pure_eq,
    daysBeforeYear_eq hy, ordN]

theorem monthLen_pos (y m : Int) : 28 ≤ monthLen y m ∧ monthLen y m ≤ 31 := by
  unfold monthLen; split_ifs <;> omega

theorem dbm_succ {y m : Int} (h1 : 1 ≤ m) (h2 : m < 12) : dbm y (m + 1) = dbm y m + monthLen y m := by
  unfold dbm monthLen
  by_cases hl : Leap y <;> simp only [hl, and_true, and_false, if_true, if_false] <;>
  interval_cases m <;> decide

theorem leap_step {y : Int} :
    (y / 4 - y / 100 + y / 400) - ((y - 1) / 4 - (y - 1) / 100 + (y - 1) / 400) =
      if Leap y then 1 else 0 := by
  unfold Leap
  split_ifs <;> omega

theorem ordN_year {y : Int} : ordN (y + 1) 1 1 = ordN y 12 31 + 1 := by
  have h := @leap_step y
  have h0 : y + 1 - 1 = y := by omega
  simp only [ordN, dbm, h0]
  by_cases hl : Leap y <;> simp [hl] at h ⊢ <;> omega

theorem valid_next {y m d : Int} (h : Valid y m d) :
    Valid (next y m d).1 (next y m d).2.1 (next y m d).2.2 := by
  obtain ⟨h1, h2, h3⟩ := h
  unfold next
  split_ifs
  · exact ⟨h1, h2, by dsimp; omega⟩
  · have := monthLen_pos y (m + 1)
    exact ⟨h1, by dsimp; omega, by dsimp; omega⟩
  · have := monthLen_pos (y + 1) 1
    exact ⟨by dsimp; omega, by dsimp; omega, by dsimp; omega⟩

theorem ordN_next {y m d : Int} (h : Valid y m d) :
    ordN (next y m d).1 (next y m d).2.1 (next y m d).2.2 = ordN y m d + 1 := by
  obtain ⟨h1, h2, h3⟩ := h
  unfold next
  split_ifs
  · simp only [ordN]; omega
  · have := @dbm_succ y m h2.1 (by omega)
    have hd : d = monthLen y m := by omega
    simp only [ordN, this]; omega
  · have hm : m = 12 := by omega
    subst hm
    have hd : d = 31 := by have : monthLen y 12 = 31 := by simp [monthLen]
                           omega
    subst hd
    exact ordN_year

/-! ## Order -/

theorem dbm_mono {y m m' : Int} (h1 : 1 ≤ m) (h : m < m') (h2 : m' ≤ 12) :
    dbm y m + monthLen y m ≤ dbm y m' := by
  have h3 : m ≤ 11 := by omega
  unfold dbm monthLen
  by_cases hl : Leap y <;> simp only [hl, and_true, and_false, if_true, if_false] <;>
  interval_cases m <;> interval_cases m' <;> decide

theorem dbm_last {y m : Int} (h1 : 1 ≤ m) (h2 : m ≤ 12) :
    dbm y m + monthLen y m ≤ 365 + if Leap y then 1 else 0 := by
  unfold dbm monthLen
  by_cases hl : Leap y <;> simp only [hl, and_true, and_false, if_true, if_false] <;>
  interval_cases m <;> decide

theorem dbm_nonneg (y m : Int) : 0 ≤ dbm y m := by unfold dbm; split_ifs <;> omega

theorem ordN_lt {y m d y' m' d' : Int} (h : Valid y m d) (h' : Valid y' m' d')
    (hb : Before (y, m, d) (y', m', d')) : ordN y m d < ordN y' m' d' := by
  obtain ⟨h1, h2, h3⟩ := h
  obtain ⟨h1', h2', h3'⟩ := h'
  simp only [Before] at hb
  rcases hb with hb | ⟨rfl, hb | ⟨rfl, hb⟩⟩
  · have a := @dbm_last y m h2.1 h2.2
    have b := dbm_nonneg y' m'
    have c := @leap_step y
    simp only [ordN]
    have e1 : y / 4 ≤ (y' - 1) / 4 := by omega
    have key : y * 365 + y / 4 - y / 100 + y / 400 ≤
        (y' - 1) * 365 + (y' - 1) / 4 - (y' - 1) / 100 + (y' - 1) / 400 := by omega
    omega
  · have := @dbm_mono y m m' h2.1 hb h2'.2
    simp only [ordN]; omega
  · simp only [ordN]; omega

theorem before_total {p q : Int × Int × Int} : Before p q ∨ p = q ∨ Before q p := by
  obtain ⟨a, b, c⟩ := p; obtain ⟨a', b', c'⟩ := q
  simp only [Before, Prod.mk.injEq]; omega

theorem ordN_lt_iff {y m d y' m' d' : Int} (h : Valid y m d) (h' : Valid y' m' d') :
    ordN y m d < ordN y' m' d' ↔ Before (y, m, d) (y', m', d') := by
  refine ⟨fun hlt => ?_, ordN_lt h h'⟩
  rcases @before_total (y, m, d) (y', m', d') with hb | he | hb
  · exact hb
  · simp only [Prod.mk.injEq] at he
    obtain ⟨rfl, rfl, rfl⟩ := he
    omega
  · have := ordN_lt h' h hb
    omega

theorem ordN_inj {y m d y' m' d' : Int} (h : Valid y m d) (h' : Valid y' m' d')
    (he : ordN y m d = ordN y' m' d') : (y, m, d) = (y', m', d') := by
  rcases @before_total (y, m, d) (y', m', d') with hb | he | hb
  · have := ordN_lt h h' hb; omega
  · exact he
  · have := ordN_lt h' h hb; omega

theorem ordN_pos {y m d : Int} (h : Valid y m d) : 1 ≤ ordN y m d := by
  obtain ⟨h1, h2, h3⟩ := h
  have := dbm_nonneg y m
  simp only [ordN]; omega

/-! ## From ordinals to dates -/

theorem dbm_le {y m : Int} (h1 : 1 ≤ m) (h2 : m ≤ 12) : dbm y m ≤ 31 * (m - 1) := by
  unfold dbm
  by_cases hl : Leap y <;> simp only [hl, and_true, and_false, if_true, if_false] <;>
  interval_cases m <;> decide

theorem dbm_end {y m : Int} (h1 : 1 ≤ m) (h2 : m ≤ 11) : 32 * m - 19 < dbm y m + monthLen y m := by
  unfold dbm monthLen
  by_cases hl : Leap y <;> simp only [hl, and_true, and_false, if_true, if_false] <;>
  interval_cases m <;> decide

theorem dbm_dec {y : Int} : dbm y 12 + monthLen y 12 = 365 + if Leap y then 1 else 0 := by
  unfold dbm monthLen
  by_cases hl : Leap y <;> simp [hl]

/-- The day of the year `n`, counted from 0, in the month guessed as `(n + 50) / 32`. -/
theorem month_search {y n : Int} (hy : 0 ≤ y) (hn : 0 ≤ n) (hn2 : n < 365 + if Leap y then 1 else 0)
    (leap : Bool) (hl : leap = true ↔ Leap y) :
    ∃ m d, 1 ≤ m ∧ m ≤ 12 ∧ 1 ≤ d ∧ d ≤ monthLen y m ∧ dbm y m + d = n + 1 ∧
      (do
        let month := (n + 50) / 32
        let before ← daysBeforeMonthX month
        let preceding := before + (if month > 2 ∧ leap then 1 else 0)
        if preceding > n then
          let month := month - 1
          let dim ← daysInMonth y month
          let preceding := preceding - dim
          return (y, month, n - preceding + 1)
        else return (y, month, n - preceding + 1) : R YMD) = .ok (y, m, d) := by
  generalize hg : (n + 50) / 32 = g
  have g1 : 1 ≤ g := by omega
  have g2 : g ≤ 12 := by split_ifs at hn2 <;> omega
  have hb : daysBeforeMonthX g = .ok (dbm y g - if g > 2 ∧ Leap y then 1 else 0) := by
    unfold dbm
    by_cases hl : Leap y <;> simp only [hl, and_true, and_false, if_true, if_false] <;>
    interval_cases g <;> rfl
  have hpre : (dbm y g - if g > 2 ∧ Leap y then 1 else 0) + (if g > 2 ∧ leap = true then 1 else 0) =
      dbm y g := by simp only [hl]; omega
  simp only [hb, Out.bind_ok, hpre, Out.pure_eq]
  split_ifs with hc
  · have g3 : 2 ≤ g := by
      by_contra hlt
      have : g = 1 := by omega
      subst this
      have : dbm y 1 = 0 := by simp [dbm]
      omega
    have hdim := @daysInMonth_eq y (g - 1) hy (by omega)
    have hs := @dbm_succ y (g - 1) (by omega) (by omega)
    rw [show g - 1 + 1 = g by omega] at hs
    refine ⟨g - 1, n - (dbm y g - monthLen y (g - 1)) + 1, by omega, by omega, ?_, by omega, by omega, ?_⟩
    · have := @dbm_le y (g - 1) (by omega) (by omega)
      omega
    · simp only [hdim, Out.bind_ok]
  · refine ⟨g, n - dbm y g + 1, g1, g2, by omega, ?_, by omega, rfl⟩
    by_cases h12 : g = 12
    · subst h12
      have := @dbm_dec y
      omega
    · have := @dbm_end y g g1 (by omega)
      omega

theorem ordToYmd_eq {n : Int} (hn : 1 ≤ n) :
    ∃ y m d, ordToYmd n = .ok (y, m, d) ∧ Valid y m d ∧ ordN y m d = n := by
  have h0 : 0 ≤ n - 1 := by omega
  have e1 : 0 ≤ (n - 1) % 146097 := by omega
  have e2 : 0 ≤ (n - 1) % 146097 % 36524 := by omega
  have e3 : 0 ≤ (n - 1) % 146097 % 36524 % 1461 := by omega
  simp only [ordToYmd, Int.tdiv_eq_ediv_of_nonneg h0, Int.tmod_eq_emod_of_nonneg h0,
    Int.tdiv_eq_ediv_of_nonneg e1, Int.tmod_eq_emod_of_nonneg e1,
    Int.tdiv_eq_ediv_of_nonneg e2, Int.tmod_eq_emod_of_nonneg e2,
    Int.tdiv_eq_ediv_of_nonneg e3, Int.tmod_eq_emod_of_nonneg e3]
  generalize ha : (n - 1) / 146097 = a
  generalize hr1 : (n - 1) % 146097 = r1
  generalize hb : r1 / 36524 = b
  generalize hr2 : r1 % 36524 = r2
  generalize hc : r2 / 1461 = c
  generalize hr3 : r2 % 1461 = r3
  generalize he : r3 / 365 = e
  generalize hr4 : r3 % 365 = r4
  have k1 : n - 1 = 146097 * a + r1 := by omega
  have k2 : r1 = 36524 * b + r2 := by omega
  have k3 : r2 = 1461 * c + r3 := by omega
  have k4 : r3 = 365 * e + r4 := by omega
  have a0 : 0 ≤ a := by omega
  have b0 : 0 ≤ b ∧ b ≤ 4 := by omega
  have c0 : 0 ≤ c ∧ c ≤ 24 := by omega
  have e0 : 0 ≤ e ∧ e ≤ 4 := by omega
  have r0 : 0 ≤ r4 ∧ r4 < 365 := by omega
  have b1 : b = 4 → r2 = 0 := by omega
  have e1 : e = 4 → r4 = 0 := by omega
  have c1 : c = 24 → b ≤ 3 → r2 ≤ 36523 := by omega
  by_cases hs : e = 4 ∨ b = 4
  · rw [if_pos hs]
    refine ⟨_, 12, 31, rfl, ⟨by omega, by omega, by simp [monthLen]⟩, ?_⟩
    have hl : ordN (a * 400 + 1 + (b * 100 + c * 4 + e) - 1) 12 31 + 1 =
        ordN (a * 400 + 1 + (b * 100 + c * 4 + e)) 1 1 := by
      rw [← ordN_year]; congr 1; omega
    have hx : ordN (a * 400 + 1 + (b * 100 + c * 4 + e)) 1 1 = n + 1 := by
      simp only [ordN, dbm]
      rcases hs with rfl | rfl
      · have hr4 : r4 = 0 := by omega
        have hb3 : b ≤ 3 := by omega
        have hc23 : c ≤ 23 ∨ b = 3 := by omega
        have t1 : (a * 400 + 1 + (b * 100 + c * 4 + 4) - 1) / 4 = 100 * a + 25 * b + c + 1 := by omega
        have t2 : (a * 400 + 1 + (b * 100 + c * 4 + 4) - 1) / 100 = 4 * a + b + (if c = 24 then 1 else 0) := by
          split_ifs <;> omega
        have t3 : (a * 400 + 1 + (b * 100 + c * 4 + 4) - 1) / 400 = a + (if c = 24 then 1 else 0) := by
          split_ifs <;> omega
        simp only [t1, t2, t3]
        simp; omega
      · have hr2 : r2 = 0 := by omega
        have hc0 : c = 0 := by omega
        have hr3 : r3 = 0 := by omega
        have he0 : e = 0 := by omega
        subst hc0 he0
        have t1 : (a * 400 + 1 + (4 * 100 + 0 * 4 + 0) - 1) / 4 = 100 * a + 100 := by omega
        have t2 : (a * 400 + 1 + (4 * 100 + 0 * 4 + 0) - 1) / 100 = 4 * a + 4 := by omega
        have t3 : (a * 400 + 1 + (4 * 100 + 0 * 4 + 0) - 1) / 400 = a + 1 := by omega
        simp only [t1, t2, t3]
        simp; omega
    omega
  · rw [if_neg hs]
    have q1 : e ≤ 3 := by omega
    have q2 : b ≤ 3 := by omega
    have hy : a * 400 + 1 + (b * 100 + c * 4 + e) = 400 * a + 100 * b + 4 * c + e + 1 := by omega
    rw [hy]
    have hleap : (decide (e = 3) && (decide (c ≠ 24) || decide (b = 3))) = true ↔
        Leap (400 * a + 100 * b + 4 * c + e + 1) := by
      simp only [Bool.and_eq_true, Bool.or_eq_true, decide_eq_true_eq, Leap]
      omega
    obtain ⟨m, d, m1, m2, d1, d2, hd, hr⟩ := @month_search (400 * a + 100 * b + 4 * c + e + 1) r4
      (by omega) r0.1 (by split_ifs <;> omega) _ hleap
    refine ⟨_, m, d, hr, ⟨by omega, ⟨m1, m2⟩, d1, d2⟩, ?_⟩
    have t1 : (400 * a + 100 * b + 4 * c + e + 1 - 1) / 4 = 100 * a + 25 * b + c := by omega
    have t2 : (400 * a + 100 * b + 4 * c + e + 1 - 1) / 100 = 4 * a + b := by omega
    have t3 : (400 * a + 100 * b + 4 * c + e + 1 - 1) / 400 = a := by omega
    simp only [ordN, t1, t2, t3]
    omega

end Codon.Date
