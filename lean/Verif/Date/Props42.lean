import Verif.Date.Pack

/-!
# C42: the calendar functions are a bijection between dates and ordinals

For every date of the years 1 to 9999 and for every integer.
-/

namespace Codon.Date

open Spec

/-! ## Lemmas -/

theorem InRange.of_ord {y m d : Int} (h : Valid y m d) : y ≤ 9999 ↔ ordN y m d ≤ 3652059 := by
  have hmax : Valid 9999 12 31 := ⟨by omega, by omega, by simp [monthLen]⟩
  have h1 : ordN 9999 12 31 = 3652059 := by decide
  constructor
  · intro hy
    have := ordN_lt_iff hmax h
    have hb : ¬ Before (9999, 12, 31) (y, m, d) := by
      have := monthLen_pos y m
      have := h.month
      have := h.day
      simp only [Before]
      omega
    have := mt this.1 hb
    omega
  · intro ho
    by_contra hc
    have := ordN_lt hmax h (Or.inl (by dsimp; omega))
    omega

theorem Date.pack_toOrdinal {y m d : Int} (h : InRange y m d) :
    (packDate y m d).toOrdinal = .ok (ordN y m d) := by
  obtain ⟨h1, h2, h3⟩ := packDate_fields h
  rw [Date.toOrdinal, h1, h2, h3, ymdToOrd_eq h.year h.month]

theorem tupleGet_ne_ub (t : List Int) (i : Int) : tupleGet t i ≠ .ub := by
  unfold tupleGet
  simp only
  generalize (if i < 0 then i + (t.length : Int) else i) = j
  split_ifs with h
  · simp
  · have : j.toNat < t.length := by omega
    simp [List.getElem?_eq_getElem this]

theorem dayAt_spec {n : Int} (hn : 1 ≤ n) :
    Valid (dayAt n).1 (dayAt n).2.1 (dayAt n).2.2 ∧ ordN (dayAt n).1 (dayAt n).2.1 (dayAt n).2.2 = n := by
  have key : ∀ k : Nat, Valid (nextN k (1, 1, 1)).1 (nextN k (1, 1, 1)).2.1 (nextN k (1, 1, 1)).2.2 ∧
      ordN (nextN k (1, 1, 1)).1 (nextN k (1, 1, 1)).2.1 (nextN k (1, 1, 1)).2.2 = k + 1 := by
    intro k
    induction k with
    | zero => exact ⟨⟨by simp [nextN], by simp [nextN], by simp [nextN, monthLen]⟩, by decide⟩
    | succ k ih => exact ⟨valid_next ih.1, by have := ordN_next ih.1; simp only [nextN]; omega⟩
  have := key (n - 1).toNat
  exact ⟨this.1, by rw [dayAt, this.2]; omega⟩

theorem ordToYmd_dayAt {n : Int} (hn : 1 ≤ n) : ordToYmd n = .ok (dayAt n) := by
  obtain ⟨y, m, d, h1, h2, h3⟩ := ordToYmd_eq hn
  obtain ⟨h4, h5⟩ := dayAt_spec hn
  rw [h1, ordN_inj h2 h4 (by omega)]

theorem dayAt_ordN {y m d : Int} (h : Valid y m d) : dayAt (ordN y m d) = (y, m, d) := by
  obtain ⟨h4, h5⟩ := dayAt_spec (ordN_pos h)
  exact ordN_inj h4 h h5

theorem inRange_dayAt {n : Int} (h1 : 1 ≤ n) (h2 : n ≤ 3652059) :
    InRange (dayAt n).1 (dayAt n).2.1 (dayAt n).2.2 := by
  obtain ⟨h4, h5⟩ := dayAt_spec h1
  exact ⟨h4, (InRange.of_ord h4).2 (by omega)⟩

theorem fromOrdinal_in {n : Int} (h1 : 1 ≤ n) (h2 : n ≤ 3652059) :
    fromOrdinal n = .ok (packDate (dayAt n).1 (dayAt n).2.1 (dayAt n).2.2) := by
  rw [fromOrdinal, ordToYmd_dayAt h1]
  exact dateNew_ok (inRange_dayAt h1 h2)

theorem fromOrdinal_low {n : Int} (hn : n < 1) : ∃ e, fromOrdinal n = .exc e := by
  have neg : ∀ (a : Int) (b : Int), a ≤ 0 → 0 < b → a.tdiv b ≤ 0 ∧ a.tmod b ≤ 0 ∧
      a = b * a.tdiv b + a.tmod b := by
    intro a b ha hb
    obtain ⟨c, rfl⟩ : ∃ c, a = -c := ⟨-a, by omega⟩
    have hc : 0 ≤ c := by omega
    rw [Int.neg_tdiv, Int.neg_tmod]
    have e1 := Int.tdiv_nonneg hc hb.le
    have e2 := Int.tmod_nonneg b hc
    have e3 := Int.mul_tdiv_add_tmod c b
    refine ⟨by omega, by omega, ?_⟩
    rw [Int.mul_neg]
    omega
  unfold fromOrdinal ordToYmd
  simp only
  obtain ⟨a1, a2, a3⟩ := neg (n - 1) 146097 (by omega) (by omega)
  generalize (n - 1).tdiv 146097 = a at *
  generalize (n - 1).tmod 146097 = r1 at *
  obtain ⟨b1, b2, b3⟩ := neg r1 36524 a2 (by omega)
  generalize r1.tdiv 36524 = b at *
  generalize r1.tmod 36524 = r2 at *
  obtain ⟨c1, c2, c3⟩ := neg r2 1461 b2 (by omega)
  generalize r2.tdiv 1461 = c at *
  generalize r2.tmod 1461 = r3 at *
  obtain ⟨d1, d2, d3⟩ := neg r3 365 c2 (by omega)
  generalize r3.tdiv 365 = e at *
  generalize r3.tmod 365 = r4 at *
  rw [if_neg (by omega)]
  generalize hy : a * 400 + 1 + (b * 100 + c * 4 + e) = y
  have hmonth : ¬ ((r4 + 50) / 32 > 2) := by omega
  simp only [hmonth, false_and, if_false]
  have hub := tupleGet_ne_ub [0, 0, 31, 59, 90, 120, 151, 181, 212, 243, 273, 304, 334] ((r4 + 50) / 32)
  rw [← daysBeforeMonthX] at hub
  have bad : ∀ m d : Int, (y < 1 ∨ m < 1) → dateNew y m d = .exc .value :=
    fun m d h => dateNew_exc (fun hr => by have := hr.year; have := hr.month; omega)
  cases hb : daysBeforeMonthX ((r4 + 50) / 32) with
  | ub => exact absurd hb hub
  | exc e => exact ⟨e, rfl⟩
  | ok v =>
    simp only [Out.bind_ok]
    by_cases hy1 : y < 1
    · split_ifs
      · cases hd : daysInMonth y ((r4 + 50) / 32 - 1) with
        | ub =>
          unfold daysInMonth at hd
          split_ifs at hd
          exact absurd hd (tupleGet_ne_ub _ _)
        | exc e => exact ⟨e, rfl⟩
        | ok w => exact ⟨_, bad _ _ (Or.inl hy1)⟩
      · exact ⟨_, bad _ _ (Or.inl hy1)⟩
    · have hr4 : r4 < 0 := by omega
      have hv : 0 ≤ v := by
        unfold daysBeforeMonthX tupleGet at hb
        simp only [List.length_cons, List.length_nil] at hb
        split_ifs at hb with h1
        all_goals
          split at hb
          · rename_i w hw
            cases hb
            have := List.mem_of_getElem? hw
            revert this
            simp
            omega
          · cases hb
      rw [if_pos (by omega)]
      cases hd : daysInMonth y ((r4 + 50) / 32 - 1) with
      | ub =>
        unfold daysInMonth at hd
        split_ifs at hd
        exact absurd hd (tupleGet_ne_ub _ _)
      | exc e => exact ⟨e, rfl⟩
      | ok w => exact ⟨_, bad ((r4 + 50) / 32 - 1) _ (Or.inr (by omega))⟩

/-! ## Theorems -/

/-- **C42**: `date(y, m, d)` accepts exactly the dates of the calendar in the years 1 to 9999, and the
fields of the packed value are the arguments. -/
theorem c42_constructor (y m d : Int) :
    (Valid y m d ∧ y ≤ 9999 →
      ∃ D, dateNew y m d = .ok D ∧ D.year = y ∧ D.month = m ∧ D.day = d) ∧
    (¬ (Valid y m d ∧ y ≤ 9999) → dateNew y m d = .exc .value) := by
  constructor
  · intro ⟨h1, h2⟩
    have h : InRange y m d := ⟨h1, h2⟩
    exact ⟨_, dateNew_ok h, packDate_fields h⟩
  · intro h
    exact dateNew_exc (fun h' => h ⟨h'.toValid, h'.maxYear⟩)

example : Valid 2000 2 29 ∧ ¬ Valid 1900 2 29 ∧ Valid 2024 12 31 := by
  refine ⟨⟨by decide, by decide, by decide⟩, fun h => ?_, ⟨by decide, by decide, by decide⟩⟩
  exact absurd h.day (by decide)

/-- **C42**: `date.fromordinal(n)` is the `n`-th day of the calendar, counted day by day from 1 January
of the year 1, and its `toordinal()` is `n`. -/
theorem c42_fromordinal (n : Int) (h1 : 1 ≤ n) (h2 : n ≤ 3652059) :
    ∃ D, fromOrdinal n = .ok D ∧ (D.year, D.month, D.day) = dayAt n ∧ D.toOrdinal = .ok n := by
  have h := inRange_dayAt h1 h2
  obtain ⟨e1, e2, e3⟩ := packDate_fields h
  refine ⟨_, fromOrdinal_in h1 h2, by rw [e1, e2, e3], ?_⟩
  rw [Date.pack_toOrdinal h, (dayAt_spec h1).2]

example : ∃ D, fromOrdinal 730179 = .ok D ∧ (D.year, D.month, D.day) = (2000, 2, 29) := by
  refine ⟨packDate 2000 2 29, by decide, by decide⟩

/-- **C42**: `date.fromordinal(n)` raises for every other integer. -/
theorem c42_fromordinal_range (n : Int) (h : n < 1 ∨ 3652059 < n) : ∃ e, fromOrdinal n = .exc e := by
  rcases h with h | h
  · exact fromOrdinal_low h
  · obtain ⟨h4, h5⟩ := @dayAt_spec n (by omega)
    refine ⟨.value, ?_⟩
    rw [fromOrdinal, ordToYmd_dayAt (by omega)]
    exact dateNew_exc (fun h' => by
      have := (InRange.of_ord h4).1 h'.maxYear
      omega)

/-- **C42**: `toordinal` numbers the days consecutively, and `fromordinal` inverts it. -/
theorem c42_toordinal (y m d : Int) (h : Valid y m d) (hy : y ≤ 9999) :
    ∃ D n, dateNew y m d = .ok D ∧ D.toOrdinal = .ok n ∧ 1 ≤ n ∧ n ≤ 3652059 ∧ fromOrdinal n = .ok D ∧
      dayAt n = (y, m, d) := by
  have hr : InRange y m d := ⟨h, hy⟩
  have h1 := ordN_pos h
  have h2 := (InRange.of_ord h).1 hy
  have h3 := dayAt_ordN h
  refine ⟨_, _, dateNew_ok hr, Date.pack_toOrdinal hr, h1, h2, ?_, h3⟩
  rw [fromOrdinal_in h1 h2, h3]

/-- **C42**: the ordinal of the following day is one more. -/
theorem c42_next (y m d : Int) (h : Valid y m d) :
    ∃ n, ymdToOrd y m d = .ok n ∧
      ymdToOrd (next y m d).1 (next y m d).2.1 (next y m d).2.2 = .ok (n + 1) := by
  refine ⟨_, ymdToOrd_eq h.year h.month, ?_⟩
  rw [ymdToOrd_eq (valid_next h).year (valid_next h).month, ordN_next h]

example : next 1999 12 31 = (2000, 1, 1) ∧ next 1900 2 28 = (1900, 3, 1) ∧
    next 2000 2 28 = (2000, 2, 29) := by decide

/-- **C42**: the days of the week follow one another; the first day of the calendar is a Monday. -/
theorem c42_weekday (n : Int) (h1 : 1 ≤ n) (h2 : n ≤ 3652059) :
    ∃ D, fromOrdinal n = .ok D ∧ D.weekday = .ok (isoWeekday n - 1) := by
  have h := inRange_dayAt h1 h2
  obtain ⟨e1, e2, e3⟩ := packDate_fields h
  refine ⟨_, fromOrdinal_in h1 h2, ?_⟩
  rw [Date.weekday, weekdayOf, e1, e2, e3, ymdToOrd_eq h.year h.month, (dayAt_spec h1).2]
  simp only [Out.bind_ok, Out.pure_eq, Out.ok.injEq, isoWeekday]
  rw [Int.tmod_eq_emod_of_nonneg (by omega)]
  omega

/-! ## ISO calendar -/

/-- The first Monday of the ISO year. -/
def mon (y : Int) : Int :=
  let j := ordN y 1 1
  let w := (j + 6) % 7
  if w > 3 then j - w + 7 else j - w

theorem isoWeek1Monday_eq {y : Int} (hy : 1 ≤ y) : isoWeek1Monday y = .ok (mon y) := by
  have hv : Valid y 1 1 := ⟨hy, by omega, by have := monthLen_pos y 1; omega⟩
  have := ordN_pos hv
  rw [isoWeek1Monday, ymdToOrd_eq hy (by omega)]
  simp only [Out.bind_ok, Out.pure_eq, Int.tmod_eq_emod_of_nonneg (by omega : 0 ≤ ordN y 1 1 + 6), mon]

theorem mon_bounds (y : Int) : ordN y 1 1 - 3 ≤ mon y ∧ mon y ≤ ordN y 1 1 + 3 ∧ (mon y + 6) % 7 = 0 := by
  unfold mon
  simp only
  split_ifs <;> omega

theorem jan1_step (y : Int) : ordN (y + 1) 1 1 = ordN y 1 1 + 365 + if Leap y then 1 else 0 := by
  rw [ordN_year]
  simp only [ordN, dbm]
  simp
  omega

theorem year_iff {n y : Int} (hn : 1 ≤ n) (hy : 1 ≤ y) :
    (dayAt n).1 = y ↔ ordN y 1 1 ≤ n ∧ n < ordN (y + 1) 1 1 := by
  obtain ⟨h1, h2⟩ := dayAt_spec hn
  generalize hp : dayAt n = p at *
  obtain ⟨y', m, d⟩ := p
  dsimp only at h1 h2 ⊢
  have v1 : ∀ y, 1 ≤ y → Valid y 1 1 := fun y hy => ⟨hy, by omega, by have := monthLen_pos y 1; omega⟩
  have a := ordN_lt_iff h1 (v1 y hy)
  have b := ordN_lt_iff h1 (v1 (y + 1) (by omega))
  have := h1.month
  have := h1.day
  simp only [Before] at a b
  rw [h2] at a b
  omega

theorem year_pos {n : Int} (hn : 1 ≤ n) : 1 ≤ (dayAt n).1 := (dayAt_spec hn).1.year

theorem jan1_mono {y y' : Int} (hy : 1 ≤ y) (h : y < y') : ordN (y + 1) 1 1 ≤ ordN y' 1 1 := by
  by_cases he : y + 1 = y'
  · rw [he]
  · have v1 : ∀ y, 1 ≤ y → Valid y 1 1 := fun y hy => ⟨hy, by omega, by have := monthLen_pos y 1; omega⟩
    exact (ordN_lt (v1 _ (by omega)) (v1 _ (by omega)) (Or.inl (by dsimp; omega))).le

/-- The ISO date in terms of the first Monday. -/
theorem iso_iff {n y w k : Int} (hn : 1 ≤ n) :
    IsoDate n y w k ↔ 1 ≤ y ∧ 1 ≤ w ∧ 1 ≤ k ∧ k ≤ 7 ∧ n = mon y + 7 * (w - 1) + (k - 1) ∧
      mon y + 7 * (w - 1) + 3 < ordN (y + 1) 1 1 := by
  unfold IsoDate isoWeekday
  have ht : 1 ≤ n - ((n - 1) % 7 + 1) + 4 := by omega
  constructor
  · rintro ⟨rfl, hw, hy, h3, h4, h5⟩
    have hy1 := year_pos ht
    rw [hy] at hy1
    rw [year_iff ht hy1] at hy
    rw [year_iff h3 hy1] at h4
    have h6 : n - ((n - 1) % 7 + 1) + 4 - 7 * w < ordN y 1 1 := by
      rcases h5 with h5 | h5
      · have v1 : Valid y 1 1 := ⟨hy1, by omega, by have := monthLen_pos y 1; omega⟩
        have := ordN_pos v1
        omega
      · by_cases hlow : 1 ≤ n - ((n - 1) % 7 + 1) + 4 - 7 * w
        · have hp := year_pos hlow
          have hq := (year_iff hlow hp).1 rfl
          have := jan1_mono hp h5
          omega
        · have v1 : Valid y 1 1 := ⟨hy1, by omega, by have := monthLen_pos y 1; omega⟩
          have := ordN_pos v1
          omega
    obtain ⟨m1, m2, m3⟩ := mon_bounds y
    refine ⟨hy1, hw, by omega, by omega, by omega, by omega⟩
  · rintro ⟨hy1, hw, hk1, hk2, rfl, hlt⟩
    obtain ⟨m1, m2, m3⟩ := mon_bounds y
    have v1 : Valid y 1 1 := ⟨hy1, by omega, by have := monthLen_pos y 1; omega⟩
    have := ordN_pos v1
    have hkk : k = (mon y + 7 * (w - 1) + (k - 1) - 1) % 7 + 1 := by omega
    refine ⟨hkk, hw, ?_⟩
    rw [← hkk] at ht
    simp only
    refine ⟨(year_iff ht hy1).2 (by omega), by omega, (year_iff (by omega) hy1).2 (by omega), ?_⟩
    by_cases hlow : 1 ≤ mon y + 7 * (w - 1) + (k - 1) - k + 4 - 7 * w
    · right
      have hp := year_pos hlow
      have hq := (year_iff hlow hp).1 rfl
      by_contra hc
      rcases Int.lt_or_eq_of_le (Int.not_lt.1 hc) with hc | hc
      · have := jan1_mono hy1 hc
        have := jan1_step y
        split_ifs at this <;> omega
      · rw [← hc] at hq
        omega
    · left; omega

theorem divmod_eq {x y : Int} (hy : 0 < y) : divmod x y = (x / y, x % y) := by
  unfold divmod
  simp only
  have h1 := Int.mul_tdiv_add_tmod x y
  have h2 := Int.mul_ediv_add_emod x y
  have h3 := Int.emod_nonneg x (by omega : y ≠ 0)
  have h4 := Int.emod_lt_of_pos x hy
  have hr : x - x.tdiv y * y = x.tmod y := by rw [Int.mul_comm]; omega
  rw [hr]
  by_cases hx : 0 ≤ x
  · rw [Int.tdiv_eq_ediv_of_nonneg hx, Int.tmod_eq_emod_of_nonneg hx, if_neg (by omega)]
  · obtain ⟨c, rfl⟩ : ∃ c, x = -c := ⟨-x, by omega⟩
    have hc : 0 ≤ c := by omega
    have e2 := Int.tmod_nonneg y hc
    have e3 := Int.tmod_lt_of_pos c hy
    rw [Int.neg_tmod, Int.neg_tdiv] at *
    have uniq : ∀ q q' r r' : Int, y * q + r = y * q' + r' → 0 ≤ r → r < y → 0 ≤ r' → r' < y →
        q = q' ∧ r = r' := by
      intro q q' r r' h a b c d
      have hq : q = q' := by
        rcases Int.lt_trichotomy q q' with hlt | rfl | hlt
        · nlinarith
        · rfl
        · nlinarith
      subst hq
      exact ⟨rfl, by omega⟩
    split_ifs with hneg
    · obtain ⟨u1, u2⟩ := uniq (-c.tdiv y - 1) (-c / y) (-c.tmod y + y) (-c % y)
        (by rw [h2, ← h1, Int.mul_sub]; omega) (by omega) (by omega) h3 h4
      rw [u1, u2]
    · obtain ⟨u1, u2⟩ := uniq (-c.tdiv y) (-c / y) (-c.tmod y) (-c % y)
        (by rw [h2, ← h1]) (by omega) (by omega) h3 h4
      rw [u1, u2]

theorem isocalendar_eq {y m d : Int} (h : InRange y m d) :
    ∃ Y W K, (packDate y m d).isocalendar = .ok (Y, W, K) ∧ IsoDate (ordN y m d) Y W K := by
  obtain ⟨e1, e2, e3⟩ := packDate_fields h
  have hn := ordN_pos h.toValid
  have hJ : ordN y 1 1 ≤ ordN y m d ∧ ordN y m d < ordN (y + 1) 1 1 := by
    rw [← year_iff hn h.year, dayAt_ordN h.toValid]
  simp only [Date.isocalendar, e1, e2, e3, isoWeek1Monday_eq h.year, ymdToOrd_eq h.year h.month,
    Out.bind_ok, divmod_eq (by omega : (0 : Int) < 7), Out.pure_eq]
  generalize ordN y m d = n at *
  obtain ⟨m1, m2, m3⟩ := mon_bounds y
  obtain ⟨p1, p2, p3⟩ := mon_bounds (y + 1)
  have s1 := jan1_step y
  split_ifs with c1 c2
  · have hy : y ≠ 1 := by
      rintro rfl
      have : mon 1 = 1 := by decide
      omega
    have hy1 : 1 ≤ y - 1 := by have := h.year; omega
    obtain ⟨q1, q2, q3⟩ := mon_bounds (y - 1)
    have s2 := jan1_step (y - 1)
    rw [show y - 1 + 1 = y by omega] at s2
    rw [isoWeek1Monday_eq hy1]
    simp only [Out.bind_ok]
    refine ⟨_, _, _, rfl, (iso_iff hn).2 ⟨hy1, ?_, by omega, by omega, by omega, ?_⟩⟩
    · split_ifs at s2 <;> omega
    · rw [show y - 1 + 1 = y by omega]
      omega
  · rw [isoWeek1Monday_eq (by have := h.year; omega : 1 ≤ y + 1)]
    simp only [Out.bind_ok]
    split_ifs with c3
    · refine ⟨_, _, _, rfl, (iso_iff hn).2 ⟨by have := h.year; omega, by omega, by omega, by omega, ?_, ?_⟩⟩
      · split_ifs at s1 <;> omega
      · have s3 := jan1_step (y + 1)
        split_ifs at s3 <;> omega
    · refine ⟨_, _, _, rfl, (iso_iff hn).2 ⟨h.year, by omega, by omega, by omega, by omega, ?_⟩⟩
      omega
  · refine ⟨_, _, _, rfl, (iso_iff hn).2 ⟨h.year, by omega, by omega, by omega, by omega, ?_⟩⟩
    split_ifs at s1 <;> omega

theorem iso_unique {n y w k y' w' k' : Int} (hn : 1 ≤ n) (h : IsoDate n y w k)
    (h' : IsoDate n y' w' k') : (y, w, k) = (y', w', k') := by
  obtain ⟨rfl, hw, hy, -⟩ := id h
  obtain ⟨rfl, hw', hy', -⟩ := id h'
  obtain rfl : y = y' := hy.symm.trans hy'
  have a := ((iso_iff hn).1 h).2.2.2.2.1
  have b := ((iso_iff hn).1 h').2.2.2.2.1
  have : w = w' := by omega
  rw [this]

/-- **C42**: `isocalendar()` is the date of ISO 8601, counted by Thursdays. -/
theorem c42_isocalendar (y m d : Int) (h : Valid y m d) (hy : y ≤ 9999) :
    ∃ D n Y W K, dateNew y m d = .ok D ∧ D.toOrdinal = .ok n ∧ D.isocalendar = .ok (Y, W, K) ∧
      IsoDate n Y W K := by
  have hr : InRange y m d := ⟨h, hy⟩
  obtain ⟨Y, W, K, h1, h2⟩ := isocalendar_eq hr
  exact ⟨_, _, Y, W, K, dateNew_ok hr, Date.pack_toOrdinal hr, h1, h2⟩

/-- The week numbers of an ISO year. -/
def WeekOk (Y W : Int) : Prop := 1 ≤ W ∧ (W ≤ 52 ∨ W = 53 ∧ mon Y + 7 * 52 + 3 < ordN (Y + 1) 1 1)

theorem weekBad_eq {Y W : Int} (hY : 1 ≤ Y) :
    ∃ b, weekBad Y W = .ok b ∧ (b = true ↔ ¬ WeekOk Y W) := by
  have v1 : Valid Y 1 1 := ⟨hY, by omega, by have := monthLen_pos Y 1; omega⟩
  have hj := ordN_pos v1
  have s1 := jan1_step Y
  have hmon : mon Y = (let j := ordN Y 1 1; let w := (j + 6) % 7;
      if w > 3 then j - w + 7 else j - w) := rfl
  simp only at hmon
  unfold weekBad WeekOk
  split_ifs with w1 w2
  · subst w2
    rw [weekdayOf, ymdToOrd_eq hY (by omega)]
    simp only [Out.bind_ok, Out.pure_eq, Out.ok.injEq,
      Int.tmod_eq_emod_of_nonneg (by omega : 0 ≤ ordN Y 1 1 + 6)]
    refine ⟨_, rfl, ?_⟩
    simp only [Bool.not_eq_true', Bool.or_eq_false_iff, decide_eq_false_iff_not,
      Bool.and_eq_false_iff]
    have hl := @isLeap_iff Y (by omega)
    by_cases hL : Leap Y
    · have hl' : isLeap Y = true := hl.2 hL
      rw [if_pos hL] at s1
      rw [hl']
      split_ifs at hmon <;> simp <;> omega
    · have hl' : isLeap Y = false := by
        cases hh : isLeap Y
        · rfl
        · exact absurd (hl.1 hh) hL
      rw [if_neg hL] at s1
      rw [hl']
      split_ifs at hmon <;> simp <;> omega
  · exact ⟨_, rfl, by simp; omega⟩
  · exact ⟨_, rfl, by simp; omega⟩

theorem mon_pos {Y : Int} (hY : 1 ≤ Y) : 1 ≤ mon Y := by
  obtain ⟨m1, m2, m3⟩ := mon_bounds Y
  by_cases hY1 : Y = 1
  · subst hY1; decide
  · have := jan1_mono (by omega : (1 : Int) ≤ 1) (by omega : 1 < Y)
    have : ordN (1 + 1) 1 1 = 366 := by decide
    omega

theorem fromIso_eq {Y W K : Int} (hY : 1 ≤ Y) (hY2 : Y ≤ 9999) (hW : WeekOk Y W) (hK1 : 1 ≤ K)
    (hK2 : K ≤ 7) : fromIsocalendar Y W K = fromOrdinal (mon Y + ((W - 1) * 7 + K - 1)) := by
  obtain ⟨b, hb, hbb⟩ := @weekBad_eq Y W hY
  have hbf : ¬ b = true := fun h => hbb.1 h hW
  have hm := mon_pos hY
  rw [fromIsocalendar, if_neg (by simp only [minYear, maxYear]; omega), hb]
  simp only [Out.bind_ok]
  rw [if_neg hbf, if_neg (by omega), isoWeek1Monday_eq hY]
  rfl

theorem fromIso_exc {Y W K : Int} (h : ¬ (1 ≤ Y ∧ Y ≤ 9999 ∧ WeekOk Y W ∧ 1 ≤ K ∧ K ≤ 7)) :
    fromIsocalendar Y W K = .exc .value := by
  by_cases hY : 1 ≤ Y ∧ Y ≤ 9999
  · obtain ⟨b, hb, hbb⟩ := @weekBad_eq Y W hY.1
    rw [fromIsocalendar, if_neg (by simp only [minYear, maxYear]; omega), hb]
    simp only [Out.bind_ok]
    by_cases hW : WeekOk Y W
    · rw [if_neg (fun h => hbb.1 h hW), if_pos (by by_contra hc; exact h ⟨hY.1, hY.2, hW, by omega, by omega⟩)]
    · rw [if_pos (hbb.2 hW)]
  · rw [fromIsocalendar, if_pos (by simp only [minYear, maxYear]; omega)]

theorem weekOk_iff {Y W : Int} (hY : 1 ≤ Y) (hW : 1 ≤ W) :
    mon Y + 7 * (W - 1) + 3 < ordN (Y + 1) 1 1 ↔ WeekOk Y W := by
  obtain ⟨m1, m2, m3⟩ := mon_bounds Y
  have s1 := jan1_step Y
  unfold WeekOk
  constructor
  · intro h
    refine ⟨hW, ?_⟩
    by_cases h52 : W ≤ 52
    · exact Or.inl h52
    · have : W = 53 := by split_ifs at s1 <;> omega
      subst this
      exact Or.inr ⟨rfl, by omega⟩
  · rintro ⟨-, h | ⟨rfl, h⟩⟩
    · split_ifs at s1 <;> omega
    · omega

/-- **C42**: `fromisocalendar` and `isocalendar` invert each other: for every date `D` of the calendar,
`fromisocalendar(y, w, k)` is `D` exactly if `D.isocalendar()` is `(y, w, k)`. -/
theorem c42_fromisocalendar (y m d : Int) (h : Valid y m d) (hy : y ≤ 9999) (Y W K : Int) :
    fromIsocalendar Y W K = .ok (packDate y m d) ↔ (packDate y m d).isocalendar = .ok (Y, W, K) := by
  have hr : InRange y m d := ⟨h, hy⟩
  obtain ⟨Y', W', K', h1, h2⟩ := isocalendar_eq hr
  have hn := ordN_pos h
  have hn2 := (InRange.of_ord h).1 hy
  have hfo : fromOrdinal (ordN y m d) = .ok (packDate y m d) := by
    rw [fromOrdinal_in hn hn2, dayAt_ordN h]
  rw [h1]
  constructor
  · intro hf
    by_cases hc : 1 ≤ Y ∧ Y ≤ 9999 ∧ WeekOk Y W ∧ 1 ≤ K ∧ K ≤ 7
    · obtain ⟨c1, c2, c3, c4, c5⟩ := hc
      have hm := mon_pos c1
      have hW : 1 ≤ W := c3.1
      rw [fromIso_eq c1 c2 c3 c4 c5] at hf
      have hn' : 1 ≤ mon Y + ((W - 1) * 7 + K - 1) := by omega
      have hn2' : mon Y + ((W - 1) * 7 + K - 1) ≤ 3652059 := by
        by_contra hgt
        obtain ⟨e, he⟩ : ∃ e, fromOrdinal (mon Y + ((W - 1) * 7 + K - 1)) = .exc e := by
          apply c42_fromordinal_range
          omega
        rw [he] at hf
        cases hf
      rw [fromOrdinal_in hn' hn2'] at hf
      have e : mon Y + ((W - 1) * 7 + K - 1) = ordN y m d := by
        have p1 := Date.pack_toOrdinal (inRange_dayAt hn' hn2')
        rw [Out.ok.inj hf, Date.pack_toOrdinal hr, (dayAt_spec hn').2] at p1
        exact (Out.ok.inj p1).symm
      have iso : IsoDate (ordN y m d) Y W K := by
        rw [iso_iff hn]
        exact ⟨c1, hW, c4, c5, by omega, (weekOk_iff c1 hW).2 c3⟩
      rw [iso_unique hn iso h2]
    · rw [fromIso_exc hc] at hf
      cases hf
  · intro he
    have he := Out.ok.inj he
    simp only [Prod.mk.injEq] at he
    obtain ⟨rfl, rfl, rfl⟩ := he
    obtain ⟨c1, c2, c3, c4, c5, c6⟩ := (iso_iff hn).1 h2
    have hY2 : Y' ≤ 9999 := by
      by_contra hgt
      have := jan1_mono (by omega : (1 : Int) ≤ 9999) (by omega : 9999 < Y')
      have hj : ordN (9999 + 1) 1 1 = 3652060 := by decide
      obtain ⟨m1, m2, m3⟩ := mon_bounds Y'
      have hmm : mon (9999 + 1) = 3652062 := by decide
      by_cases hY : Y' = 10000
      · subst hY
        have : mon 10000 = 3652062 := by decide
        omega
      · have := jan1_mono (by omega : (1 : Int) ≤ 10000) (by omega : 10000 < Y')
        have : ordN (10000 + 1) 1 1 = 3652426 := by decide
        omega
    rw [fromIso_eq c1 hY2 ((weekOk_iff c1 c2).1 c6) c3 c4, ← hfo]
    congr 1
    omega

/-- 1 January 2021 was the Friday of week 53 of 2020, and 31 December 2024 the Tuesday of week 1 of
2025. -/
example : (packDate 2021 1 1).isocalendar = .ok (2020, 53, 5) ∧
    (packDate 2024 12 31).isocalendar = .ok (2025, 1, 2) ∧
    fromIsocalendar 2020 53 5 = .ok (packDate 2021 1 1) ∧
    fromIsocalendar 2021 53 1 = .exc .value := by decide

end Codon.Date
