import Verif.Date.Props42
import Mathlib.Data.Nat.Log
import Mathlib.Tactic.Ring

/-!
# C43: date and datetime arithmetic is exact

A `timedelta` is its number of microseconds.  The value of a date is its ordinal, the value of a datetime
the number of microseconds `ordinal * 86400000000 + microseconds since midnight`.
-/

namespace Codon.Date

open Spec

/-! ## Lemmas -/

theorem normalizePair_eq {hi lo f : Int} (hf : 0 < f) : normalizePair hi lo f = (hi + lo / f, lo % f) := by
  unfold normalizePair
  split_ifs with h
  · simp only [divmod_eq hf]
  · have h1 : 0 ≤ lo := by omega
    have h2 : lo < f := by omega
    rw [Int.ediv_eq_zero_of_lt h1 h2, Int.emod_eq_of_lt h1 h2, Int.add_zero]

theorem normalizeDSUs_eq (us : Int) :
    normalizeDSUs 0 0 us = (us / 86400000000, us / 1000000 % 86400, us % 1000000) := by
  unfold normalizeDSUs
  rw [show (24 * 3600 : Int) = 86400 from rfl]
  simp only [normalizePair_eq (by omega : (0 : Int) < 1000000),
    normalizePair_eq (by omega : (0 : Int) < 86400)]
  split_ifs <;> simp only [Prod.mk.injEq, Int.zero_add, and_true] at * <;> omega

theorem ordN_day (y m d e : Int) : ordN y m (d + e) = ordN y m d + e := by simp only [ordN]; omega

theorem checkYear_eq {y m d : Int} (h : Valid y m d) :
    checkYear y m d = if 1 ≤ ordN y m d ∧ ordN y m d ≤ 3652059 then .ok (dayAt (ordN y m d))
      else .exc .overflow := by
  have h1 := ordN_pos h
  have h2 := InRange.of_ord h
  have h3 := h.year
  rw [checkYear, dayAt_ordN h]
  by_cases hy : y ≤ 9999
  · rw [if_neg (by simp only [minYear, maxYear]; omega), if_pos (by omega)]
  · rw [if_pos (by simp only [minYear, maxYear]; omega), if_neg (by omega)]

theorem normalizeYMD_eq {y m : Int} (d : Int) (hy : 1 ≤ y) (hm : 1 ≤ m ∧ m ≤ 12) :
    normalizeYMD y m d = if 1 ≤ ordN y m d ∧ ordN y m d ≤ 3652059 then .ok (dayAt (ordN y m d))
      else .exc .overflow := by
  have hl := monthLen_pos y m
  rw [normalizeYMD, daysInMonth_eq (by omega) hm]
  simp only [Out.bind_ok]
  by_cases h1 : d < 1 ∨ d > monthLen y m
  · rw [if_pos h1]
    by_cases h2 : d = 0
    · rw [if_pos h2]
      subst h2
      by_cases h3 : m - 1 > 0
      · rw [if_pos h3, daysInMonth_eq (by omega) (by omega)]
        have hl' := monthLen_pos y (m - 1)
        have e : ordN y (m - 1) (monthLen y (m - 1)) = ordN y m 0 := by
          have := @dbm_succ y (m - 1) (by omega) (by omega)
          rw [show m - 1 + 1 = m by omega] at this
          simp only [ordN, this]; omega
        simp only [Out.bind_ok]
        rw [checkYear_eq ⟨hy, by omega, by omega, by omega⟩, e]
      · rw [if_neg h3]
        have hm1 : m = 1 := by omega
        subst hm1
        have e : ordN (y - 1) 12 31 = ordN y 1 0 := by
          have := @ordN_year (y - 1)
          rw [show y - 1 + 1 = y by omega] at this
          have := ordN_day y 1 0 1
          simp only [Int.zero_add] at this
          omega
        by_cases hy1 : y = 1
        · subst hy1
          rw [if_neg (by rw [← e]; decide)]
          rfl
        · rw [checkYear_eq ⟨by omega, by omega, by simp [monthLen]⟩, e]
    · rw [if_neg h2]
      by_cases h3 : d = monthLen y m + 1
      · rw [if_pos h3]
        subst h3
        by_cases h4 : m + 1 > 12
        · rw [if_pos h4]
          have hm1 : m = 12 := by omega
          subst hm1
          have e : ordN (y + 1) 1 1 = ordN y 12 (monthLen y 12 + 1) := by
            rw [ordN_year, ordN_day]
            simp [monthLen]
          have := monthLen_pos (y + 1) 1
          rw [checkYear_eq ⟨by omega, by omega, by omega⟩, e]
        · rw [if_neg h4]
          have e : ordN y (m + 1) 1 = ordN y m (monthLen y m + 1) := by
            have := @dbm_succ y m (by omega) (by omega)
            simp only [ordN, this]; omega
          have := monthLen_pos y (m + 1)
          rw [checkYear_eq ⟨by omega, by omega, by omega⟩, e]
      · rw [if_neg h3, ymdToOrd_eq hy hm]
        simp only [Out.bind_ok]
        have e : ordN y m 1 + d - 1 = ordN y m d := by simp only [ordN]; omega
        rw [e]
        by_cases h4 : 1 ≤ ordN y m d ∧ ordN y m d ≤ 3652059
        · rw [if_neg (by simp only [maxOrdinal]; omega), if_pos h4, ordToYmd_dayAt h4.1]
        · rw [if_pos (by simp only [maxOrdinal]; omega), if_neg h4]
  · rw [if_neg h1]
    exact checkYear_eq ⟨hy, hm, by omega⟩

/-- The date with a given ordinal. -/
def dateAt (n : Int) : Date := packDate (dayAt n).1 (dayAt n).2.1 (dayAt n).2.2

theorem dateAt_fields {n : Int} (h1 : 1 ≤ n) (h2 : n ≤ 3652059) :
    (dateAt n).year = (dayAt n).1 ∧ (dateAt n).month = (dayAt n).2.1 ∧ (dateAt n).day = (dayAt n).2.2 :=
  packDate_fields (inRange_dayAt h1 h2)

theorem normalize_dateAt {n e : Int} (h1 : 1 ≤ n) (h2 : n ≤ 3652059) :
    normalizeYMD (dateAt n).year (dateAt n).month ((dateAt n).day + e) =
      if 1 ≤ n + e ∧ n + e ≤ 3652059 then .ok (dayAt (n + e)) else .exc .overflow := by
  obtain ⟨e1, e2, e3⟩ := dateAt_fields h1 h2
  have hr := inRange_dayAt h1 h2
  rw [e1, e2, e3, normalizeYMD_eq _ hr.year hr.month, ordN_day, (dayAt_spec h1).2]

theorem add_dateAt {n us : Int} (h1 : 1 ≤ n) (h2 : n ≤ 3652059) :
    (dateAt n).add us = if 1 ≤ n + us / 86400000000 ∧ n + us / 86400000000 ≤ 3652059 then
      .ok (dateAt (n + us / 86400000000)) else .exc .overflow := by
  rw [Date.add, normalizeDSUs_eq, normalize_dateAt h1 h2]
  split_ifs with h
  · exact dateNew_ok (inRange_dayAt h.1 h.2)
  · rfl

theorem sub_dateAt {n us : Int} (h1 : 1 ≤ n) (h2 : n ≤ 3652059) :
    (dateAt n).sub us = if 1 ≤ n - us / 86400000000 ∧ n - us / 86400000000 ≤ 3652059 then
      .ok (dateAt (n - us / 86400000000)) else .exc .overflow := by
  rw [Date.sub, normalizeDSUs_eq]
  simp only [Int.sub_eq_add_neg]
  rw [normalize_dateAt h1 h2]
  split_ifs with h
  · exact dateNew_ok (inRange_dayAt h.1 h.2)
  · rfl

theorem toOrdinal_dateAt {n : Int} (h1 : 1 ≤ n) (h2 : n ≤ 3652059) : (dateAt n).toOrdinal = .ok n := by
  rw [dateAt, Date.pack_toOrdinal (inRange_dayAt h1 h2), (dayAt_spec h1).2]

theorem toDouble_exact {x : Int} (h : x.natAbs ≤ 2 ^ 53) : toDouble x = x := by
  unfold toDouble
  simp only
  have hv : ∀ v : Nat, v = x.natAbs → (if x < 0 then -(v : Int) else v) = x := by
    rintro v rfl
    split_ifs <;> omega
  rcases Nat.lt_or_eq_of_le h with h | h
  · have he : Nat.log2 x.natAbs - 52 = 0 := by
      by_cases hx : x.natAbs = 0
      · simp [hx]
      · have : Nat.log2 x.natAbs < 53 := (Nat.log2_lt hx).2 h
        omega
    rw [he]
    apply hv
    simp only [Nat.pow_zero, Nat.div_one, Nat.mod_one, Nat.mul_one, ne_eq, not_true, decide_false,
      Bool.and_false, Bool.or_false, Nat.mul_zero]
    simp
  · apply hv
    rw [h]
    have : Nat.log2 (2 ^ 53) = 53 := Nat.log2_two_pow
    rw [this]
    decide

/-- A reachable `date` is the one of its ordinal. -/
theorem dateNew_dateAt {y m d : Int} {D : Date} (h : dateNew y m d = .ok D) :
    ∃ n, 1 ≤ n ∧ n ≤ 3652059 ∧ D = dateAt n ∧ dayAt n = (y, m, d) := by
  by_cases hr : InRange y m d
  · rw [dateNew_ok hr] at h
    cases h
    refine ⟨ordN y m d, ordN_pos hr.toValid, (InRange.of_ord hr.toValid).1 hr.maxYear, ?_,
      dayAt_ordN hr.toValid⟩
    rw [dateAt, dayAt_ordN hr.toValid]
  · rw [dateNew_exc hr] at h
    cases h

/-! ## Theorems on `timedelta` -/

/-- **C43**: the fields `days`, `seconds`, `microseconds` of a timedelta are its normal form. -/
theorem c43_timedelta_fields (us : Int) :
    let r := normalizeDSUs 0 0 us
    us = (r.1 * 86400 + r.2.1) * 1000000 + r.2.2 ∧ 0 ≤ r.2.1 ∧ r.2.1 < 86400 ∧ 0 ≤ r.2.2 ∧
      r.2.2 < 1000000 := by
  rw [normalizeDSUs_eq]
  simp only
  omega

example : normalizeDSUs 0 0 (-1) = (-1, 86399, 999999) := by decide

/-- **C43**: the constructor adds up its integer arguments exactly as long as each is at most 2^53 in
absolute value.  (They are converted to `float`; fractional arguments are not modelled.) -/
theorem c43_timedelta_new_partial (d s us ms mi h w : Int)
    (hd : d.natAbs ≤ 2 ^ 53) (hs : s.natAbs ≤ 2 ^ 53) (hus : us.natAbs ≤ 2 ^ 53)
    (hms : ms.natAbs ≤ 2 ^ 53) (hmi : mi.natAbs ≤ 2 ^ 53) (hh : h.natAbs ≤ 2 ^ 53)
    (hw : w.natAbs ≤ 2 ^ 53) :
    timedeltaNew d s us ms mi h w =
      (((((w * 7 + d) * 24 + h) * 60 + mi) * 60 + s) * 1000 + ms) * 1000 + us := by
  simp only [timedeltaNew, accum, toDouble_exact, hd, hs, hus, hms, hmi, hh, hw]
  ring


example : timedeltaNew 1 2 3 4 5 6 1 = 713102004003 := by decide

/-- **C43 violated**: integer arguments beyond 2^53 lose their last digits, because the parameters are
declared `float`. -/
theorem c43_violation_timedelta_new :
    timedeltaNew 0 0 9007199254740993 0 0 0 0 = 9007199254740992 := by decide

/-- **C43 violated**: `timedelta // int` truncates instead of rounding down. -/
theorem c43_violation_floordiv : tdFloordiv (-1) 2 = .ok 0 ∧ (-1 : Int) / 2 = -1 := by decide

/-- **C43** (for non-negative timedeltas): `timedelta // int` rounds down. -/
theorem c43_floordiv_partial (us n : Int) (hu : 0 ≤ us) (hn : 0 < n) :
    ∃ q, tdFloordiv us n = .ok q ∧ n * q ≤ us ∧ us < n * (q + 1) := by
  refine ⟨us / n, ?_, ?_, ?_⟩
  · rw [tdFloordiv, if_neg (by omega), Int.tdiv_eq_ediv_of_nonneg hu]
  · have := Int.mul_ediv_add_emod us n
    have := Int.emod_nonneg us (by omega : n ≠ 0)
    omega
  · have := Int.mul_ediv_add_emod us n
    have := Int.emod_lt_of_pos us hn
    rw [Int.mul_add, Int.mul_one]
    omega

theorem tmod_add_tmod {n M : Int} (hM : M ≠ 0) : (n.tmod M + M).tmod M = n.fmod M := by
  have key : ∀ x P : Int, 0 < P → (x.tmod P + P).tmod P = x % P := by
    intro x P hP
    have h1 := Int.lt_tmod_of_pos x hP
    rw [Int.tmod_eq_emod_of_nonneg (by omega), Int.add_emod_right]
    have h2 := Int.mul_tdiv_add_tmod x P
    conv_rhs => rw [← h2]
    rw [Int.mul_add_emod_self_left]
  rcases Int.lt_or_gt_of_ne hM with h | h
  · obtain ⟨P, rfl⟩ : ∃ P, M = -P := ⟨-M, by omega⟩
    rw [Int.tmod_neg, Int.tmod_neg]
    have h3 := key (-n) P (by omega)
    rw [Int.neg_tmod, show -n.tmod P + P = -(n.tmod P + -P) by omega, Int.neg_tmod] at h3
    have h4 := Int.neg_fmod_neg (-n) P
    rw [Int.neg_neg, Int.fmod_eq_emod_of_nonneg (-n) (by omega), ← h3] at h4
    rw [h4]
    omega
  · rw [key n M h, Int.fmod_eq_emod_of_nonneg _ (by omega)]

/-- **C43** (for divisors of at most 2^62 microseconds): `timedelta % timedelta` has the sign of the
divisor, as Python's `%`. -/
theorem c43_mod_partial (n M : BitVec 64) (h0 : M ≠ 0) (h1 : M.toInt.natAbs ≤ 2 ^ 62)
    (h2 : ¬ (n = BitVec.intMin 64 ∧ M = -1)) :
    ∃ r, tdMod n M = .ok r ∧ r.toInt = n.toInt.fmod M.toInt := by
  have hM : M.toInt ≠ 0 := fun h => h0 (BitVec.eq_of_toInt_eq (by rw [h]; rfl))
  have hr : (n.srem M).toInt = n.toInt.tmod M.toInt := BitVec.toInt_srem n M
  have hlt : (n.toInt.tmod M.toInt).natAbs < M.toInt.natAbs := by
    rw [Int.natAbs_tmod]
    exact Nat.mod_lt _ (by omega)
  have hadd : (n.srem M + M).toInt = n.toInt.tmod M.toInt + M.toInt := by
    rw [BitVec.toInt_add, hr]
    apply Int.bmod_eq_of_le <;> omega
  have hg : ¬ (n.srem M + M = BitVec.intMin 64 ∧ M = -1) := by
    rintro ⟨ha, hb⟩
    rw [ha, BitVec.toInt_intMin] at hadd
    have : M.toInt = -1 := by rw [hb]; decide
    rw [this] at hadd hlt
    simp at hadd
  refine ⟨(n.srem M + M).srem M, ?_, ?_⟩
  · simp only [tdMod]
    rw [if_neg (by tauto)]
    simp only [Out.bind_ok]
    rw [if_neg (by tauto)]
  · rw [BitVec.toInt_srem, hadd, tmod_add_tmod hM]

example : tdMod (-7) 3 = .ok 2 ∧ tdMod 7 (-3) = .ok (-2) := by decide

/-- **C43 violated**: with a divisor above 2^62 the sum in `__mod__` overflows and the result is
negative. -/
theorem c43_violation_mod :
    tdMod (BitVec.ofInt 64 9223372036854775806) (BitVec.ofInt 64 9223372036854775807) =
      .ok (BitVec.ofInt 64 (-3)) := by decide

/-! ## Theorems on `date` -/

/-- **C43**: adding a timedelta to a date gives the date at the distance of its whole days, or an
`OverflowError` if there is none. -/
theorem c43_date_add (y m d us : Int) (D : Date) (hD : dateNew y m d = .ok D) :
    ∃ n, D.toOrdinal = .ok n ∧
      (1 ≤ n + us / dayMicros ∧ n + us / dayMicros ≤ 3652059 →
        ∃ E, D.add us = .ok E ∧ E.toOrdinal = .ok (n + us / dayMicros)) ∧
      (¬ (1 ≤ n + us / dayMicros ∧ n + us / dayMicros ≤ 3652059) → D.add us = .exc .overflow) := by
  obtain ⟨n, h1, h2, rfl, -⟩ := dateNew_dateAt hD
  refine ⟨n, toOrdinal_dateAt h1 h2, fun h => ?_, fun h => ?_⟩
  · simp only [dayMicros] at h
    refine ⟨_, (add_dateAt h1 h2).trans (if_pos h), toOrdinal_dateAt h.1 h.2⟩
  · simp only [dayMicros] at h
    exact (add_dateAt h1 h2).trans (if_neg h)

example : (packDate 2024 1 31).add (30 * 86400000000) = .ok (packDate 2024 3 1) ∧
    (packDate 9999 12 31).add 86400000000 = .exc .overflow ∧
    (packDate 1 1 1).add (-1) = .exc .overflow := by decide

/-- **C43**: subtracting a timedelta from a date. -/
theorem c43_date_sub (y m d us : Int) (D : Date) (hD : dateNew y m d = .ok D) :
    ∃ n, D.toOrdinal = .ok n ∧
      (1 ≤ n - us / dayMicros ∧ n - us / dayMicros ≤ 3652059 →
        ∃ E, D.sub us = .ok E ∧ E.toOrdinal = .ok (n - us / dayMicros)) ∧
      (¬ (1 ≤ n - us / dayMicros ∧ n - us / dayMicros ≤ 3652059) → D.sub us = .exc .overflow) := by
  obtain ⟨n, h1, h2, rfl, -⟩ := dateNew_dateAt hD
  refine ⟨n, toOrdinal_dateAt h1 h2, fun h => ?_, fun h => ?_⟩
  · simp only [dayMicros] at h
    refine ⟨_, (sub_dateAt h1 h2).trans (if_pos h), toOrdinal_dateAt h.1 h.2⟩
  · simp only [dayMicros] at h
    exact (sub_dateAt h1 h2).trans (if_neg h)

/-- **C43**: subtraction undoes addition. -/
theorem c43_date_add_sub (y m d us : Int) (D E : Date) (hD : dateNew y m d = .ok D)
    (h : D.add us = .ok E) : E.sub us = .ok D := by
  obtain ⟨n, h1, h2, rfl, -⟩ := dateNew_dateAt hD
  rw [add_dateAt h1 h2] at h
  split_ifs at h with hr
  cases h
  rw [sub_dateAt hr.1 hr.2, if_pos (by omega)]
  congr 2
  omega

/-- **C43**: the difference of two dates is the number of days between them, and adding it to the second
gives the first. -/
theorem c43_date_diff (y m d y' m' d' : Int) (D E : Date) (hD : dateNew y m d = .ok D)
    (hE : dateNew y' m' d' = .ok E) :
    ∃ n k us, D.toOrdinal = .ok n ∧ E.toOrdinal = .ok k ∧ D.diff E = .ok us ∧
      us = (n - k) * dayMicros ∧ E.add us = .ok D := by
  obtain ⟨n, h1, h2, rfl, -⟩ := dateNew_dateAt hD
  obtain ⟨k, h1', h2', rfl, -⟩ := dateNew_dateAt hE
  refine ⟨n, k, (n - k) * dayMicros, toOrdinal_dateAt h1 h2, toOrdinal_dateAt h1' h2', ?_, rfl, ?_⟩
  · have a := toOrdinal_dateAt h1 h2
    have b := toOrdinal_dateAt h1' h2'
    rw [Date.toOrdinal] at a b
    simp only [Date.diff, a, b, Out.bind_ok, Out.pure_eq, Out.ok.injEq]
    rw [c43_timedelta_new_partial _ _ _ _ _ _ _ (by omega) (by decide) (by decide) (by decide)
      (by decide) (by decide) (by decide)]
    simp only [dayMicros]
    omega
  · have e : k + (n - k) * dayMicros / 86400000000 = n := by simp only [dayMicros]; omega
    rw [add_dateAt h1' h2', e, if_pos ⟨h1, h2⟩]

/-- **C43**: comparing two dates compares their places in the calendar, and equal dates are equal
words. -/
theorem c43_date_order (y m d y' m' d' : Int) (D E : Date) (hD : dateNew y m d = .ok D)
    (hE : dateNew y' m' d' = .ok E) :
    ∃ n k, D.toOrdinal = .ok n ∧ E.toOrdinal = .ok k ∧ (D.lt E = true ↔ n < k) ∧ (D = E ↔ n = k) := by
  obtain ⟨n, h1, h2, rfl, -⟩ := dateNew_dateAt hD
  obtain ⟨k, h1', h2', rfl, -⟩ := dateNew_dateAt hE
  have a := inRange_dayAt h1 h2
  have b := inRange_dayAt h1' h2'
  refine ⟨n, k, toOrdinal_dateAt h1 h2, toOrdinal_dateAt h1' h2', ?_, ?_⟩
  · rw [dateAt, dateAt, pack_lt a b, ← ordN_lt_iff a.toValid b.toValid, (dayAt_spec h1).2,
      (dayAt_spec h1').2]
  · constructor
    · intro h
      have e := toOrdinal_dateAt h1 h2
      rw [h, toOrdinal_dateAt h1' h2'] at e
      exact (Out.ok.inj e).symm
    · rintro rfl; rfl

/-! ## Theorems on `time` and `datetime` -/

/-- **C43**: `time(…)` accepts exactly the times of a day, and the packed word gives the arguments
back. -/
theorem c43_time_constructor (h mi s us : Int) :
    (ValidTime h mi s us → ∃ T, timeNew h mi s us = .ok T ∧ T.hour = h ∧ T.minute = mi ∧ T.second = s ∧
      T.microsecond = us) ∧
    (¬ ValidTime h mi s us → timeNew h mi s us = .exc .value) :=
  ⟨fun v => ⟨_, timeNew_ok v, packTime_fields v⟩, timeNew_exc⟩

/-- **C43**: `replace` changes exactly the fields given and checks the result.  (An argument −1 counts as not given.) -/
theorem c43_time_replace (h mi s us : Int) (T : Time) (hT : timeNew h mi s us = .ok T) (h' mi' s' us' : Option Int)
    (h1 : h' ≠ some (-1)) (h2 : mi' ≠ some (-1)) (h3 : s' ≠ some (-1)) (h4 : us' ≠ some (-1)) :
    T.replace (h'.getD (-1)) (mi'.getD (-1)) (s'.getD (-1)) (us'.getD (-1)) =
      timeNew (h'.getD h) (mi'.getD mi) (s'.getD s) (us'.getD us) := by
  have v : ValidTime h mi s us := by
    by_contra v
    rw [timeNew_exc v] at hT
    cases hT
  rw [timeNew_ok v] at hT
  cases hT
  obtain ⟨a1, a2, a3, a4⟩ := packTime_fields v
  have aux : ∀ (o : Option Int) (x : Int), o ≠ some (-1) → (if o.getD (-1) = -1 then x else o.getD (-1)) = o.getD x := by
    intro o x ho
    cases o with
    | none => simp
    | some y =>
      have : y ≠ -1 := fun e => ho (by rw [e])
      simp [this]
  unfold Time.replace
  rw [a1, a2, a3, a4, aux _ _ h1, aux _ _ h2, aux _ _ h3, aux _ _ h4]

/-- **C43**: the same for dates. -/
theorem c43_date_replace (y m d : Int) (D : Date) (hD : dateNew y m d = .ok D) (y' m' d' : Option Int)
    (h1 : y' ≠ some (-1)) (h2 : m' ≠ some (-1)) (h3 : d' ≠ some (-1)) :
    D.replace (y'.getD (-1)) (m'.getD (-1)) (d'.getD (-1)) = dateNew (y'.getD y) (m'.getD m) (d'.getD d) := by
  have v : Valid y m d ∧ y ≤ 9999 := by
    by_contra v
    rw [(c42_constructor y m d).2 v] at hD
    cases hD
  obtain ⟨D', e, a1, a2, a3⟩ := (c42_constructor y m d).1 v
  rw [e] at hD
  cases hD
  have aux : ∀ (o : Option Int) (x : Int), o ≠ some (-1) → (if o.getD (-1) = -1 then x else o.getD (-1)) = o.getD x := by
    intro o x ho
    cases o with
    | none => simp
    | some y =>
      have : y ≠ -1 := fun e => ho (by rw [e])
      simp [this]
  unfold Date.replace
  rw [a1, a2, a3, aux _ _ h1, aux _ _ h2, aux _ _ h3]

example : (dateNew 2024 1 31).bind (fun D => D.replace 2024 2 (-1)) = .exc .value ∧
    (timeNew 1 2 3 4).bind (fun T => T.replace (-1) 0 (-1) 9) = timeNew 1 0 3 9 := by decide

/-- **C43**: comparing two times compares the microseconds since midnight. -/
theorem c43_time_order (h mi s us h' mi' s' us' : Int) (T U : Time) (hT : timeNew h mi s us = .ok T)
    (hU : timeNew h' mi' s' us' = .ok U) :
    (T.lt U = true ↔ micros h mi s us < micros h' mi' s' us') ∧
      (T = U ↔ micros h mi s us = micros h' mi' s' us') := by
  by_cases v : ValidTime h mi s us
  · by_cases v' : ValidTime h' mi' s' us'
    · rw [timeNew_ok v] at hT
      rw [timeNew_ok v'] at hU
      cases hT; cases hU
      refine ⟨packTime_lt v v', fun e => ?_, fun e => ?_⟩
      · obtain ⟨a1, a2, a3, a4⟩ := packTime_fields v
        obtain ⟨b1, b2, b3, b4⟩ := packTime_fields v'
        rw [e] at a1 a2 a3 a4
        rw [← a1.symm.trans b1, ← a2.symm.trans b2, ← a3.symm.trans b3, ← a4.symm.trans b4]
      · obtain ⟨a1, a2, a3, a4⟩ := v
        obtain ⟨b1, b2, b3, b4⟩ := v'
        simp only [micros] at e
        have : h = h' := by omega
        subst this
        have : mi = mi' := by omega
        subst this
        have : s = s' := by omega
        subst this
        have : us = us' := by omega
        subst this
        rfl
    · rw [timeNew_exc v'] at hU; cases hU
  · rw [timeNew_exc v] at hT; cases hT

/-- The value of a datetime in microseconds. -/
def DtValue (X : Datetime) (N : Int) : Prop :=
  ∃ n, X.date.toOrdinal = .ok n ∧
    N = n * dayMicros + micros X.time.hour X.time.minute X.time.second X.time.microsecond

/-- The datetime of a value. -/
def dtAt (N : Int) : Datetime :=
  ⟨packTime (N / 3600000000 % 24) (N / 60000000 % 60) (N / 1000000 % 60) (N % 1000000),
    dateAt (N / 86400000000)⟩

/-- The values of datetimes. -/
def DtIn (N : Int) : Prop := 1 ≤ N / 86400000000 ∧ N / 86400000000 ≤ 3652059

instance (N : Int) : Decidable (DtIn N) := by unfold DtIn; infer_instance

theorem validTime_at (N : Int) :
    ValidTime (N / 3600000000 % 24) (N / 60000000 % 60) (N / 1000000 % 60) (N % 1000000) :=
  ⟨by omega, by omega, by omega, by omega⟩

theorem micros_at (N : Int) :
    micros (N / 3600000000 % 24) (N / 60000000 % 60) (N / 1000000 % 60) (N % 1000000) =
      N % 86400000000 := by
  simp only [micros]
  omega

theorem dtValue_dtAt {N : Int} (h : DtIn N) : DtValue (dtAt N) N := by
  obtain ⟨a1, a2, a3, a4⟩ := packTime_fields (validTime_at N)
  refine ⟨_, toOrdinal_dateAt h.1 h.2, ?_⟩
  simp only [dtAt]
  rw [a1, a2, a3, a4, micros_at]
  simp only [dayMicros]
  omega

theorem datetimeNew_dtAt {y m d h mi s us : Int} {X : Datetime}
    (hX : datetimeNew y m d h mi s us = .ok X) : ∃ N, DtIn N ∧ X = dtAt N := by
  unfold datetimeNew at hX
  by_cases v : ValidTime h mi s us
  · rw [timeNew_ok v] at hX
    simp only [Out.bind_ok] at hX
    cases hd : dateNew y m d with
    | ub => rw [hd] at hX; cases hX
    | exc e => rw [hd] at hX; cases hX
    | ok D =>
      rw [hd] at hX
      cases hX
      obtain ⟨n, h1, h2, rfl, -⟩ := dateNew_dateAt hd
      obtain ⟨b1, b2, b3, b4⟩ := v
      refine ⟨n * 86400000000 + micros h mi s us, ?_, ?_⟩
      · simp only [DtIn, micros]; omega
      · simp only [dtAt, micros]
        congr 2 <;> omega
  · rw [timeNew_exc v] at hX; cases hX

theorem normalizeDatetime_at {n e h mi s us : Int} (h1 : 1 ≤ n) (h2 : n ≤ 3652059) :
    (do
      let ((y, m, d), h, mi, s, u) ← normalizeDatetime (dateAt n).year (dateAt n).month
        ((dateAt n).day + e) h mi s us
      datetimeNew y m d h mi s u) =
    if DtIn ((n + e) * 86400000000 + micros h mi s us) then
      .ok (dtAt ((n + e) * 86400000000 + micros h mi s us)) else .exc .overflow := by
  generalize hN : (n + e) * 86400000000 + micros h mi s us = N
  simp only [micros] at hN
  unfold normalizeDatetime
  simp only [normalizePair_eq (by omega : (0 : Int) < 1000000),
    normalizePair_eq (by omega : (0 : Int) < 60), normalizePair_eq (by omega : (0 : Int) < 24)]
  have ed : (dateAt n).day + e + (h + (mi + (s + us / 1000000) / 60) / 60) / 24 =
      (dateAt n).day + (e + (h + (mi + (s + us / 1000000) / 60) / 60) / 24) := by omega
  rw [ed, normalize_dateAt h1 h2]
  have e1 : n + (e + (h + (mi + (s + us / 1000000) / 60) / 60) / 24) = N / 86400000000 := by omega
  have e2 : (h + (mi + (s + us / 1000000) / 60) / 60) % 24 = N / 3600000000 % 24 := by omega
  have e3 : (mi + (s + us / 1000000) / 60) % 60 = N / 60000000 % 60 := by omega
  have e4 : (s + us / 1000000) % 60 = N / 1000000 % 60 := by omega
  have e5 : us % 1000000 = N % 1000000 := by omega
  rw [e1, e2, e3, e4, e5]
  by_cases hin : DtIn N
  · rw [if_pos hin, if_pos (by exact hin)]
    simp only [Out.bind_ok, Out.pure_eq, datetimeNew, timeNew_ok (validTime_at N),
      dateNew_ok (inRange_dayAt hin.1 hin.2)]
    rfl
  · rw [if_neg hin, if_neg (by exact hin)]
    rfl

theorem dtAt_fields {N : Int} :
    micros (dtAt N).time.hour (dtAt N).time.minute (dtAt N).time.second (dtAt N).time.microsecond =
      N % 86400000000 ∧ (dtAt N).date = dateAt (N / 86400000000) := by
  obtain ⟨a1, a2, a3, a4⟩ := packTime_fields (validTime_at N)
  refine ⟨?_, rfl⟩
  simp only [dtAt]
  rw [a1, a2, a3, a4, micros_at]

theorem add_dtAt {N us : Int} (h : DtIn N) :
    (dtAt N).add us = if DtIn (N + us) then .ok (dtAt (N + us)) else .exc .overflow := by
  obtain ⟨f1, f2⟩ := @dtAt_fields N
  rw [Datetime.add, normalizeDSUs_eq, f2, normalizeDatetime_at h.1 h.2]
  have e : (N / 86400000000 + us / 86400000000) * 86400000000 +
      micros (dtAt N).time.hour (dtAt N).time.minute ((dtAt N).time.second + us / 1000000 % 86400)
        ((dtAt N).time.microsecond + us % 1000000) = N + us := by
    simp only [micros] at f1 ⊢
    omega
  rw [e]

theorem sub_dtAt {N us : Int} (h : DtIn N) :
    (dtAt N).sub us = if DtIn (N - us) then .ok (dtAt (N - us)) else .exc .overflow := by
  obtain ⟨f1, f2⟩ := @dtAt_fields N
  rw [Datetime.sub, normalizeDSUs_eq, f2]
  have := @normalizeDatetime_at (N / 86400000000) (-(us / 86400000000)) (dtAt N).time.hour
    (dtAt N).time.minute ((dtAt N).time.second - us / 1000000 % 86400)
    ((dtAt N).time.microsecond - us % 1000000) h.1 h.2
  have e : (N / 86400000000 + -(us / 86400000000)) * 86400000000 +
      micros (dtAt N).time.hour (dtAt N).time.minute ((dtAt N).time.second - us / 1000000 % 86400)
        ((dtAt N).time.microsecond - us % 1000000) = N - us := by
    simp only [micros] at f1 ⊢
    omega
  rw [e] at this
  exact this

theorem dtValue_iff {N M : Int} (h : DtIn N) : DtValue (dtAt N) M ↔ M = N := by
  have h0 := dtValue_dtAt h
  constructor
  · rintro ⟨n, h1, rfl⟩
    obtain ⟨n', h1', e⟩ := h0
    rw [h1] at h1'
    cases h1'
    exact e.symm
  · rintro rfl; exact h0

/-- **C43**: adding a timedelta to a datetime gives the datetime exactly that many microseconds later, or
an `OverflowError` if it is outside the years 1 to 9999. -/
theorem c43_datetime_add (y m d h mi s u us : Int) (X : Datetime)
    (hX : datetimeNew y m d h mi s u = .ok X) :
    ∃ N, DtValue X N ∧
      ((∃ Y, X.add us = .ok Y ∧ DtValue Y (N + us)) ∨
        X.add us = .exc .overflow ∧ (N + us < dayMicros ∨ 3652060 * dayMicros ≤ N + us)) := by
  obtain ⟨N, hN, rfl⟩ := datetimeNew_dtAt hX
  refine ⟨N, dtValue_dtAt hN, ?_⟩
  rw [add_dtAt hN]
  split_ifs with hc
  · exact Or.inl ⟨_, rfl, dtValue_dtAt hc⟩
  · refine Or.inr ⟨rfl, ?_⟩
    simp only [DtIn] at hc
    simp only [dayMicros]
    omega

/-- **C43**: subtracting a timedelta from a datetime. -/
theorem c43_datetime_sub (y m d h mi s u us : Int) (X : Datetime)
    (hX : datetimeNew y m d h mi s u = .ok X) :
    ∃ N, DtValue X N ∧
      ((∃ Y, X.sub us = .ok Y ∧ DtValue Y (N - us)) ∨
        X.sub us = .exc .overflow ∧ (N - us < dayMicros ∨ 3652060 * dayMicros ≤ N - us)) := by
  obtain ⟨N, hN, rfl⟩ := datetimeNew_dtAt hX
  refine ⟨N, dtValue_dtAt hN, ?_⟩
  rw [sub_dtAt hN]
  split_ifs with hc
  · exact Or.inl ⟨_, rfl, dtValue_dtAt hc⟩
  · refine Or.inr ⟨rfl, ?_⟩
    simp only [DtIn] at hc
    simp only [dayMicros]
    omega

/-- **C43**: subtraction undoes addition. -/
theorem c43_datetime_add_sub (y m d h mi s u us : Int) (X Y : Datetime)
    (hX : datetimeNew y m d h mi s u = .ok X) (hY : X.add us = .ok Y) : Y.sub us = .ok X := by
  obtain ⟨N, hN, rfl⟩ := datetimeNew_dtAt hX
  rw [add_dtAt hN] at hY
  split_ifs at hY with hc
  cases hY
  rw [sub_dtAt hc, show N + us - us = N by omega, if_pos hN]

example : (do (← datetimeNew 2023 12 31 23 59 59 999999).add 1) = datetimeNew 2024 1 1 0 0 0 0 ∧
    (do (← datetimeNew 2024 3 1 0 0 0 0).sub 1) = datetimeNew 2024 2 29 23 59 59 999999 ∧
    (do (← datetimeNew 9999 12 31 23 59 59 999999).add 1) = .exc .overflow := by decide

/-- **C43**: the difference of two datetimes is the number of microseconds between them, and adding it to
the second gives the first. -/
theorem c43_datetime_diff (y m d h mi s u y' m' d' h' mi' s' u' : Int) (X Y : Datetime)
    (hX : datetimeNew y m d h mi s u = .ok X) (hY : datetimeNew y' m' d' h' mi' s' u' = .ok Y) :
    ∃ N M, DtValue X N ∧ DtValue Y M ∧ X.diff Y = .ok (N - M) ∧ Y.add (N - M) = .ok X := by
  obtain ⟨N, hN, rfl⟩ := datetimeNew_dtAt hX
  obtain ⟨M, hM, rfl⟩ := datetimeNew_dtAt hY
  refine ⟨N, M, dtValue_dtAt hN, dtValue_dtAt hM, ?_, ?_⟩
  · have a := toOrdinal_dateAt hN.1 hN.2
    have b := toOrdinal_dateAt hM.1 hM.2
    rw [Date.toOrdinal] at a b
    obtain ⟨a1, a2, a3, a4⟩ := packTime_fields (validTime_at N)
    obtain ⟨b1, b2, b3, b4⟩ := packTime_fields (validTime_at M)
    obtain ⟨n1, n2⟩ := hN
    obtain ⟨n3, n4⟩ := hM
    simp only [Datetime.diff, dtAt, a, b, Out.bind_ok, Out.pure_eq, Out.ok.injEq, a1, a2, a3, a4, b1, b2,
      b3, b4]
    rw [c43_timedelta_new_partial _ _ _ _ _ _ _ (by omega) (by omega) (by omega) (by decide)
      (by decide) (by decide) (by decide)]
    omega
  · rw [add_dtAt hM, show M + (N - M) = N by omega, if_pos hN]

/-- **C43**: comparing two datetimes compares their values. -/
theorem c43_datetime_order (y m d h mi s u y' m' d' h' mi' s' u' : Int) (X Y : Datetime)
    (hX : datetimeNew y m d h mi s u = .ok X) (hY : datetimeNew y' m' d' h' mi' s' u' = .ok Y) :
    ∃ N M, DtValue X N ∧ DtValue Y M ∧ (X.lt Y = true ↔ N < M) ∧ (X = Y ↔ N = M) := by
  obtain ⟨N, hN, rfl⟩ := datetimeNew_dtAt hX
  obtain ⟨M, hM, rfl⟩ := datetimeNew_dtAt hY
  refine ⟨N, M, dtValue_dtAt hN, dtValue_dtAt hM, ?_, ?_⟩
  · have hd : ∀ n k : Int, 1 ≤ n → n ≤ 3652059 → 1 ≤ k → k ≤ 3652059 →
        ((dateAt n).lt (dateAt k) = true ↔ n < k) ∧ (dateAt n = dateAt k ↔ n = k) := by
      intro n k h1 h2 h3 h4
      obtain ⟨n', k', e1, e2, e3, e4⟩ := c43_date_order _ _ _ _ _ _ (dateAt n) (dateAt k)
        (dateNew_ok (inRange_dayAt h1 h2)) (dateNew_ok (inRange_dayAt h3 h4))
      rw [toOrdinal_dateAt h1 h2] at e1
      rw [toOrdinal_dateAt h3 h4] at e2
      cases e1; cases e2
      exact ⟨e3, e4⟩
    obtain ⟨q1, q2⟩ := hd _ _ hN.1 hN.2 hM.1 hM.2
    have q3 := packTime_lt (validTime_at N) (validTime_at M)
    rw [micros_at, micros_at] at q3
    simp only [Datetime.lt, dtAt, Bool.or_eq_true, Bool.and_eq_true, decide_eq_true_eq, q1, q2, q3]
    omega
  · constructor
    · intro e
      have := dtValue_dtAt hN
      rw [e, dtValue_iff hM] at this
      exact this
    · rintro rfl; rfl

end Codon.Date
