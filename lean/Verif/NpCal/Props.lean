import Verif.NpCal.Lemmas

/-! # C91: NumPy's `datetime64` counts the days and the times of the Gregorian calendar -/

namespace Codon.NpCal

open Codon.Date.Spec (Leap monthLen next)

/-- **C91, from numbers to dates.**  Whatever the number of days, `set_days` stores the date with that
number; the time of day stays as it is.  This holds for both kinds of integer division. -/
theorem c91_set_days (py : Bool) (s : DTS) (n : Int) :
    DayNo (s.setDays py n).year (s.setDays py n).month (s.setDays py n).day n ∧
    (s.setDays py n).clock = s.clock := by
  refine ⟨setDays_dayNo py s n, ?_⟩
  rw [(setDays_spec py s n).2.2]
  rfl

/-- **C91, from dates to numbers.**  `days` is the number of the date, of any year.

Missing for the full statement: with `-numerics=py` the number is wrong before 1970, see
`c91_violation_days`. -/
theorem c91_days_partial (s : DTS) (h : Valid s.year s.month s.day) :
    DayNo s.year s.month s.day (s.days false) := by
  refine ord_dayNo h ?_
  rw [days_eq s h.month]
  omega

/-- With `-numerics=py` it is right from 1970 on. -/
theorem c91_days_py (s : DTS) (h : Valid s.year s.month s.day) (hy : 1970 ≤ s.year) :
    DayNo s.year s.month s.day (s.days true) := by
  have : s.days true = s.days false := by
    unfold DTS.days
    have : (s.year - 1970) * 365 ≥ 0 := by omega
    simp only [this, if_true]
    rw [idiv_nonneg _ (by omega) (by omega), idiv_nonneg _ (by omega) (by omega),
      idiv_nonneg _ (by omega) (by omega), idiv_nonneg _ (by omega) (by omega),
      idiv_nonneg _ (by omega) (by omega), idiv_nonneg _ (by omega) (by omega)]
  rw [this]
  exact c91_days_partial s h

/-- Dates and numbers of days are one to one: every date has exactly one number, every number exactly
one date. -/
theorem c91_one_to_one :
    (∀ y m d, Valid y m d → ∃ n, DayNo y m d n ∧ ∀ n', DayNo y m d n' → n' = n) ∧
    (∀ n y m d y' m' d', DayNo y m d n → DayNo y' m' d' n → y = y' ∧ m = m' ∧ d = d') := by
  constructor
  · intro y m d h
    refine ⟨_, c91_days_partial { year := y, month := m, day := d } h, fun n' hn' => ?_⟩
    exact (days_dayNo (s := { year := y, month := m, day := d }) hn').symm
  · intro n y m d y' m' d' h h'
    obtain ⟨h1, h2⟩ := dayNo_ord h
    obtain ⟨h3, h4⟩ := dayNo_ord h'
    exact ordN_inj h1 h3 (by omega)

example : (({} : DTS).setDays true 19782).year = 2024 ∧ (({} : DTS).setDays true 19782).month = 2 ∧
    (({} : DTS).setDays true 19782).day = 29 ∧
    ({ year := 1600, month := 2, day := 29 } : DTS).days false = -135081 := by decide

/-- The month that `busday_offset` compares for the modified rolls. -/
theorem c91_month_number (py : Bool) (n y m d : Int) (h : DayNo y m d n) : monthNumber py n = m := by
  have h1 := setDays_dayNo py {} n
  have h2 := (c91_one_to_one.2 n _ _ _ _ _ _ h h1).2.1
  rw [h2]
  unfold monthNumber DTS.setDays
  obtain ⟨q1, q2, _⟩ := daysToYears_spec py n
  obtain ⟨m, k, q3, _⟩ := findMonth_spec _ _ q1 q2
  simp only [q3]

example : monthNumber false 59 = 3 ∧ monthNumber false (-1) = 12 := by decide

/-! ### Units -/

/-- **C91, reading a value.**  A value of a unit of fixed length, from weeks to attoseconds, denotes the
point in time that many units after the beginning of 1970. -/
theorem c91_value (py : Bool) (u : Unit') (num dt L : Int) (hL : u.len = some L)
    (hf : Fits u (dt * num)) :
    (fromDt py u num dt).Valid ∧ Instant (fromDt py u num dt) (dt * num * L) :=
  fromDt_spec py u num dt L hL hf

example : fromDt false .s 1 (-1) =
    { year := 1969, month := 12, day := 31, hour := 23, min := 59, sec := 59 } := by decide

/-- Years and months: the value denotes the beginning of the year or the month. -/
theorem c91_value_months (py : Bool) (num dt : Int) :
    fromDt py .Y num dt = { year := 1970 + dt * num } ∧
    fromDt py .M num dt = { year := 1970 + dt * num / 12, month := dt * num % 12 + 1 } := by
  refine ⟨rfl, ?_⟩
  simp only [fromDt]
  rw [extract_eq _ (by decide)]

/-- **C91, making a value.**  The value of a point in time is the number of whole units, rounded down
also before 1970.

Missing for the full statement: `-numerics=py`. -/
theorem c91_floor_partial (s : DTS) (hs : s.Valid) (t : Int) (ht : Instant s t) (u : Unit')
    (L num : Int) (hL : u.len = some L) (hn : 1 ≤ num) : s.toDt false u num = t / (num * L) := by
  rw [toDt_eq s u hn, count_spec hs ht u L hL, Int.mul_comm num L]
  have : 0 ≤ L := by
    cases u <;> simp [Unit'.len] at hL <;> subst hL <;> decide
  exact Int.ediv_ediv_of_nonneg this

/-- Years and months are counted in whole years and months, rounded down. -/
theorem c91_floor_months (s : DTS) (num : Int) (hn : 1 ≤ num) :
    s.toDt false .Y num = (s.year - 1970) / num ∧
    s.toDt false .M num = (12 * (s.year - 1970) + (s.month - 1)) / num :=
  ⟨toDt_eq s .Y hn, toDt_eq s .M hn⟩

/-- **C91, changing the unit.**  `astype` between units of fixed length keeps the point in time, rounded
down to the new unit. -/
theorem c91_cast_partial (u u' : Unit') (num num' dt L L' : Int) (hL : u.len = some L)
    (hL' : u'.len = some L') (hn' : 1 ≤ num') (hf : Fits u (dt * num)) :
    cast false u num u' num' dt = dt * num * L / (num' * L') := by
  obtain ⟨h1, h2⟩ := fromDt_spec false u num dt L hL hf
  exact c91_floor_partial _ h1 _ h2 u' L' num' hL' hn'

example : cast false .s 1 .D 1 (-1) = -1 ∧ cast false .D 1 .W 1 (-8) = -2 ∧
    cast false .h 25 .D 1 2 = 2 ∧ cast false .D 1 .ns 1 1 = 86400000000000 := by decide

/-- **C91, round trip.**  Reading a value and making one of the same unit gives the value back, for every
unit and multiple. -/
theorem c91_round_trip_partial (u : Unit') (num dt : Int) (hn : 1 ≤ num) (hf : Fits u (dt * num)) :
    cast false u num u num dt = dt := by
  by_cases hY : u = .Y
  · subst hY
    unfold cast
    rw [(c91_floor_months _ num hn).1, (c91_value_months false num dt).1]
    simp only [add_sub_cancel_left]
    exact Int.mul_ediv_cancel _ (by omega)
  by_cases hM : u = .M
  · subst hM
    unfold cast
    rw [(c91_floor_months _ num hn).2, (c91_value_months false num dt).2]
    dsimp only
    rw [show 12 * (1970 + dt * num / 12 - 1970) + (dt * num % 12 + 1 - 1) = dt * num by omega]
    exact Int.mul_ediv_cancel _ (by omega)
  obtain ⟨L, hL⟩ : ∃ L, u.len = some L := by cases u <;> simp_all [Unit'.len]
  have hpos : 0 < L := by cases u <;> simp [Unit'.len] at hL <;> subst hL <;> decide
  rw [c91_cast_partial u u num num dt L L hL hL hn hf, Int.mul_assoc]
  exact Int.mul_ediv_cancel _ (by
    have := Int.mul_pos (by omega : 0 < num) hpos
    omega)

example : Fits .as_ (-5 * 1) ∧ cast false .as_ 1 .as_ 1 (-5) = -5 := by
  refine ⟨fun _ => by norm_num, by decide⟩

/-! ### The deviation -/

/-- **Violation.**  With `-numerics=py`, the last day of 1969 has the number -2 instead of -1, and so
`datetime64('1969-12-31')` is read back as another date. -/
theorem c91_violation_days :
    ({ year := 1969, month := 12, day := 31 } : DTS).days true = -2 ∧
    DayNo 1969 12 31 (-1) ∧ ¬ DayNo 1969 12 31 (-2) ∧
    cast true .s 1 .s 1 (-1) ≠ -1 := by
  refine ⟨by decide, ?_, fun h => ?_, by decide⟩
  · exact ord_dayNo ⟨by decide, by decide, by decide⟩ (by decide)
  · have := (dayNo_ord h).2
    revert this
    decide

end Codon.NpCal
