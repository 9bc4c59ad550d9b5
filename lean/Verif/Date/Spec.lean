import Mathlib.Data.Int.Order.Basic

/-!
# The calendar

The proleptic Gregorian calendar, described by the length of its months and the step from one day to the
next.  Nothing here refers to the model.
-/

namespace Codon.Date.Spec

/-- Every fourth year is a leap year, except the centuries that are not divisible by 400. -/
def Leap (y : Int) : Prop := 4 ∣ y ∧ (100 ∣ y → 400 ∣ y)

instance (y : Int) : Decidable (Leap y) := by unfold Leap; infer_instance

/-- Thirty days have September, April, June and November. -/
def monthLen (y m : Int) : Int :=
  if m = 2 then (if Leap y then 29 else 28)
  else if m = 4 ∨ m = 6 ∨ m = 9 ∨ m = 11 then 30 else 31

/-- A date from the year 1 on. -/
structure Valid (y m d : Int) : Prop where
  year : 1 ≤ y
  month : 1 ≤ m ∧ m ≤ 12
  day : 1 ≤ d ∧ d ≤ monthLen y m

/-- The following day. -/
def next (y m d : Int) : Int × Int × Int :=
  if d < monthLen y m then (y, m, d + 1)
  else if m < 12 then (y, m + 1, 1)
  else (y + 1, 1, 1)

/-- The date reached after `n` days. -/
def nextN : Nat → Int × Int × Int → Int × Int × Int
  | 0, p => p
  | n + 1, p => let q := nextN n p; next q.1 q.2.1 q.2.2

/-- The `n`-th day, where 1 January of the year 1 is the first. -/
def dayAt (n : Int) : Int × Int × Int := nextN (n - 1).toNat (1, 1, 1)

/-- The day of the week of the `n`-th day: 1 for Monday, 7 for Sunday; the first day is a Monday. -/
def isoWeekday (n : Int) : Int := (n - 1) % 7 + 1

/-- ISO 8601: the `n`-th day is day `k` of week `w` of year `y` if the Thursday of its week is the `w`-th
Thursday of the year `y`. -/
def IsoDate (n y w k : Int) : Prop :=
  k = isoWeekday n ∧ 1 ≤ w ∧
  let thursday := n - k + 4
  (dayAt thursday).1 = y ∧
  1 ≤ thursday - 7 * (w - 1) ∧ (dayAt (thursday - 7 * (w - 1))).1 = y ∧
  (thursday - 7 * w < 1 ∨ (dayAt (thursday - 7 * w)).1 < y)

/-- Lexicographic order of dates. -/
def Before (p q : Int × Int × Int) : Prop :=
  p.1 < q.1 ∨ (p.1 = q.1 ∧ (p.2.1 < q.2.1 ∨ (p.2.1 = q.2.1 ∧ p.2.2 < q.2.2)))

/-- A time of day. -/
structure ValidTime (h mi s us : Int) : Prop where
  hour : 0 ≤ h ∧ h ≤ 23
  minute : 0 ≤ mi ∧ mi ≤ 59
  second : 0 ≤ s ∧ s ≤ 59
  microsecond : 0 ≤ us ∧ us ≤ 999999

/-- Microseconds since midnight. -/
def micros (h mi s us : Int) : Int := ((h * 60 + mi) * 60 + s) * 1000000 + us

/-- Microseconds of a day. -/
def dayMicros : Int := 86400000000

end Codon.Date.Spec
