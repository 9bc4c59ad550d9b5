import Verif.NpCal.Model
import Verif.Date.Spec

/-! # What `datetime64` counts -/

namespace Codon.NpCal

open Codon.Date.Spec (Leap monthLen next)

/-- A date of the proleptic Gregorian calendar, of any year. -/
structure Valid (y m d : Int) : Prop where
  month : 1 ≤ m ∧ m ≤ 12
  day : 1 ≤ d ∧ d ≤ monthLen y m

/-- `DayNo y m d n`: the date is day `n`, where day 0 is 1 January 1970, and every day has the number
after that of the day before. -/
inductive DayNo : Int → Int → Int → Int → Prop where
  | epoch : DayNo 1970 1 1 0
  | later {y m d n} (h : DayNo y m d n) :
      DayNo (next y m d).1 (next y m d).2.1 (next y m d).2.2 (n + 1)
  | earlier {y m d n} (hv : Valid y m d)
      (h : DayNo (next y m d).1 (next y m d).2.1 (next y m d).2.2 (n + 1)) : DayNo y m d n

/-- A date and a time of day. -/
structure DTS.Valid (s : DTS) : Prop where
  date : NpCal.Valid s.year s.month s.day
  hour : 0 ≤ s.hour ∧ s.hour < 24
  min : 0 ≤ s.min ∧ s.min < 60
  sec : 0 ≤ s.sec ∧ s.sec < 60
  us : 0 ≤ s.us ∧ s.us < 1000000
  ps : 0 ≤ s.ps ∧ s.ps < 1000000
  as_ : 0 ≤ s.as_ ∧ s.as_ < 1000000

/-- The length of a unit in attoseconds, for the units that have one. -/
def Unit'.len : Unit' → Option Int
  | .Y => none
  | .M => none
  | .W => some (7 * 86400 * 10 ^ 18)
  | .D => some (86400 * 10 ^ 18)
  | .h => some (3600 * 10 ^ 18)
  | .m => some (60 * 10 ^ 18)
  | .s => some (10 ^ 18)
  | .ms => some (10 ^ 15)
  | .us => some (10 ^ 12)
  | .ns => some (10 ^ 9)
  | .ps => some (10 ^ 6)
  | .fs => some (10 ^ 3)
  | .as_ => some 1

/-- The attoseconds of the time of day. -/
def DTS.clock (s : DTS) : Int :=
  (((s.hour * 3600 + s.min * 60 + s.sec) * 10 ^ 6 + s.us) * 10 ^ 6 + s.ps) * 10 ^ 6 + s.as_

/-- The point in time, in attoseconds since the beginning of 1970. -/
def Instant (s : DTS) (t : Int) : Prop :=
  ∃ n, DayNo s.year s.month s.day n ∧ t = n * (86400 * 10 ^ 18) + s.clock

/-- Does a value of unit `u` fit?  The two finest units reach but a few hours and seconds. -/
def Fits (u : Unit') (v : Int) : Prop :=
  (u = .fs ∨ u = .as_ → -2 ^ 63 ≤ v ∧ v < 2 ^ 63)

end Codon.NpCal
