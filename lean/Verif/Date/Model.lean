import Verif.Base.Out

/-!
# Model of `stdlib/datetime.codon`

The calendar functions and the classes `timedelta`, `date`, `time` and `datetime` without time zones.
Python-level integers are mathematical integers here: every value computed by the modelled functions
stays far from the limits of 64 bits when the arguments do (a `timedelta` has at most 2^63 microseconds,
so at most 106751992 days).  The three places where 64-bit arithmetic matters (packing, `%` and the
conversion of constructor arguments to `float`) are modelled on machine words or with rounding.
`//` and `%` on `int` truncate (`int.codon:151-183`, LLVM `sdiv` and `srem`), hence `tdiv` and `tmod`.
-/

namespace Codon.Date

/-- The exceptions raised by the module. -/
inductive Err where
  | value | overflow | index
deriving DecidableEq, Repr

abbrev R := Out Err

/-- A triple year, month, day. -/
abbrev YMD := Int × Int × Int

def minYear : Int := 1
def maxYear : Int := 9999
/-- datetime.codon:58-61. -/
def maxOrdinal : Int := 3652059

/-- datetime.codon:78-86 `_divmod`. -/
def divmod (x y : Int) : Int × Int :=
  let quo := x.tdiv y
  let r := x - quo * y
  if r < 0 then (quo - 1, r + y) else (quo, r)

/-- tuple.codon:7-25: reading a tuple at a computed index. -/
def tupleGet (t : List Int) (i : Int) : R Int :=
  let j := if i < 0 then i + t.length else i
  if j < 0 ∨ j ≥ t.length then .exc .index
  else
    match t[j.toNat]? with
    | some v => .ok v
    | none => .ub

/-- datetime.codon:91-92. -/
def daysInMonthX (i : Int) : R Int :=
  tupleGet [0, 31, 28, 31, 30, 31, 30, 31, 31, 30, 31, 30, 31] i

/-- datetime.codon:94-95. -/
def daysBeforeMonthX (i : Int) : R Int :=
  tupleGet [0, 0, 31, 59, 90, 120, 151, 181, 212, 243, 273, 304, 334] i

/-- datetime.codon:97-98. -/
def isLeap (year : Int) : Bool :=
  decide (year.tmod 4 = 0) && (decide (year.tmod 100 ≠ 0) || decide (year.tmod 400 = 0))

/-- datetime.codon:100-105. -/
def daysInMonth (year month : Int) : R Int :=
  if month = 2 ∧ isLeap year then .ok 29 else daysInMonthX month

/-- datetime.codon:107-112. -/
def daysBeforeMonth (year month : Int) : R Int := do
  let days ← daysBeforeMonthX month
  return if month > 2 ∧ isLeap year then days + 1 else days

/-- datetime.codon:114-117. -/
def daysBeforeYear (year : Int) : Int :=
  let y := year - 1
  y * 365 + y.tdiv 4 - y.tdiv 100 + y.tdiv 400

/-- datetime.codon:119-151 `_ord_to_ymd`. -/
def ordToYmd (ordinal : Int) : R YMD := do
  let o := ordinal - 1
  let n400 := o.tdiv 146097
  let n := o.tmod 146097
  let year := n400 * 400 + 1
  let n100 := n.tdiv 36524
  let n := n.tmod 36524
  let n4 := n.tdiv 1461
  let n := n.tmod 1461
  let n1 := n.tdiv 365
  let n := n.tmod 365
  let year := year + (n100 * 100 + n4 * 4 + n1)
  if n1 = 4 ∨ n100 = 4 then return (year - 1, 12, 31)
  let leapyear := decide (n1 = 3) && (decide (n4 ≠ 24) || decide (n100 = 3))
  let month := (n + 50) / 32
  let before ← daysBeforeMonthX month
  let preceding := before + (if month > 2 ∧ leapyear then 1 else 0)
  if preceding > n then
    let month := month - 1
    let dim ← daysInMonth year month
    let preceding := preceding - dim
    return (year, month, n - preceding + 1)
  else return (year, month, n - preceding + 1)

/-- datetime.codon:153-154. -/
def ymdToOrd (year month day : Int) : R Int := do
  return daysBeforeYear year + (← daysBeforeMonth year month) + day

/-- datetime.codon:156-157. -/
def weekdayOf (year month day : Int) : R Int := do
  return ((← ymdToOrd year month day) + 6).tmod 7

/-- datetime.codon:159-165. -/
def isoWeek1Monday (year : Int) : R Int := do
  let firstDay ← ymdToOrd year 1 1
  let firstWeekday := (firstDay + 6).tmod 7
  let monday := firstDay - firstWeekday
  return if firstWeekday > 3 then monday + 7 else monday

/-- datetime.codon:171-177. -/
def checkDateArgs (year month day : Int) : R Unit := do
  if ¬ (minYear ≤ year ∧ year ≤ maxYear) then .exc .value
  else if ¬ (1 ≤ month ∧ month ≤ 12) then .exc .value
  else
    let dim ← daysInMonth year month
    if ¬ (1 ≤ day ∧ day ≤ dim) then .exc .value else .ok ()

/-- datetime.codon:179-187. -/
def checkTimeArgs (hour minute second microsecond : Int) : R Unit :=
  if ¬ (0 ≤ hour ∧ hour ≤ 23) then .exc .value
  else if ¬ (0 ≤ minute ∧ minute ≤ 59) then .exc .value
  else if ¬ (0 ≤ second ∧ second ≤ 59) then .exc .value
  else if ¬ (0 ≤ microsecond ∧ microsecond ≤ 999999) then .exc .value
  else .ok ()

/-- datetime.codon:189-197. -/
def normalizePair (hi lo factor : Int) : Int × Int :=
  if lo < 0 ∨ lo ≥ factor then
    let r := divmod lo factor
    (hi + r.1, r.2)
  else (hi, lo)

/-- datetime.codon:199-206. -/
def normalizeDSUs (d s us : Int) : Int × Int × Int :=
  let p := if us < 0 ∨ us ≥ 1000000 then normalizePair s us 1000000 else (s, us)
  let q := if p.1 < 0 ∨ p.1 ≥ 24 * 3600 then normalizePair d p.1 (24 * 3600) else (d, p.1)
  (q.1, q.2, p.2)

/-- datetime.codon:236-239: the range check at the end of `_normalize_y_m_d`. -/
def checkYear (y m d : Int) : R YMD :=
  if ¬ (minYear ≤ y ∧ y ≤ maxYear) then .exc .overflow else .ok (y, m, d)

/-- datetime.codon:208-239 `_normalize_y_m_d`. -/
def normalizeYMD (y m d : Int) : R YMD := do
  let dim ← daysInMonth y m
  if d < 1 ∨ d > dim then
    if d = 0 then
      let m := m - 1
      if m > 0 then checkYear y m (← daysInMonth y m) else checkYear (y - 1) 12 31
    else if d = dim + 1 then
      let m := m + 1
      if m > 12 then checkYear (y + 1) 1 1 else checkYear y m 1
    else
      let ordinal := (← ymdToOrd y m 1) + d - 1
      if ordinal < 1 ∨ ordinal > maxOrdinal then .exc .overflow else ordToYmd ordinal
  else checkYear y m d

/-- datetime.codon:244-258 `_normalize_datetime`; the result is the date and hour, minute, second,
microsecond. -/
def normalizeDatetime (year month day hour minute second microsecond : Int) :
    R (YMD × Int × Int × Int × Int) := do
  let (second, microsecond) := normalizePair second microsecond 1000000
  let (minute, second) := normalizePair minute second 60
  let (hour, minute) := normalizePair hour minute 60
  let (day, hour) := normalizePair day hour 24
  let ymd ← normalizeYMD year month day
  return (ymd, hour, minute, second, microsecond)

/-! ## `timedelta`: a number of microseconds (datetime.codon:412-602) -/

/-- `sitofp i64 … to double` of a whole number, as a whole number: rounding to 53 binary digits, ties to
even. -/
def toDouble (x : Int) : Int :=
  let a := x.natAbs
  let e := Nat.log2 a - 52
  let q := a / 2 ^ e
  let r := a % 2 ^ e
  let up := decide (2 * r > 2 ^ e) || (decide (2 * r = 2 ^ e) && decide (q % 2 = 1) && decide (e ≠ 0))
  let v : Int := ((if up then q + 1 else q) * 2 ^ e : Nat)
  if x < 0 then -v else v

/-- datetime.codon:428-442 `_accum` for a whole number: the parameters of `__new__` are declared `float`,
so an integer argument is converted first; there is no fractional part. -/
def accum (sofar num factor : Int) : Int := sofar + toDouble num * factor

/-- datetime.codon:445-474 `timedelta.__new__` for integer arguments (no leftover). -/
def timedeltaNew (days seconds microseconds milliseconds minutes hours weeks : Int) : Int :=
  let us := accum 0 days (24 * 60 * 60 * 1000000)
  let us := accum us seconds 1000000
  let us := accum us microseconds 1
  let us := accum us milliseconds 1000
  let us := accum us minutes (60 * 1000000)
  let us := accum us hours (60 * 60 * 1000000)
  accum us weeks (7 * 24 * 60 * 60 * 1000000)

/-- datetime.codon:554-555 `__floordiv__(int)`, no overflow. -/
def tdFloordiv (us n : Int) : R Int := if n = 0 then .ub else .ok (us.tdiv n)

/-- datetime.codon:557-561 `__mod__` on 64-bit words; `srem` by zero and of the least word by -1 are
undefined. -/
def tdMod (n M : BitVec 64) : R (BitVec 64) :=
  let srem (a b : BitVec 64) : R (BitVec 64) :=
    if b = 0 ∨ (a = BitVec.intMin 64 ∧ b = -1) then .ub else .ok (a.srem b)
  do
    let _ ← srem n M
    let r ← srem n M
    srem (r + M) M

/-! ## `date` (datetime.codon:613-769): a packed 32-bit word -/

structure Date where
  word : BitVec 32
deriving DecidableEq, Repr

/-- datetime.codon:623-624. -/
def packDate (year month day : Int) : Date :=
  let v := (BitVec.ofInt 64 year <<< 16) ||| (BitVec.ofInt 64 month <<< 8) ||| BitVec.ofInt 64 day
  ⟨v.setWidth 32⟩

/-- datetime.codon:621-624 `date.__new__`. -/
def dateNew (year month day : Int) : R Date := do
  checkDateArgs year month day
  return packDate year month day

/-- datetime.codon:627-629; `int(UInt[32])` zero-extends (intn.codon:419-425). -/
def Date.year (d : Date) : Int := ((d.word.setWidth 64).sshiftRight 16).toInt

/-- datetime.codon:632-634. -/
def Date.month (d : Date) : Int := (((d.word.setWidth 64).sshiftRight 8) &&& 0xFF).toInt

/-- datetime.codon:637-639. -/
def Date.day (d : Date) : Int := ((d.word.setWidth 64) &&& 0xFF).toInt

/-- datetime.codon:654-655. -/
def fromOrdinal (n : Int) : R Date := do
  let (y, m, d) ← ordToYmd n
  dateNew y m d

/-- datetime.codon:733-734. -/
def Date.toOrdinal (d : Date) : R Int := ymdToOrd d.year d.month d.day

/-- datetime.codon:736-737. -/
def Date.weekday (d : Date) : R Int := weekdayOf d.year d.month d.day

/-- datetime.codon:742-754 `isocalendar`. -/
def Date.isocalendar (d : Date) : R (Int × Int × Int) := do
  let year := d.year
  let monday ← isoWeek1Monday year
  let today ← ymdToOrd year d.month d.day
  let (week, day) := divmod (today - monday) 7
  if week < 0 then
    let year := year - 1
    let monday ← isoWeek1Monday year
    let (week, day) := divmod (today - monday) 7
    return (year, week + 1, day + 1)
  else if week ≥ 52 then
    if today ≥ (← isoWeek1Monday (year + 1)) then return (year + 1, 0 + 1, day + 1)
    else return (year, week + 1, day + 1)
  else return (year, week + 1, day + 1)

/-- datetime.codon:664-672: is the week number out of range? -/
def weekBad (year week : Int) : R Bool :=
  if week ≤ 0 ∨ week ≥ 53 then
    if week = 53 then do
      let firstWeekday ← weekdayOf year 1 1
      return ! (decide (firstWeekday = 3) || (decide (firstWeekday = 2) && isLeap year))
    else .ok true
  else .ok false

/-- datetime.codon:660-680 `fromisocalendar`. -/
def fromIsocalendar (year week day : Int) : R Date := do
  if year < minYear ∨ year > maxYear then .exc .value
  else if ← weekBad year week then .exc .value
  else if day ≤ 0 ∨ day ≥ 8 then .exc .value
  else
    let day1 ← isoWeek1Monday year
    let (y, m, d) ← ordToYmd (day1 + ((week - 1) * 7 + day - 1))
    dateNew y m d

/-- datetime.codon:682-685 `date.__add__(timedelta)`. -/
def Date.add (self : Date) (us : Int) : R Date := do
  let days := (normalizeDSUs 0 0 us).1
  let (y, m, d) ← normalizeYMD self.year self.month (self.day + days)
  dateNew y m d

/-- datetime.codon:687-690 `date.__sub__(timedelta)`. -/
def Date.sub (self : Date) (us : Int) : R Date := do
  let days := (normalizeDSUs 0 0 us).1
  let (y, m, d) ← normalizeYMD self.year self.month (self.day - days)
  dateNew y m d

/-- datetime.codon:692-695 `date.__sub__(date)`. -/
def Date.diff (self other : Date) : R Int := do
  let l ← ymdToOrd self.year self.month self.day
  let r ← ymdToOrd other.year other.month other.day
  return timedeltaNew (l - r) 0 0 0 0 0 0

/-- datetime.codon:703-704 `__lt__`: `icmp ult` on `UInt[32]`. -/
def Date.lt (a b : Date) : Bool := a.word.ult b.word

/-- datetime.codon:718-725 `replace`. -/
def Date.replace (self : Date) (year month day : Int) : R Date :=
  dateNew (if year = -1 then self.year else year) (if month = -1 then self.month else month)
    (if day = -1 then self.day else day)

/-! ## `time` (datetime.codon:772-877): a packed 64-bit word -/

structure Time where
  word : BitVec 64
deriving DecidableEq, Repr

/-- datetime.codon:784. -/
def packTime (hour minute second microsecond : Int) : Time :=
  ⟨(BitVec.ofInt 64 hour <<< 40) ||| (BitVec.ofInt 64 minute <<< 32) |||
    (BitVec.ofInt 64 second <<< 24) ||| BitVec.ofInt 64 microsecond⟩

/-- datetime.codon:780-785 `time.__new__`. -/
def timeNew (hour minute second microsecond : Int) : R Time := do
  checkTimeArgs hour minute second microsecond
  return packTime hour minute second microsecond

/-- datetime.codon:788-790. -/
def Time.hour (t : Time) : Int := (t.word.sshiftRight 40).toInt
/-- datetime.codon:793-795. -/
def Time.minute (t : Time) : Int := ((t.word.sshiftRight 32) &&& 0xFF).toInt
/-- datetime.codon:798-800. -/
def Time.second (t : Time) : Int := ((t.word.sshiftRight 24) &&& 0xFF).toInt
/-- datetime.codon:803-805. -/
def Time.microsecond (t : Time) : Int := (t.word &&& 0xFFFFFF).toInt

/-- The comparison of `@tuple` classes: the only field is an `int`. -/
def Time.lt (a b : Time) : Bool := a.word.slt b.word

/-- datetime.codon:836-847 `replace`. -/
def Time.replace (self : Time) (hour minute second microsecond : Int) : R Time :=
  timeNew (if hour = -1 then self.hour else hour) (if minute = -1 then self.minute else minute)
    (if second = -1 then self.second else second)
    (if microsecond = -1 then self.microsecond else microsecond)

/-! ## `datetime` (datetime.codon:879-1121) -/

structure Datetime where
  time : Time
  date : Date
deriving DecidableEq, Repr

/-- datetime.codon:888-897 `datetime.__new__`. -/
def datetimeNew (year month day hour minute second microsecond : Int) : R Datetime := do
  let t ← timeNew hour minute second microsecond
  let d ← dateNew year month day
  return ⟨t, d⟩

/-- datetime.codon:999-1012 `datetime.__add__`. -/
def Datetime.add (self : Datetime) (us : Int) : R Datetime := do
  let td := normalizeDSUs 0 0 us
  let ((y, m, d), h, mi, s, u) ← normalizeDatetime self.date.year self.date.month
    (self.date.day + td.1) self.time.hour self.time.minute (self.time.second + td.2.1)
    (self.time.microsecond + td.2.2)
  datetimeNew y m d h mi s u

/-- datetime.codon:1014-1027 `datetime.__sub__(timedelta)`. -/
def Datetime.sub (self : Datetime) (us : Int) : R Datetime := do
  let td := normalizeDSUs 0 0 us
  let ((y, m, d), h, mi, s, u) ← normalizeDatetime self.date.year self.date.month
    (self.date.day - td.1) self.time.hour self.time.minute (self.time.second - td.2.1)
    (self.time.microsecond - td.2.2)
  datetimeNew y m d h mi s u

/-- datetime.codon:1029-1039 `datetime.__sub__(datetime)`. -/
def Datetime.diff (self other : Datetime) : R Int := do
  let l ← ymdToOrd self.date.year self.date.month self.date.day
  let r ← ymdToOrd other.date.year other.date.month other.date.day
  let deltaS := (self.time.hour - other.time.hour) * 3600 + (self.time.minute - other.time.minute) * 60 +
    (self.time.second - other.time.second)
  let deltaUs := self.time.microsecond - other.time.microsecond
  return timedeltaNew (l - r) deltaS deltaUs 0 0 0 0

/-- datetime.codon:1047-1048 `__lt__`: comparison of pairs. -/
def Datetime.lt (a b : Datetime) : Bool :=
  a.date.lt b.date || (decide (a.date = b.date) && a.time.lt b.time)

end Codon.Date
