import Mathlib.Data.Int.Order.Basic

/-!
# The calendar of NumPy's `datetime64`

Source: `/repo/stdlib/numpy/npdatetime.codon:48-123, 842-852, 1708-1754, 1784-1990, 1488-1497`.

Simplifications: 64-bit and 32-bit fields are unbounded integers here; where a computation could
leave the 64-bit range (dates beyond some 25 thousand million million years, or units and
multiples for which `dt * num` overflows) the theorems ask for it not to.  The fields `month`, …,
`as_` are 32-bit; the values put in them are always within a few thousand million of zero.

`//` and `%` on `int` round towards zero, or downwards when the program is compiled with
`-numerics=py` (`/repo/stdlib/internal/pynumerics.codon`); the parameter `py` says which.  `_cdiv`
and `_cmod` always round towards zero.
-/

namespace Codon.NpCal

/-- `//` on `int`. -/
def idiv (py : Bool) (a b : Int) : Int := if py then Int.fdiv a b else Int.tdiv a b

/-- `%` on `int`. -/
def imod (py : Bool) (a b : Int) : Int := if py then Int.fmod a b else Int.tmod a b

/-- `_extract_unit_64` (`npdatetime.codon:58-64`). -/
def extract (d unit : Int) : Int × Int :=
  let q := Int.tdiv d unit
  let r := Int.tmod d unit
  if r < 0 then (q - 1, r + unit) else (q, r)

/-- `_is_leapyear` (`npdatetime.codon:91-92`); `year & 3 == 0` says that 4 divides the year. -/
def isLeap (y : Int) : Bool :=
  decide (y % 4 = 0) && (decide (Int.tmod y 100 ≠ 0) || decide (Int.tmod y 400 = 0))

/-- `_days_per_month_table` (`npdatetime.codon:77-78`). -/
def monthTable (leap : Bool) : List Int :=
  if leap then [31, 29, 31, 30, 31, 30, 31, 31, 30, 31, 30, 31]
  else [31, 28, 31, 30, 31, 30, 31, 31, 30, 31, 30, 31]

/-- `_days_to_yearsdays` (`npdatetime.codon:94-110`): the day within the year, and the year. -/
def daysToYears (py : Bool) (days : Int) : Int × Int :=
  let days := days - (365 * 30 + 7)
  let e := extract days (400 * 365 + 100 - 4 + 1)
  let year := 400 * e.1
  let days := e.2
  if days ≥ 366 then
    let year := year + 100 * idiv py (days - 1) (100 * 365 + 25 - 1)
    let days := imod py (days - 1) (100 * 365 + 25 - 1)
    if days ≥ 365 then
      let year := year + 4 * idiv py (days + 1) (4 * 365 + 1)
      let days := imod py (days + 1) (4 * 365 + 1)
      if days ≥ 366 then
        (imod py (days - 1) 365, year + idiv py (days - 1) 365 + 2000)
      else (days, year + 2000)
    else (days, year + 2000)
  else (days, year + 2000)

/-- The loop over the months (`npdatetime.codon:116-120, 1748-1754`): the month (from `i + 1` on) and
the day in it, counted from 0; `none` if the table comes to its end. -/
def findMonth : List Int → Int → Int → Option (Int × Int)
  | [], _, _ => none
  | l :: r, i, days => if days < l then some (i + 1, days) else findMonth r (i + 1) (days - l)

/-- `_days_to_month_number` (`npdatetime.codon:112-123`). -/
def monthNumber (py : Bool) (days : Int) : Int :=
  let e := daysToYears py days
  match findMonth (monthTable (isLeap e.2)) 0 e.1 with
  | some p => p.1
  | none => 1

/-- `datetimestruct` (`npdatetime.codon:842-852`). -/
structure DTS where
  year : Int := 1970
  month : Int := 1
  day : Int := 1
  hour : Int := 0
  min : Int := 0
  sec : Int := 0
  us : Int := 0
  ps : Int := 0
  as_ : Int := 0
  deriving DecidableEq, Repr

/-- `datetimestruct.set_days` (`npdatetime.codon:1743-1754`). -/
def DTS.setDays (py : Bool) (s : DTS) (days : Int) : DTS :=
  let e := daysToYears py days
  let s := { s with year := e.2 }
  match findMonth (monthTable (isLeap s.year)) 0 e.1 with
  | some p => { s with month := p.1, day := p.2 + 1 }
  | none => s

/-- `datetimestruct.days` (`npdatetime.codon:1708-1735`). -/
def DTS.days (py : Bool) (s : DTS) : Int :=
  let year := s.year - 1970
  let days := year * 365
  let days :=
    if days ≥ 0 then
      let year := year + 1
      let days := days + idiv py year 4
      let year := year + 68
      let days := days - idiv py year 100
      let year := year + 300
      days + idiv py year 400
    else
      let year := year - 2
      let days := days + idiv py year 4
      let year := year - 28
      let days := days - idiv py year 100
      days + idiv py year 400
  days + ((monthTable (isLeap s.year)).take (s.month - 1).toNat).sum + (s.day - 1)

/-- The units (`_FR_Y` … `_FR_as`). -/
inductive Unit' where
  | Y | M | W | D | h | m | s | ms | us | ns | ps | fs | as_
  deriving DecidableEq, Repr

/-- The units counted in one unit of `datetimestruct.to_datetime64` before the multiple
(`npdatetime.codon:1795-1845`). -/
def DTS.count (py : Bool) (s : DTS) : Unit' → Int
  | .Y => s.year - 1970
  | .M => 12 * (s.year - 1970) + (s.month - 1)
  | .W => if s.days py ≥ 0 then idiv py (s.days py) 7 else idiv py (s.days py - 6) 7
  | .D => s.days py
  | .h => s.days py * 24 + s.hour
  | .m => (s.days py * 24 + s.hour) * 60 + s.min
  | .s => ((s.days py * 24 + s.hour) * 60 + s.min) * 60 + s.sec
  | .ms => (((s.days py * 24 + s.hour) * 60 + s.min) * 60 + s.sec) * 1000 + idiv py s.us 1000
  | .us => (((s.days py * 24 + s.hour) * 60 + s.min) * 60 + s.sec) * 1000000 + s.us
  | .ns => ((((s.days py * 24 + s.hour) * 60 + s.min) * 60 + s.sec) * 1000000 + s.us) * 1000 +
      idiv py s.ps 1000
  | .ps => ((((s.days py * 24 + s.hour) * 60 + s.min) * 60 + s.sec) * 1000000 + s.us) * 1000000 +
      s.ps
  | .fs => (((((s.days py * 24 + s.hour) * 60 + s.min) * 60 + s.sec) * 1000000 + s.us) * 1000000 +
      s.ps) * 1000 + idiv py s.as_ 1000
  | .as_ => (((((s.days py * 24 + s.hour) * 60 + s.min) * 60 + s.sec) * 1000000 + s.us) * 1000000 +
      s.ps) * 1000000 + s.as_

/-- `datetimestruct.to_datetime64` (`npdatetime.codon:1784-1853`) for a date that is not NaT. -/
def DTS.toDt (py : Bool) (s : DTS) (u : Unit') (num : Int) : Int :=
  let ret := s.count py u
  if num > 1 then
    if ret ≥ 0 then idiv py ret num else idiv py (ret - num + 1) num
  else ret

/-- `datetimestruct.from_datetime64` (`npdatetime.codon:1857-1988`) for a value that is not NaT. -/
def fromDt (py : Bool) (u : Unit') (num dt : Int) : DTS :=
  let s : DTS := {}
  let dt := dt * num
  match u with
  | .Y => { s with year := 1970 + dt }
  | .M =>
    let e := extract dt 12
    { s with year := 1970 + e.1, month := e.2 + 1 }
  | .W => s.setDays py (dt * 7)
  | .D => s.setDays py dt
  | .h =>
    let e := extract dt 24
    { s.setDays py e.1 with hour := e.2 }
  | .m =>
    let e := extract dt (60 * 24)
    let f := extract e.2 60
    { s.setDays py e.1 with hour := f.1, min := f.2 }
  | .s =>
    let e := extract dt (60 * 60 * 24)
    let f := extract e.2 (60 * 60)
    let g := extract f.2 60
    { s.setDays py e.1 with hour := f.1, min := g.1, sec := g.2 }
  | .ms =>
    let e := extract dt (1000 * 60 * 60 * 24)
    let f := extract e.2 (1000 * 60 * 60)
    let g := extract f.2 (1000 * 60)
    let k := extract g.2 1000
    { s.setDays py e.1 with hour := f.1, min := g.1, sec := k.1, us := k.2 * 1000 }
  | .us =>
    let e := extract dt (1000 * 1000 * 60 * 60 * 24)
    let f := extract e.2 (1000 * 1000 * 60 * 60)
    let g := extract f.2 (1000 * 1000 * 60)
    let k := extract g.2 (1000 * 1000)
    { s.setDays py e.1 with hour := f.1, min := g.1, sec := k.1, us := k.2 }
  | .ns =>
    let e := extract dt (1000 * 1000 * 1000 * 60 * 60 * 24)
    let f := extract e.2 (1000 * 1000 * 1000 * 60 * 60)
    let g := extract f.2 (1000 * 1000 * 1000 * 60)
    let k := extract g.2 (1000 * 1000 * 1000)
    let l := extract k.2 1000
    { s.setDays py e.1 with hour := f.1, min := g.1, sec := k.1, us := l.1, ps := l.2 * 1000 }
  | .ps =>
    let e := extract dt (1000 * 1000 * 1000 * 1000 * 60 * 60 * 24)
    let f := extract e.2 (1000 * 1000 * 1000 * 1000 * 60 * 60)
    let g := extract f.2 (1000 * 1000 * 1000 * 1000 * 60)
    let k := extract g.2 (1000 * 1000 * 1000 * 1000)
    let l := extract k.2 (1000 * 1000)
    { s.setDays py e.1 with hour := f.1, min := g.1, sec := k.1, us := l.1, ps := l.2 }
  | .fs =>
    let f := extract dt (1000 * 1000 * 1000 * 1000 * 1000 * 60 * 60)
    let s : DTS :=
      if f.1 < 0 then { s with year := 1969, month := 12, day := 31, hour := f.1 + 24 }
      else { s with hour := f.1 }
    let g := extract f.2 (1000 * 1000 * 1000 * 1000 * 1000 * 60)
    let k := extract g.2 (1000 * 1000 * 1000 * 1000 * 1000)
    let l := extract k.2 (1000 * 1000 * 1000)
    let p := extract l.2 1000
    { s with min := g.1, sec := k.1, us := l.1, ps := p.1, as_ := p.2 * 1000 }
  | .as_ =>
    let k := extract dt (1000 * 1000 * 1000 * 1000 * 1000 * 1000)
    let s : DTS :=
      if k.1 < 0 then
        { s with year := 1969, month := 12, day := 31, hour := 23, min := 59, sec := k.1 + 60 }
      else { s with sec := k.1 }
    let l := extract k.2 (1000 * 1000 * 1000 * 1000)
    let p := extract l.2 (1000 * 1000)
    { s with us := l.1, ps := p.1, as_ := p.2 }

/-- `datetime64._cast` (`npdatetime.codon:1488-1497`) for a value that is not NaT. -/
def cast (py : Bool) (u : Unit') (num : Int) (u' : Unit') (num' : Int) (dt : Int) : Int :=
  (fromDt py u num dt).toDt py u' num'

end Codon.NpCal
