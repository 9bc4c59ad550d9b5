import Verif.NpCal.Model
import Verif.Sort.Props

/-!
# NumPy's business days

Source: `/repo/stdlib/numpy/npdatetime.codon:2621-2984` (`_weekmask`, `_get_day_of_week`, the
searches, `_apply_busines_day_roll`, `_apply_busines_day_offset`, `_apply_busines_day_count`,
`_apply_is_business_day`, `busdaycalendar.__init__`), used by `busday_offset`, `busday_count` and
`is_busday` of `/repo/stdlib/numpy/routines.codon:4891-5013` on each element of arrays.

Simplifications: dates are integers without bound (no overflow at the ends of the 64-bit range);
NaT is the least 64-bit integer, as in the code.  The broadcasting over arrays is that of C64.
Weekmasks given as lists are not modelled; characters are ASCII.
-/

namespace Codon.NpBus

open Codon.NpCal (monthNumber)

/-- `_DATETIME_NAT`. -/
def nat : Int := -2 ^ 63

/-- How a function ends: `bad` is a read outside the array of holidays, `more` that the bound on the
number of rounds is used up. -/
inductive Out (α : Type) where
  | ok (a : α)
  | valueError
  | bad
  | more
  deriving DecidableEq, Repr

/-- Go on with a value. -/
def Out.bind {α β : Type} (o : Out α) (f : α → Out β) : Out β :=
  match o with
  | .ok a => f a
  | .valueError => .valueError
  | .bad => .bad
  | .more => .more

/-- A read or a search that found its place. -/
def Out.of {α : Type} : Option α → Out α
  | some a => .ok a
  | none => .bad

/-- `_weekmask.__getitem__` (`npdatetime.codon:2636-2637`); bit 0 is Monday. -/
def bit (wm : Nat) (i : Int) : Bool := wm.testBit i.toNat

/-- `_weekmask.count` (`npdatetime.codon:2639-2641`), the number of bits set in a byte. -/
def popcnt (wm : Nat) : Nat := (List.range 8).countP fun i => wm.testBit i

/-- `_get_day_of_week` (`npdatetime.codon:2643-2647`). -/
def dow (date : Int) : Int :=
  let r := Int.tmod (date - 4) 7
  if r < 0 then r + 7 else r

/-- The binary searches `_find_earliest_holiday_on_or_after` (`npdatetime.codon:2662-2673`, with
`onEq = id`) and `_find_earliest_holiday_after` (`:2675-2686`, with `onEq = (· + 1)`), on the part of
the holidays from index `lo` up to `hi`. -/
def search (onEq : Nat → Nat) (hs : List Int) (date : Int) : Nat → Nat → Nat → Option Nat
  | 0, _, _ => none
  | f + 1, lo, hi =>
    if lo < hi then
      let trial := lo + (hi - lo) / 2
      match hs[trial]? with
      | none => none
      | some h =>
        if date < h then search onEq hs date f lo trial
        else if date > h then search onEq hs date f (trial + 1) hi
        else some (onEq trial)
    else some lo

/-- `_is_holiday` (`npdatetime.codon:2649-2660`). -/
def isHoliday (hs : List Int) (date : Int) : Nat → Nat → Nat → Option Bool
  | 0, _, _ => none
  | f + 1, lo, hi =>
    if lo < hi then
      let trial := lo + (hi - lo) / 2
      match hs[trial]? with
      | none => none
      | some h =>
        if date < h then isHoliday hs date f lo trial
        else if date > h then isHoliday hs date f (trial + 1) hi
        else some true
    else some false

/-- Rounds enough for the searches. -/
def rounds (hs : List Int) : Nat := hs.length + 1

/-- One day on or back, with the day of the week (`npdatetime.codon:2707-2710, 2722-2725`). -/
def step (fwd : Bool) (date day : Int) : Int × Int :=
  if fwd then (date + 1, if day + 1 = 7 then 0 else day + 1)
  else (date - 1, if day - 1 = -1 then 6 else day - 1)

/-- `weekmask[day] and not _is_holiday(date, lo, hi)`. -/
def open_ (wm : Nat) (hs : List Int) (lo hi : Nat) (date day : Int) : Out Bool :=
  if bit wm day then (Out.of (isHoliday hs date (rounds hs) lo hi)).bind fun b => .ok !b
  else .ok false

/-- The loops that look for the next open day (`npdatetime.codon:2706-2713, 2721-2728, 2730-2737,
2745-2752`). -/
def rollLoop (wm : Nat) (hs : List Int) (fwd : Bool) : Nat → Int → Int → Out (Int × Int)
  | 0, _, _ => .more
  | n + 1, date, day =>
    let p := step fwd date day
    (open_ wm hs 0 hs.length p.1 p.2).bind fun b =>
      if b then .ok p else rollLoop wm hs fwd n p.1 p.2

/-- The roll codes (`npdatetime.codon:2623-2630`). -/
inductive Roll where
  | following
  | preceding
  | modifiedFollowing
  | modifiedPreceding
  | nat
  | raise
  deriving DecidableEq, Repr

/-- `_apply_busines_day_roll` (`npdatetime.codon:2688-2758`). -/
def roll (py : Bool) (wm : Nat) (hs : List Int) (n : Nat) (date : Int) (r : Roll) :
    Out (Int × Int) :=
  if date = nat then
    if r = .raise then .valueError else .ok (date, 0)
  else
    let day := dow date
    (open_ wm hs 0 hs.length date day).bind fun b =>
      if b then .ok (date, day)
      else
        match r with
        | .following => rollLoop wm hs true n date day
        | .modifiedFollowing =>
          (rollLoop wm hs true n date day).bind fun p =>
            if monthNumber py date ≠ monthNumber py p.1 then rollLoop wm hs false n date day
            else .ok p
        | .preceding => rollLoop wm hs false n date day
        | .modifiedPreceding =>
          (rollLoop wm hs false n date day).bind fun p =>
            if monthNumber py date ≠ monthNumber py p.1 then rollLoop wm hs true n date day
            else .ok p
        | .nat => .ok (nat, day)
        | .raise => .valueError

/-- The loops that count open days (`npdatetime.codon:2781-2788, 2800-2807`). -/
def offsetLoop (wm : Nat) (hs : List Int) (lo hi : Nat) (fwd : Bool) :
    Nat → Int → Int → Int → Out Int
  | 0, _, _, _ => .more
  | n + 1, offset, date, day =>
    if (if fwd then 0 < offset else offset < 0) then
      let p := step fwd date day
      (open_ wm hs lo hi p.1 p.2).bind fun b =>
        offsetLoop wm hs lo hi fwd n
          (if b then (if fwd then offset - 1 else offset + 1) else offset) p.1 p.2
    else .ok date

/-- `_apply_busines_day_offset` (`npdatetime.codon:2760-2809`). -/
def offset (py : Bool) (wm : Nat) (hs : List Int) (n : Nat) (date off : Int) (r : Roll) : Out Int :=
  (roll py wm hs n date r).bind fun p =>
    let date := p.1
    if date = nat then .ok date
    else if off > 0 then
      (Out.of (search id hs date (rounds hs) 0 hs.length)).bind fun lo =>
        let date := date + Int.tdiv off (popcnt wm) * 7
        let off := Int.tmod off (popcnt wm)
        (Out.of (search (· + 1) hs date (rounds hs) lo hs.length)).bind fun tmp =>
          offsetLoop wm hs tmp hs.length true n (off + ((tmp : Int) - lo)) date p.2
    else if off < 0 then
      (Out.of (search (· + 1) hs date (rounds hs) 0 hs.length)).bind fun hi =>
        let date := date + Int.tdiv off (popcnt wm) * 7
        let off := Int.tmod off (popcnt wm)
        (Out.of (search id hs date (rounds hs) 0 hi)).bind fun tmp =>
          offsetLoop wm hs 0 tmp false n (off - ((hi : Int) - tmp)) date p.2
    else .ok date

/-- The loop over the last days (`npdatetime.codon:2845-2852`), `k` of them. -/
def countLoop (wm : Nat) : Nat → Int → Int → Int → Int
  | 0, _, _, count => count
  | k + 1, date, day, count =>
    countLoop wm k (date + 1) (if day + 1 = 7 then 0 else day + 1)
      (if bit wm day then count + 1 else count)

/-- `_apply_busines_day_count` (`npdatetime.codon:2811-2857`). -/
def count (wm : Nat) (hs : List Int) (begin_ end_ : Int) : Out Int :=
  if begin_ = nat ∨ end_ = nat then .valueError
  else if begin_ = end_ then .ok 0
  else
    let swapped := begin_ > end_
    let b := if swapped then end_ + 1 else begin_
    let e := if swapped then begin_ + 1 else end_
    (Out.of (search id hs b (rounds hs) 0 hs.length)).bind fun lo =>
      (Out.of (search id hs e (rounds hs) lo hs.length)).bind fun hi =>
        let c := -((hi : Int) - lo)
        let weeks := Int.tdiv (e - b) 7
        let c := c + weeks * popcnt wm
        let b := b + weeks * 7
        let c := if b < e then countLoop wm (e - b).toNat b (dow b) c else c
        .ok (if swapped then -c else c)

/-- `_apply_is_business_day` (`npdatetime.codon:2859-2864`). -/
def isBusday (wm : Nat) (hs : List Int) (date : Int) : Out Bool :=
  (open_ wm hs 0 hs.length date (dow date)).bind fun b => .ok (b && !decide (date = nat))

/-! ### Weekmask strings -/

/-- The loop over a string of seven digits (`npdatetime.codon:2883-2888`), from index `i` on; `none`
is the `ValueError`. -/
def maskDigits : List Char → Nat → Nat → Option Nat
  | [], _, mask => some mask
  | w :: r, i, mask =>
    if w = '1' then maskDigits r (i + 1) (mask ||| 1 <<< i)
    else if w ≠ '0' then none
    else maskDigits r (i + 1) mask

/-- `str.isspace` of one character. -/
def isSpace (c : Char) : Bool := [' ', '\t', '\n', '\r', '\x0b', '\x0c'].contains c

/-- The number of a day (`npdatetime.codon:2899-2916`). -/
def dayNumber (w : List Char) : Option Nat :=
  if w = ['M', 'o', 'n'] then some 0
  else if w = ['T', 'u', 'e'] then some 1
  else if w = ['W', 'e', 'd'] then some 2
  else if w = ['T', 'h', 'u'] then some 3
  else if w = ['F', 'r', 'i'] then some 4
  else if w = ['S', 'a', 't'] then some 5
  else if w = ['S', 'u', 'n'] then some 6
  else none

/-- The loop over a string of names (`npdatetime.codon:2890-2918`); the string is what is left of
it, and the inner loop over the blanks is part of the same recursion. -/
def maskNames : List Char → Nat → Option Nat
  | [], mask => some mask
  | c :: r, mask =>
    if isSpace c then maskNames r mask
    else
      match r with
      | a :: b :: r' =>
        match dayNumber [c, a, b] with
        | some j => maskNames r' (mask ||| 1 <<< j)
        | none => none
      | _ => none

/-- The mask of a string (`npdatetime.codon:2878-2918`). -/
def maskString (s : List Char) : Option Nat :=
  if s.length = 7 ∧ (s.head? = some '0' ∨ s.head? = some '1') then maskDigits s 0 0
  else maskNames s 0

/-! ### The calendar -/

/-- `datetime64.__lt__` (`npdatetime.codon:1529-1534`) of dates with values `val`. -/
def dtLt {α : Type} (val : α → Int) (a b : α) : Bool :=
  if val a = nat ∨ val b = nat then false else decide (val a < val b)

/-- The loop that keeps the holidays which matter (`npdatetime.codon:2966-2978`). -/
def trim (wm : Nat) : List Int → Int → List Int
  | [], _ => []
  | d :: r, last =>
    if d ≠ nat ∧ d ≠ last ∧ bit wm (dow d) = true then d :: trim wm r d else trim wm r last

/-- `busdaycalendar.__init__` (`npdatetime.codon:2940-2984`), from the mask on: no mask of all zeros;
the holidays sorted (`List.sort`, which is timsort for this type, `/repo/stdlib/internal/
sort.codon:22-85`) and trimmed. -/
def calendar {α : Type} (val : α → Int) (wm : Nat) (holidays : List α) : Out (List Int) :=
  if wm = 0 then .valueError
  else (Out.of (Sort.listSort (dtLt val) none false false false holidays)).bind fun l =>
    .ok (trim wm (l.map val) nat)

end Codon.NpBus
