import Verif.Str.SplitModel
import Verif.Slice.Model

/-!
# Model of the remaining methods of `str`

`stdlib/internal/str.codon`: indexing, slicing, repetition, the predicates, changes of case, padding,
`expandtabs` and `translate`.  Strings are byte lists as in `Verif.Str`.  `none` is undefined behaviour (a read
or a write outside a string or a buffer, a returned buffer that is not full, a wrapped 64-bit sum where the code
relies on there being none); a raised exception is `some none` (or `none` inside the outer `some`).  A loop
`for i in range(len(self))` that reads `self.ptr[i]` is a recursion over the remaining bytes.  The C functions
`isdigit`, …, `toupper` are those of the "C" locale, in which a program starts (`int(a)` of a `byte` is the
unsigned value, types/byte.codon:96-98).  Allocation is assumed to succeed.
-/

namespace Codon.StrM

open Codon.Str (Str len emit finish slice MAX)
open Codon.Sort (rd wr)

/-! ## The C library -/

/-- libc `isdigit` -/
def cDigit (c : UInt8) : Bool := decide (48 ≤ c.toNat ∧ c.toNat ≤ 57)
/-- libc `isupper` -/
def cUpper (c : UInt8) : Bool := decide (65 ≤ c.toNat ∧ c.toNat ≤ 90)
/-- libc `islower` -/
def cLower (c : UInt8) : Bool := decide (97 ≤ c.toNat ∧ c.toNat ≤ 122)
/-- libc `isalpha` -/
def cAlpha (c : UInt8) : Bool := cUpper c || cLower c
/-- libc `isalnum` -/
def cAlnum (c : UInt8) : Bool := cAlpha c || cDigit c
/-- libc `isspace`: tab, newline, vertical tab, form feed, carriage return, space -/
def cSpace (c : UInt8) : Bool := decide (9 ≤ c.toNat ∧ c.toNat ≤ 13 ∨ c.toNat = 32)
/-- libc `toupper` -/
def cToupper (c : UInt8) : UInt8 := if cLower c then c - 32 else c
/-- libc `tolower` -/
def cTolower (c : UInt8) : UInt8 := if cUpper c then c + 32 else c

/-! ## Indexing, slicing, repetition -/

/-- str.codon:71-76 `__getitem__(int)`; `some none` is the `IndexError`. -/
def getItem (s : Str) (idx : Int) : Option (Option Str) :=
  let idx := if idx < 0 then idx + len s else idx
  if ¬ (0 ≤ idx ∧ idx < len s) then some none
  else do return some [← rd s idx]

/-- str.codon:88-94 `_make_from_range`: the loop. -/
def rangeLoop (s : Str) (cap : Int) : List Int → Str → Option Str
  | [], out => some out
  | i :: l, out => do rangeLoop s cap l (← emit cap out [← rd s i])

/-- str.codon:88-94 `_make_from_range` -/
def makeFromRange (s : Str) (start stop step length : Int) : Option Str := do
  let l ← Slice.Range.iter ⟨start, stop, step⟩
  finish length (← rangeLoop s length l [])

/-- str.codon:78-86 `__getitem__(Slice)`; `some none` is the `ValueError` of `adjust_indices`. -/
def getSlice (s : Str) (start stop step : Option Int) : Option (Option Str) :=
  if start = none ∧ stop = none ∧ step = none then some (some s)
  else match Slice.adjust (len s) start stop step with
    | none => some none
    | some a =>
      if step = none then do return some (← slice s a.start (a.start + a.length))
      else do return some (← makeFromRange s a.start a.stop a.step a.length)

/-- A `str` value as it is returned: the length field and the bytes written to its buffer. -/
structure Raw where
  n : Int
  buf : Str
  deriving DecidableEq, Repr

/-- str.codon:113-115: the copies. -/
def mulLoop (s : Str) (total : Int) : Nat → Str → Option Str
  | 0, out => some out
  | k + 1, out => do mulLoop s total k (← emit total out s)

/-- The 64-bit product. -/
def mul64 (a b : Int) : Int := (a * b).bmod (2 ^ 64)

/-- str.codon:109-116 `__mul__` -/
def mul (s : Str) (x : Int) : Option Raw := do
  let total := mul64 x (len s)
  return ⟨total, ← mulLoop s total x.toNat []⟩

/-! ## Predicates -/

/-- The loops `for i in range(len(self)): if not p(self.ptr[i]): return False` (str.codon:218-221, 263-266,
272-275, 281-284, 327-331, 354-357, 518-521). -/
def allLoop (p : UInt8 → Bool) : Str → Bool
  | [] => true
  | c :: s => if !p c then false else allLoop p s

/-- str.codon:214-221 `isdigit` -/
def isdigit (s : Str) : Bool := if len s = 0 then false else allLoop cDigit s
/-- str.codon:259-266 `isalnum` -/
def isalnum (s : Str) : Bool := if len s = 0 then false else allLoop cAlnum s
/-- str.codon:268-275 `isalpha` -/
def isalpha (s : Str) : Bool := if len s = 0 then false else allLoop cAlpha s
/-- str.codon:277-284 `isspace` -/
def isspace (s : Str) : Bool := if len s = 0 then false else allLoop cSpace s
/-- str.codon:323-331 `isdecimal` (and `isnumeric`, 405-406) -/
def isdecimal (s : Str) : Bool :=
  if len s = 0 then false else allLoop (fun c => decide (48 ≤ c.toNat ∧ c.toNat ≤ 57)) s
/-- str.codon:353-357 `isascii` -/
def isascii (s : Str) : Bool := allLoop (fun c => !decide (c.toNat ≥ 128)) s
/-- str.codon:517-521 `isprintable` -/
def isprintable (s : Str) : Bool := allLoop (fun c => decide (31 < c.toNat ∧ c.toNat < 128)) s

/-- The loop of `islower` and `isupper` (str.codon:234-239, 252-257): `bad` ends it, `good` is remembered. -/
def casedLoop (bad good : UInt8 → Bool) : Str → Bool → Bool
  | [], cased => cased
  | c :: s, cased =>
    if bad c then false
    else casedLoop bad good s (if !cased && good c then true else cased)

/-- str.codon:223-239 `islower` -/
def islower (s : Str) : Option Bool :=
  if len s = 0 then some false
  else if len s = 1 then do return cLower (← rd s 0)
  else some (casedLoop cUpper cLower s false)

/-- str.codon:241-257 `isupper` -/
def isupper (s : Str) : Option Bool :=
  if len s = 0 then some false
  else if len s = 1 then do return cUpper (← rd s 0)
  else some (casedLoop cLower cUpper s false)

/-- str.codon:296-311: the loop of `istitle`. -/
def titleLoop : Str → Bool → Bool → Bool
  | [], cased, _ => cased
  | c :: s, cased, prev =>
    if cUpper c then (if prev then false else titleLoop s true true)
    else if cLower c then (if !prev then false else titleLoop s true true)
    else titleLoop s cased false

/-- str.codon:286-311 `istitle` -/
def istitle (s : Str) : Option Bool :=
  if len s = 0 then some false
  else if len s = 1 then do return cUpper (← rd s 0)
  else some (titleLoop s false false)

/-- str.codon:507-513: the loop of `isidentifier` over the bytes after the first; a byte is tested as a string
of length one. -/
def identLoop : Str → Bool
  | [] => true
  | c :: s =>
    if !isalpha [c] then
      if !isdecimal [c] then
        if [c] ≠ [95] then false else identLoop s
      else identLoop s
    else identLoop s

/-- str.codon:496-515 `isidentifier` -/
def isidentifier (s : Str) : Option Bool :=
  if len s = 0 then some false
  else do
    let first := [← rd s 0]
    if !isalpha first && decide (first ≠ [95]) then return false
    if isalpha first || decide (first = [95]) then return identLoop (s.drop 1)
    return true

/-! ## Changes of case -/

/-- The loops `for i in range(n): p[i] = f(self.ptr[i])`. -/
def mapLoop (f : UInt8 → UInt8) (cap : Int) : Str → Str → Option Str
  | [], out => some out
  | c :: s, out => do mapLoop f cap s (← emit cap out [f c])

/-- str.codon:333-341 `lower` (and `casefold`, 359-360) -/
def lower (s : Str) : Option Str :=
  if len s = 0 then some []
  else do finish (len s) (← mapLoop cTolower (len s) s [])

/-- str.codon:343-351 `upper` -/
def upper (s : Str) : Option Str :=
  if len s = 0 then some []
  else do finish (len s) (← mapLoop cToupper (len s) s [])

/-- str.codon:369-374: one byte of `swapcase`. -/
def swapByte (c : UInt8) : UInt8 :=
  if cLower c then cToupper c else if cUpper c then cTolower c else c

/-- str.codon:362-375 `swapcase` -/
def swapcase (s : Str) : Option Str :=
  if len s = 0 then some []
  else do finish (len s) (← mapLoop swapByte (len s) s [])

/-- str.codon:313-321 `capitalize` -/
def capitalize (s : Str) : Option Str :=
  if len s > 0 then do
    let out ← emit (len s) [] [cToupper (← rd s 0)]
    finish (len s) (← mapLoop cTolower (len s) (s.drop 1) out)
  else some []

/-- str.codon:385-402: the loop of `title`. -/
def titleFill (cap : Int) : Str → Bool → Str → Option Str
  | [], _, out => some out
  | c :: s, prev, out =>
    if cLower c then do
      titleFill cap s true (← emit cap out [if !prev then cToupper c else c])
    else if cUpper c then do
      titleFill cap s true (← emit cap out [if prev then cTolower c else c])
    else do titleFill cap s false (← emit cap out [c])

/-- str.codon:377-403 `title` -/
def title (s : Str) : Option Str :=
  if len s = 0 then some []
  else do finish (len s) (← titleFill (len s) s false [])

/-! ## Padding -/

/-- An argument of `_build`: a string, or a string and how often it is to be repeated. -/
abbrev Part := Str × Option Int

/-- str.codon:409-414: the total length. -/
def buildLen : List Part → Int → Int
  | [], total => total
  | (t, none) :: l, total => buildLen l (total + len t)
  | (t, some n) :: l, total => buildLen l (total + len t * n)

/-- str.codon:424-426: the copies of one part. -/
def buildRep (cap : Int) (t : Str) : Nat → Str → Option Str
  | 0, out => some out
  | n + 1, out => do buildRep cap t n (← emit cap out t)

/-- str.codon:418-426: the copies. -/
def buildLoop (cap : Int) : List Part → Str → Option Str
  | [], out => some out
  | (t, none) :: l, out => do buildLoop cap l (← emit cap out t)
  | (t, some n) :: l, out => do buildLoop cap l (← buildRep cap t n.toNat out)

/-- str.codon:408-428 `_build` -/
def build (l : List Part) : Option Str := do
  let total := buildLen l 0
  finish total (← buildLoop total l [])

/-- str.codon:430-435 `ljust`; `some none` is the `ValueError`. -/
def ljust (s : Str) (width : Int) (fill : Str) : Option (Option Str) :=
  if len fill ≠ 1 then some none
  else if width ≤ len s then some (some s)
  else do return some (← build [(s, none), (fill, some (width - len s))])

/-- str.codon:437-442 `rjust` -/
def rjust (s : Str) (width : Int) (fill : Str) : Option (Option Str) :=
  if len fill ≠ 1 then some none
  else if width ≤ len s then some (some s)
  else do return some (← build [(fill, some (width - len s)), (s, none)])

/-- str.codon:444-453 `center` -/
def center (s : Str) (width : Int) (fill : Str) : Option (Option Str) :=
  if len fill ≠ 1 then some none
  else if width ≤ len s then some (some s)
  else do
    let pad := width - len s
    let left := pad.tdiv 2
    let right := width - len s - left
    return some (← build [(fill, some left), (s, none), (fill, some right)])

/-- str.codon:455-470 `zfill`; the buffer of `zf` is the new one of `rjust`, as `width > len(self)`. -/
def zfill (s : Str) (width : Int) : Option (Option Str) :=
  if len s ≥ width then some (some s)
  else do
    match ← rjust s width [48] with
    | none => return none
    | some zf =>
      let fill := width - len s
      if len s > 0 then
        let c ← rd zf fill
        if c = 43 ∨ c = 45 then
          let zf ← wr zf 0 c
          let zf ← wr zf fill 48
          return some zf
        else return some zf
      else return some zf

/-! ## `expandtabs` -/

/-- A sum that must fit into 64 bits. -/
def chk (x : Int) : Option Int := if -MAX - 1 ≤ x ∧ x ≤ MAX then some x else none

/-- str.codon:743-763: the loop that computes the length of the result, with the checks; `some none` is
`OverflowError`. -/
def measure (ts : Int) : Str → Int → Int → Option (Option Int)
  | [], i, j => if i > MAX - j then some none else do return some (← chk (i + j))
  | c :: s, i, j =>
    if c = 9 then
      if ts > 0 then
        let incr := ts - j.tmod ts
        if j > MAX - incr then some none
        else do measure ts s i (← chk (j + incr))
      else measure ts s i j
    else if j > MAX - 1 then some none
    else do
      let j ← chk (j + 1)
      if c = 10 ∨ c = 13 then
        if i > MAX - j then some none
        else do measure ts s (← chk (i + j)) 0
      else measure ts s i j

/-- str.codon:774-780: the spaces for one tab. -/
def spaces (cap : Int) : Nat → Int → Str → Option Str
  | 0, _, _ => none
  | f + 1, i, out =>
    if i = 0 then some out
    else do spaces cap f (i - 1) (← emit cap out [32])

/-- str.codon:769-788: the loop that writes the result. -/
def fillTabs (ts cap : Int) : Str → Int → Str → Option Str
  | [], _, out => some out
  | c :: s, j, out =>
    if c = 9 then
      if ts > 0 then do
        let i := ts - j.tmod ts
        let j ← chk (j + i)
        fillTabs ts cap s j (← spaces cap (i.toNat + 1) i out)
      else fillTabs ts cap s j out
    else do
      let j ← chk (j + 1)
      let out ← emit cap out [c]
      if c = 10 ∨ c = 13 then fillTabs ts cap s 0 out
      else fillTabs ts cap s j out

/-- str.codon:729-790 `expandtabs` -/
def expandtabs (s : Str) (ts : Int) : Option (Option Str) := do
  match ← measure ts s 0 0 with
  | none => return none
  | some n => return some (← finish n (← fillTabs ts n s 0 []))

/-! ## `translate` -/

/-- The argument of `translate`: what `map[key]` is for the keys in it (`some none` is `None`). -/
abbrev Table := Int → Option (Option Str)

/-- str.codon:793-803: the length of the result. -/
def transLen (map : Table) : Str → Int → Int
  | [], m => m
  | c :: s, m =>
    match map c.toNat with
    | some (some val) => transLen map s (m + len val)
    | some none => transLen map s m
    | none => transLen map s (m + 1)

/-- str.codon:808-817: the bytes of the result. -/
def transLoop (map : Table) (cap : Int) : Str → Str → Option Str
  | [], out => some out
  | c :: s, out =>
    match map c.toNat with
    | some (some val) => do transLoop map cap s (← emit cap out val)
    | some none => transLoop map cap s out
    | none => do transLoop map cap s (← emit cap out [c])

/-- str.codon:792-819 `translate` -/
def translate (s : Str) (map : Table) : Option Str := do
  let m := transLen map s 0
  finish m (← transLoop map m s [])

end Codon.StrM
