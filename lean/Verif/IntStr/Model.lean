import Verif.Str.SplitModel

/-!
# Model of `int(s, base)`, `bin`, `oct` and `hex`

`stdlib/internal/builtin.codon:308-351` and `376-462`.  A string is a list of bytes.  `none` is a read or
write outside the string's bytes (undefined behaviour) or a loop that does not end.
-/

namespace Codon.IntStr
open Codon.Str

/-- A `ValueError`. -/
inductive Err where
  | value
  deriving DecidableEq, Repr

/-- fast_float's `ch_to_digit`: 255 for what is no digit. -/
def chDigit (c : UInt8) : Nat :=
  if 48 ≤ c.toNat ∧ c.toNat ≤ 57 then c.toNat - 48
  else if 97 ≤ c.toNat ∧ c.toNat ≤ 122 then c.toNat - 87
  else if 65 ≤ c.toNat ∧ c.toNat ≤ 90 then c.toNat - 55
  else 255

/-- `codon/runtime/lib.cpp:280-285` `seq_int_from_str`: the value and the number of bytes read; `none` if there is no
number or it does not fit 64 bits (`*e = s.str`).  `fast_float::from_chars` is a library function (not in the
repository): it reads a number in the base, after white space (`FASTFLOAT_SKIP_WHITE_SPACE`, `lib.cpp:30`) and a sign
(`-`, and `+` because of `FASTFLOAT_ALLOWS_LEADING_PLUS`, `lib.cpp:29`). -/
def fromChars (base : Nat) (s : Str) : Option (Int × Nat) :=
  let t := s.dropWhile isSpace
  let neg := t.head? == some 45
  let u := if t.head? = some 45 ∨ t.head? = some 43 then t.drop 1 else t
  let ds := u.takeWhile fun c => chDigit c < base
  if ds = [] then none
  else
    let v := ds.foldl (fun a c => base * a + chDigit c) 0
    if v > 2 ^ 63 - 1 + (if neg then 1 else 0) then none
    else some (if neg then -(v : Int) else v, s.length - u.length + ds.length)

/-- `builtin.codon:426-435` `check_digit`. -/
def checkDigit (d : UInt8) (base : Nat) : Bool :=
  if base = 2 then d == 48 || d == 49
  else if base = 8 then decide (48 ≤ d.toNat ∧ d.toNat ≤ 55)
  else if base = 16 then decide ((48 ≤ d.toNat ∧ d.toNat ≤ 57) ∨ (97 ≤ d.toNat ∧ d.toNat ≤ 102) ∨ (65 ≤ d.toNat ∧ d.toNat ≤ 70))
  else false

/-- `builtin.codon:393-413`: the base for `base == 0`. -/
def detectBase (s : Str) : Except Err Nat :=
  let o := if s.length ≥ 1 ∧ (s[0]? = some 43 ∨ s[0]? = some 45) then 1 else 0
  if s.length ≥ o + 1 ∧ s[o]? = some 48 then
    if s.length < o + 2 then .error .value
    else if s[o + 1]? = some 98 ∨ s[o + 1]? = some 66 then .ok 2
    else if s[o + 1]? = some 111 ∨ s[o + 1]? = some 79 then .ok 8
    else if s[o + 1]? = some 120 ∨ s[o + 1]? = some 88 then .ok 16
    else .error .value
  else .ok 10

/-- `builtin.codon:416-424`: `C_LOWER` and `C_UPPER`. -/
def marks (base : Nat) : UInt8 × UInt8 :=
  if base = 2 then (98, 66) else if base = 8 then (111, 79) else (120, 88)

/-- `builtin.codon:415-450`: what is left after the prefix, and `negate`. -/
def cutPrefix (s : Str) (base : Nat) : Option (Except Err (Str × Bool)) :=
  if base = 2 ∨ base = 8 ∨ base = 16 then
    let (lo, up) := marks base
    if s.length ≥ 4 ∧ (s[0]? = some 43 ∨ s[0]? = some 45) ∧ s[1]? = some 48 ∧ (s[2]? = some lo ∨ s[2]? = some up) then do
      if !checkDigit (← s[3]?) base then return .error .value
      else return .ok (s.drop 3, s[0]? == some 45)
    else if s.length ≥ 3 ∧ s[0]? = some 48 ∧ (s[1]? = some lo ∨ s[1]? = some up) then do
      if !checkDigit (← s[3]?) base then return .error .value
      else return .ok (s.drop 2, false)
    else some (.ok (s, false))
  else some (.ok (s, false))

/-- `builtin.codon:415-462`, with the base known. -/
def parse (s : Str) (base : Nat) : Option (Except Err Int) := do
  match ← cutPrefix s base with
  | .error e => return .error e
  | .ok (s, negate) =>
    match fromChars base s with
    | none => return .error .value
    | some (result, e) =>
      if s.length = 0 ∨ e ≠ s.length then return .error .value
      else return .ok (if negate then -result else result)

/-- `builtin.codon:378-462` `int._from_str`. -/
def fromStr (s : Str) (base : Int) : Option (Except Err Int) :=
  if base < 0 ∨ base > 36 ∨ base = 1 then some (.error .value)
  else do
    let s ← strip s []
    if base = 0 then
      match detectBase s with
      | .error e => return .error e
      | .ok base => parse s base
    else parse s base.toNat

/-! ## `bin`, `oct`, `hex` -/

/-- `//` of `int`: `internal/types/int.codon:151-153` (truncating), or `internal/pynumerics.codon:59-64`, `95-100` (flooring) with
`-numerics=py`. -/
def idiv (py : Bool) (a b : Int) : Int := if py then a.fdiv b else a.tdiv b

/-- `%` of `int`, likewise (`int.codon:181-183`, `pynumerics.codon:117-120`). -/
def imod (py : Bool) (a b : Int) : Int := if py then a.fmod b else a.tmod b

/-- `builtin.codon:312-316`: the number of digits. -/
def countDigits (py : Bool) (base : Int) : Nat → Int → Nat → Option Nat
  | 0, _, _ => none
  | f + 1, b, digits => if b ≠ 0 then countDigits py base f (idiv py b base) (digits + 1) else some digits

/-- `p[i] = c` of a block of bytes. -/
def wr (p : Str) (i : Int) (c : UInt8) : Option Str :=
  if 0 ≤ i ∧ i.toNat < p.length then some (p.set i.toNat c) else none

/-- `chars.ptr[i]` (`builtin.codon:310`, `336`). -/
def chars : Str := b "0123456789abcdef-"

/-- `builtin.codon:331-338`: the loop that writes the digits. -/
def writeDigits (py : Bool) (base : Int) : Nat → Int → Str → Int → Option Str
  | 0, _, _, _ => none
  | f + 1, b, p, q =>
    if b ≠ 0 then do
      writeDigits py base f (idiv py b base) (← wr p q (← chars[(imod py b base).natAbs]?)) (q - 1)
    else some p

/-- `str.memcpy(q, prefix.ptr, len(prefix))` (`builtin.codon:327`). -/
def copyTo : Str → Str → Int → Option Str
  | [], p, _ => some p
  | c :: cs, p, q => do copyTo cs (← wr p q c) (q + 1)

/-- `builtin.codon:322-324`: the sign; the block and the place reached. -/
def putSign (a : Int) (p : Str) : Option (Str × Int) :=
  if a < 0 then do return (← wr p 0 (← chars[16]?), 1) else some (p, 0)

/-- `builtin.codon:330-340`: the digits. -/
def putDigits (py : Bool) (f : Nat) (a base : Int) (digits : Nat) (p : Str) (q : Int) : Option Str :=
  if digits ≠ 0 then writeDigits py base f a p (q + (digits - 1)) else do wr p q (← chars[0]?)

/-- `builtin.codon:308-342` `_int_format`. `f` bounds the loops; the new block contains arbitrary bytes (`junk`). -/
def intFormat (py : Bool) (f : Nat) (junk : Nat → UInt8) (a base : Int) (pre : Str) : Option Str := do
  let digits ← countDigits py base f a 0
  let pq ← putSign a ((List.range (digits + (if a ≤ 0 then 1 else 0) + pre.length)).map junk)
  let p ← copyTo pre pq.1 pq.2
  putDigits py f a base digits p (pq.2 + pre.length)

/-- `builtin.codon:344-351` `bin`, `oct`, `hex` of an `int`. -/
def bin (py : Bool) (f : Nat) (junk : Nat → UInt8) (n : Int) : Option Str := intFormat py f junk n 2 (b "0b")
def oct (py : Bool) (f : Nat) (junk : Nat → UInt8) (n : Int) : Option Str := intFormat py f junk n 8 (b "0o")
def hex (py : Bool) (f : Nat) (junk : Nat → UInt8) (n : Int) : Option Str := intFormat py f junk n 16 (b "0x")

end Codon.IntStr
