import Verif.Sort.Model

/-!
# Model of the substring search

`stdlib/algorithms/strings.codon` and the methods of `stdlib/internal/str.codon` that only search.
A string is its sequence of bytes.  `none` is a read outside the string (undefined behaviour) or a loop
that runs longer than its bound (which the theorems exclude).  Lengths and indices are mathematical
integers: no length or sum of lengths here comes near 2^63.
-/

namespace Codon.Str

open Codon.Sort (rd)

abbrev Str := List UInt8

/-- `len(s)` -/
abbrev len (s : Str) : Int := s.length

/-- libc `memcmp(s + i, t + j, n) == 0`. -/
def memcmpEq (s : Str) (i : Int) (t : Str) (j n : Int) : Option Bool :=
  if 0 ≤ n ∧ 0 ≤ i ∧ i + n ≤ len s ∧ 0 ≤ j ∧ j + n ≤ len t then
    some ((s.drop i.toNat).take n.toNat == (t.drop j.toNat).take n.toNat)
  else none

/-- libc `memchr` over the whole string: the offset of the first `c`. -/
def memchr (s : Str) (c : UInt8) : Option Nat := s.findIdx? (· == c)

/-- `load <16 x i8>` at `s + i`. -/
def block16 (s : Str) (i : Int) : Option Str :=
  if 0 ≤ i ∧ i + 16 ≤ len s then some ((s.drop i.toNat).take 16) else none

/-- `bitcast <16 x i1> … to i16`: element 0 is the lowest bit. -/
def bitsToNat : List Bool → Nat
  | [] => 0
  | b :: l => b.toNat + 2 * bitsToNat l

/-- strings.codon:8-13 `cttz`: the position of the lowest set bit; poison (`none`) for 0. -/
def cttz (m : Nat) : Option Nat := (List.range 16).find? fun b => m.testBit b

/-- strings.codon:15-20 `ctlz`: the number of zeros above the highest set bit; poison for 0. -/
def ctlz (m : Nat) : Option Nat := (List.range 16).find? fun b => m.testBit (15 - b)

/-- strings.codon:22-39 `forward_mask` -/
def fwdMask (s : Str) (k i : Int) (firstb lastb : UInt8) : Option Nat := do
  let blockFirst ← block16 s i
  let blockLast ← block16 s (i + k - 1)
  return bitsToNat (List.zipWith (fun x y => firstb == x && lastb == y) blockFirst blockLast)

/-- strings.codon:41-60 `backward_mask` -/
def bwdMask (s : Str) (k i : Int) (firstb lastb : UInt8) : Option Nat := do
  let j := i - 16 + 1
  let blockFirst ← block16 s (j - k + 1)
  let blockLast ← block16 s j
  return bitsToNat (List.zipWith (fun x y => firstb == x && lastb == y) blockFirst blockLast)

/-- strings.codon:79-83: test the candidates of a block, lowest first. -/
def fwdBits (s p : Str) (k i : Int) : Nat → Nat → Option (Option Int)
  | 0, _ => none
  | n + 1, mask =>
    if mask ≠ 0 then do
      let bitpos ← cttz mask
      if ← memcmpEq s (i + bitpos + 1) p 1 (k - 2) then return some (i + bitpos)
      else fwdBits s p k i n (mask &&& (mask - 1))
    else some none

/-- strings.codon:88-199, the body of one unrolled step: the bytes at both ends, then `memcmp`. -/
def testAt (s p : Str) (k j : Int) (firstb lastb : UInt8) : Option Bool := do
  if firstb == (← rd s j) then
    if lastb == (← rd s (j + k - 1)) then memcmpEq s (j + 1) p 1 (k - 2)
    else return false
  else return false

/-- strings.codon:87-202: the unrolled tail, one step for each offset. -/
def fwdTail (s p : Str) (k : Int) (firstb lastb : UInt8) (i : Int) : List Int → Option Int
  | [] => some (-1)
  | d :: ds =>
    let j := i + d
    if j + k ≤ len s then do
      if ← testAt s p k j firstb lastb then return j
      else fwdTail s p k firstb lastb i ds
    else some (-1)

/-- The offsets of the unrolled steps, strings.codon:88-193. -/
def fwdOffsets : List Int := [0, 1, 2, 3, 4, 5, 6, 7, 8, 9, 10, 11, 12, 13, 14, 15]

/-- strings.codon:77-84 and the tail. -/
def fwdLoop (s p : Str) (k : Int) (firstb lastb : UInt8) : Nat → Int → Option Int
  | 0, _ => none
  | n + 1, i =>
    if i + k + 16 - 1 ≤ len s then do
      let mask ← fwdMask s k i firstb lastb
      match ← fwdBits s p k i (mask + 1) mask with
      | some r => return r
      | none => fwdLoop s p k firstb lastb n (i + 16)
    else fwdTail s p k firstb lastb i fwdOffsets

/-- strings.codon:62-202 `forward_find` (and `find`, 350-351) -/
def forwardFind (s p : Str) : Option Int :=
  let k := len p
  if k = 0 then some 0
  else if len s < k then some (-1)
  else if k = 1 then do
    match memchr s (← rd p 0) with
    | some i => return i
    | none => return -1
  else do
    let firstb ← rd p 0
    let lastb ← rd p (k - 1)
    fwdLoop s p k firstb lastb (s.length + 1) 0

/-- strings.codon:211-217: the scan for a single byte. -/
def bwdScan (s : Str) (c : UInt8) : Nat → Int → Option Int
  | 0, _ => none
  | n + 1, i =>
    if i ≥ 0 then do
      if (← rd s i) == c then return i else bwdScan s c n (i - 1)
    else some (-1)

/-- strings.codon:225-229: test the candidates of a block, highest first. -/
def bwdBits (s p : Str) (k i : Int) : Nat → Nat → Option (Option Int)
  | 0, _ => none
  | n + 1, mask =>
    if mask ≠ 0 then do
      let bitpos ← ctlz mask
      if ← memcmpEq s (i - (k - 1) - bitpos + 1) p 1 (k - 2) then return some (i - (k - 1) - bitpos)
      else bwdBits s p k i n (mask &&& (0xFFFF ^^^ (1 <<< (16 - 1 - bitpos))))
    else some none

/-- strings.codon:234-345, the body of one unrolled step: the last byte first. -/
def testBack (s p : Str) (k j : Int) (firstb lastb : UInt8) : Option Bool := do
  if lastb == (← rd s j) then
    if firstb == (← rd s (j - k + 1)) then memcmpEq s (j - k + 2) p 1 (k - 2)
    else return false
  else return false

/-- strings.codon:233-348: the unrolled tail of `backward_find`. -/
def bwdTail (s p : Str) (k : Int) (firstb lastb : UInt8) (i : Int) : List Int → Option Int
  | [] => some (-1)
  | d :: ds =>
    let j := i + d
    if j - k + 1 ≥ 0 then do
      if ← testBack s p k j firstb lastb then return j - k + 1
      else bwdTail s p k firstb lastb i ds
    else some (-1)

/-- The offsets of the unrolled steps of `backward_find`; the eleventh is `j = i + 10` in the source (line 304). -/
def bwdOffsets : List Int := [0, -1, -2, -3, -4, -5, -6, -7, -8, -9, 10, -11, -12, -13, -14, -15]

/-- strings.codon:223-230 and the tail. -/
def bwdLoop (s p : Str) (k : Int) (firstb lastb : UInt8) : Nat → Int → Option Int
  | 0, _ => none
  | n + 1, i =>
    if i - (k - 1) - (16 - 1) ≥ 0 then do
      let mask ← bwdMask s k i firstb lastb
      match ← bwdBits s p k i (mask + 1) mask with
      | some r => return r
      | none => bwdLoop s p k firstb lastb n (i - 16)
    else bwdTail s p k firstb lastb i bwdOffsets

/-- strings.codon:204-348 `backward_find` (and `rfind`, 353-354) -/
def backwardFind (s p : Str) : Option Int :=
  let k := len p
  if k = 0 then some (len s)
  else if len s < k then some (-1)
  else if k = 1 then do bwdScan s (← rd p 0) (s.length + 1) (len s - 1)
  else do
    let firstb ← rd p 0
    let lastb ← rd p (k - 1)
    bwdLoop s p k firstb lastb (s.length + 1) (len s - 1)

/-- `str(self.ptr + i, j - i)` (str.codon:162-163 `_slice`); a slice outside the string is undefined as soon
as it is read, and every caller reads it. -/
def slice (s : Str) (i j : Int) : Option Str :=
  if 0 ≤ i ∧ i ≤ j ∧ j ≤ len s then some ((s.drop i.toNat).take (j - i).toNat) else none

/-- str.codon:824-839 `_correct_indices` -/
def correctIndices (s : Str) (start stop : Int) : Int × Int :=
  let n := len s
  let stop := if stop > n then n else if stop < 0 then (if stop + n < 0 then 0 else stop + n) else stop
  let start := if start < 0 then (if start + n < 0 then 0 else start + n) else start
  (start, stop)

/-- str.codon:480-486 `find` -/
def find (s sub : Str) (start : Int) (stop : Option Int) : Option Int := do
  let (start, stop) := correctIndices s start (stop.getD (len s))
  if stop - start < len sub then return -1
  let pos ← forwardFind (← slice s start stop) sub
  return if pos < 0 then pos else pos + start

/-- str.codon:488-494 `rfind` -/
def rfind (s sub : Str) (start : Int) (stop : Option Int) : Option Int := do
  let (start, stop) := correctIndices s start (stop.getD (len s))
  if stop - start < len sub then return -1
  let pos ← backwardFind (← slice s start stop) sub
  return if pos < 0 then pos else pos + start

/-- str.codon:133-134 `__contains__` -/
def contains (s p : Str) : Option Bool := do return decide ((← find s p 0 none) ≥ 0)

/-- str.codon:712-717 `index`: `some none` is the `ValueError`. -/
def index (s sub : Str) (start : Int) (stop : Option Int) : Option (Option Int) := do
  let i ← find s sub start stop
  return if i = -1 then none else some i

/-- strings.codon:365-371: the loop of `count` (`rest` is the haystack from `tmp` on). -/
def countLoop (p : Str) : Nat → Str → Int → Option Int
  | 0, _, _ => none
  | n + 1, rest, occ => do
    let pos ← forwardFind rest p
    if pos = -1 then return occ
    else countLoop p n (rest.drop (pos + len p).toNat) (occ + 1)

/-- strings.codon:356-371 `count` -/
def countStr (s p : Str) : Option Int :=
  if len p = 0 then some (len s + 1) else countLoop p (s.length + 1) s 0

/-- strings.codon:385-393: the loop of `count_with_max`. -/
def countMaxLoop (p : Str) (maxcount : Int) : Nat → Str → Int → Option Int
  | 0, _, _ => none
  | n + 1, rest, occ => do
    let pos ← forwardFind rest p
    if pos = -1 then return occ
    else if occ + 1 = maxcount then return occ + 1
    else countMaxLoop p maxcount n (rest.drop (pos + len p).toNat) (occ + 1)

/-- strings.codon:373-393 `count_with_max` -/
def countWithMax (s p : Str) (maxcount : Int) : Option Int :=
  if maxcount = 0 then some 0
  else if len p = 0 then some (if len s + 1 < maxcount then len s + 1 else maxcount)
  else countMaxLoop p maxcount (s.length + 1) s 0

/-- str.codon:473-478 `count` -/
def count (s sub : Str) (start : Int) (stop : Option Int) : Option Int := do
  let (start, stop) := correctIndices s start (stop.getD (len s))
  if stop - start < len sub then return 0
  countStr (← slice s start stop) sub

/-- str.codon:548-554 `partition`: `some none` is the `ValueError`. -/
def partition (s sep : Str) : Option (Option (Str × Str × Str)) := do
  if sep = [] then return none
  let pos ← forwardFind s sep
  if pos < 0 then return some (s, [], [])
  return some (← slice s 0 pos, sep, ← slice s (pos + len sep) (len s))

/-- str.codon:556-562 `rpartition` -/
def rpartition (s sep : Str) : Option (Option (Str × Str × Str)) := do
  if sep = [] then return none
  let pos ← backwardFind s sep
  if pos < 0 then return some ([], [], s)
  return some (← slice s 0 pos, sep, ← slice s (pos + len sep) (len s))

/-- types/str.codon:98-106 `__eq__`, the loop. -/
def eqLoop (s t : Str) : Nat → Int → Option Bool
  | 0, _ => none
  | n + 1, i =>
    if i < len s then do
      if (← rd s i) ≠ (← rd t i) then return false
      else eqLoop s t n (i + 1)
    else some true

/-- types/str.codon:98-106 `__eq__` -/
def eq (s t : Str) : Option Bool :=
  if len s ≠ len t then some false else eqLoop s t (s.length + 1) 0

/-- str.codon:118-127 `_cmp`, the loop. -/
def cmpLoop (s t : Str) (n : Int) : Nat → Int → Option Int
  | 0, _ => none
  | f + 1, i =>
    if i < n then do
      let c1 ← rd s i
      let c2 ← rd t i
      if c1 ≠ c2 then return (c1.toNat : Int) - c2.toNat
      else cmpLoop s t n f (i + 1)
    else some (len s - len t)

/-- str.codon:118-127 `_cmp` -/
def cmp (s t : Str) : Option Int := cmpLoop s t (min (len s) (len t)) (s.length + 1) 0

/-- str.codon:18-28 -/
def lt (s t : Str) : Option Bool := do return decide ((← cmp s t) < 0)
def le (s t : Str) : Option Bool := do return decide ((← cmp s t) ≤ 0)
def gt (s t : Str) : Option Bool := do return decide ((← cmp s t) > 0)
def ge (s t : Str) : Option Bool := do return decide ((← cmp s t) ≥ 0)

/-- str.codon:663-684 `startswith` -/
def startswith (s pre : Str) (start : Int) (stop : Option Int) : Option Bool := do
  let stop := stop.getD (len s)
  let (start, stop) := if stop < 0 then (start, stop + len s) else if start < 0 then (start + len s, stop) else (start, stop)
  if start + len pre > len s then return false
  if stop - start < len pre then return false
  if pre = [] then return true
  eq pre (← slice s start (start + len pre))

/-- str.codon:686-710 `endswith` -/
def endswith (s suf : Str) (start : Int) (stop : Option Int) : Option Bool := do
  let stop := stop.getD (len s)
  let (start, stop) := if stop < 0 then (start, stop + len s) else if start < 0 then (start + len s, stop) else (start, stop)
  let stop := if stop > len s then len s else stop
  if stop - start < len suf ∨ start > len s then return false
  let start := if stop - len suf > start then stop - len suf else start
  if stop - start < len suf then return false
  if suf = [] then return true
  eq suf (← slice s start (start + len suf))

/-- Bytes of an ASCII literal, for examples. -/
def b (s : String) : Str := s.toList.map fun c => UInt8.ofNat c.toNat

example : forwardFind (b "xxabcab-abcd------------------abcdabcabcdabcde") (b "abcde") = some 41 := by decide +kernel
example : backwardFind (b "xxabcdeab-abcd------------------abcdabcabcdabcd") (b "abcde") = some 2 := by decide +kernel

end Codon.Str
