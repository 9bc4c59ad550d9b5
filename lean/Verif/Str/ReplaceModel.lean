import Verif.Str.SplitModel

/-! Model of `str.replace`, `stdlib/internal/str.codon:933-1223`.

`some none` is the `OverflowError`. Pointers into `self` are modelled by the rest of the string from there on, output
buffers by `emit` and `finish` (see `SplitModel`), and the buffer that is changed in place by a list of its size. -/

namespace Codon.Str

open Codon.Sort (rd)

/-- str.codon:933-934 `_findchar`: the offset of the byte, `none` for the null pointer. -/
def findChar (s : Str) (c : UInt8) : Option Nat := memchr s c

/-- str.codon:942-948: the loop of `_countchar`. -/
def countCharLoop (c : UInt8) (maxcount : Int) : Nat → Str → Int → Option Int
  | 0, _, _ => none
  | f + 1, rest, count =>
    match findChar rest c with
    | none => some count
    | some p =>
      if count + 1 ≥ maxcount then some (count + 1) else countCharLoop c maxcount f (rest.drop (p + 1)) (count + 1)

/-- str.codon:936-949 `_countchar` -/
def countChar (s : Str) (c : UInt8) (maxcount : Int) : Option Int := countCharLoop c maxcount (s.length + 1) s 0

/-- How the single character and the substring variants search: the offset of the next match, if any. -/
def searchChar (c : UInt8) (rest : Str) : Option (Option Nat) := some (findChar rest c)

/-- The same for substrings; -1 means there is none. -/
def searchSub (p rest : Str) : Option (Option Nat) := do
  let offset ← forwardFind rest p
  return if offset = -1 then none else some offset.toNat

/-- str.codon:979-985 and 991-997: the loop of `_replace_interleave`; `rest` is the string from `self_s` on. -/
def interleaveLoop (cap : Int) (to : Str) : Nat → Str → Str → Option (Str × Str)
  | 0, rest, out => some (rest, out)
  | n + 1, rest, out => do
    let out ← emit cap out [← rd rest 0]
    let out ← emit cap out to
    interleaveLoop cap to n (rest.drop 1) out

/-- str.codon:951-1000 `_replace_interleave`. The two branches for `to_len > 1` and `to_len = 1` differ only in how they
copy `to`; the caller excludes `to_len = 0`. -/
def replaceInterleave (s to : Str) (maxcount : Int) : Option (Option Str) := do
  let count := if maxcount ≤ len s then maxcount else len s + 1
  if len to > (MAX - len s).tdiv count then return none
  let cap := count * len to + len s
  let out ← emit cap [] to
  let (rest, out) ← interleaveLoop cap to (count - 1).toNat s out
  return some (← finish cap (← emit cap out rest))

/-- str.codon:1015-1024 and 1042-1052: the loop of the deleting variants and the copy of the rest. -/
def deleteLoop (search : Str → Option (Option Nat)) (k : Nat) (cap : Int) : Nat → Str → Str → Option Str
  | 0, rest, out => emit cap out rest
  | count + 1, rest, out => do
    match ← search rest with
    | none => emit cap out rest
    | some p => deleteLoop search k cap count (rest.drop (p + k)) (← emit cap out (rest.take p))

/-- str.codon:1000-1025 `_replace_delete_single_character` -/
def replaceDeleteChar (s : Str) (c : UInt8) (maxcount : Int) : Option (Option Str) := do
  let count ← countChar s c maxcount
  if count = 0 then return some s
  let cap := len s - count
  return some (← finish cap (← deleteLoop (searchChar c) 1 cap count.toNat s []))

/-- str.codon:1027-1054 `_replace_delete_substring` -/
def replaceDeleteSub (s p : Str) (maxcount : Int) : Option (Option Str) := do
  let count ← countWithMax s p maxcount
  if count = 0 then return some s
  let cap := len s - count * len p
  return some (← finish cap (← deleteLoop (searchSub p) p.length cap count.toNat s []))

/-- `memcpy(buf + i, xs, len(xs))` within the buffer. -/
def overwrite (buf : Str) (i : Nat) (xs : Str) : Option Str :=
  if i + xs.length ≤ buf.length then some (buf.take i ++ xs ++ buf.drop (i + xs.length)) else none

/-- str.codon:1073-1079 and 1101-1107: the loop of the in-place variants. -/
def inPlaceLoop (search : Str → Option (Option Nat)) (to : Str) : Nat → Int → Str → Nat → Option Str
  | 0, _, _, _ => none
  | f + 1, maxcount, buf, start =>
    if maxcount > 0 then do
      match ← search (buf.drop start) with
      | none => return buf
      | some p => inPlaceLoop search to f (maxcount - 1) (← overwrite buf (start + p) to) (start + p + to.length)
    else some buf

/-- str.codon:1056-1081 `_replace_single_character_in_place` and 1083-1110 `_replace_substring_in_place` -/
def replaceInPlace (search : Str → Option (Option Nat)) (s to : Str) (maxcount : Int) : Option (Option Str) := do
  match ← search s with
  | none => return some s
  | some p =>
    let buf ← overwrite s p to
    return some (← inPlaceLoop search to (s.length + 1) (maxcount - 1) buf (p + to.length))

/-- str.codon:1131-1146 and 1171-1188: the loop of the general variants and the copy of the rest. -/
def replaceLoop (search : Str → Option (Option Nat)) (k : Nat) (to : Str) (cap : Int) : Nat → Str → Str → Option Str
  | 0, rest, out => emit cap out rest
  | count + 1, rest, out => do
    match ← search rest with
    | none => emit cap out rest
    | some p =>
      if p = 0 then replaceLoop search k to cap count (rest.drop k) (← emit cap out to)
      else do
        let out ← emit cap out (rest.take p)
        replaceLoop search k to cap count (rest.drop (p + k)) (← emit cap out to)

/-- str.codon:1112-1149 `_replace_single_character` -/
def replaceChar (s : Str) (c : UInt8) (to : Str) (maxcount : Int) : Option (Option Str) := do
  let count ← countChar s c maxcount
  if count = 0 then return some s
  if len to - 1 > (MAX - len s).tdiv count then return none
  let cap := len s + count * (len to - 1)
  return some (← finish cap (← replaceLoop (searchChar c) 1 to cap count.toNat s []))

/-- str.codon:1151-1190 `_replace_substring` -/
def replaceSub (s p to : Str) (maxcount : Int) : Option (Option Str) := do
  let count ← countWithMax s p maxcount
  if count = 0 then return some s
  if len to - len p > (MAX - len s).tdiv count then return none
  let cap := len s + count * (len to - len p)
  return some (← finish cap (← replaceLoop (searchSub p) p.length to cap count.toNat s []))

/-- str.codon:1192-1223 `_replace` -/
def replace (s old new : Str) (maxcount : Int) : Option (Option Str) :=
  if len s < len old then some (some s)
  else if maxcount = 0 then some (some s)
  else
    let maxcount := if maxcount < 0 then MAX else maxcount
    if len old = 0 then
      if len new = 0 then some (some s) else replaceInterleave s new maxcount
    else if len new = 0 then
      if len old = 1 then do replaceDeleteChar s (← rd old 0) maxcount else replaceDeleteSub s old maxcount
    else if len old = len new then
      if len old = 1 then do replaceInPlace (searchChar (← rd old 0)) s [← rd new 0] maxcount
      else replaceInPlace (searchSub old) s new maxcount
    else if len old = 1 then do replaceChar s (← rd old 0) new maxcount
    else replaceSub s old new maxcount

example : replace (b "banana") (b "an") (b "<>-") (-1) = some (some (b "b<>-<>-a")) := by decide +kernel
example : replace (b "banana") (b "a") (b "oo") 2 = some (some (b "boonoona")) := by decide +kernel
example : replace (b "banana") (b "na") (b "NA") 1 = some (some (b "baNAna")) := by decide +kernel
example : replace (b "banana") (b "a") (b "") 2 = some (some (b "bnna")) := by decide +kernel
example : replace (b "banana") (b "") (b "--") 3 = some (some (b "--b--a--nana")) := by decide +kernel
example : replace (b "abc") (b "") (b "-") (-1) = some (some (b "-a-b-c-")) := by decide +kernel

end Codon.Str
