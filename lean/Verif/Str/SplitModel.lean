import Verif.Str.FindModel

/-! Model of splitting, joining and stripping in `stdlib/internal/str.codon`.

Results are `Option (Option _)` where a `ValueError` is possible: `some none` is the error. A freshly allocated
buffer is modelled by its capacity and the bytes written so far (all writers fill it from the front); writing past
the capacity, or returning it before it is full, is `none`. `List` is taken as a list (its own model is
`Verif.ListM`), so the preallocated capacity has no effect here. -/

namespace Codon.Str

open Codon.Sort (rd)

/-- str.codon:3 `_MAX` -/
def MAX : Int := 0x7FFFFFFFFFFFFFFF

/-- Append to a buffer of `cap` bytes; `none` if it does not fit. -/
def emit (cap : Int) (out xs : Str) : Option Str :=
  if len out + len xs ≤ cap then some (out ++ xs) else none

/-- `str(p, cap)` for a buffer: all of it must have been written. -/
def finish (cap : Int) (out : Str) : Option Str := if len out = cap then some out else none

/-- str.codon:577-596: the loop of `split` for a separator of at least two bytes. -/
def splitLoop (s sep : Str) : Nat → Int → Int → List Str → Option (List Str)
  | 0, _, _, _ => none
  | f + 1, maxsplit, i, v =>
    if maxsplit > 0 then do
      let pos ← forwardFind (← slice s i (len s)) sep
      if pos < 0 then return v ++ [← slice s i (len s)]
      else splitLoop s sep f (maxsplit - 1) (i + pos + len sep) (v ++ [← slice s i (i + pos)])
    else do return v ++ [← slice s i (len s)]

/-- str.codon:896-912 `_split_char`, the loop and the last piece. -/
def splitCharLoop (s : Str) (c : UInt8) : Nat → Int → Int → Int → List Str → Option (List Str)
  | 0, _, _, _, _ => none
  | f + 1, i, j, maxcount, l =>
    if i < len s ∧ maxcount > 0 then do
      if (← rd s i) = c then splitCharLoop s c f (i + 1) (i + 1) (maxcount - 1) (l ++ [← slice s j i])
      else splitCharLoop s c f (i + 1) j maxcount l
    else do return l ++ [← slice s j (len s)]

/-- str.codon:914-931 `_rsplit_char`, the loop and the first piece (before `reverse`). -/
def rsplitCharLoop (s : Str) (c : UInt8) : Nat → Int → Int → Int → List Str → Option (List Str)
  | 0, _, _, _, _ => none
  | f + 1, i, j, maxcount, l =>
    if i ≥ 0 ∧ maxcount > 0 then do
      if (← rd s i) = c then rsplitCharLoop s c f (i - 1) (i - 1) (maxcount - 1) (l ++ [← slice s (i + 1) (j + 1)])
      else rsplitCharLoop s c f (i - 1) j maxcount l
    else do return l ++ [← slice s 0 (j + 1)]

/-- str.codon:619-630: the loop of `rsplit` for a separator of at least two bytes (before `reverse`). -/
def rsplitLoop (s sep : Str) : Nat → Int → Int → List Str → Option (List Str)
  | 0, _, _, _ => none
  | f + 1, maxsplit, j, v =>
    if maxsplit > 0 then do
      let pos ← backwardFind (← slice s 0 j) sep
      if pos < 0 then return v ++ [← slice s 0 j]
      else rsplitLoop s sep f (maxsplit - 1) pos (v ++ [← slice s (pos + len sep) j])
    else do return v ++ [← slice s 0 j]

/-- `isspace` of the C locale, which `_isspace` (str.codon:141-142) calls. -/
def isSpace (c : UInt8) : Bool := c = 32 || (9 ≤ c.toNat && c.toNat ≤ 13)

/-- `while i < n and q(self.ptr[i]): i += 1` -/
def skipFwd (s : Str) (q : UInt8 → Bool) : Nat → Int → Option Int
  | 0, _ => none
  | f + 1, i =>
    if i < len s then do
      if q (← rd s i) then skipFwd s q f (i + 1) else return i
    else some i

/-- `while i >= 0 and q(self.ptr[i]): i -= 1` -/
def skipBwd (s : Str) (q : UInt8 → Bool) : Nat → Int → Option Int
  | 0, _ => none
  | f + 1, i =>
    if i ≥ 0 then do
      if q (← rd s i) then skipBwd s q f (i - 1) else return i
    else some i

/-- str.codon:862-869: what `_split_whitespace` does after its loop. -/
def splitWsEnd (s : Str) (i : Int) (l : List Str) : Option (List Str) :=
  if i < len s then do
    let i ← skipFwd s isSpace (s.length + 1) i
    if i ≠ len s then return l ++ [← slice s i (len s)] else return l
  else some l

/-- str.codon:841-869 `_split_whitespace` -/
def splitWsLoop (s : Str) : Nat → Int → Int → List Str → Option (List Str)
  | 0, _, _, _ => none
  | f + 1, maxcount, i, l =>
    if maxcount > 0 then do
      let i ← skipFwd s isSpace (s.length + 1) i
      if i = len s then splitWsEnd s i l
      else do
        let e ← skipFwd s (fun c => !isSpace c) (s.length + 1) (i + 1)
        splitWsLoop s f (maxcount - 1) e (l ++ [← slice s i e])
    else splitWsEnd s i l

/-- str.codon:887-894: what `_rsplit_whitespace` does after its loop (before `reverse`). -/
def rsplitWsEnd (s : Str) (i : Int) (l : List Str) : Option (List Str) :=
  if i ≥ 0 then do
    let i ← skipBwd s isSpace (s.length + 1) i
    if i ≥ 0 then return l ++ [← slice s 0 (i + 1)] else return l
  else some l

/-- str.codon:871-894 `_rsplit_whitespace` (before `reverse`) -/
def rsplitWsLoop (s : Str) : Nat → Int → Int → List Str → Option (List Str)
  | 0, _, _, _ => none
  | f + 1, maxcount, i, l =>
    if maxcount > 0 then do
      let i ← skipBwd s isSpace (s.length + 1) i
      if i < 0 then rsplitWsEnd s i l
      else do
        let e ← skipBwd s (fun c => !isSpace c) (s.length + 1) (i - 1)
        rsplitWsLoop s f (maxcount - 1) e (l ++ [← slice s (e + 1) (i + 1)])
    else rsplitWsEnd s i l

/-- The number of splits allowed: `maxsplit if maxsplit >= 0 else _MAX`. -/
def limit (maxsplit : Int) : Int := if maxsplit ≥ 0 then maxsplit else MAX

/-- str.codon:564-596 `split`; `sep = none` is the default, `some none` the `ValueError`. -/
def split (s : Str) (sep : Option Str) (maxsplit : Int) : Option (Option (List Str)) :=
  match sep with
  | none => do return some (← splitWsLoop s (s.length + 1) (limit maxsplit) 0 [])
  | some sep =>
    if len sep = 0 then some none
    else if len sep = 1 then do return some (← splitCharLoop s (← rd sep 0) (s.length + 1) 0 0 (limit maxsplit) [])
    else do return some (← splitLoop s sep (s.length + 1) (limit maxsplit) 0 [])

/-- str.codon:598-630 `rsplit` -/
def rsplit (s : Str) (sep : Option Str) (maxsplit : Int) : Option (Option (List Str)) :=
  match sep with
  | none => do return some (← rsplitWsLoop s (s.length + 1) (limit maxsplit) (len s - 1) []).reverse
  | some sep =>
    if len sep = 0 then some none
    else if len sep = 1 then do
      return some (← rsplitCharLoop s (← rd sep 0) (s.length + 1) (len s - 1) (len s - 1) (limit maxsplit) []).reverse
    else do return some (← rsplitLoop s sep (s.length + 1) (limit maxsplit) (len s) []).reverse

/-- str.codon:192-198: the length of the joined string, from piece `i` on. -/
def joinLen (sep : Str) (l : List Str) : Nat → Int → Int → Option Int
  | 0, _, _ => none
  | f + 1, i, n =>
    if i < l.length then do
      let n := n + len (← rd l i)
      joinLen sep l f (i + 1) (if i < (l.length : Int) - 1 then n + len sep else n)
    else some n

/-- str.codon:201-211: the copy loop of `join`. -/
def joinCopy (sep : Str) (l : List Str) (cap : Int) : Nat → Int → Str → Option Str
  | 0, _, _ => none
  | f + 1, i, out =>
    if i < l.length then do
      let out ← emit cap out (← rd l i)
      if i < (l.length : Int) - 1 then joinCopy sep l cap f (i + 1) (← emit cap out sep)
      else joinCopy sep l cap f (i + 1) out
    else some out

/-- types/str.codon:117-129 `cat` of a list: the total length, then the copies. -/
def cat (l : List Str) : Option Str := do
  let total := l.foldl (fun n x => n + len x) 0
  let out ← l.foldlM (emit total) []
  finish total out

/-- str.codon:183-212 `join` of a list -/
def join (sep : Str) (l : List Str) : Option Str :=
  if l.length = 0 then some []
  else if l.length = 1 then rd l 0
  else if len sep = 0 then cat l
  else do
    let n ← joinLen sep l (l.length + 1) 0 0
    let out ← joinCopy sep l n (l.length + 1) 0 []
    finish n out

/-- str.codon:168-181 `join` of a generator; `_strbuf` (a growing buffer) is taken as a list of bytes. -/
def joinGen (sep : Str) (l : List Str) : Str :=
  if len sep = 0 then l.foldl (fun buf a => buf ++ a) []
  else (l.foldl (fun (st : Str × Bool) a => if st.2 then (st.1 ++ a, false) else (st.1 ++ sep ++ a, false)) ([], true)).1

/-- str.codon:632-661 `splitlines`, the loop. -/
def splitlinesLoop (s : Str) (keepends : Bool) : Nat → Int → Int → List Str → Option (List Str)
  | 0, _, _, _ => none
  | f + 1, i, j, v =>
    if i < len s then do
      let i ← skipFwd s (fun c => !(c = 13 || c = 10)) (s.length + 1) i
      let e := i
      let (i, e) ←
        (if i < len s then do
          let i' ← (do
            if (← rd s i) = 13 then
              (if i + 1 < len s then do
                if (← rd s (i + 1)) = 10 then return i + 2 else return i + 1
              else return i + 1)
            else return i + 1)
          return if keepends then (i', i') else (i', e)
        else some (i, e) : Option (Int × Int))
      if j = 0 ∧ e = len s then return v ++ [s]
      else splitlinesLoop s keepends f i i (v ++ [← slice s j e])
    else some v

/-- str.codon:632-661 `splitlines` -/
def splitlines (s : Str) (keepends : Bool) : Option (List Str) :=
  splitlinesLoop s keepends (s.length + 1) 0 0 []

/-- str.codon:523-531 `_has_char` of a one-byte string. -/
def hasChar (chars : Str) (c : UInt8) : Bool := if chars ≠ [] then chars.any (fun d => c == d) else isSpace c

/-- str.codon:533-537 `lstrip` -/
def lstrip (s chars : Str) : Option Str := do
  slice s (← skipFwd s (hasChar chars) (s.length + 1) 0) (len s)

/-- str.codon:539-543 `rstrip` -/
def rstrip (s chars : Str) : Option Str := do
  slice s 0 ((← skipBwd s (hasChar chars) (s.length + 1) (len s - 1)) + 1)

/-- str.codon:545-546 `strip` -/
def strip (s chars : Str) : Option Str := do rstrip (← lstrip s chars) chars

example : split (b "a,b,,c") (some (b ",")) (-1) = some (some [b "a", b "b", b "", b "c"]) := by decide +kernel
example : split (b "a--b-c--d") (some (b "--")) 1 = some (some [b "a", b "b-c--d"]) := by decide +kernel
example : rsplit (b "a--b-c--d") (some (b "--")) 1 = some (some [b "a--b-c", b "d"]) := by decide +kernel
example : split (b "  ab  c d ") none 1 = some (some [b "ab", b "c d "]) := by decide +kernel
example : rsplit (b "  ab  c d ") none 1 = some (some [b "  ab  c", b "d"]) := by decide +kernel
example : join (b ", ") [b "a", b "bc", b ""] = some (b "a, bc, ") := by decide +kernel
example : splitlines (b "a\r\nb\n\nc") false = some [b "a", b "b", b "", b "c"] := by decide +kernel
example : splitlines (b "a\r\nb\n\rc\n") true = some [b "a\r\n", b "b\n", b "\r", b "c\n"] := by decide +kernel
example : strip (b " \tx y\n") [] = some (b "x y") := by decide +kernel

end Codon.Str
