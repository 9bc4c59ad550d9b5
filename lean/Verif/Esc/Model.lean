import Verif.Str.FindModel

/-!
# Escaping of strings

`escape` and `unescape` of the compiler (/repo/codon/parser/common.cpp:159-221), the grammar of string
literals (/repo/codon/parser/peg/grammar.peg:794-836) and `str.__repr__`
(/repo/stdlib/internal/str.codon:30-69).  Strings are lists of bytes.
-/

namespace Codon.Esc

open Codon.Str (Str)

/-- A lower-case hexadecimal digit (`h[...]` in str.codon:59-61; `{:x}` of fmt). -/
def hexDigit (n : Nat) : UInt8 := if n < 10 then UInt8.ofNat (48 + n) else UInt8.ofNat (87 + n)

/-- `fmt::format("{:x}", c)` for a byte: no leading zero (common.cpp:175). -/
def hexShort (c : UInt8) : Str :=
  if c.toNat < 16 then [hexDigit c.toNat] else [hexDigit (c.toNat / 16), hexDigit (c.toNat % 16)]

/-- One byte of `escape` (common.cpp:163-178). -/
def escByte (c : UInt8) : Str :=
  if c = 7 then [92, 97]
  else if c = 8 then [92, 98]
  else if c = 12 then [92, 102]
  else if c = 10 then [92, 110]
  else if c = 13 then [92, 114]
  else if c = 9 then [92, 116]
  else if c = 11 then [92, 118]
  else if c = 39 then [92, 39]
  else if c = 92 then [92, 92]
  else if c < 32 ∨ c ≥ 127 then 92 :: 120 :: hexShort c
  else [c]

/-- `escape` (common.cpp:159-181). -/
def escape : Str → Str
  | [] => []
  | c :: s => escByte c ++ escape s

/-- `isspace` in the C locale (used by `strtol`). -/
def cspace (c : UInt8) : Bool := c == 32 || (9 ≤ c && c ≤ 13)

/-- The value of a digit in `base`. -/
def digitVal (base : Nat) (c : UInt8) : Option Nat :=
  let v := if 48 ≤ c ∧ c ≤ 57 then some (c.toNat - 48)
    else if 97 ≤ c ∧ c ≤ 122 then some (c.toNat - 87)
    else if 65 ≤ c ∧ c ≤ 90 then some (c.toNat - 55)
    else none
  v.filter (· < base)

/-- The digits at the front: their value and number. -/
def digits (base : Nat) : Str → Nat → Nat → Nat × Nat
  | [], v, n => (v, n)
  | c :: s, v, n =>
    match digitVal base c with
    | some d => digits base s (v * base + d) (n + 1)
    | none => (v, n)

/-- The sign at the front: is it negative, and its length. -/
def sign : Str → Bool × Nat
  | 43 :: _ => (false, 1)
  | 45 :: _ => (true, 1)
  | _ => (false, 0)

/-- The length of a `0x` prefix that is followed by a digit. -/
def prefix0x (base : Nat) : Str → Nat
  | 48 :: x :: d :: _ => if base = 16 ∧ (x = 120 ∨ x = 88) ∧ (digitVal 16 d).isSome then 2 else 0
  | _ => 0

/-- `std::stoi(s, &pos, base)`: value and `pos`, `none` for `std::invalid_argument`.  The caller passes at most
three bytes, so the value fits in an `int` and `std::out_of_range` is impossible. -/
def stoi (base : Nat) (s : Str) : Option (Int × Nat) :=
  let w := (s.takeWhile cspace).length
  let s1 := s.drop w
  let (neg, k) := sign s1
  let s2 := s1.drop k
  let p := prefix0x base s2
  let (v, n) := digits base (s2.drop p) 0 0
  if n = 0 then none else some (if neg then -(v : Int) else v, w + k + p + n)

/-- `static_cast<char>(code)`. -/
def toChar (v : Int) : UInt8 := UInt8.ofNat (v % 256).toNat

/-- The single-letter escapes of `unescape` (common.cpp:188-197). -/
def letter (c : UInt8) : Option UInt8 :=
  if c = 97 then some 7
  else if c = 98 then some 8
  else if c = 102 then some 12
  else if c = 110 then some 10
  else if c = 114 then some 13
  else if c = 116 then some 9
  else if c = 118 then some 11
  else if c = 34 then some 34
  else if c = 39 then some 39
  else if c = 92 then some 92
  else none

/-- The loop of `unescape` (common.cpp:185-219) on the rest of the string; `none` is the exception
`std::invalid_argument`.  `f` is the fuel. -/
def unescapeLoop : Nat → Str → Option Str
  | 0, _ => some []
  | _, [] => some []
  | f + 1, c :: s =>
    if c = 92 then
      match s with
      | [] => (c :: ·) <$> unescapeLoop f s
      | d :: t =>
        match letter d with
        | some e => (e :: ·) <$> unescapeLoop f t
        | none =>
          if d = 120 then
            if t = [] then none
            else match stoi 16 (t.take 2) with
              | none => none
              | some (v, pos) => (toChar v :: ·) <$> unescapeLoop f (t.drop pos)
          else if 48 ≤ d ∧ d ≤ 55 then
            match stoi 8 ((d :: t).take 3) with
            | none => none
            | some (v, pos) => (toChar v :: ·) <$> unescapeLoop f ((d :: t).drop pos)
          else (c :: ·) <$> unescapeLoop f s
    else (c :: ·) <$> unescapeLoop f s

/-- `unescape` (common.cpp:182-221). -/
def unescape (s : Str) : Option Str := unescapeLoop (s.length + 1) s

/-! ### The grammar of string literals -/

/-- Length of the UTF-8 sequence that `.` of the PEG parser accepts, 0 if none (`codepoint_length` of cpp-peglib,
which is not part of /repo). -/
def cpLen : Str → Nat
  | [] => 0
  | c :: s =>
    if c &&& 0x80 = 0 then 1
    else if c &&& 0xE0 = 0xC0 ∧ s.length ≥ 1 then 2
    else if c &&& 0xF0 = 0xE0 ∧ s.length ≥ 2 then 3
    else if c &&& 0xF8 = 0xF0 ∧ s.length ≥ 3 then 4
    else 0

/-- `CHAR <- ('\\' . / .)` (grammar.peg:836): number of bytes, 0 if it fails. -/
def charLen (s : Str) : Nat :=
  match s with
  | 92 :: t => if cpLen t = 0 then 1 else 1 + cpLen t
  | _ => cpLen s

/-- `(!stop CHAR)* close` after an opening quote (grammar.peg:827-828): the text between the quotes and the rest of the
input.  `stop` tells where the repetition ends. -/
def quotedBody (stop : Str → Bool) (close : Str) : Nat → Str → Str → Option (Str × Str)
  | 0, _, _ => none
  | f + 1, s, acc =>
    if stop s = true ∨ charLen s = 0 then
      if close.isPrefixOf s then some (acc, s.drop close.length) else none
    else quotedBody stop close f (s.drop (charLen s)) (acc ++ s.take (charLen s))

/-- An alternative of `STR`: opening quote, body, closing quote. -/
def quoted (stop : Str → Bool) (q : Str) (s : Str) : Option (Str × Str) :=
  if q.isPrefixOf s then quotedBody stop q (s.length + 1) (s.drop q.length) [] else none

/-- Stop of a triple-quoted literal: `!'"""'`. -/
def stopLong (q : Str) (s : Str) : Bool := q.isPrefixOf s

/-- Stop of a literal on one line: `!('"' / EOL)`, with `EOL <- [\r][\n] / [\r\n]` (grammar.peg:865). -/
def stopShort (q : Str) (s : Str) : Bool :=
  q.isPrefixOf s || (match s with | c :: _ => c == 10 || c == 13 | [] => false)

/-- `STR` (grammar.peg:826-829): ordered choice. -/
def str (s : Str) : Option (Str × Str) :=
  (quoted (stopLong [34, 34, 34]) [34, 34, 34] s).or
  ((quoted (stopLong [39, 39, 39]) [39, 39, 39] s).or
  ((quoted (stopShort [34]) [34] s).or (quoted (stopShort [39]) [39] s)))

/-- `STRING` without a prefix (grammar.peg:797-808): the value of the literal and the rest of the input. -/
def literal (s : Str) : Option (Str × Str) :=
  match str s with
  | none => none
  | some (t, rest) => match unescape t with
    | none => none
    | some v => some (v, rest)

/-! ### `str.__repr__` -/

/-- One byte of `str.__repr__` (str.codon:46-66); `q` is the quote. -/
def reprByte (q c : UInt8) : Str :=
  if c = 10 then [92, 110]
  else if c = 13 then [92, 114]
  else if c = 9 then [92, 116]
  else if c = 92 then [92, 92]
  else if c = q then [92, q]
  else if ¬ (32 ≤ c ∧ c ≤ 126) then [92, 120, hexDigit (c.toNat / 16), hexDigit (c.toNat % 16)]
  else [c]

/-- The choice of the quote (str.codon:33-43). -/
def quote (s : Str) : UInt8 := if s.contains 39 ∧ ¬ s.contains 34 then 34 else 39

/-- The loop over the bytes (str.codon:46-66). -/
def reprBody (q : UInt8) : Str → Str
  | [] => []
  | c :: s => reprByte q c ++ reprBody q s

/-- `str.__repr__` (str.codon:30-69). -/
def repr (s : Str) : Str := let q := quote s; [q] ++ reprBody q s ++ [q]

end Codon.Esc
