import Verif.Str.FindModel

/-!
# Specification: the integer literals of Python's `int(s, base)`, and `bin`, `oct`, `hex`

Text without underscores (Python allows a single `_` between digits).
-/

namespace Codon.IntStr.Spec
open Codon.Str

/-- The value of a digit: 0-9, a-z, A-Z. -/
def digit (c : UInt8) : Option Nat :=
  if c ∈ b "0123456789" then some (c.toNat - 48)
  else if c ∈ b "abcdefghijklmnopqrstuvwxyz" then some (c.toNat - 97 + 10)
  else if c ∈ b "ABCDEFGHIJKLMNOPQRSTUVWXYZ" then some (c.toNat - 65 + 10)
  else none

/-- `c` is a digit in base `B`. -/
def IsDigit (B : Nat) (c : UInt8) : Prop := ∃ d, digit c = some d ∧ d < B

/-- The positional value of a string of digits. -/
def val (B : Nat) : Str → Nat
  | [] => 0
  | c :: cs => (digit c).getD 0 * B ^ cs.length + val B cs

/-- The letters of the prefixes `0b`, `0o`, `0x`. -/
def letter (p : UInt8) : Option Nat :=
  if p ∈ b "bB" then some 2 else if p ∈ b "oO" then some 8 else if p ∈ b "xX" then some 16 else none

/-- A sign and its meaning. -/
inductive Sign : Str → Int → Prop
  | none : Sign [] 1
  | plus : Sign (b "+") 1
  | minus : Sign (b "-") (-1)

/-- A prefix and the base in which the digits are read. Only base 0 and the matching base allow one. -/
inductive Pre (base : Nat) : Str → Nat → Prop
  | plain : base ≠ 0 → Pre base [] base
  | dec : base = 0 → Pre base [] 10
  | mark {p B} : letter p = some B → base = 0 ∨ base = B → Pre base [48, p] B

/-- `x` is an integer literal in the base, with value `v`: a sign, a prefix and at least one digit; in base 0 a literal
without a prefix does not begin with 0 unless it is zero. -/
inductive Lit (base : Nat) : Str → Int → Prop
  | mk {sg pre ds : Str} {σ : Int} {B : Nat} : Sign sg σ → Pre base pre B → ds ≠ [] → (∀ c ∈ ds, IsDigit B c) →
      (base = 0 → pre = [] → ds.head? = some 48 → val B ds = 0) → Lit base (sg ++ pre ++ ds) (σ * val B ds)

/-- White space that `strip` removes. -/
def White (c : UInt8) : Prop := c = 9 ∨ c = 10 ∨ c = 11 ∨ c = 12 ∨ c = 13 ∨ c = 32

/-- `x` is `s` without the white space at both ends. -/
def Trimmed (s x : Str) : Prop := ∃ pre post, s = pre ++ (x ++ post) ∧ (∀ c ∈ pre, White c) ∧ (∀ c ∈ post, White c) ∧
  (∀ c, x.head? = some c → ¬ White c) ∧ ∀ c, x.getLast? = some c → ¬ White c

/-- The literal begins with a prefix that the base allows, after the sign `sg`. -/
def Marked (base : Nat) (sg : Str) (x : Str) (B : Nat) (rest : Str) : Prop :=
  ∃ p, x = sg ++ [48, p] ++ rest ∧ letter p = some B ∧ (base = 0 ∨ base = B)

/-- What `bin`, `oct` and `hex` print: a sign, the prefix, and the digits of the absolute value, lower case and without
leading zeros. -/
def IsText (B : Nat) (pre : Str) (n : Int) (t : Str) : Prop :=
  ∃ ds, t = (if n < 0 then b "-" else []) ++ pre ++ ds ∧ ds ≠ [] ∧ (∀ c ∈ ds, c ∈ b "0123456789abcdef" ∧ IsDigit B c) ∧
    val B ds = n.natAbs ∧ (ds.head? = some 48 → ds = [48])

end Codon.IntStr.Spec
