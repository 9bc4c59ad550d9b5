import Verif.Arith.Model

/-!
# Model of `math.gcd` and `math.lcm`

`stdlib/math.codon:310-350`, on 64-bit integers.  `%` and `//` on `int` are LLVM `srem` and `sdiv`
(`int.codon:151-183`), `abs` is `llvm.abs.i64` (`int.codon:63-66`, wraps at the least integer).
`none` stands for undefined behaviour of these instructions (division by zero, `INT64_MIN / -1`).
-/

namespace Codon.MathM

open Codon.Arith

/-- `int.codon:63-66` `__abs__`. -/
def abs64 (a : I64) : I64 := if a.slt 0 then -a else a

/-- `srem` (`int.codon:181-183`). -/
def srem64 (a b : I64) : Option I64 :=
  if b = 0 ∨ (a = BitVec.intMin 64 ∧ b = -1) then none else some (a.srem b)

/-- `sdiv` (`int.codon:151-153`). -/
def sdiv64 (a b : I64) : Option I64 :=
  if b = 0 ∨ (a = BitVec.intMin 64 ∧ b = -1) then none else some (a.sdiv b)

/-- The loop of `math.codon:313-314`, with a bound on the number of iterations. -/
def gcdLoop (a b : I64) : Nat → Option I64
  | 0 => none
  | n + 1 => if a ≠ 0 then do gcdLoop (← srem64 b a) a n else some b

/-- `math.codon:310-315` `_gcd2`.  The first argument of the loop gets smaller in absolute value, so
that many iterations are enough. -/
def gcd2 (a b : I64) : Option I64 :=
  gcdLoop (abs64 a) (abs64 b) ((abs64 a).toInt.natAbs + 1)

/-- The loop of `math.codon:327-330`. -/
def gcdRest (res : I64) : List I64 → Option I64
  | [] => some res
  | x :: xs => if res = 1 then some res else do gcdRest (← gcd2 res x) xs

/-- `math.codon:317-332` `gcd`. -/
def gcd : List I64 → Option I64
  | [] => some 0
  | [x] => some (abs64 x)
  | x :: xs => gcdRest x xs

/-- `math.codon:335-336` `lcm2`. -/
def lcm2 (a b : I64) : Option I64 := do
  let g ← gcd2 a b
  return abs64 ((← sdiv64 a g) * b)

/-- The loop of `math.codon:347-350`. -/
def lcmRest (res : I64) : List I64 → Option I64
  | [] => some res
  | x :: xs => if res = 0 then some res else do lcmRest (← lcm2 res x) xs

/-- `math.codon:334-352` `lcm`. -/
def lcm : List I64 → Option I64
  | [] => some 1
  | [x] => some (abs64 x)
  | x :: xs => lcmRest x xs

end Codon.MathM
