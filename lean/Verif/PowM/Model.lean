import Verif.Arith.Model
/-!
# Model of `pow` with two and three integers, `divmod`, `sum` of integers and `math.factorial`

Files: stdlib/internal/builtin.codon, stdlib/internal/types/int.codon, stdlib/internal/pynumerics.codon, stdlib/math.codon.  `py` is whether the program is compiled with
`-numerics=py`.  Undefined behaviour is an outcome of its own.
-/
namespace Codon.PowM
open Codon.Arith

/-- A value, undefined behaviour, `ZeroDivisionError` or `ValueError`. -/
inductive Res (α : Type) where
  | val (a : α)
  | ub
  | zeroDiv
  | value
  deriving DecidableEq, Repr

/-- An operation of `int`. -/
def lift {α β : Type} (x : Arith.Out α) (f : α → Res β) : Res β :=
  match x with
  | .val a => f a
  | .ub => .ub
  | .zeroDiv => .zeroDiv

/-- `x % mod if mod is not None else x`. -/
def reduced (py : Bool) (m : Option I64) (x : I64) (f : I64 → Res I64) : Res I64 :=
  match m with
  | none => f x
  | some m => lift (Run.mod py x m) f

/-- The loop of `pow` (builtin.codon:367-373) and the final remainder (374).  The number of rounds left bounds the recursion: when it runs out the outcome is undefined, which
`c89_pow_mod_partial` and `c89_pow` show not to happen. -/
def loop (py : Bool) (m : Option I64) : Nat → I64 → I64 → I64 → Res I64
  | 0, _, _, _ => .ub
  | n + 1, base, result, exp =>
    if (0 : I64).slt exp then
      let next := fun result => reduced py m (base * base) fun base => loop py m n base result (exp.sshiftRight 1)
      if exp &&& 1 ≠ 0 then reduced py m (result * base) next else next result
    else reduced py m result .val

/-- `pow(base: int, exp: int, mod: Optional[int] = None)` (builtin.codon:356-374). -/
def pow (py : Bool) (base exp : I64) (m : Option I64) : Res I64 :=
  if exp.slt 0 then .value
  else
    match m with
    | none => loop py none 65 base 1 exp
    | some m => if m = 0 then .value else lift (Run.mod py base m) fun base => loop py (some m) 65 base 1 exp

/-- `int.__divmod__(int)` (int.codon:188-195), where `//` is `sdiv`, or `pynumerics.codon:125-128` with `-numerics=py`; `divmod` of builtin.codon:164-166 calls it. -/
def divmod (py : Bool) (a b : I64) : Res (I64 × I64) := if py ∧ b = 0 then .zeroDiv else lift (Run.divmod a b) .val

/-- `sum` of a list or a generator of integers with an integer start (builtin.codon:253-260, 273-279). -/
def sum (x : List I64) (start : I64) : I64 := x.foldl (· + ·) start

/-- `sum` of a list or a generator of `bool`s (builtin.codon:267-272, 285-289). -/
def sumBool (x : List Bool) (start : I64) : I64 := x.foldl (fun s a => s + if a then 1 else 0) start

/-- `math.factorial` (math.codon:21-47). -/
def factorial (x : I64) : Res I64 :=
  if ¬ ((0 : I64).sle x ∧ x.sle 20) then .value
  else
    match ([1, 1, 2, 6, 24, 120, 720, 5040, 40320, 362880, 3628800, 39916800, 479001600, 6227020800, 87178291200, 1307674368000, 20922789888000, 355687428096000, 6402373705728000,
        121645100408832000, 2432902008176640000] : List I64)[x.toNat]? with
    | some v => .val v
    | none => .ub

end Codon.PowM
