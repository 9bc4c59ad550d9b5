/-
64-bit integer arithmetic as performed by (a) the C++ compiler process when it folds constants and
(b) the LLVM code that the standard library's `int` methods expand to.
Undefined behaviour is a separate outcome on both sides.
-/
namespace Codon.Arith

/-- Codon's `int` (`stdlib/internal/types/int.codon`, LLVM `i64`) and the C++ `int64_t`. -/
abbrev I64 := BitVec 64

/-- Result of one arithmetic operation: a value, undefined behaviour (C++ UB, LLVM immediate UB
or poison), or a raised `ZeroDivisionError`. -/
inductive Out (α : Type) where
  | val (a : α)
  | ub
  | zeroDiv
  deriving DecidableEq, Repr

/-- Is `z` representable as a signed 64-bit integer? -/
def fits (z : Int) : Bool := decide (-(2 ^ 63) ≤ z ∧ z < 2 ^ 63)

/-- A C++ signed operation whose mathematical result is `z` (C++20 [expr.pre]/4: undefined when
the result is not representable). -/
def cxx (z : Int) : Out I64 := if fits z then .val (BitVec.ofInt 64 z) else .ub

/-! ### Compile time (C++ `int64_t`), `codon/cir/transform/folding/const_fold.cpp` -/
namespace Host

/-- `BINOP(+)`, const_fold.cpp:246-247. -/
def add (a b : I64) : Out I64 := cxx (a.toInt + b.toInt)
/-- `BINOP(-)`, const_fold.cpp:248-249. -/
def sub (a b : I64) : Out I64 := cxx (a.toInt - b.toInt)
/-- `BINOP(*)`, const_fold.cpp:259. -/
def mul (a b : I64) : Out I64 := cxx (a.toInt * b.toInt)
/-- C++ `/` on `int64_t`: truncates; undefined for a zero divisor or an unrepresentable quotient. -/
def div (a b : I64) : Out I64 := if b = 0 then .ub else cxx (a.toInt.tdiv b.toInt)
/-- C++ `%` on `int64_t`: undefined exactly when `/` is. -/
def mod (a b : I64) : Out I64 :=
  if b = 0 then .ub
  else if fits (a.toInt.tdiv b.toInt) then .val (BitVec.ofInt 64 (a.toInt.tmod b.toInt)) else .ub
/-- `pyDivmod`, const_fold.cpp:19-27.  Every intermediate `int64_t` operation is checked. -/
def pyDivmod (a b : I64) : Out (I64 × I64) :=
  match div a b with
  | .val d =>
    match mul d b with
    | .val p =>
      match sub a p with
      | .val m =>
        if m ≠ 0 ∧ (b ^^^ m).slt 0 then
          match add m b, sub d 1 with
          | .val m', .val d' => .val (d', m')
          | _, _ => .ub
        else .val (d, m)
      | _ => .ub
    | _ => .ub
  | _ => .ub
/-- C++20 `<<` on `int64_t`: defined iff the shift amount is in `[0, 64)`; congruent mod 2^64. -/
def shl (a b : I64) : Out I64 :=
  if 0 ≤ b.toInt ∧ b.toInt < 64 then .val (a <<< b.toInt.toNat) else .ub
/-- C++20 `>>` on `int64_t`: arithmetic shift; defined iff the amount is in `[0, 64)`. -/
def shr (a b : I64) : Out I64 :=
  if 0 ≤ b.toInt ∧ b.toInt < 64 then .val (a.sshiftRight b.toInt.toNat) else .ub

/-- The loop of `int_pow`, const_fold.cpp:107-115 (`exp ≥ 0`, as a natural number). -/
def powLoop (base result : I64) (exp : Nat) : Out I64 :=
  match (if exp % 2 = 1 then mul result base else .val result) with
  | .val r =>
    if _h : exp / 2 = 0 then .val r
    else
      match mul base base with
      | .val bb => powLoop bb r (exp / 2)
      | _ => .ub
  | _ => .ub
  termination_by exp
  decreasing_by omega

/-- `int_pow`, const_fold.cpp:103-117. -/
def pow (a b : I64) : Out I64 :=
  if b.toInt < 0 then .val 0 else powLoop a 1 b.toInt.toNat

/-- C++ unary minus. -/
def neg (a : I64) : Out I64 := cxx (-a.toInt)

end Host

/-! ### Run time (LLVM), `stdlib/internal/types/int.codon`, `stdlib/internal/pynumerics.codon` -/
namespace Run

/-- LLVM `sdiv i64`: immediate UB on a zero divisor or on overflow. -/
def sdiv (a b : I64) : Out I64 :=
  if b = 0 ∨ (a = BitVec.intMin 64 ∧ b = -1) then .ub else .val (a.sdiv b)
/-- LLVM `srem i64`. -/
def srem (a b : I64) : Out I64 :=
  if b = 0 ∨ (a = BitVec.intMin 64 ∧ b = -1) then .ub else .val (a.srem b)
/-- `_divmod_int_int`, pynumerics.codon:58-64 (after the zero check); wrapping `i64` arithmetic. -/
def divmod (a b : I64) : Out (I64 × I64) :=
  match sdiv a b with
  | .val d =>
    let m := a - d * b
    if m ≠ 0 ∧ (b ^^^ m).slt 0 then .val (d - 1, m + b) else .val (d, m)
  | _ => .ub
/-- `int.__floordiv__(int)`: int.codon:148-153, or pynumerics.codon:93-98 with `-numerics=py`. -/
def floordiv (py : Bool) (a b : I64) : Out I64 :=
  if py then
    if b = 0 then .zeroDiv
    else match divmod a b with
      | .val p => .val p.1
      | _ => .ub
  else sdiv a b
/-- `int.__mod__(int)`: int.codon:178-183, or pynumerics.codon:115-118 with `-numerics=py`. -/
def mod (py : Bool) (a b : I64) : Out I64 :=
  if py then
    if b = 0 then .zeroDiv
    else match divmod a b with
      | .val p => .val p.2
      | _ => .ub
  else srem a b
/-- `int.__lshift__`, int.codon:68-72: LLVM `shl`, poison when the (unsigned) amount is ≥ 64. -/
def shl (a b : I64) : Out I64 := if b.toNat < 64 then .val (a <<< b.toNat) else .ub
/-- `int.__rshift__`, int.codon:74-78: LLVM `ashr`, poison when the (unsigned) amount is ≥ 64. -/
def shr (a b : I64) : Out I64 := if b.toNat < 64 then .val (a.sshiftRight b.toNat) else .ub

/-- Loop of `int._ipow`, int.codon:365-371 (exponent ≥ 0, as a natural number; wrapping). -/
def powLoop (base result : I64) (exp : Nat) : I64 :=
  let r := if exp % 2 = 1 then result * base else result
  if _h : exp / 2 = 0 then r else powLoop (base * base) r (exp / 2)
  termination_by exp
  decreasing_by omega

/-- `int._ipow` / `int.__pow__(int)`, int.codon:361-376. -/
def pow (a b : I64) : I64 := if b.toInt < 0 then 0 else powLoop a 1 b.toInt.toNat

end Run

/-- Binary `int` operators handled by the folding pass. -/
inductive BinOp where
  | add | sub | mul | floordiv | mod | shl | shr | pow | xor | or | and
  | eq | ne | gt | ge | lt | le
  deriving DecidableEq, Repr

/-- Unary `int` operators handled by the folding pass. -/
inductive UnOp where
  | pos | neg | inv
  deriving DecidableEq, Repr

/-- A literal of the IR (`IntConst`, `BoolConst`). -/
inductive Lit where
  | int (v : I64)
  | bool (b : Bool)
  deriving DecidableEq, Repr

def Out.map {α β : Type} (f : α → β) : Out α → Out β
  | .val a => .val (f a)
  | .ub => .ub
  | .zeroDiv => .zeroDiv

/-- What the folding rules compute for two `int` literals (const_fold.cpp:245-284); `none` when no
rule fires.  `py` is the compiler's `pyNumerics` switch.  The zero-divisor exclusion is
`DoubleConstantBinaryRuleExcludeRHSZero::visit`, const_fold.cpp:86-93. -/
def foldBin (py : Bool) (o : BinOp) (a b : I64) : Option (Out Lit) :=
  match o with
  | .add => some ((Host.add a b).map .int)
  | .sub => some ((Host.sub a b).map .int)
  | .mul => some ((Host.mul a b).map .int)
  | .floordiv =>
    if b = 0 then none
    else if py then some ((Host.pyDivmod a b).map fun p => .int p.1)
    else some ((Host.div a b).map .int)
  | .mod =>
    if b = 0 then none
    else if py then some ((Host.pyDivmod a b).map fun p => .int p.2)
    else some ((Host.mod a b).map .int)
  | .shl => some ((Host.shl a b).map .int)
  | .shr => some ((Host.shr a b).map .int)
  | .pow => some ((Host.pow a b).map .int)
  | .xor => some (.val (.int (a ^^^ b)))
  | .or => some (.val (.int (a ||| b)))
  | .and => some (.val (.int (a &&& b)))
  | .eq => some (.val (.bool (decide (a.toInt = b.toInt))))
  | .ne => some (.val (.bool (decide (a.toInt ≠ b.toInt))))
  | .gt => some (.val (.bool (decide (b.toInt < a.toInt))))
  | .ge => some (.val (.bool (decide (b.toInt ≤ a.toInt))))
  | .lt => some (.val (.bool (decide (a.toInt < b.toInt))))
  | .le => some (.val (.bool (decide (a.toInt ≤ b.toInt))))

/-- The run-time operation that the call would have executed (int.codon:68-356, pynumerics). -/
def runBin (py : Bool) (o : BinOp) (a b : I64) : Out Lit :=
  match o with
  | .add => .val (.int (a + b))
  | .sub => .val (.int (a - b))
  | .mul => .val (.int (a * b))
  | .floordiv => (Run.floordiv py a b).map .int
  | .mod => (Run.mod py a b).map .int
  | .shl => (Run.shl a b).map .int
  | .shr => (Run.shr a b).map .int
  | .pow => .val (.int (Run.pow a b))
  | .xor => .val (.int (a ^^^ b))
  | .or => .val (.int (a ||| b))
  | .and => .val (.int (a &&& b))
  | .eq => .val (.bool (a == b))
  | .ne => .val (.bool (a != b))
  | .gt => .val (.bool (b.slt a))
  | .ge => .val (.bool (b.sle a))
  | .lt => .val (.bool (a.slt b))
  | .le => .val (.bool (a.sle b))

/-- Unary folds, const_fold.cpp:294-298. -/
def foldUn (o : UnOp) (a : I64) : Out I64 :=
  match o with
  | .pos => .val a
  | .neg => Host.neg a
  | .inv => .val (~~~a)

/-- Unary run-time methods, int.codon:55-59 and 197-201 (`__neg__` is `0 - self`,
`__invert__` is `xor -1`). -/
def runUn (o : UnOp) (a : I64) : I64 :=
  match o with
  | .pos => a
  | .neg => 0 - a
  | .inv => a ^^^ -1

end Codon.Arith
