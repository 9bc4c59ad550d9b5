import Verif.Arith.Model
import Verif.Slice.Model

/-!
Compile-time ("static") expressions of the type checker, and the run-time code generated for the
same expressions.  `codon/parser/visitors/typecheck/op.cpp`.
-/
namespace Codon.StaticEval
open Codon.Arith

/-- Value of a static type (`IntStaticType`, `BoolStaticType`, `StrStaticType`). -/
inductive SVal where
  | int (v : I64)
  | bool (b : Bool)
  | str (s : List UInt8)
  deriving DecidableEq, Repr

/-- Unary operators, op.cpp:31-34. -/
inductive SUn where
  | pos | neg | inv | not
  deriving DecidableEq, Repr

/-- Expressions built from literals with the operators of op.cpp:31-34 and 153-158. -/
inductive SE where
  | lit (v : SVal)
  | un (o : SUn) (e : SE)
  | bin (o : BinOp) (l r : SE)
  | land (l r : SE)
  | lor (l r : SE)
  deriving DecidableEq, Repr

/-- Outcome of compile-time evaluation: a value, the error `STATIC_DIV_ZERO`, "not a static
expression" (left to run time), or undefined behaviour of the compiler process. -/
inductive SRes where
  | val (v : SVal)
  | divZero
  | notStatic
  | ub
  deriving DecidableEq, Repr

def ofHost : Out I64 → SRes
  | .val v => .val (.int v)
  | .ub => .ub
  | .zeroDiv => .ub

/-- C++ conversion `static_cast<bool>` / truthiness used by op.cpp:79-146 and 605. -/
def truthy : SVal → Bool
  | .int v => v ≠ 0
  | .bool b => b
  | .str s => !s.isEmpty

/-- `evaluateStaticUnary`, op.cpp:562-619 (with the operator gate 31-37).  Note that `not` of a
string yields an *int* (line 569). -/
def staticUn : SUn → SVal → SRes
  | .not, .str s => .val (.int (if s.isEmpty then 1 else 0))
  | _, .str _ => .notStatic
  | .not, .bool b => .val (.bool (!b))
  | _, .bool _ => .notStatic
  | .pos, .int v => .val (.int v)
  | .neg, .int v => ofHost (Host.neg v)
  | .inv, .int v => .val (.int (~~~v))
  | .not, .int v => .val (.bool (!(decide (v ≠ 0))))

/-- `divMod`, op.cpp:622-640; `none` is the reported error `STATIC_DIV_ZERO`.  `py` is
`cache->pythonCompat`, the compiler's `-numerics=py` switch (compiler.cpp:45). -/
def divMod (py : Bool) (a b : I64) : Option (Out (I64 × I64)) :=
  if b = 0 then none
  else if py then some (Host.pyDivmod a b)
  else
    match Host.div a b, Host.mod a b with
    | .val d, .val m => some (.val (d, m))
    | _, _ => some .ub

/-- `getBoolLiteral` converted to `int64_t`, op.cpp:681-686. -/
def boolInt (b : Bool) : I64 := if b then 1 else 0

/-- The arithmetic of `evaluateStaticBinary` on two `int64_t` values, op.cpp:687-734. -/
def staticInt (py : Bool) (o : BinOp) (l r : I64) : SRes :=
  match o with
  | .lt => .val (.bool (decide (l.toInt < r.toInt)))
  | .le => .val (.bool (decide (l.toInt ≤ r.toInt)))
  | .gt => .val (.bool (decide (r.toInt < l.toInt)))
  | .ge => .val (.bool (decide (r.toInt ≤ l.toInt)))
  | .eq => .val (.bool (decide (l.toInt = r.toInt)))
  | .ne => .val (.bool (decide (l.toInt ≠ r.toInt)))
  | .add => ofHost (Host.add l r)
  | .sub => ofHost (Host.sub l r)
  | .mul => ofHost (Host.mul l r)
  | .xor => .val (.int (l ^^^ r))
  | .and => .val (.int (l &&& r))
  | .or => .val (.int (l ||| r))
  | .shr => ofHost (Host.shr l r)
  | .shl => ofHost (Host.shl l r)
  | .floordiv =>
    match divMod py l r with
    | none => .divZero
    | some q => ofHost (q.map Prod.fst)
  | .mod =>
    match divMod py l r with
    | none => .divZero
    | some q => ofHost (q.map Prod.snd)
  | .pow => .notStatic

def isCmp : BinOp → Bool
  | .lt | .le | .gt | .ge | .eq | .ne => true
  | _ => false

/-- The operator gate of `visit(BinaryExpr*)`, op.cpp:153-174, followed by
`evaluateStaticBinary`, op.cpp:646-749. -/
def staticBin (py : Bool) (o : BinOp) : SVal → SVal → SRes
  | .int l, .int r => staticInt py o l r
  | .int l, .bool r => staticInt py o l (boolInt r)
  | .bool l, .int r => staticInt py o (boolInt l) r
  | .bool l, .bool r => if isCmp o then staticInt py o (boolInt l) (boolInt r) else .notStatic
  | .str l, .str r =>
    match o with
    | .add => .val (.str (l ++ r))
    | .eq => .val (.bool (decide (l = r)))
    | .ne => .val (.bool (decide (l ≠ r)))
    | _ => .notStatic
  | _, _ => .notStatic

/-- Static evaluation of an expression: `visit(UnaryExpr*)` op.cpp:21-68, `visit(BinaryExpr*)`
op.cpp:74-214.  `&&`/`||` with a static left side are decided before the right side is even
type-checked (lines 78-148; the case where a `bool` is expected from the context is not
modelled). -/
def static (py : Bool) : SE → SRes
  | .lit v => .val v
  | .un o e =>
    match static py e with
    | .val v => staticUn o v
    | q => q
  | .bin o l r =>
    match static py l with
    | .val a =>
      match static py r with
      | .val b => staticBin py o a b
      | q => q
    | q => q
  | .land l r =>
    match static py l with
    | .val a => if truthy a then static py r else .val a
    | q => q
  | .lor l r =>
    match static py l with
    | .val a => if truthy a then .val a else static py r
    | q => q

/-! ### Run time -/

/-- Outcome of running the generated method calls. -/
inductive DRes where
  | val (v : SVal)
  | zeroDivision
  | noMethod
  | ub
  deriving DecidableEq, Repr

def ofRun : Out Lit → DRes
  | .val (.int v) => .val (.int v)
  | .val (.bool b) => .val (.bool b)
  | .zeroDiv => .zeroDivision
  | .ub => .ub

/-- Unary methods: `int.__pos__/__neg__/__invert__` (int.codon:55-59, 197-201); `not x` is
`x.__bool__().__invert__()` (op.cpp:48-51, int.codon:48-53, bool.codon:23-35, str `__bool__`). -/
def dynUn : SUn → SVal → DRes
  | .not, v => .val (.bool (!(truthy v)))
  | .pos, .int v => .val (.int (runUn .pos v))
  | .neg, .int v => .val (.int (runUn .neg v))
  | .inv, .int v => .val (.int (runUn .inv v))
  | .inv, .bool b => .val (.bool (!b))
  | _, _ => .noMethod

/-- Binary methods.  Mixed `int`/`bool` operands are converted to `int` first; two `bool`s are
compared as `i8` (bool.codon:37-77), which agrees with comparing 0/1. -/
def dynBin (py : Bool) (o : BinOp) : SVal → SVal → DRes
  | .int l, .int r => ofRun (runBin py o l r)
  | .int l, .bool r => ofRun (runBin py o l (boolInt r))
  | .bool l, .int r => ofRun (runBin py o (boolInt l) r)
  | .bool l, .bool r =>
    match o with
    | .and => .val (.bool (l && r))
    | .or => .val (.bool (l || r))
    | .xor => .val (.bool (xor l r))
    | o => if isCmp o then ofRun (runBin py o (boolInt l) (boolInt r)) else .noMethod
  | .str l, .str r =>
    match o with
    | .add => .val (.str (l ++ r))
    | .eq => .val (.bool (l == r))
    | .ne => .val (.bool (l != r))
    | _ => .noMethod
  | _, _ => .noMethod

/-- Python's evaluation of the same expression. -/
def dyn (py : Bool) : SE → DRes
  | .lit v => .val v
  | .un o e =>
    match dyn py e with
    | .val v => dynUn o v
    | q => q
  | .bin o l r =>
    match dyn py l with
    | .val a =>
      match dyn py r with
      | .val b => dynBin py o a b
      | q => q
    | q => q
  | .land l r =>
    match dyn py l with
    | .val a => if truthy a then dyn py r else .val a
    | q => q
  | .lor l r =>
    match dyn py l with
    | .val a => if truthy a then .val a else dyn py r
    | q => q

/-! ### Static slicing and indexing -/

/-- Outcome of a static index or slice: selected items, a reported error
(`SLICE_STEP_ZERO`, `TUPLE_RANGE_BOUNDS`), undefined behaviour of the compiler. -/
inductive SliceRes (α : Type) where
  | items (l : List α)
  | error
  | ub
  deriving DecidableEq, Repr

/-- `for (auto i = start; i < stop; i += step)` with `step > 0`, op.cpp:1070-1071, 1083-1087.
`i += step` is a checked `int64_t` addition; reading outside the sequence is undefined (string) or
an error (tuple), both recorded as `ub` here. -/
def loopUp {α : Type} (xs : List α) (stop step : Int) (hs : 0 < step) (i : Int) : SliceRes α :=
  if i < stop then
    match (if 0 ≤ i then xs[i.toNat]? else none) with
    | none => .ub
    | some x =>
      if fits (i + step) then
        match loopUp xs stop step hs (i + step) with
        | .items l => .items (x :: l)
        | q => q
      else .ub
  else .items []
  termination_by (stop - i).toNat
  decreasing_by omega

/-- The same loop with `step < 0`: `for (auto i = start; i > stop; i += step)`. -/
def loopDown {α : Type} (xs : List α) (stop step : Int) (hs : step < 0) (i : Int) : SliceRes α :=
  if i > stop then
    match (if 0 ≤ i then xs[i.toNat]? else none) with
    | none => .ub
    | some x =>
      if fits (i + step) then
        match loopDown xs stop step hs (i + step) with
        | .items l => .items (x :: l)
        | q => q
      else .ub
  else .items []
  termination_by (i - stop).toNat
  decreasing_by omega

/-- One adjusted bound in `sliceAdjustIndices`, op.cpp:1120-1127 (start) and 1129-1136 (stop). -/
def bound (sz st x : Int) : Int :=
  if x < 0 then (if x + sz < 0 then (if st < 0 then -1 else 0) else x + sz)
  else if x ≥ sz then (if st < 0 then sz - 1 else sz)
  else x

/-- `sliceAdjustIndices`, op.cpp:1115-1148, followed by the selection loop, op.cpp:1068-1073 and
1083-1087.  The returned length is ignored by the caller, but its computation (`-step`) is
undefined for `step = -2^63` when `stop < start`. -/
def sliceLoop {α : Type} (xs : List α) (s e st : Int) : SliceRes α :=
  if st = 0 then .error
  else if st < 0 ∧ bound xs.length st e < bound xs.length st s ∧ ¬ fits (-st) then .ub
  else if h : 0 < st then loopUp xs (bound xs.length st e) st h (bound xs.length st s)
  else if h : st < 0 then loopDown xs (bound xs.length st e) st h (bound xs.length st s)
  else .ub

/-- `transformStaticTupleIndex` on a slice, op.cpp:1041, 1048-1060: defaults of omitted bounds. -/
def staticSlice {α : Type} (xs : List α) (start stop step : Option Int) : SliceRes α :=
  let sz : Int := xs.length
  let st := step.getD 1
  let s0 := start.getD 0
  let e0 := stop.getD sz
  let s1 := if step.isSome ∧ start.isNone then (if st > 0 then 0 else sz - 1) else s0
  let e1 := if step.isSome ∧ stop.isNone then (if st > 0 then sz else -(sz + 1)) else e0
  sliceLoop xs s1 e1 st

/-- `transformStaticTupleIndex` on an integer, op.cpp:1042-1047 with `translateIndex`,
op.cpp:1098-1110. -/
def staticIndex {α : Type} (xs : List α) (idx : Int) : SliceRes α :=
  let sz : Int := xs.length
  let i := if idx < 0 then idx + sz else idx
  if i < 0 ∨ i ≥ sz then .error
  else
    match xs[i.toNat]? with
    | some x => .items [x]
    | none => .ub

end Codon.StaticEval
