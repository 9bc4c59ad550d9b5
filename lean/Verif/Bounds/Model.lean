/-!
# Elision of bounds checks in counting loops

Models `codon/cir/transform/numpy/indexing.cpp`: inside a counting loop (`ImperativeForFlow`) the pass replaces an access
`a[idx]` to a one-dimensional array by an access without bounds check
(`stdlib/numpy/fusion.codon:807-813`) if it can show that the index is in range.

Simplifications:

* the numbers of the pass (`int64_t`) are unbounded here; in the source an overflow while the terms are added up is
  undefined behaviour of the compiler itself;
* the tests of the types of arrays and of the called functions (`isArrayType`, `isCallOf`, `isLen`) are in the shape of
  `E` and `Index`; whatever `parse` does not know is `E.other`;
* the answers of the reaching definition analysis are a parameter.
-/
namespace Codon.Bounds

/-- An expression of type `int`, as far as `parse` (indexing.cpp:169-217) distinguishes it.  `var`, `len` and `size` have the
place of the `VarValue` and its variable. -/
inductive E where
  | const (v : Int)
  | var (loc x : Nat)
  | len (loc x : Nat)
  | size (loc x : Nat)
  | add (a b : E)
  | sub (a b : E)
  | other
deriving DecidableEq, Repr

/-- indexing.cpp:19 `Term::Kind` -/
inductive Kind where
  | int
  | var
  | len
deriving DecidableEq, Repr

/-- indexing.cpp:18-57 `Term`; `loc` and `x` are the place and the variable of the `VarValue` (without meaning for
`Kind.int`). -/
structure Term where
  kind : Kind
  val : Int
  loc : Nat
  x : Nat
deriving DecidableEq, Repr

namespace Term
/-- indexing.cpp:25 -/
def valTerm (v : Int) : Term := ⟨.int, v, 0, 0⟩
/-- indexing.cpp:27 -/
def varTerm (loc x : Nat) : Term := ⟨.var, 1, loc, x⟩
/-- indexing.cpp:29 -/
def lenTerm (loc x : Nat) : Term := ⟨.len, 1, loc, x⟩
/-- indexing.cpp:31 -/
def negate (t : Term) : Term := { t with val := -t.val }
/-- indexing.cpp:33 -/
def multiply (t : Term) (n : Int) : Term := { t with val := t.val * n }
/-- indexing.cpp:35-42: the sum, or `none` for `false` -/
def combine (t o : Term) : Option Term :=
  if t.kind = o.kind ∧ (t.kind = .int ∨ t.x = o.x) then some { t with val := t.val + o.val } else none
/-- indexing.cpp:44 -/
def zero (t : Term) : Bool := t.val == 0
end Term

/-- indexing.cpp:75-84: the inner loop of `simplify`; all later terms that fit are added to the first. -/
def absorb (t : Term) : List Term → Term × List Term
  | [] => (t, [])
  | u :: us =>
    match t.combine u with
    | some t' => absorb t' us
    | none =>
      let r := absorb t us
      (r.1, u :: r.2)

/-- indexing.cpp:74-85: the outer loop; the first argument bounds the number of rounds. -/
def combineAll : Nat → List Term → List Term
  | 0, ts => ts
  | _, [] => []
  | n + 1, t :: ts =>
    let r := absorb t ts
    r.1 :: combineAll n r.2

/-- indexing.cpp:71-90 `simplify` -/
def simplify (ts : List Term) : List Term := (combineAll ts.length ts).filter fun t => !t.zero

/-- indexing.cpp:93-107: the loop of `checkTotal`; `none` is `return false`. -/
def total : Int → List Term → Option Int
  | acc, [] => some acc
  | acc, t :: ts =>
    match t.kind with
    | .int => total (acc + t.val) ts
    | .var => if t.val ≠ 0 then none else total acc ts
    | .len => total acc ts

/-- indexing.cpp:92-109 `checkTotal` -/
def checkTotal (ts : List Term) (strict : Bool) : Bool :=
  match total 0 ts with
  | none => false
  | some n => if strict then decide (n > 0) else decide (n ≥ 0)

/-- indexing.cpp:111-123 `lessCheck` -/
def lessCheck (ts1 ts2 : List Term) (strict : Bool) : Bool :=
  checkTotal (simplify (ts2 ++ ts1.map Term.negate)) strict

/-- indexing.cpp:125-127 -/
def lessThan (ts1 ts2 : List Term) : Bool := lessCheck ts1 ts2 true
/-- indexing.cpp:129-131 -/
def lessThanOrEqual (ts1 ts2 : List Term) : Bool := lessCheck ts1 ts2 false

/-- indexing.cpp:133-148 `replaceLoopVariable` -/
def replaceLoopVariable (ts : List Term) (loopVar : Nat) (rep : List Term) : List Term :=
  ts.flatMap fun t => if t.kind = .var ∧ t.x = loopVar then rep.map (·.multiply t.val) else [t]

/-- indexing.cpp:170-174 `push` -/
def signed (negate : Bool) (t : Term) : Term := if negate then t.negate else t

/-- indexing.cpp:169-217 `parse`: the terms that are added, or `none` for `false` -/
def parse : E → Bool → Option (List Term)
  | .const v, neg => some [signed neg (.valTerm v)]
  | .var loc x, neg => some [signed neg (.varTerm loc x)]
  | .add a b, neg => do
    let s ← parse a neg
    let t ← parse b neg
    pure (s ++ t)
  | .sub a b, neg => do
    let s ← parse a neg
    let t ← parse b !neg
    pure (s ++ t)
  | .size loc x, neg => some [signed neg (.lenTerm loc x)]
  | .len loc x, neg => some [signed neg (.lenTerm loc x)]
  | .other, _ => none

/-- cfg.h:148 `SyntheticAssignInstr::Kind` -/
inductive SKind where
  | unknown
  | known
  | nextValue
  | add
deriving DecidableEq, Repr

/-- reaching.h:16-42 `ReachingDef`.  `id` is what `getId` returns; `synth` are the kind and the loop of a
`SyntheticAssignInstr`; `assignee` is the assigned value if known: `some (some x)` when it is a `VarValue` of `x`. -/
structure RDef where
  id : Nat
  synth : Option (SKind × Nat)
  assignee : Option (Option Nat)
deriving DecidableEq, Repr

/-- `RDInspector::getReachingDefinitions`: variable and place (reaching.cpp:231-262) -/
abbrev RD := Nat → Nat → List RDef

/-- `ImperativeForFlow` -/
structure Loop where
  id : Nat
  var : Nat
  start : E
  stop : E
  step : Int
  /-- is the variable a global one? -/
  global : Bool := false

/-- indexing.cpp:219-227 `IndexInfo`: the array with the place of its `VarValue`, and the index -/
structure Index where
  loc : Nat
  arr : Nat
  idx : E

/-- indexing.cpp:292-311: is this the assignment of the loop of this kind? -/
def RDef.of (d : RDef) (k : SKind) (l : Nat) : Bool := d.synth == some (k, l)

/-- indexing.cpp:280-314 `isOriginalLoopVar` -/
def isOriginalLoopVar (L : Loop) (rd : RD) (loc : Nat) : Bool :=
  match rd L.var loc with
  | [d1, d2] => (d1.of .add L.id && d2.of .known L.id) || (d1.of .known L.id && d2.of .add L.id)
  | _ => false

/-- indexing.cpp:316-327 `isAliasOfLoopVar`, of the variable `x` read at `loc` -/
def isAliasOfLoopVar (L : Loop) (rd : RD) (loc x : Nat) : Bool :=
  match rd x loc with
  | [d] => d.assignee == some (some L.var) && isOriginalLoopVar L rd loc
  | _ => false

/-- indexing.cpp:342-361 the lambda `check`; `reach` maps variables to definitions, `none` is `false`. -/
def check (L : Loop) (rd : RD) (reach : List (Nat × Nat)) (loc x : Nat) : Option (List (Nat × Nat)) :=
  if x = L.var then
    if isOriginalLoopVar L rd loc then some reach else none
  else
    match rd x loc with
    | [d] =>
      match reach.lookup x with
      | none => some ((x, d.id) :: reach)
      | some r => if r = d.id then some reach else none
    | _ => none

/-- indexing.cpp:366-379: the checks of the variables of a list of terms -/
def checkTerms (L : Loop) (rd : RD) : List Term → List (Nat × Nat) → Option (List (Nat × Nat))
  | [], reach => some reach
  | t :: ts, reach =>
    if t.kind = .int then checkTerms L rd ts reach
    else do
      let reach ← check L rd reach t.loc t.x
      checkTerms L rd ts reach

/-- indexing.cpp:381-389: variables that are copies of the loop variable -/
def unalias (L : Loop) (rd : RD) (t : Term) : Term :=
  if t.kind = .var ∧ isAliasOfLoopVar L rd t.loc t.x then { t with x := L.var } else t

/-- indexing.cpp:391-401: is the index in range? -/
def inRange (L : Loop) (ix : Index) (idx start stop : List Term) : Bool :=
  let limit := [Term.lenTerm ix.loc ix.arr]
  let terms1 := replaceLoopVariable idx L.var start
  let terms2 := replaceLoopVariable idx L.var stop
  if L.step > 0 then lessThanOrEqual [.valTerm 0] terms1 && lessThanOrEqual terms2 limit
  else lessThan terms1 limit && lessThanOrEqual [.valTerm (-1)] terms2

/-- indexing.cpp:363-379: all checks, of the array, the bounds and the index -/
def checkAll (L : Loop) (ix : Index) (rd : RD) (idx start stop : List Term) : Bool :=
  (do
    let r ← check L rd [] ix.loc ix.arr
    let r ← checkTerms L rd start r
    let r ← checkTerms L rd stop r
    checkTerms L rd idx r : Option _).isSome

/-- indexing.cpp:329-402 `canElideBoundsCheck` -/
def canElide (L : Loop) (ix : Index) (rd : RD) (start stop : List Term) : Bool :=
  match parse ix.idx false with
  | none => false
  | some idx => checkAll L ix rd idx start stop && inRange L ix (idx.map (unalias L rd)) start stop

/-- indexing.cpp:406-431 `NumPyBoundsCheckElisionPass::visit`: is the bounds check of the access `ix` in the body of
`L` removed? -/
def elides (L : Loop) (ix : Index) (rd : RD) : Bool :=
  if L.step = 0 ∨ L.global then false
  else
    match parse L.start false, parse L.stop false with
    | some start, some stop => canElide L ix rd start stop
    | _, _ => false

/-! ### The access -/

/-- What an access does: it gives the place of the element (relative to the data, in bytes), or raises `IndexError`. -/
inductive Access where
  | at (offset : Int)
  | indexError
deriving DecidableEq, Repr

/-- numpy/util.codon:222-228 `normalize_index` with numpy/indexing.codon `_getset` of one index into an array with one axis
of length `n` -/
def checked (n stride idx : Int) : Access :=
  let i := if idx < 0 then idx + n else idx
  if i < 0 ∨ i ≥ n then .indexError else .at (stride * i)

/-- numpy/fusion.codon:807-813 `_array1d_get_nocheck`, `_array1d_set_nocheck` -/
def unchecked (stride idx : Int) : Access := .at (stride * idx)

end Codon.Bounds
