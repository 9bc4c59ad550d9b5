/-!
# Boolean operators, membership tests, comparison chains and conditional expressions

How `TypecheckVisitor` rewrites these expressions (codon/parser/visitors/typecheck/op.cpp:74-243, 758-825; cond.cpp:39-82) and what the rewritten
expression does when it runs.  The rewriting of `and`/`or` depends on `ctx->expectedType`, which a condition or a comparison chain sets to `bool`
while it is being transformed (cond.cpp:40-43, 87-90; loops.cpp:77-80; op.cpp:239-242); nothing else in codon/parser writes it, so it also holds for
every expression inside the condition, and for the body of a function of the same module that is realised while the condition is transformed
(infer.cpp:361-362, 465-468: `realizeFunc` transforms the body with the context of its module).

Simplifications: functions have one parameter and their body is one expression; the operands are not compile-time constants (op.cpp:77-142 fold
those); `__bool__` has no effects; wrapping an operand in a `Union` when the two types differ (op.cpp:776-780, 799-804) is the identity on the value.
-/
namespace Codon.Operator

/-- How an evaluation may fail: an exception, or the read of a variable that was not assigned (never in Python; undefined in the emitted code). -/
inductive Fail (ε : Type) where
  | exc (e : ε)
  | unassigned
  deriving DecidableEq, Repr

/-- A computation over a state: `none` when it does not end. -/
abbrev M (σ ε α : Type) := σ → Option (σ × Except (Fail ε) α)

/-- The computation that gives `a` and does nothing else. -/
def ret {σ ε α : Type} (a : α) : M σ ε α := fun s => some (s, .ok a)

/-- One computation after another; a failure of the first is the failure of the whole. -/
def andThen {σ ε α β : Type} (m : M σ ε α) (f : α → M σ ε β) : M σ ε β := fun s =>
  match m s with
  | none => none
  | some (s', .error e) => some (s', .error e)
  | some (s', .ok a) => f a s'

/-- What the values of a program can do: `__bool__`, the bool objects, the binary operators (`bin n` is the `n`-th magic method), and `__contains__`
    (container first). -/
structure Ops (σ ε V : Type) where
  truth : V → Bool
  ofBool : Bool → V
  truth_ofBool : ∀ b, truth (ofBool b) = b
  bin : Nat → V → V → M σ ε V
  contains : V → V → M σ ε Bool

/-- The binary operators: one with a magic method (`==`, `<`, `+`, …; op.cpp:900-906), `in`, `not in`. -/
inductive BinOp where
  | magic (n : Nat)
  | isin
  | notin
  deriving DecidableEq, Repr

mutual
/-- Expressions as they are written.  `leaf` is any expression that contains none of the others; `chain` is `e op e op e …` with at least two operators
    (grammar.peg:555-568). -/
inductive Expr (σ ε V : Type) where
  | const (v : V)
  | arg
  | leaf (run : M σ ε V)
  | bin (op : BinOp) (l r : Expr σ ε V)
  | land (l r : Expr σ ε V)
  | lor (l r : Expr σ ε V)
  | lnot (e : Expr σ ε V)
  | ife (c a b : Expr σ ε V)
  | chain (e : Expr σ ε V) (ls : Links σ ε V)
  | call (f : Nat) (e : Expr σ ε V)
/-- The tail of a comparison chain. -/
inductive Links (σ ε V : Type) where
  | last (op : BinOp) (e : Expr σ ε V)
  | more (op : BinOp) (e : Expr σ ε V) (ls : Links σ ε V)
end

/-- Expressions after the rewriting.  `tmp`/`assign` read and assign a temporary variable of the function (`AssignExpr`, or an `AssignStmt` inside a
    `StmtExpr`), `truth e` is `e.__bool__()`, `inv e` is `e.__invert__()` on a bool, `contains c x` is `c.__contains__(x)`. -/
inductive Core (σ ε V : Type) where
  | const (v : V)
  | bool (b : Bool)
  | arg
  | leaf (run : M σ ε V)
  | magic (n : Nat) (l r : Core σ ε V)
  | contains (c x : Core σ ε V)
  | inv (e : Core σ ε V)
  | truth (e : Core σ ε V)
  | ite (c a b : Core σ ε V)
  | assign (n : Nat) (e : Core σ ε V)
  | tmp (n : Nat)
  | call (f : Nat) (e : Core σ ε V)

variable {σ ε V : Type}

/-- The binary operators other than `and`/`or`: `in` and `not in` become calls of the method of the right operand (op.cpp:808-814), the others a call of
    the magic method of the left operand (op.cpp:975-982). -/
def lowerBin (op : BinOp) (l r : Core σ ε V) : Core σ ε V :=
  match op with
  | .magic n => .magic n l r
  | .isin => .contains r l
  | .notin => .inv (.contains r l)

mutual
/-- `transform` of an expression.  `b` tells whether `ctx->expectedType` is `bool`, `n` is the number of temporary variables made so far.
    `visit(BinaryExpr)` transforms both operands first (op.cpp:75, 145), then `transformBinarySimple` rewrites `&&` and `||` (op.cpp:760-807);
    `visit(UnaryExpr)` op.cpp:48-51; `visit(IfExpr)` cond.cpp:39-82 (only the condition is transformed with `bool`); `visit(ChainBinaryExpr)`
    op.cpp:217-243. -/
def lower (b : Bool) (n : Nat) : Expr σ ε V → Nat × Core σ ε V
  | .const v => (n, .const v)
  | .arg => (n, .arg)
  | .leaf run => (n, .leaf run)
  | .bin op l r =>
    let l := lower b n l
    let r := lower b l.1 r
    (r.1, lowerBin op l.2 r.2)
  | .land l r =>
    let l := lower b n l
    let r := lower b l.1 r
    if b then (r.1, .ite l.2 (.truth r.2) (.bool false))
    else (r.1 + 1, .ite (.assign r.1 l.2) r.2 (.tmp r.1))
  | .lor l r =>
    let l := lower b n l
    let r := lower b l.1 r
    if b then (r.1, .ite l.2 (.bool true) (.truth r.2))
    else (r.1 + 1, .ite (.assign r.1 l.2) (.tmp r.1) r.2)
  | .lnot e =>
    let e := lower b n e
    (e.1, .inv (.truth e.2))
  | .ife c x y =>
    let c := lower true n c
    let x := lower b c.1 x
    let y := lower b x.1 y
    (y.1, .ite c.2 x.2 y.2)
  | .chain e ls =>
    let e := lower true n e
    lowerLinks e.1 e.2 ls
  | .call f e =>
    let e := lower b n e
    (e.1, .call f e.2)
/-- The items of a comparison chain joined by `&&` (op.cpp:221-241): `l` is the left operand of the first one, every operand but the last is stored in a
    temporary variable. -/
def lowerLinks (n : Nat) (l : Core σ ε V) : Links σ ε V → Nat × Core σ ε V
  | .last op e =>
    let e := lower true n e
    (e.1, lowerBin op l e.2)
  | .more op e ls =>
    let e := lower true (n + 1) e
    let r := lowerLinks e.1 (.tmp n) ls
    (r.1, .ite (lowerBin op l (.assign n e.2)) (.truth r.2) (.bool false))
end

/-- The temporary variables of a function call. -/
abbrev Tmps (V : Type) := Nat → Option V

/-- A computation of the program in a function with temporary variables. -/
def lift {α : Type} (m : M σ ε α) : M (σ × Tmps V) ε α := fun s =>
  match m s.1 with
  | none => none
  | some (s', r) => some ((s', s.2), r)

/-- Reading a temporary variable. -/
def getTmp (n : Nat) : M (σ × Tmps V) ε V := fun s =>
  match s.2 n with
  | some v => some (s, .ok v)
  | none => some (s, .error .unassigned)

/-- Assigning a temporary variable. -/
def setTmp (n : Nat) (v : V) : M (σ × Tmps V) ε V := fun s =>
  some ((s.1, fun k => if k = n then some v else s.2 k), .ok v)

/-- Running a rewritten expression: operands of a call from left to right, the object of a method call first
    (codon/cir/llvm/llvisitor.cpp:3253-3258; proved for arguments in general in `Verif/CallArgs/OrderProps.lean`). -/
def evalC (ops : Ops σ ε V) (call : Nat → V → M σ ε V) (a : V) : Core σ ε V → M (σ × Tmps V) ε V
  | .const v => ret v
  | .bool b => ret (ops.ofBool b)
  | .arg => ret a
  | .leaf run => lift run
  | .magic n l r =>
    andThen (evalC ops call a l) fun x => andThen (evalC ops call a r) fun y => lift (ops.bin n x y)
  | .contains c x =>
    andThen (evalC ops call a c) fun v => andThen (evalC ops call a x) fun y =>
      andThen (lift (ops.contains v y)) fun b => ret (ops.ofBool b)
  | .inv e => andThen (evalC ops call a e) fun v => ret (ops.ofBool (!ops.truth v))
  | .truth e => andThen (evalC ops call a e) fun v => ret (ops.ofBool (ops.truth v))
  | .ite c x y =>
    andThen (evalC ops call a c) fun v => if ops.truth v then evalC ops call a x else evalC ops call a y
  | .assign n e => andThen (evalC ops call a e) fun v => setTmp n v
  | .tmp n => getTmp n
  | .call f e => andThen (evalC ops call a e) fun v => lift (call f v)

/-- Running a rewritten expression as the body of a function: no temporary variable is assigned at the start, and they are gone at the end. -/
def runBody (ops : Ops σ ε V) (call : Nat → V → M σ ε V) (c : Core σ ε V) (a : V) : M σ ε V := fun s =>
  match evalC ops call a c (s, fun _ => none) with
  | none => none
  | some (s', r) => some (s'.1, r)

/-- Calling function `f` of a compiled program whose functions were realised with `expectedType` as told by `flag`; the first argument bounds the depth of
    the calls (`none`: not ended within it). -/
def runC (ops : Ops σ ε V) (funs : Nat → Expr σ ε V) (flag : Nat → Bool) : Nat → Nat → V → M σ ε V
  | 0, _, _ => fun _ => none
  | d + 1, f, a => runBody ops (runC ops funs flag d) (lower (flag f) 0 (funs f)).2 a

/-! ## When functions are realised -/

/-- The functions realised so far, with `expectedType` at that moment. -/
abbrev Table := List (Nat × Bool)

mutual
/-- The calls met while an expression is transformed, in order; `realize b f` is what a call does (call.cpp:194-198: the identifier of the callee is
    transformed after the arguments, which realises it). -/
def visit (realize : Bool → Nat → Table → Table) (b : Bool) : Expr σ ε V → Table → Table
  | .const _, t => t
  | .arg, t => t
  | .leaf _, t => t
  | .bin _ l r, t => visit realize b r (visit realize b l t)
  | .land l r, t => visit realize b r (visit realize b l t)
  | .lor l r, t => visit realize b r (visit realize b l t)
  | .lnot e, t => visit realize b e t
  | .ife c x y, t => visit realize b y (visit realize b x (visit realize true c t))
  | .chain e ls, t => visitLinks realize ls (visit realize true e t)
  | .call f e, t => realize b f (visit realize b e t)
/-- The same for the tail of a comparison chain. -/
def visitLinks (realize : Bool → Nat → Table → Table) : Links σ ε V → Table → Table
  | .last _ e, t => visit realize true e t
  | .more _ e ls, t => visitLinks realize ls (visit realize true e t)
end

/-- `realizeFunc` (infer.cpp:348-468): a function realised before is taken from the table, otherwise it is entered before its body is transformed, with the
    `expectedType` of the moment.  The first argument bounds the depth (infer.cpp:363-365, `MAX_REALIZATION_DEPTH`). -/
def realizeFun (funs : Nat → Expr σ ε V) : Nat → Bool → Nat → Table → Table
  | 0, _, _, t => t
  | d + 1, b, f, t => if (t.lookup f).isSome then t else visit (realizeFun funs d) b (funs f) ((f, b) :: t)

/-- The `expectedType` the functions of a program are realised with, when `main` is transformed first. -/
def flags (funs : Nat → Expr σ ε V) (d : Nat) (main : Expr σ ε V) : Nat → Bool := fun f =>
  ((visit (realizeFun funs d) false main []).lookup f).getD false

/-- A whole program: `main` is compiled, then run. -/
def runMain (ops : Ops σ ε V) (funs : Nat → Expr σ ε V) (d : Nat) (main : Expr σ ε V) (a : V) : M σ ε V :=
  runBody ops (runC ops funs (flags funs d main) d) (lower false 0 main).2 a

end Codon.Operator
