import Verif.Operator.Model
/-!
# What the expressions mean in Python

From the language reference, sections 6.10 (comparisons, membership tests), 6.11 (Boolean operations) and 6.13 (conditional expressions): operands are
evaluated from left to right, at most once; `and`, `or` and a chain stop early; the value of `and`/`or` is the value of the operand evaluated last.
-/
namespace Codon.Operator
variable {σ ε V : Type}

/-- The value of `x op y` for evaluated operands. -/
def pyOp (ops : Ops σ ε V) (op : BinOp) (x y : V) : M σ ε V :=
  match op with
  | .magic n => ops.bin n x y
  | .isin => andThen (ops.contains y x) fun b => ret (ops.ofBool b)
  | .notin => andThen (ops.contains y x) fun b => ret (ops.ofBool (!b))

mutual
/-- Evaluating an expression; `call` calls a function, `a` is the argument of the function the expression stands in. -/
def evalPy (ops : Ops σ ε V) (call : Nat → V → M σ ε V) (a : V) : Expr σ ε V → M σ ε V
  | .const v => ret v
  | .arg => ret a
  | .leaf run => run
  | .bin op l r => andThen (evalPy ops call a l) fun x => andThen (evalPy ops call a r) fun y => pyOp ops op x y
  | .land l r => andThen (evalPy ops call a l) fun x => if ops.truth x then evalPy ops call a r else ret x
  | .lor l r => andThen (evalPy ops call a l) fun x => if ops.truth x then ret x else evalPy ops call a r
  | .lnot e => andThen (evalPy ops call a e) fun x => ret (ops.ofBool (!ops.truth x))
  | .ife c x y => andThen (evalPy ops call a c) fun v => if ops.truth v then evalPy ops call a x else evalPy ops call a y
  | .chain e ls => andThen (evalPy ops call a e) fun x => linksPy ops call a x ls
  | .call f e => andThen (evalPy ops call a e) fun x => call f x
/-- The tail of a comparison chain, after the operand `x`. -/
def linksPy (ops : Ops σ ε V) (call : Nat → V → M σ ε V) (a : V) (x : V) : Links σ ε V → M σ ε V
  | .last op e => andThen (evalPy ops call a e) fun y => pyOp ops op x y
  | .more op e ls => andThen (evalPy ops call a e) fun y => andThen (pyOp ops op x y) fun z =>
      if ops.truth z then linksPy ops call a y ls else ret z
end

/-- Calling a function, to a bounded depth of calls. -/
def runPy (ops : Ops σ ε V) (funs : Nat → Expr σ ε V) : Nat → Nat → V → M σ ε V
  | 0, _, _ => fun _ => none
  | d + 1, f, a => evalPy ops (runPy ops funs d) a (funs f)

/-- Running a program. -/
def mainPy (ops : Ops σ ε V) (funs : Nat → Expr σ ε V) (d : Nat) (main : Expr σ ε V) (a : V) : M σ ε V :=
  evalPy ops (runPy ops funs d) a main

/-! ## Where the compiler keeps that meaning -/

/-- An operand whose evaluation does nothing: a literal or a parameter. -/
def Expr.simple : Expr σ ε V → Bool
  | .const _ => true
  | .arg => true
  | _ => false

/-- An operator that gives a bool whenever it gives something. -/
def BinOp.boolValued (ops : Ops σ ε V) : BinOp → Prop
  | .magic n => ∀ x y s s' v, ops.bin n x y s = some (s', .ok v) → ∃ b, v = ops.ofBool b
  | _ => True

/-- The operators of the tail of a chain give bools. -/
def Links.boolValued (ops : Ops σ ε V) : Links σ ε V → Prop
  | .last op _ => op.boolValued ops
  | .more op _ ls => op.boolValued ops ∧ ls.boolValued ops

/-- The order of evaluation does not show: the operator evaluates its left operand first, or one of the operands does nothing. -/
def orderOk (op : BinOp) (l r : Bool) : Prop :=
  match op with
  | .magic _ => True
  | _ => l = true ∨ r = true

mutual
/-- An expression without the patterns the compiler gets wrong.  `b`: it stands inside a condition (or in a function first called in one);
    `val`: its value matters, not only whether it is true.
    The patterns are: an `and`/`or` whose value matters inside a condition; `x in y` (`x not in y`) where both have effects;
    a chain whose value matters with an operator that does not give bools. -/
def Expr.Ok (ops : Ops σ ε V) (val b : Bool) : Expr σ ε V → Prop
  | .const _ => True
  | .arg => True
  | .leaf _ => True
  | .bin op l r => l.Ok ops true b ∧ r.Ok ops true b ∧ orderOk op l.simple r.simple
  | .land l r => (val = true → b = false) ∧ l.Ok ops val b ∧ r.Ok ops val b
  | .lor l r => (val = true → b = false) ∧ l.Ok ops val b ∧ r.Ok ops val b
  | .lnot e => e.Ok ops false b
  | .ife c x y => c.Ok ops false true ∧ x.Ok ops val b ∧ y.Ok ops val b
  | .chain e ls => e.Ok ops true true ∧ ls.Ok ops e.simple ∧ (val = true → ls.boolValued ops)
  | .call _ e => e.Ok ops true b
/-- The same for the tail of a chain; `s`: the operand before it does nothing when evaluated. -/
def Links.Ok (ops : Ops σ ε V) (s : Bool) : Links σ ε V → Prop
  | .last op e => e.Ok ops true true ∧ orderOk op s e.simple
  | .more op e ls => e.Ok ops true true ∧ orderOk op s e.simple ∧ ls.Ok ops true
end

end Codon.Operator
