import Verif.Operator.Lemmas
/-!
# C58: Boolean operators, comparison chains and conditional expressions mean what Python says

Full statement: wherever it stands, an expression built from `and`, `or`, `not`, `in`, comparisons, chains and `x if c else y` has the value Python gives it,
and evaluates its operands in the order and as often as Python does.

It fails in three ways (`c58_violation_…`): `and`/`or` inside a condition or a chain give `True`/`False` instead of an operand, even where their value is used;
the same happens in a function that is first called inside a condition; and `x in y` evaluates `y` before `x`.  The partial theorems give the full statement for the
expressions `Expr.Ok` allows, for all values, effects, operators and (recursive) functions.
-/
namespace Codon.Operator
variable {σ ε V : Type}

/-- Programs without the patterns of `Expr.Ok`: same value, same effects in the same order, same exceptions, same divergence. -/
theorem c58_program_partial (ops : Ops σ ε V) (funs : Nat → Expr σ ε V) (d : Nat) (main : Expr σ ε V) (hm : main.Ok ops true false)
    (hf : ∀ f, (funs f).Ok ops true (flags funs d main f)) (a : V) :
    runMain ops funs d main a = mainPy ops funs d main a := by
  unfold runMain mainPy
  rw [runC_good ops funs _ hf, runBody_good ops _ _ _ hm]

/-- The condition of an `if` or `while` is true exactly when it is in Python, with the same effects; here `and` and `or` may be nested freely as long as only
    their truth is asked for. -/
theorem c58_condition_partial (ops : Ops σ ε V) (funs : Nat → Expr σ ε V) (flag : Nat → Bool) (d : Nat) (c : Expr σ ε V) (hc : c.Ok ops false true)
    (hf : ∀ f, (funs f).Ok ops true (flag f)) (a : V) :
    (andThen (runBody ops (runC ops funs flag d) (lower true 0 c).2 a) fun v => ret (ops.truth v)) =
      andThen (evalPy ops (runPy ops funs d) a c) fun v => ret (ops.truth v) := by
  rw [runBody_truth ops _ _ _ hc, runC_good ops funs _ hf]

/-! ### A concrete instance

Integers with `0` false and `True = 1`; the state is the list of what was evaluated. -/

/-- Operator 0 is `==`, operator 1 is `<`, any other `+`; a container `y` holds the numbers below it. -/
def intOps : Ops (List Int) Unit Int where
  truth v := v != 0
  ofBool b := if b then 1 else 0
  truth_ofBool b := by cases b <;> rfl
  bin n x y := match n with
    | 0 => ret (if x = y then 1 else 0)
    | 1 => ret (if x < y then 1 else 0)
    | _ => ret (x + y)
  contains y x := ret (decide (x < y))

/-- An expression that logs and gives `v`. -/
def say (v : Int) : Expr (List Int) Unit Int := .leaf fun s => some (s ++ [v], .ok v)

/-- No functions. -/
def noFuns : Nat → Expr (List Int) Unit Int := fun _ => .const 0

-- `x = (say(0) or say(7)) + 1`, outside any condition
example : (Expr.bin (.magic 2) (.lor (say 0) (say 7)) (.const 1)).Ok intOps true false := by
  simp [Expr.Ok, say, orderOk]
example : runMain intOps noFuns 5 (.bin (.magic 2) (.lor (say 0) (say 7)) (.const 1)) 0 [] = some ([0, 7], .ok 8) := rfl

-- `if (say(0) or say(3)) and not say(1) < say(2) < say(2): …`
example : (Expr.land (.lor (say 0) (say 3)) (.lnot (.chain (say 1) (.more (.magic 1) (say 2) (.last (.magic 1) (say 2)))))).Ok intOps false true := by
  simp [Expr.Ok, Links.Ok, say, orderOk]
example : runBody intOps (runC intOps noFuns (fun _ => false) 5)
    (lower true 0 (Expr.land (.lor (say 0) (say 3)) (.lnot (.chain (say 1) (.more (.magic 1) (say 2) (.last (.magic 1) (say 2))))))).2 0 []
    = some ([0, 3, 1, 2, 2], .ok 1) := rfl

-- a recursive function called in a condition, whose body has no `and`/`or` in value position
example : ∀ f, (Expr.ife (.land .arg .arg) (.call 0 (.bin (.magic 2) .arg (.const (-1)))) (.const 4)).Ok intOps true
    (flags (fun _ => Expr.ife (.land .arg .arg) (.call 0 (.bin (.magic 2) .arg (.const (-1)))) (.const 4)) 5
      (.ife (.bin (.magic 0) (.call 0 (.const 3)) (.const 4)) (say 1) (say 2)) f) := by
  simp [Expr.Ok, orderOk]
example : runMain intOps (fun _ => Expr.ife (.land .arg .arg) (.call 0 (.bin (.magic 2) .arg (.const (-1)))) (.const 4)) 5
    (.ife (.bin (.magic 0) (.call 0 (.const 3)) (.const 4)) (say 1) (say 2)) 0 [] = some ([1], .ok 1) := rfl

/-! ### Where it fails -/

/-- In a condition, `(x or y) op z` never sees `x` or `y`: the left operand is `True` or `False`. -/
theorem c58_violation_or_operand (ops : Ops σ ε V) (call : Nat → V → M σ ε V) (a x y z : V) (n : Nat) :
    runBody ops call (lower true 0 (.bin (.magic n) (.lor (.const x) (.const y)) (.const z))).2 a =
      ops.bin n (ops.ofBool (ops.truth x || ops.truth y)) z := by
  funext s
  simp only [runBody, lower, if_true, lowerBin, evalC, ret_andThen]
  cases hx : ops.truth x with
  | true =>
    simp only [if_true, ret_andThen, lift, Bool.true_or]
    cases ops.bin n (ops.ofBool true) z s with
    | none => rfl
    | some r => rfl
  | false =>
    simp only [Bool.false_eq_true, if_false, ret_andThen, lift, Bool.false_or]
    cases ops.bin n (ops.ofBool (ops.truth y)) z s with
    | none => rfl
    | some r => rfl

/-- `1 if (x or 5) == 5 else 2` with `x = 0` is `1` in Python; compiled it is `2`. -/
theorem c58_violation_or_in_condition :
    mainPy intOps noFuns 5 (.ife (.bin (.magic 0) (.lor .arg (.const 5)) (.const 5)) (.const 1) (.const 2)) 0 [] = some ([], .ok 1) ∧
    runMain intOps noFuns 5 (.ife (.bin (.magic 0) (.lor .arg (.const 5)) (.const 5)) (.const 1) (.const 2)) 0 [] = some ([], .ok 2) := ⟨rfl, rfl⟩

/-- The operands of a chain suffer the same, outside any condition: `5 == (x and 5) == 5` with `x = 3`. -/
theorem c58_violation_chain_operand :
    mainPy intOps noFuns 5 (.chain (.const 5) (.more (.magic 0) (.land .arg (.const 5)) (.last (.magic 0) (.const 5)))) 3 [] = some ([], .ok 1) ∧
    runMain intOps noFuns 5 (.chain (.const 5) (.more (.magic 0) (.land .arg (.const 5)) (.last (.magic 0) (.const 5)))) 3 [] = some ([], .ok 0) :=
  ⟨rfl, rfl⟩

/-- `def f(x): return x or 5`: the value of `f(0)` depends on where `f` is called first.  In `(1 if f(0) == 5 else 2) + f(0)` both uses get `True`. -/
theorem c58_violation_callee :
    mainPy intOps (fun _ => .lor .arg (.const 5)) 5 (.call 0 (.const 0)) 0 [] = some ([], .ok 5) ∧
    runMain intOps (fun _ => .lor .arg (.const 5)) 5 (.call 0 (.const 0)) 0 [] = some ([], .ok 5) ∧
    mainPy intOps (fun _ => .lor .arg (.const 5)) 5
      (.bin (.magic 2) (.ife (.bin (.magic 0) (.call 0 (.const 0)) (.const 5)) (.const 1) (.const 2)) (.call 0 (.const 0))) 0 [] = some ([], .ok 6) ∧
    runMain intOps (fun _ => .lor .arg (.const 5)) 5
      (.bin (.magic 2) (.ife (.bin (.magic 0) (.call 0 (.const 0)) (.const 5)) (.const 1) (.const 2)) (.call 0 (.const 0))) 0 [] = some ([], .ok 3) :=
  ⟨rfl, rfl, rfl, rfl⟩

/-- `say(1) in say(2)` evaluates the container first; so does `not in`. -/
theorem c58_violation_in_order :
    mainPy intOps noFuns 5 (.bin .isin (say 1) (say 2)) 0 [] = some ([1, 2], .ok 1) ∧
    runMain intOps noFuns 5 (.bin .isin (say 1) (say 2)) 0 [] = some ([2, 1], .ok 1) ∧
    runMain intOps noFuns 5 (.bin .notin (say 1) (say 2)) 0 [] = some ([2, 1], .ok 0) := ⟨rfl, rfl, rfl⟩

/-- The value of a chain is a bool even when the comparison gives something else: with operator 2 (`+`), `3 + 4 + 5` as a chain. -/
theorem c58_violation_chain_value :
    mainPy intOps noFuns 5 (.chain (.const 3) (.more (.magic 2) (.const 4) (.last (.magic 2) (.const 5)))) 0 [] = some ([], .ok 9) ∧
    runMain intOps noFuns 5 (.chain (.const 3) (.more (.magic 2) (.const 4) (.last (.magic 2) (.const 5)))) 0 [] = some ([], .ok 1) := ⟨rfl, rfl⟩

end Codon.Operator
