import Verif.Arith.Model

/-!
The constant-folding pass on integer expressions with arbitrary (effectful, raising, diverging)
operands.
-/
namespace Codon.Fold
open Codon.Arith

/-- `int`-valued binary magic methods with an algebraic or constant rule. -/
inductive Op where
  | add | sub | mul | floordiv | mod | shl | shr | pow | xor | or | and
  deriving DecidableEq, Repr

def Op.toBin : Op → BinOp
  | .add => .add | .sub => .sub | .mul => .mul | .floordiv => .floordiv | .mod => .mod
  | .shl => .shl | .shr => .shr | .pow => .pow | .xor => .xor | .or => .or | .and => .and

/-- An `int`-typed IR value: a literal, an operand the pass knows nothing about (variable read,
call of a user function, …), or a call of a magic method of `int`. -/
inductive Exp where
  | lit (c : I64)
  | ext (i : Nat)
  | un (o : UnOp) (e : Exp)
  | bin (o : Op) (l r : Exp)
  deriving DecidableEq, Repr

/-- Outcome of evaluating a value. -/
inductive Res where
  | ret (v : I64)
  | raised (code : Nat)
  | zeroDivision
  | diverges
  | ub
  deriving DecidableEq, Repr

/-- What an unknown operand may do: change the state arbitrarily and return, raise or diverge. -/
abbrev Ext (S : Type) := Nat → S → S × Res

/-- Turn the outcome of an `int` method into a result. -/
def ofOut : Out Lit → Res
  | .val (.int v) => .ret v
  | .val (.bool _) => .ub
  | .zeroDiv => .zeroDivision
  | .ub => .ub

/-- Evaluation: operands left to right, then the method (`CallInstr` semantics).  Anything that is
not a normal return stops the evaluation. -/
def eval {S : Type} (py : Bool) (ρ : Ext S) : Exp → S → S × Res
  | .lit c, s => (s, .ret c)
  | .ext i, s => ρ i s
  | .un o e, s =>
    match eval py ρ e s with
    | (s', .ret v) => (s', .ret (runUn o v))
    | r => r
  | .bin o l r, s =>
    match eval py ρ l s with
    | (s', .ret a) =>
      match eval py ρ r s' with
      | (s'', .ret b) => (s'', ofOut (runBin py o.toBin a b))
      | q => q
    | q => q

/-- The standard `int` rules, const_fold.cpp:224-298.  (The float, bool and conversion rules
act on other types.) -/
inductive Rule where
  | mulZero | mulOne | subZero | addZero | divOne | zeroDiv
  | posNoop | doubleNeg | doubleInv
  | const (o : Op)
  | constUn (o : UnOp)
  deriving DecidableEq, Repr

/-- `SingleConstantCommutativeRule::visit`, rule.h:65-80.  `calcF` receives the other operand. -/
def singleConst (val : I64) (calcF : Exp → Exp) (left right : Bool) (l r : Exp) : Option Exp :=
  if left && l == .lit val then some (calcF r)
  else if right && r == .lit val then some (calcF l)
  else none

/-- `RewriteRule::apply` (rewrite.h:29-34) for each registered rule (const_fold.cpp:227-298,
rule.h:65-80, 109-120, 157-165, 222-228, 248-257).  Outer `none`: the rule does not match.
`.ub`: the compiler itself executes undefined behaviour. -/
def Rule.apply (py : Bool) : Rule → Exp → Option (Out Exp)
  | .mulZero, .bin .mul l r => (singleConst 0 (fun _ => .lit 0) true true l r).map .val
  | .mulOne, .bin .mul l r => (singleConst 1 id true true l r).map .val
  | .subZero, .bin .sub l r => (singleConst 0 id false true l r).map .val
  | .addZero, .bin .add l r => (singleConst 0 id true true l r).map .val
  | .divOne, .bin .floordiv l r => (singleConst 1 id false true l r).map .val
  | .zeroDiv, .bin .floordiv l r => (singleConst 0 (fun _ => .lit 0) true false l r).map .val
  | .posNoop, .un .pos e => some (.val e)
  | .doubleNeg, .un .neg (.un .neg e) => some (.val e)
  | .doubleInv, .un .inv (.un .inv e) => some (.val e)
  | .const o, .bin o' (.lit a) (.lit b) =>
    if o = o' then
      match foldBin py o.toBin a b with
      | some (.val (.int c)) => some (.val (.lit c))
      | some (.val (.bool _)) => none
      | some .ub => some .ub
      | some .zeroDiv => some .ub
      | none => none
    else none
  | .constUn o, .un o' (.lit a) =>
    if o = o' then some ((foldUn o a).map .lit) else none
  | _, _ => none

/-- `Rewriter::rewrite`, rewrite.h:54-64: every registered rule once, in the (unspecified)
iteration order `rs` of the rule table, each on the result of the previous ones. -/
def rewrite (py : Bool) : List Rule → Exp → Out Exp
  | [], e => .val e
  | r :: rs, e =>
    match r.apply py e with
    | none => rewrite py rs e
    | some (.val e') => rewrite py rs e'
    | some _ => .ub

/-- The pass over a whole expression tree, operands first (`FoldingPass::handle` is called by the
operator visitor on every `CallInstr` after its operands). -/
def foldAll (py : Bool) (rs : List Rule) : Exp → Out Exp
  | .lit c => .val (.lit c)
  | .ext i => .val (.ext i)
  | .un o e =>
    match foldAll py rs e with
    | .val e' => rewrite py rs (.un o e')
    | _ => .ub
  | .bin o l r =>
    match foldAll py rs l with
    | .val l' =>
      match foldAll py rs r with
      | .val r' => rewrite py rs (.bin o l' r')
      | _ => .ub
    | _ => .ub

end Codon.Fold
