import Verif.Fold.Model
/-!
# Canonicalisation of integer expressions

Models codon/cir/transform/cleanup/canonical.cpp on the `int` expressions of `Verif.Fold.Model`.
-/
namespace Codon.Canon
open Codon.Arith Codon.Fold

/-- `NodeRanker::getRank` (canonical.cpp:21-61): constants last, then deeper nodes first, then the hash.  The hash is arbitrary here. -/
structure Rank where
  isConst : Int
  depth : Int
  hash : Nat
  deriving DecidableEq, Repr

/-- The depth of a node (canonical.cpp:40-43). -/
def depth : Exp → Nat
  | .lit _ => 0
  | .ext _ => 0
  | .un _ e => depth e + 1
  | .bin _ l r => max (depth l) (depth r) + 1

def isLit : Exp → Bool
  | .lit _ => true
  | _ => false

def getRank (hash : Exp → Nat) (e : Exp) : Rank := ⟨if isLit e then 1 else -1, -(depth e : Int), hash e⟩

/-- `<` on `std::tuple<int, int, uint64_t>`. -/
def Rank.lt (a b : Rank) : Bool :=
  decide (a.isConst < b.isConst) || (decide (a.isConst = b.isConst) &&
    (decide (a.depth < b.depth) || (decide (a.depth = b.depth) && decide (a.hash < b.hash))))

/-- `@associative` (int.codon:99-105, 130-137, 204-226). -/
def isAssociative : Op → Bool
  | .add => true
  | .mul => true
  | .and => true
  | .or => true
  | .xor => true
  | _ => false

/-- `@commutative` (int.codon:99-105, 130-137, 204-226). -/
def isCommutative : Op → Bool
  | .add => true
  | .mul => true
  | .and => true
  | .or => true
  | .xor => true
  | _ => false

/-- `extractAssociativeOpChain` (canonical.cpp:87-97). -/
def chain (o : Op) : Exp → List Exp
  | .bin o' l r => if o' = o then chain o l ++ chain o r else [.bin o' l r]
  | .lit c => [.lit c]
  | .ext i => [.ext i]
  | .un u e => [.un u e]

/-- What the sort of `orderOperands` leaves (canonical.cpp:99-110): a permutation of the operands with the ranks ascending; how nodes of
    equal rank are ordered depends on their addresses. -/
structure Sorts (hash : Exp → Nat) (sort : List Exp → List Exp) : Prop where
  perm : ∀ xs, (sort xs).Perm xs
  ascending : ∀ xs, (sort xs).Pairwise (fun a b => (getRank hash b).lt (getRank hash a) = false)

/-- The new call (canonical.cpp:135-138). -/
def rebuild (o : Op) : List Exp → Option Exp
  | a :: b :: rest => some (rest.foldl (fun acc e => .bin o acc e) (.bin o a b))
  | _ => none

/-- `CanonOpChain::visit` (canonical.cpp:112-143). -/
def opChain (sort : List Exp → List Exp) : Exp → Option Exp
  | .bin o l r =>
    match rebuild o (if isCommutative o then sort (if isAssociative o then chain o (.bin o l r) else [l, r])
        else (if isAssociative o then chain o (.bin o l r) else [l, r])) with
    | some e => if e = .bin o l r then none else some e
    | none => none
  | _ => none

/-- `CanonAddMul::varMatch` (canonical.cpp:189-193); `isVar`: which operands are reads of variables. -/
def varMatch (isVar : Nat → Bool) : Exp → Exp → Bool
  | .ext i, .ext j => isVar i && isVar j && decide (i = j)
  | _, _ => false

/-- The two factors (canonical.cpp:234-256). -/
def factors : Exp → Exp × Exp
  | .bin .mul a b => (a, b)
  | e => (e, .lit 1)

/-- `CanonAddMul::addMul` (canonical.cpp:200-223) for `int`: both operators exist. -/
def addMulOf (a b x : Exp) : Exp := .bin .mul (.bin .add a b) x

/-- `CanonAddMul::visit` (canonical.cpp:225-273). -/
def addMul (isVar : Nat → Bool) : Exp → Option Exp
  | .bin .add lhs rhs =>
    if varMatch isVar (factors lhs).1 (factors rhs).1 then some (addMulOf (factors lhs).2 (factors rhs).2 (factors lhs).1)
    else if varMatch isVar (factors lhs).1 (factors rhs).2 then some (addMulOf (factors lhs).2 (factors rhs).1 (factors lhs).1)
    else if varMatch isVar (factors lhs).2 (factors rhs).1 then some (addMulOf (factors lhs).1 (factors rhs).2 (factors lhs).2)
    else if varMatch isVar (factors lhs).2 (factors rhs).2 then some (addMulOf (factors lhs).1 (factors rhs).1 (factors lhs).2)
    else none
  | _ => none

/-- `CanonConstSub::visit` (canonical.cpp:278-305) for `int`.  `-c` is computed by the compiler, without overflow. -/
def constSub : Exp → Option Exp
  | .bin .sub l (.lit c) => if c = BitVec.intMin 64 then none else some (.bin .add l (.lit (-c)))
  | _ => none

/-- The rules for `int` values (canonical.cpp:344-349). -/
inductive Rule where
  | opChain
  | addMul
  | constSub
  deriving DecidableEq, Repr

/-- What the pass takes from the program: hashes, the order of the operands, which operands are variables, and which operands the side-effect analysis
    found to be pure. -/
structure Env where
  hash : Exp → Nat
  sort : List Exp → List Exp
  sorts : Sorts hash sort
  isVar : Nat → Bool
  isPure : Nat → Bool

def Rule.apply (E : Env) : Rule → Exp → Option Exp
  | .opChain, e => Canon.opChain E.sort e
  | .addMul, e => Canon.addMul E.isVar e
  | .constSub, e => Canon.constSub e

/-- `Rewriter::rewrite` (codon/cir/transform/rewrite.h:54-64): every rule once, in the order `rs` of the hash table. -/
def rewrite (E : Env) : List Rule → Exp → Exp
  | [], e => e
  | r :: rs, e =>
    match r.apply E e with
    | some e' => rewrite E rs e'
    | none => rewrite E rs e

/-- `!hasSideEffect(v)` (codon/cir/analyze/module/side_effect.cpp:357-360) for `int` values: calls of the `int` methods are pure, except
    `//` and `%` with `-numerics=py`, which raise (pynumerics.codon:93-118). -/
def pureExp (py : Bool) (E : Env) : Exp → Bool
  | .lit _ => true
  | .ext i => E.isPure i
  | .un _ e => pureExp py E e
  | .bin o l r => (decide (o ≠ .floordiv ∧ o ≠ .mod) || !py) && pureExp py E l && pureExp py E r

/-- The pass (`CanonicalizationPass::handle`, canonical.cpp:317-321): pure values in the expression are rewritten, in any order and any
    number of times.  (The real pass visits every value once, parents first.) -/
inductive Canonicalises (py : Bool) (E : Env) (rs : List Rule) : Exp → Exp → Prop where
  | refl (e) : Canonicalises py E rs e e
  | here {e} : pureExp py E e = true → Canonicalises py E rs e (rewrite E rs e)
  | un {u e e'} : Canonicalises py E rs e e' → Canonicalises py E rs (.un u e) (.un u e')
  | bin {o l l' r r'} : Canonicalises py E rs l l' → Canonicalises py E rs r r' → Canonicalises py E rs (.bin o l r) (.bin o l' r')
  | trans {a b c} : Canonicalises py E rs a b → Canonicalises py E rs b c → Canonicalises py E rs a c

/-! ### Nested sequences of statements -/

/-- A node of a series of statements. -/
inductive Node where
  | leaf (i : Nat)
  | series (xs : List Node)
  | flow (f v : Node)

mutual
def Node.size : Node → Nat
  | .leaf _ => 1
  | .series xs => 1 + sizes xs
  | .flow f v => 1 + f.size + v.size
def sizes : List Node → Nat
  | [] => 0
  | x :: xs => x.size + sizes xs
end

/-- `CanonicalizationPass::handle(SeriesFlow *)` (canonical.cpp:323-342), on the values from the iterator to the end. -/
def flatten : List Node → List Node
  | [] => []
  | .series xs :: rest => xs ++ flatten rest
  | .flow f v :: rest => flatten (f :: v :: rest)
  | .leaf i :: rest => .leaf i :: flatten rest
termination_by xs => sizes xs
decreasing_by all_goals simp only [sizes, Node.size]; omega

/-- The pass: series anywhere in the body are flattened. -/
inductive Flattens : Node → Node → Prop where
  | refl (n) : Flattens n n
  | here (xs) : Flattens (.series xs) (.series (flatten xs))
  | elem {xs ys : List Node} {n n'} : Flattens n n' → Flattens (.series (xs ++ n :: ys)) (.series (xs ++ n' :: ys))
  | flow {f f' v v'} : Flattens f f' → Flattens v v' → Flattens (.flow f v) (.flow f' v')
  | trans {a b c} : Flattens a b → Flattens b c → Flattens a c

mutual
/-- Execution; a leaf may end the execution of what follows (`true`). -/
def Node.exec {S : Type} (ρ : Nat → S → S × Bool) : Node → S → S × Bool
  | .leaf i, s => ρ i s
  | .series xs, s => execs ρ xs s
  | .flow f v, s => match f.exec ρ s with
    | (s', true) => (s', true)
    | (s', false) => v.exec ρ s'
def execs {S : Type} (ρ : Nat → S → S × Bool) : List Node → S → S × Bool
  | [], s => (s, false)
  | x :: xs, s => match x.exec ρ s with
    | (s', true) => (s', true)
    | (s', false) => execs ρ xs s'
end

/-! ### Comparisons -/

inductive Cmp where
  | eq | ne | lt | le | gt | ge
  deriving DecidableEq, Repr

def Cmp.toBin : Cmp → BinOp
  | .eq => .eq
  | .ne => .ne
  | .lt => .lt
  | .le => .le
  | .gt => .gt
  | .ge => .ge

/-- The operator with sides swapped (canonical.cpp:163-175). -/
def Cmp.swap : Cmp → Cmp
  | .eq => .eq
  | .ne => .ne
  | .lt => .gt
  | .le => .ge
  | .gt => .lt
  | .ge => .le

/-- A comparison of two `int` values. -/
structure CmpExp where
  op : Cmp
  lhs : Exp
  rhs : Exp
  deriving DecidableEq, Repr

/-- `CanonInequality::visit` (canonical.cpp:148-184). -/
def inequality (hash : Exp → Nat) (e : CmpExp) : Option CmpExp :=
  if (getRank hash e.rhs).lt (getRank hash e.lhs) then
    if (⟨e.op.swap, e.rhs, e.lhs⟩ : CmpExp) = e then none else some ⟨e.op.swap, e.rhs, e.lhs⟩
  else none

/-- Evaluation of a comparison. -/
def evalCmp {S : Type} (py : Bool) (ρ : Ext S) (e : CmpExp) (s : S) : S × Option Bool :=
  match eval py ρ e.lhs s with
  | (s', .ret a) =>
    match eval py ρ e.rhs s' with
    | (s'', .ret b) =>
      match runBin py e.op.toBin a b with
      | .val (.bool c) => (s'', some c)
      | _ => (s'', none)
    | (s'', _) => (s'', none)
  | (s', _) => (s', none)

/-! ### Comparisons of values of other types

The rule does not look at the type: with the methods of a class it replaces `a < b` by `b > a` if the class has `__gt__` with the same
result type (canonical.cpp:157-181). -/

/-- The comparison methods of a class (all pure). -/
structure Methods (α : Type) where
  run : Cmp → α → α → Bool

/-- The value of `x op y` after the rule; `swapped`: the ranks are out of order. -/
def inequalityOn {α : Type} (m : Methods α) (swapped : Bool) (o : Cmp) (x y : α) : Bool :=
  if swapped then m.run o.swap y x else m.run o x y

end Codon.Canon
