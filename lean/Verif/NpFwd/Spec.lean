import Verif.NpFwd.Model
/-!
# What C75 means

Two states agree if they have the same variables and arrays, apart from the variable `y` that is done away with and from the arrays made by its assignment (the site `k`).
-/
namespace Codon.NpFwd

variable {V : Type}

/-- Nothing but `y` and the arrays of site `k` differ. -/
structure Agree (y k : Nat) (s t : State V) : Prop where
  env : ∀ x, x ≠ y → s.env x = t.env x
  mem : ∀ l : Loc, l.1 ≠ k → s.mem l = t.mem l
  cnt : ∀ j, j ≠ k → s.cnt j = t.cnt j

/-- States that a program can reach: numbers that have not been given out are not in use, the arrays of variables exist, and no variable but `y` holds an array of site `k`. -/
structure Wf (y k : Nat) (s : State V) : Prop where
  fresh : ∀ j n, s.cnt j ≤ n → s.mem (j, n) = none
  live : ∀ x l, s.env x = some (.arr l) → s.mem l ≠ none
  priv : ∀ x, x ≠ y → ∀ n, s.env x ≠ some (.arr (k, n))

/-- A function that does not know about `y` and the arrays of site `k`: it does the same in states that agree. -/
def Blind {α : Type} (y k : Nat) (f : State V → Option (State V × α)) : Prop :=
  ∀ s t, Agree y k s t → Wf y k s → Wf y k t →
    match f s, f t with
    | none, none => True
    | some (s', a), some (t', b) => a = b ∧ Agree y k s' t' ∧ Wf y k s' ∧ Wf y k t' ∧ s'.env y = s.env y ∧ (∀ n, s'.mem (k, n) = s.mem (k, n))
    | _, _ => False

/-- What a function without side effects does: variables and arrays stay as they are, and new arrays may be made. -/
def NoEffect {α : Type} (f : State V → Option (State V × α)) : Prop :=
  ∀ s s' a, f s = some (s', a) → s'.env = s.env ∧ ∀ l c, s.mem l = some c → s'.mem l = some c

/-- The result of a call is no array of site `k`. -/
def NotFrom (k : Nat) (f : State V → Option (State V × Val V)) : Prop := ∀ s s' n, f s ≠ some (s', .arr (k, n))

/-- The analysis of side effects is right about a call. -/
def Call.Sound (f : Call V) : Prop := f.se = false → NoEffect f.run

/-- Outcomes of two programs: both raise an exception, or they end in states that agree, with the same result. -/
def Same {α : Type} (y k : Nat) : Option (State V × α) → Option (State V × α) → Prop
  | none, none => True
  | some (s, a), some (t, b) => a = b ∧ Agree y k s t
  | _, _ => False

/-- A leaf that is a variable other than `y` or a number. -/
def Leaf.Plain (y : Var) : Leaf V → Prop
  | .var x => x ≠ y
  | .num _ => True
  | .call _ => False

/-- A statement that has nothing to do with `y` and site `k`: no use of `y`, no assignment of it, and calls that do not know about it. -/
def Stmt.Apart (y k : Nat) : Stmt V → Prop
  | .np site x u => site ≠ k ∧ x ≠ y ∧ u.leaves = u.tree.leaves ∧ ∀ p ∈ u.tree.leaves, (p.2.Plain y ∨ ∃ f, p.2 = .call f ∧ Blind y k f.run ∧ NotFrom k f.run ∧ f.Sound)
  | .opt _ _ _ => False
  | .copy x z => x ≠ y ∧ z ≠ y
  | .call f => Blind y k f.run ∧ NotFrom k f.run ∧ f.Sound

/-- The end of a block does not depend on `y`. -/
def Term.Apart (y k : Nat) : Term V → Prop
  | .branch cond _ _ => ∀ s t, Agree y k s t → Wf y k s → Wf y k t → cond s = cond t
  | _ => True

/-- The sites of the expressions of a list of statements. -/
def sitesOf : List (Stmt V) → List Nat
  | [] => []
  | .np k _ _ :: ts => k :: sitesOf ts
  | .opt k _ _ :: ts => k :: sitesOf ts
  | _ :: ts => sitesOf ts

/-- The leaves of a list of statements. -/
def idsOf : List (Stmt V) → List Nat
  | [] => []
  | .np _ _ u :: ts => u.tree.leaves.map Prod.fst ++ idsOf ts
  | .opt _ _ u :: ts => u.leaves.map Prod.fst ++ idsOf ts
  | _ :: ts => idsOf ts

end Codon.NpFwd
