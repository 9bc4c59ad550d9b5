import Verif.Demote.Model
import Mathlib.Logic.Relation

namespace Codon.Demote

/-- The functions called by a statement. -/
def callees : Stmt → List Nat
  | .call _ f _ => [f]
  | .seq a b => callees a ++ callees b
  | .ite _ a b => callees a ++ callees b
  | .loop _ a => callees a
  | _ => []

/-- `f` contains a call of `g`. -/
def Calls (P : Prog) (f g : Nat) : Prop := g ∈ callees (P.func f).body

/-- A call of `f` may lead to a call of `g`. -/
def Reaches (P : Prog) : Nat → Nat → Prop := Relation.TransGen (Calls P)

/-- Definite assignment of `x`: from whether it has a value before the statement, whether it surely has one after;
`none` if it might be read without a value. -/
def assigned (x : Nat) : Bool → Stmt → Option Bool
  | b, .skip => some b
  | b, .assign y _ args => if x ∈ args ∧ b = false then none else some (b || y == x)
  | b, .emit args => if x ∈ args ∧ b = false then none else some b
  | b, .call y _ args => if x ∈ args ∧ b = false then none else some (b || y == x)
  | b, .seq s t =>
    match assigned x b s with
    | some b' => assigned x b' t
    | none => none
  | b, .ite c s t =>
    if c = x ∧ b = false then none
    else match assigned x b s, assigned x b t with
      | some b1, some b2 => some (b1 && b2)
      | _, _ => none
  | b, .loop c s =>
    if c = x ∧ b = false then none
    else match assigned x b s with
      | some _ => some b
      | none => none
  | b, .ret y => if y = x ∧ b = false then none else some true

/-- Parameters are local variables, and only functions of the module are called. -/
structure Ok (P : Prog) : Prop where
  params : ∀ f, ∀ p ∈ (P.func f).params, P.isGlobal p = false
  closed : ∀ f g, Calls P f g → g < P.count
  main : 0 < P.count

/-- What an outside observer sees. -/
def observe (r : Option (Res × St)) : Option (Res × List (List Nat)) := r.map fun r => (r.1, r.2.out)

/-- The global variable `x` is mentioned in `f` and in no other function. -/
def OnlyIn (P : Prog) (x f : Nat) : Prop :=
  x ∈ used (P.func f).body ∧ f < P.count ∧ ∀ g, g < P.count → x ∈ used (P.func g).body → g = f

/-- When demoting `x` to a local variable of `f` is harmless: `f` is `main` and never called, or `f` is not recursive
and gives `x` a value before reading it. -/
def Good (P : Prog) (x f : Nat) : Prop :=
  (f = 0 ∧ ∀ h, ¬ Calls P h 0) ∨ (¬ Reaches P f f ∧ (assigned x false (P.func f).body).isSome)

end Codon.Demote
