import Verif.Canon.Model
/-!
What canonicalisation must preserve.
-/
namespace Codon.Canon
open Codon.Arith Codon.Fold

/-- Undefined behaviour or no result at all. -/
def Res.stuck : Res → Prop
  | .ub => True
  | .diverges => True
  | _ => False

/-- Same state and same result, or both stuck in the same state. -/
def Agree {S : Type} (p q : S × Res) : Prop := p.1 = q.1 ∧ (p.2 = q.2 ∨ (Res.stuck p.2 ∧ Res.stuck q.2))

/-- What the analysis promises about the operands it calls pure. -/
def Respects {S : Type} (ρ : Ext S) (isPure : Nat → Bool) : Prop :=
  ∀ i, isPure i = true → ∀ s, (ρ i s).1 = s ∧ ((∃ v, (ρ i s).2 = .ret v) ∨ Res.stuck (ρ i s).2)

/-- What a Python programmer expects of a comparison of a class: the method that was written is called. -/
def Faithful {α : Type} (m : Methods α) (f : Cmp → α → α → Bool) : Prop := ∀ o x y, f o x y = m.run o x y

end Codon.Canon
