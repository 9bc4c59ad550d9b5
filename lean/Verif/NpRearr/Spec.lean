import Verif.NpRearr.Model

/-!
# What is kept
-/

namespace Codon.NpRearr

variable {α : Type}

/-- The elements with a number for which something holds, in order. -/
def keep (p : Nat → Bool) (a : List α) : List α := (a.zipIdx.filter fun q => p q.2).map (·.1)

/-- The place an index means, counted from the end if negative. -/
def Means (n : Nat) (idx : Int) (k : Nat) : Prop := k < n ∧ ((k : Int) = idx ∨ (k : Int) = idx + n ∧ idx < 0)

end Codon.NpRearr
