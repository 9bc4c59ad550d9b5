import Verif.NpSel.Model
import Verif.Base.Order
/-! # C76: what `np.partition` promises -/
namespace Codon.NpSel

variable {α : Type}

/-- Position `k` holds an element that is not less than any before it and not greater than any after it. -/
def SplitAt (lt : α → α → Bool) (a : List α) (k : Nat) : Prop :=
  ∃ x, a[k]? = some x ∧ (∀ i y, i < k → a[i]? = some y → lt x y = false) ∧ ∀ j y, k < j → a[j]? = some y → lt y x = false

/-- In ascending order. -/
def Ascending (lt : α → α → Bool) (s : List α) : Prop := s.Pairwise fun x y => lt y x = false

/-- Position `k` of a line of `n` elements as Python counts it: `k` itself, or from the end. -/
def PyPos (n : Nat) (k : Int) (p : Nat) : Prop := p < n ∧ (k = p ∨ k = (p : Int) - n)

end Codon.NpSel
