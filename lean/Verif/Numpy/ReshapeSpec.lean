import Verif.Numpy.Spec
import Mathlib.Data.List.Forall2
/-!
# Specification of reshaping
-/
namespace Codon.Numpy
variable {V : Type}

/-- A shape of `n` elements that agrees with the requested dimensions, except that a negative dimension may be anything. -/
def Fits (n : Int) (req s : List Int) : Prop := List.Forall₂ (fun d e => 0 ≤ e ∧ (0 ≤ d → e = d)) req s ∧ s.foldr (· * ·) 1 = n

/-- The request has at most one negative dimension and leaves exactly one choice. -/
def Requests (n : Int) (req s : List Int) : Prop := (req.filter (· < 0)).length ≤ 1 ∧ Fits n req s ∧ ∀ s', Fits n req s' → s' = s

/-- `b` shares the memory of `a`: whatever that memory contains, both list the same elements. -/
def SameView (less : List Int → List Int → Prop) (a b : Arr) : Prop :=
  a.blk = b.blk ∧ ∀ {V : Type} (h : Heap V), a.WF h → ∃ vs, Elems less h a vs ∧ Elems less h b vs

end Codon.Numpy
