import Verif.NpIns.Model

/-!
# What is put in where
-/

namespace Codon.NpIns

variable {α : Type}

/-- The place before which an index puts a value; the place behind the last element counts, and
negative indices count from the end. -/
def Before (n : Nat) (idx : Int) (k : Nat) : Prop := k ≤ n ∧ ((k : Int) = idx ∨ idx < 0 ∧ (k : Int) = idx + n)

instance (n : Nat) (idx : Int) (k : Nat) : Decidable (Before n idx k) := by unfold Before; infer_instance

/-- Before each element, and at the end, the values for the indices that mean this place, in the order
of the indices. -/
def inserted (a : List α) (obj : List Int) (v : Nat → α) : List α :=
  (List.range (a.length + 1)).flatMap fun k =>
    ((obj.zipIdx.filter fun q => decide (Before a.length q.1 k)).map fun q => v q.2) ++ a[k]?.toList

end Codon.NpIns
