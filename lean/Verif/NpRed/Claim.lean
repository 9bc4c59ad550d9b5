import Verif.NpRed.Model
import Verif.NpRed.Spec
import Mathlib.Data.List.Forall2
/-!
# Specification of the argument `axis` and of the answer of a reduction
-/
namespace Codon.NpRed
open Codon.Numpy
variable {V O : Type}

/-- The number `i` names the axis `k` of an array of `n` dimensions. -/
def Names (n : Nat) (i : Int) (k : Nat) : Prop := k < n ∧ (i = k ∨ i = (k : Int) - n)

/-- The argument `axis` names the axes `ax`; an array without dimensions can be reduced over `0` and `-1`. -/
def AxesOf (n : Nat) : Axis → List Nat → Prop
  | .all, ax => ax = List.range n
  | .one i, ax => (n = 0 ∧ (i = 0 ∨ i = -1) ∧ ax = []) ∨ ∃ k, Names n i k ∧ ax = [k]
  | .many l, ax => List.Forall₂ (Names n) l ax ∧ ax.Nodup

/-- The answer of a reduction: a value if it is over all axes, else a new array. -/
def Answer (P : List V → O → Prop) (h : Heap V) (a : Arr) (wh : Option (Arr × Heap Bool)) (ax : List Nat) (ho : Heap O) (res : Except Fail (Ans O)) : Prop :=
  (ax.length = a.shape.length → ∃ o vs, res = .ok (.num o) ∧ Group h a wh ax [] vs ∧ P vs o) ∧
  (ax.length ≠ a.shape.length → ∃ h' r, res = .ok (.arr h' r) ∧ Reduced P h a wh ax ho h' r)

end Codon.NpRed
