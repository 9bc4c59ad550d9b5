import Verif.Numpy.LoopSpec
/-!
# Specification of reductions: which elements belong to an element of the result
-/
namespace Codon.NpRed
open Codon.Numpy
variable {V O : Type}

/-- The coordinates along the axes that are not in `ax`. -/
def outPart (ax : List Nat) (c : List Int) : List Int := ((List.range c.length).filter fun i => decide (i ∉ ax)).map fun i => c.getD i 0

/-- The mask, if there is one, selects the element at `c`. -/
def Selected (wh : Option (Arr × Heap Bool)) (c : List Int) : Prop := ∀ m g, wh = some (m, g) → m.read g c = some true

/-- `vs` are the elements of `a` that belong to the element `idx` of the result when reducing over the axes `ax`, in row-major order. -/
def Group (h : Heap V) (a : Arr) (wh : Option (Arr × Heap Bool)) (ax : List Nat) (idx : List Int) (vs : List V) : Prop :=
  ∃ cs : List (List Int), cs.Pairwise cLess ∧ (∀ c, c ∈ cs ↔ Valid c a.shape ∧ outPart ax c = idx ∧ Selected wh c) ∧ cs.mapM (a.read h) = some vs

/-- A mask of the same shape. -/
def MaskOk (a : Arr) (wh : Option (Arr × Heap Bool)) : Prop := ∀ m g, wh = some (m, g) → m.WF g ∧ m.shape = a.shape

/-- `r` in heap `h'` is a new array whose elements are each right, in the sense of `P`, for the elements of `a` that belong to them. -/
def Reduced (P : List V → O → Prop) (h : Heap V) (a : Arr) (wh : Option (Arr × Heap Bool)) (ax : List Nat) (ho h' : Heap O) (r : Arr) : Prop :=
  ∃ val : List Int → O, NewArray ho (outPart ax a.shape) (fun idx => some (val idx)) h' r ∧ ∀ idx, Valid idx (outPart ax a.shape) → ∃ vs, Group h a wh ax idx vs ∧ P vs (val idx)

/-- `i` is the position of the first element before which no other comes. -/
def FirstBest (lt : V → V → Bool) (vs : List V) (i : Nat) : Prop :=
  ∃ v, vs[i]? = some v ∧ (∀ x ∈ vs, lt x v = false) ∧ ∀ j < i, ∀ x, vs[j]? = some x → lt v x = true

/-- `m` is among the elements and the initial value, if there is one, and none of them comes before it. -/
def Best (lt : V → V → Bool) (initial : Option V) (vs : List V) (m : V) : Prop :=
  (m ∈ vs ∨ initial = some m) ∧ (∀ x ∈ vs, lt x m = false) ∧ ∀ x, initial = some x → lt x m = false

/-- A strict linear order. -/
structure Linear (lt : V → V → Bool) : Prop where
  irrefl : ∀ x, lt x x = false
  trans : ∀ x y z, lt x y = true → lt y z = true → lt x z = true
  total : ∀ x y, lt x y = false → lt y x = false → x = y

end Codon.NpRed
