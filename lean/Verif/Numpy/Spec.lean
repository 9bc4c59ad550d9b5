import Verif.Numpy.Model
/-!
# Specification: coordinates, orders, contents of an array
-/
namespace Codon.Numpy
variable {V : Type}

/-- Coordinates inside a shape. -/
def Valid : List Int → List Int → Prop
  | [], [] => True
  | c :: cs, n :: ns => (0 ≤ c ∧ c < n) ∧ Valid cs ns
  | _, _ => False

/-- Row-major order of coordinates: the first difference decides. -/
def cLess : List Int → List Int → Prop
  | a :: as, b :: bs => a < b ∨ (a = b ∧ cLess as bs)
  | _, _ => False

/-- Column-major order: the last difference decides. -/
def fLess (a b : List Int) : Prop := cLess a.reverse b.reverse

/-- `cs` are all coordinates of the shape, each once, in increasing order. -/
def InOrder (less : List Int → List Int → Prop) (shape : List Int) (cs : List (List Int)) : Prop :=
  cs.Pairwise less ∧ ∀ c, c ∈ cs ↔ Valid c shape

/-- `vs` are the elements of `a`, in the order `less` of their coordinates. -/
def Elems (less : List Int → List Int → Prop) (h : Heap V) (a : Arr) (vs : List V) : Prop :=
  ∃ cs, InOrder less a.shape cs ∧ cs.mapM (a.read h) = some vs

/-- A proper array: a stride for every dimension, no negative dimension, and memory behind every coordinate. -/
structure Arr.WF (a : Arr) (h : Heap V) : Prop where
  len : a.shape.length = a.strides.length
  nonneg : ∀ n ∈ a.shape, 0 ≤ n
  alloc : ∀ c, Valid c a.shape → ∃ v, a.read h c = some v
  block : a.blk < h.next

/-- Everything that was allocated before is unchanged. -/
def Kept (h h' : Heap V) : Prop := ∀ b < h.next, h'.get b = h.get b

end Codon.Numpy
