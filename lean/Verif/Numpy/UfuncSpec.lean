import Verif.Numpy.LoopSpec
import Verif.Numpy.UfuncModel
/-!
# Specification of the arguments of universal functions
-/
namespace Codon.Numpy
variable {V : Type}

/-- An array of shape `sh` can be stretched to shape `s`. -/
def Stretches (sh s : List Int) : Prop := Broadcasts [sh, s] s

/-- No two elements of `o` share their memory. -/
def Arr.NoRepeat (o : Arr) : Prop := ∀ c c', Valid c o.shape → Valid c' o.shape → o.addr c = o.addr c' → c = c'

/-- No element of `o` shares its memory with an element of `x` that stands at another place. -/
def Arr.Apart (o x : Arr) : Prop := ∀ c c', Valid c o.shape → Valid c' o.shape → o.addr c = x.addr (proj x.shape c') → c = c'

/-- The mask can be stretched to the shape of the result. -/
def Where.Fits (wh : Where) (h : Heap V) (s : List Int) : Prop :=
  match wh with
  | .const _ => True
  | .mask m => m.arr.WF h ∧ Stretches m.arr.shape s

/-- The mask does not lie in the result. -/
def Where.Apart (wh : Where) (o : Arr) : Prop :=
  match wh with
  | .const _ => True
  | .mask m => o.Apart m.arr

/-- Whether the element at `c` is to be computed. -/
def Where.on (wh : Where) (tr : V → Bool) (h : Heap V) (c : List Int) : Option Bool :=
  match wh with
  | .const b => some b
  | .mask m => (m.arr.read h (proj m.arr.shape c)).map tr

/-- The element of the result at `c`. -/
def unaryElem (op : V → V) (tr : V → Bool) (x o : Arr) (wh : Where) (h : Heap V) (c : List Int) : Option V :=
  (wh.on tr h c).bind fun b => if b then (x.read h (proj x.shape c)).map op else o.read h c

/-- The element of the result at `c`. -/
def binaryElem (op : V → V → V) (tr : V → Bool) (x y o : Arr) (wh : Where) (h : Heap V) (c : List Int) : Option V :=
  (wh.on tr h c).bind fun b => if b then (x.read h (proj x.shape c)).bind fun u => (y.read h (proj y.shape c)).map (op u) else o.read h c

/-- Calls that the vectorised loop does right: operands and result have elements of the same size, the result is not empty, nothing is stretched in one dimension but numbers,
    and if the first operand is stretched, the result is short. -/
structure VecSafe (L : Nat) (x y : Opd) (s : List Int) (w : Int) : Prop where
  pos : ∀ n ∈ s, 0 < n
  wx : x.w = w
  wy : y.w = w
  x1 : s.length = 1 → x.arr.shape = [] ∨ x.arr.shape = s
  y1 : s.length = 1 → y.arr.shape = [] ∨ y.arr.shape = s
  short : (∀ n ∈ s, n < 2 * L) ∨ (x.arr.shape = s ∧ ∀ st ∈ x.arr.strides, st ≠ 0)

end Codon.Numpy
