import Verif.Numpy.Spec
import Verif.Numpy.ViewModel
import Verif.Slice.Spec
/-!
# Specification of basic indexing
-/
namespace Codon.Numpy
open Codon.SliceSpec

/-- Number of axes that the items of an index use up. -/
def used : List Idx → Nat
  | [] => 0
  | .int _ :: r => used r + 1
  | .slice _ _ _ :: r => used r + 1
  | .newaxis :: r => used r
  | .ellipsis :: r => used r

/-- Element `c` of the result is element `i` of an array of shape `sh`: an integer fixes the coordinate (negative ones count from the end), a slice selects Python's positions,
    `None` is an axis of length one, `...` and the end of the index stand for whole axes. -/
def Sel : List Idx → List Int → List Int → List Int → Prop
  | [], sh, c, i => Valid c sh ∧ c = i
  | .int k :: r, n :: sh, c, j :: i => (j = rel n k ∧ 0 ≤ j ∧ j < n) ∧ Sel r sh c i
  | .slice b e k :: r, n :: sh, t :: c, j :: i => (0 ≤ t ∧ 0 ≤ j ∧ (positions n.toNat b e (k.getD 1))[t.toNat]? = some j.toNat) ∧ Sel r sh c i
  | .newaxis :: r, sh, t :: c, i => t = 0 ∧ Sel r sh c i
  | .ellipsis :: r, sh, c, i => ∃ m, sh.length = m + used r ∧ Valid (c.take m) (sh.take m) ∧ c.take m = i.take m ∧ Sel r (sh.drop m) (c.drop m) (i.drop m)
  | _, _, _, _ => False

/-- Every integer is in range and no step is zero. -/
def Proper : List Idx → List Int → Prop
  | [], _ => True
  | .int k :: r, n :: sh => (-n ≤ k ∧ k < n) ∧ Proper r sh
  | .slice _ _ k :: r, _ :: sh => k ≠ some 0 ∧ Proper r sh
  | .newaxis :: r, sh => Proper r sh
  | .ellipsis :: r, sh => Proper r (sh.drop (sh.length - used r))
  | _ :: _, [] => False

/-- The shape of the result. -/
def resShape : List Idx → List Int → List Int
  | [], sh => sh
  | .int _ :: r, _ :: sh => resShape r sh
  | .slice b e k :: r, n :: sh => ((positions n.toNat b e (k.getD 1)).length : Int) :: resShape r sh
  | .newaxis :: r, sh => 1 :: resShape r sh
  | .ellipsis :: r, sh => sh.take (sh.length - used r) ++ resShape r (sh.drop (sh.length - used r))
  | _ :: _, [] => []

/-- Where the element with coordinates `c` lies. -/
def Arr.addr (a : Arr) (c : List Int) : Nat × Int := (a.blk, a.off + ptrOff c a.strides)

/-- Exchange of two coordinates. -/
def exchange (i j : Nat) (c : List Int) : List Int := (List.range c.length).map fun k => c.getD (if k = i then j else if k = j then i else k) 0

end Codon.Numpy
