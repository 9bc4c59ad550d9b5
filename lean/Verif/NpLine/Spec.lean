import Verif.NpLine.Model
import Verif.Numpy.Spec
import Verif.Numpy.ViewSpec
/-! # Specification: the lines of an array along an axis -/
namespace Codon.NpLine
open Codon.Numpy
variable {V : Type}

/-- The axis meant by `axis`, negative ones counting from the end. -/
def axisPos (axis : Int) (ndim : Nat) : Nat := (if axis < 0 then axis + ndim else axis).toNat

/-- `l` is the line of `a` along axis `k` with the coordinates `idx` on the other axes. -/
def Line (h : Heap V) (a : Arr) (k : Nat) (idx : List Int) (l : List V) : Prop :=
  l.length = (a.shape.getD k 0).toNat ∧ ∀ i < (a.shape.getD k 0).toNat, a.read h (idx.insertIdx k (i : Int)) = l[i]?

/-- Different elements of `a` lie at different places. -/
def Distinct (a : Arr) : Prop := ∀ c c', Valid c a.shape → Valid c' a.shape → a.addr c = a.addr c' → c = c'

/-- `h'` is `h` with each line of `a` along axis `k` replaced by one related to it by `P`; nothing else is changed. -/
def EachLine (h : Heap V) (a : Arr) (k : Nat) (P : List V → List V → Prop) (h' : Heap V) : Prop :=
  h'.next = h.next ∧ (∀ idx, Valid idx (a.shape.eraseIdx k) → ∃ l l', Line h a k idx l ∧ Line h' a k idx l' ∧ P l l') ∧
  ∀ p : Nat × Int, (∀ c, Valid c a.shape → a.addr c ≠ p) → h'.get p.1 p.2 = h.get p.1 p.2

/-- The elements of `l` in order. -/
def SortedOf (lt : V → V → Bool) (l l' : List V) : Prop := l'.Perm l ∧ l'.Pairwise fun x y => lt y x = false

/-- `r` are the positions of the elements of `l` in order. -/
def ArgSortedOf (lt : V → V → Bool) (l : List V) (r : List Nat) : Prop :=
  r.Perm (List.range l.length) ∧ r.Pairwise fun i j => ∀ x y, l[i]? = some x → l[j]? = some y → lt y x = false

/-- `r` are the positions of the elements of `l` in order, those of equivalent elements ascending. -/
def StableArgSortedOf (lt : V → V → Bool) (l : List V) (r : List Nat) : Prop :=
  r.Perm (List.range l.length) ∧ r.Pairwise fun i j => ∀ x y, l[i]? = some x → l[j]? = some y → lt y x = false ∧ (lt x y = false → i < j)

end Codon.NpLine
