import Verif.Numpy.ViewSpec
import Verif.Numpy.LoopModel
/-!
# Specification of broadcasting
-/
namespace Codon.Numpy
variable {V : Type}

/-- The size of the `k`-th dimension from the end; missing dimensions count as 1. -/
def dimAt (sh : List Int) (k : Nat) : Int := (sh.reverse[k]?).getD 1

/-- The shapes broadcast to `s`: aligned at the end, in every position all sizes are 1 or the size of `s`, and `s` is no larger than needed. -/
def Broadcasts (shs : List (List Int)) (s : List Int) : Prop :=
  (∀ sh ∈ shs, sh.length ≤ s.length) ∧ (∃ sh ∈ shs, sh.length = s.length) ∧
  ∀ k < s.length, (∀ sh ∈ shs, dimAt sh k = 1 ∨ dimAt sh k = dimAt s k) ∧ ∃ sh ∈ shs, dimAt sh k = dimAt s k

/-- The coordinates of the element of an array of shape `sh` that stands at `c` in the broadcast shape. -/
def proj (sh c : List Int) : List Int := List.zipWith (fun n x => if n = 1 then 0 else x) sh (c.drop (c.length - sh.length))

/-- `r` in heap `h'` is a new array of shape `s` with the given elements; all that was there before is unchanged. -/
def NewArray (h : Heap V) (s : List Int) (elem : List Int → Option V) (h' : Heap V) (r : Arr) : Prop :=
  r.shape = s ∧ r.WF h' ∧ r.blk = h.next ∧ Kept h h' ∧ (∀ c c', Valid c s → Valid c' s → r.addr c = r.addr c' → c = c') ∧ ∀ c, Valid c s → r.read h' c = elem c

/-- `h'` is `h` with new values at the elements of `a`, which get those of `elem`; nothing else is changed. -/
def Updated (h : Heap V) (a : Arr) (elem : List Int → Option V) (h' : Heap V) : Prop :=
  h'.next = h.next ∧ (∀ c, Valid c a.shape → a.read h' c = elem c) ∧ ∀ p : Nat × Int, (∀ c, Valid c a.shape → a.addr c ≠ p) → h'.get p.1 p.2 = h.get p.1 p.2

end Codon.Numpy
