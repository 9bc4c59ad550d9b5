import Verif.Slice.Spec

/-! Python's behaviour of sequences, on mathematical lists. -/

namespace Codon.ListM.Spec

open Codon.SliceSpec

section
variable {T : Type}

/-- The position an index denotes in a sequence of length `n`, if any. -/
def pos (n : Nat) (i : Int) : Option Nat :=
  let j := if i < 0 then i + n else i
  if 0 ≤ j ∧ j < n then some j.toNat else none

/-- The position at which `insert` puts the new element. -/
def insPos (n : Nat) (i : Int) : Nat :=
  (clamp 0 n (rel n i)).toNat

/-- `xs[start:stop:step]`. -/
def slice (xs : List T) (start stop : Option Int) (k : Int) : List T :=
  (positions xs.length start stop k).filterMap fun p => xs[p]?

/-- `del xs[start:stop:step]`: what is left. -/
def delSlice (xs : List T) (start stop : Option Int) (k : Int) : List T :=
  ((List.range xs.length).filter fun p => ¬ Selected xs.length start stop k p).filterMap
    fun p => xs[p]?

/-- `xs[start:stop] = ys`: the part before the slice, the new elements, the part after it.  (If the
slice is empty, the new elements go to its first position.) -/
def assign (xs : List T) (start stop : Option Int) (ys : List T) : List T :=
  let i := first xs.length start 1
  let j := max i (last xs.length stop 1)
  xs.take i.toNat ++ ys ++ xs.drop j.toNat

/-- `zs` is the result of `xs[start:stop:step] = ys` with as many elements as positions: the i-th
selected position holds the i-th new element, other positions are unchanged. -/
def IsExtAssign (xs : List T) (start stop : Option Int) (k : Int) (ys zs : List T) : Prop :=
  zs.length = xs.length ∧
  (∀ i p : Nat, (positions xs.length start stop k)[i]? = some p → zs[p]? = ys[i]?) ∧
  (∀ p : Nat, ¬ Selected xs.length start stop k p → zs[p]? = xs[p]?)

example : slice [10, 11, 12, 13, 14, 15] (some (-1)) none (-2) = [15, 13, 11] := by decide
example : delSlice [10, 11, 12, 13, 14, 15] (some 1) none 2 = [10, 12, 14] := by decide
example : assign [10, 11, 12, 13] (some 1) (some (-1)) [7, 8, 9] = [10, 7, 8, 9, 13] := by decide
example : assign [10, 11, 12, 13] (some 3) (some 1) [7] = [10, 11, 12, 7, 13] := by decide

end

end Codon.ListM.Spec
