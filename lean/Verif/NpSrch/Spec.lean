import Verif.NpSrch.Model
import Verif.Base.Order

/-!
# Places in sorted lists
-/

namespace Codon.NpSrch

variable {α : Type} (lt : α → α → Bool)

/-- No element is followed by a smaller one. -/
def Sorted (b : List α) : Prop := b.Pairwise fun x y => lt y x = false

/-- The elements from which on `x` can be inserted: with `left` those before are smaller and the rest
not; otherwise those before are not greater and the rest is. -/
def Place (left : Bool) (b : List α) (x : α) (i : Nat) : Prop :=
  i ≤ b.length ∧
    (∀ (k : Nat) (e : α), k < i → b[k]? = some e → if left then lt e x = true else lt x e = false) ∧
    (∀ (k : Nat) (e : α), i ≤ k → b[k]? = some e → if left then lt e x = false else lt x e = true)

/-- `a` in the order of the permutation. -/
def Permuted (a : List α) (perm : List Int) (b : List α) : Prop :=
  b.length = perm.length ∧ ∀ (k : Nat) (i : Int), perm[k]? = some i → 0 ≤ i ∧ b[k]? = a[i.toNat]?

/-- The bin of `x`: the bounds on both sides, for bins that go up or down.  With `right` the upper
bound (for bins that go up) belongs to the bin, otherwise the lower. -/
def Bin (up right : Bool) (bins : List α) (x : α) (i : Int) : Prop :=
  0 ≤ i ∧ i ≤ bins.length ∧
    (∀ (k : Nat) (e : α), (k : Int) < i → bins[k]? = some e →
      if up then (if right then lt e x = true else lt x e = false)
      else (if right then lt e x = false else lt x e = true)) ∧
    (∀ (k : Nat) (e : α), i ≤ k → bins[k]? = some e →
      if up then (if right then lt e x = false else lt x e = true)
      else (if right then lt e x = true else lt x e = false))

/-- Where a key lies among sample points: `-1` before the first, `n` after the last, else the last
point that is not after it. -/
def Between (arr : List α) (key : α) (j : Int) : Prop :=
  (j = -1 ∧ ∀ e, arr.head? = some e → lt key e = true) ∨
  (j = arr.length ∧ ∀ e, arr.getLast? = some e → lt e key = true) ∨
  (0 ≤ j ∧ j < arr.length ∧ (∀ e, arr[j.toNat]? = some e → lt key e = false) ∧
    (∀ e, arr[j.toNat + 1]? = some e → lt key e = true) ∧
    (∀ e, arr.getLast? = some e → lt e key = false))

end Codon.NpSrch
