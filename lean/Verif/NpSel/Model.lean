import Verif.Sort.Model
/-!
# Model of `np.partition`: stdlib/numpy/sorting.codon:1503-1904

Arrays are lists with checked accesses (`Codon.Sort.rd`, `wr`, `swap`): `none` is an access outside the array (or a loop running longer than its fuel, which the theorems exclude).  `lt x y` is
`_less(x, y)`.  Where the code passes a pointer to a part of the array, the model passes positions in the whole array.  `np.argpartition` runs the same code on an array of indices, with
`lt i j = _less(v[i], v[j])`.
-/
namespace Codon.NpSel
open Codon.Sort

variable {α : Type} (lt : α → α → Bool)

/-- `MAX_PIVOT_STACK` (sorting.codon:1503). -/
def maxPivots : Nat := 50

/-- `_store_pivot` (sorting.codon:1544-1552): the pivots that are known, the last one first; `none` is the null pointer. -/
def storePivot (pivot kth : Int) (piv : Option (List Int)) : Option (List Int) :=
  match piv with
  | none => none
  | some st =>
    if pivot = kth ∧ st.length = maxPivots then some (pivot :: st.tail)
    else if pivot ≥ kth ∧ st.length < maxPivots then some (pivot :: st)
    else some st

/-- `_median3_swap` (sorting.codon:1554-1571). -/
def median3Swap (a : List α) (low mid high : Int) : Option (List α) := do
  let a ← (if lt (← rd a high) (← rd a mid) then swap a high mid else some a)
  let a ← (if lt (← rd a high) (← rd a low) then swap a high low else some a)
  let a ← (if lt (← rd a low) (← rd a mid) then swap a low mid else some a)
  swap a mid (low + 1)

/-- `_median5` (sorting.codon:1573-1602) of the five elements from `b` on. -/
def median5 (a : List α) (b : Int) : Option (List α × Int) := do
  let a ← (if lt (← rd a (b + 1)) (← rd a b) then swap a (b + 1) b else some a)
  let a ← (if lt (← rd a (b + 4)) (← rd a (b + 3)) then swap a (b + 4) (b + 3) else some a)
  let a ← (if lt (← rd a (b + 3)) (← rd a b) then swap a (b + 3) b else some a)
  let a ← (if lt (← rd a (b + 4)) (← rd a (b + 1)) then swap a (b + 4) (b + 1) else some a)
  let a ← (if lt (← rd a (b + 2)) (← rd a (b + 1)) then swap a (b + 2) (b + 1) else some a)
  if lt (← rd a (b + 3)) (← rd a (b + 2)) then
    if lt (← rd a (b + 3)) (← rd a (b + 1)) then some (a, 1) else some (a, 3)
  else some (a, 2)

/-- `while True: ll += 1; if not _less(v[ll], pivot): break` (sorting.codon:1613-1616). -/
def scanUp (pivot : α) : Nat → List α → Int → Option Int
  | 0, _, _ => none
  | n + 1, a, ll => do
    if lt (← rd a (ll + 1)) pivot then scanUp pivot n a (ll + 1) else some (ll + 1)

/-- `while True: hh -= 1; if not _less(pivot, v[hh]): break` (sorting.codon:1618-1621). -/
def scanDown (pivot : α) : Nat → List α → Int → Option Int
  | 0, _, _ => none
  | n + 1, a, hh => do
    if lt pivot (← rd a (hh - 1)) then scanDown pivot n a (hh - 1) else some (hh - 1)

/-- `_unguarded_partition` (sorting.codon:1604-1628). -/
def unguarded (pivot : α) : Nat → List α → Int → Int → Option (List α × Int × Int)
  | 0, _, _, _ => none
  | n + 1, a, ll, hh => do
    let ll ← scanUp lt pivot (a.length + 1) a ll
    let hh ← scanDown lt pivot (a.length + 1) a hh
    if hh < ll then some (a, ll, hh)
    else unguarded pivot n (← swap a ll hh) ll hh

/-- The loop of `_median_of_median5` (sorting.codon:1642-1645): `n` groups are left, `i` is the place for the next median and `sub` the next group. -/
def mom5Loop : Nat → List α → Int → Int → Option (List α)
  | 0, a, _, _ => some a
  | n + 1, a, i, sub => do
    let (a, m) ← median5 lt a sub
    mom5Loop n (← swap a (sub + m) i) (i + 1) (sub + 5)

/-- `_median_of_median5` (sorting.codon:1630-1650) of the `num` elements from `b` on; `isel a b n k` is `_introselect` of `n` elements from `b` on. -/
def mom5 (isel : List α → Int → Nat → Int → Option (List α)) (a : List α) (b : Int) (num : Nat) : Option (List α × Int) := do
  let nmed := num / 5
  let a ← mom5Loop lt nmed a b b
  let a ← (if nmed > 2 then isel a b nmed (b + (nmed / 2 : Nat)) else some a)
  some (a, b + (nmed / 2 : Nat))

/-- The inner loop of `_dumb_select` (sorting.codon:1663-1666), with `n` elements left. -/
def minLoop : Nat → List α → Int → Int → α → Option Int
  | 0, _, _, mi, _ => some mi
  | n + 1, a, k, mi, mv => do
    let x ← rd a k
    if lt x mv then minLoop n a (k + 1) k x else minLoop n a (k + 1) mi mv

/-- `_dumb_select` (sorting.codon:1652-1667): `n` elements are left to be selected, the next one goes to `i`; the part ends at `high`. -/
def dumbSelect (high : Int) : Nat → List α → Int → Option (List α)
  | 0, a, _ => some a
  | n + 1, a, i => do
    let mi ← minLoop lt (high - i).toNat a (i + 1) i (← rd a i)
    dumbSelect high n (← swap a i mi) (i + 1)

/-- `_msb` (sorting.codon:1669-1674). -/
def msb : Nat → Nat → Int
  | 0, _ => 0
  | f + 1, n => if n / 2 = 0 then 0 else 1 + msb f (n / 2)

/-- The search for known pivots (sorting.codon:1690-1698): the bounds and the pivots that stay, or `none` if the element is in its place already. -/
def usePivots (kth : Int) : List Int → Int → Int → Option (Int × Int × List Int)
  | [], low, high => some (low, high, [])
  | p :: st, low, high =>
    if p > kth then some (low, p - 1, p :: st)
    else if p = kth then none
    else usePivots kth st (p + 1) high

/-- The loop for the largest element (sorting.codon:1707-1710), with `n` elements left. -/
def maxLoop : Nat → List α → Int → Int → α → Option Int
  | 0, _, _, mi, _ => some mi
  | n + 1, a, k, mi, mv => do
    let x ← rd a k
    if !lt x mv then maxLoop n a (k + 1) k x else maxLoop n a (k + 1) mi mv

/-- The choice of the pivot (sorting.codon:1717-1727): the array with the pivot at `low`, and where the searches start. -/
def choose (isel : List α → Int → Nat → Int → Option (List α)) (a : List α) (low high depth : Int) : Option (List α × Int × Int) :=
  if depth > 0 ∨ high - (low + 1) < 5 then do
    let a ← median3Swap lt a low (low + (high - low) / 2) high
    some (a, low + 1, high)
  else do
    let (a, mid) ← mom5 lt isel a (low + 1) (high - (low + 1)).toNat
    let a ← swap a mid low
    some (a, low, high + 1)

/-- The main loop of `_introselect` (sorting.codon:1716-1742). -/
def selLoop (isel : List α → Int → Nat → Int → Option (List α)) (kth : Int) :
    Nat → List α → Int → Int → Int → Option (List Int) → Option (List α × Int × Int × Option (List Int))
  | 0, _, _, _, _, _ => none
  | n + 1, a, low, high, depth, piv =>
    if low + 1 < high then do
      let (a, ll, hh) ← choose lt isel a low high depth
      let (a, ll, hh) ← unguarded lt (← rd a low) (a.length + 1) a ll hh
      let a ← swap a low hh
      let piv := if hh ≠ kth then storePivot hh kth piv else piv
      let high := if hh ≥ kth then hh - 1 else high
      let low := if hh ≤ kth then ll else low
      selLoop isel kth n a low high (depth - 1) piv
    else some (a, low, high, piv)

/-- The bounds that are known at the beginning (sorting.codon:1685-1699): low, high and the pivots that stay; `none` if the element is in its place already. -/
def bounds (piv : Option (List Int)) (kth low high : Int) : Option (Int × Int × Option (List Int)) :=
  match piv with
  | none => some (low, high, none)
  | some st => (usePivots kth st low high).map fun r => (r.1, r.2.1, some r.2.2)

/-- `_introselect` (sorting.codon:1676-1748) of the `num` elements from `b` on; `kth` is a position in the whole array, `inexact` says that the elements are floats. -/
def introselect (inexact : Bool) : Nat → List α → Int → Nat → Int → Option (List Int) → Option (List α × Option (List Int))
  | 0, _, _, _, _, _ => none
  | fuel + 1, a, b, num, kth, piv =>
    match bounds piv kth b (b + num - 1) with
    | none => some (a, piv.map (List.dropWhile fun p => decide (p < kth)))
    | some (low, high, piv) =>
      if kth - low < 3 then do
        let a ← dumbSelect lt high (kth - low + 1).toNat a low
        some (a, storePivot kth kth piv)
      else if inexact ∧ kth = b + num - 1 then do
        let mi ← maxLoop lt (b + num - (low + 1)).toNat a (low + 1) low (← rd a low)
        let a ← swap a kth mi
        some (a, piv)
      else do
        let (a, low, high, piv) ← selLoop lt (fun a b n k => (introselect inexact fuel a b n k none).map Prod.fst) kth (num + 1) a low high (msb num num * 2) piv
        let a ← (if high = low + 1 then (do if lt (← rd a high) (← rd a low) then swap a high low else some a) else some a)
        some (a, storePivot kth kth piv)

/-- The loop of `_partition_compact` and `_partition_buffered` over the positions asked for (sorting.codon:1765-1766, 1784-1785). -/
def partitionLoop (inexact : Bool) : List Int → List α → List Int → Option (List α)
  | [], a, _ => some a
  | k :: ks, a, st => do
    let (a, piv) ← introselect lt inexact (a.length + 1) a 0 a.length k (some st)
    partitionLoop inexact ks a (piv.getD [])

/-- The first loop of `_fix_kth` (sorting.codon:1806-1811): `none` is the exception. -/
def fixKth (n : Nat) : List Int → Option (List Int)
  | [] => some []
  | k :: ks =>
    let k := if k < 0 then k + n else k
    if k < 0 ∨ k ≥ n then none else (fixKth n ks).map (k :: ·)

/-! ### The comparison (sorting.codon:13-26)

A float is `none` (not a number) or `some x`; `lt0` compares the others (so `-0.0` and `0.0` are two values, neither of which is less). -/

section Less
variable {β : Type} (lt0 : β → β → Bool)

/-- `a < b` on floats. -/
def flt : Option β → Option β → Bool
  | some x, some y => lt0 x y
  | _, _ => false

/-- `a == b` on floats. -/
def feq : Option β → Option β → Bool
  | some x, some y => !lt0 x y && !lt0 y x
  | _, _ => false

/-- `_less` of floats (sorting.codon:15). -/
def fless (a b : Option β) : Bool := flt lt0 a b || (!feq lt0 b b && feq lt0 a a)

/-- `_less` of complex numbers (sorting.codon:17-24), pairs of a real and an imaginary part. -/
def cless (a b : Option β × Option β) : Bool :=
  if flt lt0 a.1 b.1 then feq lt0 a.2 a.2 || !feq lt0 b.2 b.2
  else if flt lt0 b.1 a.1 then !feq lt0 b.2 b.2 && feq lt0 a.2 a.2
  else if feq lt0 a.1 b.1 || (!feq lt0 a.1 a.1 && !feq lt0 b.1 b.1) then flt lt0 a.2 b.2 || (!feq lt0 b.2 b.2 && feq lt0 a.2 a.2)
  else !feq lt0 b.1 b.1
end Less

/-- The comparison in `argpartition` (sorting.codon:1847-1904): the array holds indices, which are compared by the elements they stand for.  The code only moves the indices `0 … n - 1` that it
has put there itself, so they are `Fin` here. -/
def argLt (v : List α) (i j : Fin v.length) : Bool := lt v[i] v[j]

/-- `argpartition` of a line (sorting.codon:1865-1890). -/
def argPartitionLoop (inexact : Bool) (ks : List Int) (v : List α) : Option (List (Fin v.length)) :=
  partitionLoop (argLt lt v) inexact ks (List.finRange v.length) []

end Codon.NpSel
