/-!
# Specification of Python slicing (independent of the code)

Python reference: "the slice of `s` from `i` to `j` with step `k` is the sequence of items with
index `x = i + n*k` such that `0 <= n < (j-i)/k`"; a negative `i`/`j` is relative to the end; a
bound outside the sequence is moved to the nearest end; an omitted bound is the respective end.
-/
namespace Codon.SliceSpec

/-- A bound relative to the end of a sequence of length `len` if negative. -/
def rel (len i : Int) : Int := if i < 0 then i + len else i

/-- Move `x` into the interval `[lo, hi]`. -/
def clamp (lo hi x : Int) : Int := max lo (min hi x)

/-- First candidate position. -/
def first (len : Int) (start : Option Int) (k : Int) : Int :=
  if 0 < k then
    match start with
    | none => 0
    | some i => clamp 0 len (rel len i)
  else
    match start with
    | none => len - 1
    | some i => clamp (-1) (len - 1) (rel len i)

/-- Position at which (exclusively) the slice ends. -/
def last (len : Int) (stop : Option Int) (k : Int) : Int :=
  if 0 < k then
    match stop with
    | none => len
    | some i => clamp 0 len (rel len i)
  else
    match stop with
    | none => -1
    | some i => clamp (-1) (len - 1) (rel len i)

/-- `x` is a selected position of a sequence of length `n`. -/
def Selected (n : Nat) (start stop : Option Int) (k : Int) (x : Nat) : Prop :=
  x < n ∧ k ∣ ((x : Int) - first n start k) ∧
  (if 0 < k then first n start k ≤ x ∧ (x : Int) < last n stop k
   else (x : Int) ≤ first n start k ∧ last n stop k < x)

instance (n start stop k x) : Decidable (Selected n start stop k x) := by
  unfold Selected; infer_instance

/-- The selected positions in the order of the slice: increasing for a positive step, decreasing
for a negative one. -/
def positions (n : Nat) (start stop : Option Int) (k : Int) : List Nat :=
  let l := (List.range n).filter (fun x => Selected n start stop k x)
  if 0 < k then l else l.reverse

-- `"abcdefghij"[1:8:3]`, `[::-4]`, `[-3:]`, `[8:-20:-3]`
example : positions 10 (some 1) (some 8) 3 = [1, 4, 7] := by decide
example : positions 10 none none (-4) = [9, 5, 1] := by decide
example : positions 10 (some (-3)) none 1 = [7, 8, 9] := by decide
example : positions 10 (some 8) (some (-20)) (-3) = [8, 5, 2] := by decide

end Codon.SliceSpec
