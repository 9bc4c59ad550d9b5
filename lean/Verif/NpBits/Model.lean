/-!
# Bits and indices of arrays

Source: `/repo/stdlib/numpy/routines.codon:242-254` (`_diag_count`), `:3522-3655` (`ravel_multi_index`,
`unravel_index`), `:4458-4633` (`packbits`, `unpackbits`); `/repo/stdlib/numpy/util.codon:283-329`
(`index_to_coords`, `index_to_fcoords`, `coords_to_index`, `coords_to_findex`).

Simplifications: integers do not overflow; one index at a time; of `packbits` and `unpackbits` the
versions for one row (with `axis` the same loop runs over each row), with the elements of the array as
a list in the order of `multirange` and their truth as Booleans.
-/

namespace Codon.NpBits

/-- How a function ends; `bad` is that the bound on the number of rounds is used up. -/
inductive Out (α : Type) where
  | ok (a : α)
  | valueError
  | bad
  deriving DecidableEq, Repr

/-! ### Indices -/

/-- `while idx < 0: idx += dim` (`routines.codon:3529-3530`). -/
def wrapUp (dim : Int) : Nat → Int → Out Int
  | 0, _ => .bad
  | f + 1, idx => if idx < 0 then wrapUp dim f (idx + dim) else .ok idx

/-- `while idx >= dim: idx -= dim` (`routines.codon:3532-3533`). -/
def wrapDown (dim : Int) : Nat → Int → Out Int
  | 0, _ => .bad
  | f + 1, idx => if idx ≥ dim then wrapDown dim f (idx - dim) else .ok idx

/-- `fix_index` (`routines.codon:3523-3540`). -/
def fixIndex (idx dim : Int) (mode : String) : Out Int :=
  if mode = "raise" then
    if idx < 0 ∨ idx ≥ dim then .valueError else .ok idx
  else if mode = "wrap" then
    if idx < 0 then wrapUp dim (idx.natAbs + 1) idx
    else if idx ≥ dim then wrapDown dim (idx.natAbs + 1) idx
    else .ok idx
  else if mode = "clip" then
    if idx < 0 then .ok 0
    else if idx ≥ dim then .ok (dim - 1)
    else .ok idx
  else .ok idx

/-- `fix_index` for each axis. -/
def fixAll (mode : String) : List Int → List Int → Out (List Int)
  | i :: is, d :: ds =>
    match fixIndex i d mode with
    | .ok i =>
      match fixAll mode is ds with
      | .ok l => .ok (i :: l)
      | o => o
    | .valueError => .valueError
    | .bad => .bad
  | _, _ => .ok []

/-- `coords_to_findex` (`util.codon:321-329`). -/
def toIndex : List Int → List Int → Int → Int → Int
  | c :: cs, d :: ds, s, idx => toIndex cs ds (s * d) (idx + c * s)
  | _, _, _, idx => idx

/-- `index_to_fcoords` (`util.codon:297-309`); the index is not negative and the limits are positive
here, so that `divmod` is `/` and `%`. -/
def toCoords : Int → List Int → List Int
  | _, [] => []
  | index, d :: ds => (index % d) :: toCoords (index / d) ds

/-- `ravel_multi_index` (`routines.codon:3522-3606`) with one index per axis.  `coords_to_index`
(`util.codon:311-319`) goes from the last axis to the first. -/
def ravelMultiIndex (multiIndex dims : List Int) (mode order : String) : Out Int :=
  if dims.any fun d => decide (d ≤ 0) then .valueError
  else if mode ≠ "raise" ∧ mode ≠ "wrap" ∧ mode ≠ "clip" then .valueError
  else if order ≠ "C" ∧ order ≠ "F" then .valueError
  else if multiIndex.length ≠ dims.length then .valueError
  else
    match fixAll mode multiIndex dims with
    | .ok idx =>
      if order = "C" then .ok (toIndex idx.reverse dims.reverse 1 0) else .ok (toIndex idx dims 1 0)
    | .valueError => .valueError
    | .bad => .bad

/-- `unravel_index` (`routines.codon:3608-3655`) with one index.  `index_to_coords`
(`util.codon:283-295`) goes from the last axis to the first. -/
def unravelIndex (index : Int) (shape : List Int) (order : String) : Out (List Int) :=
  if order ≠ "C" ∧ order ≠ "F" then .valueError
  else if shape.length = 0 then
    if index < 0 ∨ index ≥ 1 then .valueError else .ok []
  else if shape.any fun s => decide (s < 0) then .valueError
  else
    let n := shape.foldl (· * ·) 1
    if index < 0 ∨ index ≥ n then .valueError
    else if order = "C" then .ok (toCoords index shape.reverse).reverse
    else .ok (toCoords index shape)

/-- `_diag_count` (`routines.codon:242-254`). -/
def diagCount (k n m : Int) : Int :=
  if k < m ∧ k > -n then
    let count := min n m
    if k > 0 then
      let d := max (m - n) 0
      if k > d then count - (k - d) else count
    else if k < 0 then
      let d := max (n - m) 0
      if k < -d then count - (-k - d) else count
    else count
  else 0

/-! ### Bits -/

/-- A bit more in the byte (`routines.codon:4490-4494`); the bits are apart, so that `|` adds. -/
def push (little : Bool) (e : Nat) (b : Bool) : Nat :=
  if little then e / 2 + b.toNat * 128 else (e * 2) % 256 + b.toNat

/-- The last byte (`routines.codon:4497-4502`). -/
def finish (little : Bool) (m e : Nat) : Nat :=
  if little then e / 2 ^ (8 - m) else (e * 2 ^ (8 - m)) % 256

/-- The loop of `packbits` (`routines.codon:4483-4502`). -/
def packLoop (little : Bool) : List Bool → Nat → Nat → List Nat
  | [], m, e => [finish little m e]
  | b :: r, m, e =>
    if m = 8 then e :: packLoop little r 1 (push little 0 b)
    else packLoop little r (m + 1) (push little e b)

/-- `packbits` (`routines.codon:4458-4504`); without elements `pack_size` is 0 and nothing is written,
with elements the last byte is always one that is not written yet. -/
def packbits (bits : List Bool) (little : Bool) : List Nat :=
  if bits.isEmpty then [] else packLoop little bits 0 0

/-- The bits of a byte (`routines.codon:4575-4580`). -/
def bitsOf (little : Bool) (e : Nat) : List Nat :=
  (List.range 8).map fun i => e / 2 ^ (if little then i else 7 - i) % 2

/-- The loops of `unpackbits` (`routines.codon:4572-4587`), with the number of places left. -/
def unpackLoop (little : Bool) : List Nat → Nat → List Nat
  | [], left => List.replicate left 0
  | e :: r, left =>
    if left = 0 then []
    else (bitsOf little e).take left ++ unpackLoop little r (left - 8)

/-- `unpackbits` (`routines.codon:4543-4589`). -/
def unpackbits (a : List Nat) (count : Option Int) (little : Bool) : Out (List Nat) :=
  let size : Int := (a.length : Int) * 8
  match count with
  | none => .ok (unpackLoop little a size.toNat)
  | some c =>
    if c < 0 then
      if -c > size then .valueError else .ok (unpackLoop little a (size + c).toNat)
    else .ok (unpackLoop little a c.toNat)

end Codon.NpBits
