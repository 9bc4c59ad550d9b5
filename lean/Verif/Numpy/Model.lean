/-!
# Model of `numpy` arrays: layout, flat order, copies

Files: stdlib/numpy/ndarray.codon, stdlib/numpy/util.codon.  Codon `int` is modelled by unbounded `Int` (shapes and offsets are assumed not to overflow).  Memory is a
collection of allocated blocks; a cell is named by its block and its offset in bytes from the start of the block.  An access where no element starts is undefined behaviour
(`none`).  All arrays of one heap have elements of one type; its size in bytes is the parameter `w`.
-/
namespace Codon.Numpy

/-- The heap: what is stored in a block at an offset, and the number of the next block. -/
structure Heap (V : Type) where
  get : Nat → Int → Option V
  next : Nat

/-- `ndarray` (ndarray.codon:310-323): shape, strides in bytes, and the data pointer. -/
structure Arr where
  shape : List Int
  strides : List Int
  blk : Nat
  off : Int
  deriving DecidableEq, Repr

/-- `range(n)`. -/
def upto (n : Int) : List Int := (List.range n.toNat).map Int.ofNat

/-- `count` (util.codon:168-175). -/
def count (shape : List Int) : Int := shape.foldl (· * ·) 1

/-- `int.__divmod__` (int.codon:188-195); dividing by zero is undefined (`sdiv`). -/
def divmod (a b : Int) : Option (Int × Int) :=
  if b = 0 then none
  else
    let d := a.tdiv b
    let m := a - d * b
    if m ≠ 0 ∧ ((b < 0 ∧ 0 ≤ m) ∨ (0 ≤ b ∧ m < 0)) then some (d - 1, m + b) else some (d, m)

/-- The loop of `index_to_fcoords` (util.codon:297-309). -/
def indexToFCoords (index : Int) : List Int → Option (List Int)
  | [] => some []
  | n :: ns =>
    match divmod index n with
    | none => none
    | some (d, m) =>
      match indexToFCoords d ns with
      | none => none
      | some cs => some (m :: cs)

/-- `index_to_coords` (util.codon:283-295): the same loop from the last dimension to the first. -/
def indexToCoords (index : Int) (limits : List Int) : Option (List Int) := (indexToFCoords index limits.reverse).map List.reverse

/-- The loop of `coords_to_findex` (util.codon:321-329): coordinates with their limits, the weight and the sum so far. -/
def dotLoop : List (Int × Int) → Int → Int → Int
  | [], _, idx => idx
  | (c, n) :: r, s, idx => dotLoop r (s * n) (idx + c * s)

/-- `coords_to_findex` (util.codon:321-329). -/
def coordsToFIndex (coords limits : List Int) : Int := dotLoop (coords.zip limits) 1 0

/-- `coords_to_index` (util.codon:311-319). -/
def coordsToIndex (coords limits : List Int) : Int := dotLoop (coords.zip limits).reverse 1 0

/-- `multirange` (util.codon:438-484): nested loops, written out for up to six dimensions and by recursion for more; the first dimension is the outermost loop in both. -/
def multirange : List Int → List (List Int)
  | [] => [[]]
  | n :: ns => (upto n).flatMap fun i => (multirange ns).map fun idx => i :: idx

/-- `fmultirange` for up to six dimensions (util.codon:486-527): nested loops with the last dimension outermost. -/
def fnest : List Int → List (List Int)
  | [] => [[]]
  | n :: ns => (fnest ns).flatMap fun idx => (upto n).map fun i => i :: idx

/-- `fmultirange` (util.codon:486-533): with more than six dimensions the index of the first dimension is appended at the end. -/
def fmultirange : List Int → List (List Int)
  | [] => [[]]
  | n :: ns => if ns.length < 6 then fnest (n :: ns) else (fmultirange ns).flatMap fun idx => (upto n).map fun i => idx ++ [i]

/-- The offset computed by `_ptr` (ndarray.codon:1041-1070 with `check=False`, `broadcast=False`). -/
def ptrOff : List Int → List Int → Int
  | c :: cs, s :: ss => c * s + ptrOff cs ss
  | _, _ => 0

/-- `self._ptr(idx)[0]`. -/
def Arr.read {V : Type} (a : Arr) (h : Heap V) (c : List Int) : Option V := h.get a.blk (a.off + ptrOff c a.strides)

/-- `self._data[i]`. -/
def Arr.flatRead {V : Type} (a : Arr) (h : Heap V) (w i : Int) : Option V := h.get a.blk (a.off + i * w)

/-- First loop of `_contig` (ndarray.codon:333-342), over the dimensions from the last to the first; `none` is the early return for an empty array. -/
def cContigLoop : List (Int × Int) → Int → Bool → Option Bool
  | [], _, f => some f
  | (d, s) :: r, sd, f => if d = 0 then none else if d ≠ 1 then cContigLoop r (sd * d) (f && decide (s = sd)) else cContigLoop r sd f

/-- Second loop of `_contig` (ndarray.codon:344-351). -/
def fContigLoop : List (Int × Int) → Int → Bool
  | [], _ => true
  | (d, s) :: r, sd => if d ≠ 1 then (if s ≠ sd then false else fContigLoop r (sd * d)) else fContigLoop r sd

/-- `_contig` (ndarray.codon:325-353). -/
def Arr.contig (a : Arr) (w : Int) : Bool × Bool :=
  match cContigLoop (a.shape.zip a.strides).reverse w true with
  | none => (true, true)
  | some c => (c, fContigLoop (a.shape.zip a.strides) w)

/-- The loop of `strides` (util.codon:2218-2232) for Fortran order. -/
def stridesLoop : List Int → Int → List Int
  | [], _ => []
  | d :: ds, curr => curr :: stridesLoop ds (curr * d)

/-- `strides` (util.codon:2218-2232). -/
def stridesOf (shape : List Int) (forder : Bool) (w : Int) : List Int :=
  if forder then stridesLoop shape w else (stridesLoop shape.reverse w).reverse

/-- `str.memcpy` of `n` elements from the data pointer, as the list of what is copied. -/
def Arr.memcpy {V : Type} (a : Arr) (h : Heap V) (w n : Int) : Option (List V) := (upto n).mapM fun i => a.flatRead h w i

/-- A new block holding the values `vs`.  The code allocates the block and fills it in a loop; nothing else can see the block in between. -/
def Heap.alloc {V : Type} (h : Heap V) (w : Int) (vs : List V) : Heap V where
  get b o := if b = h.next then (if 0 ≤ o ∧ o % w = 0 then vs[(o / w).toNat]? else none) else h.get b o
  next := h.next + 1

/-- `_contiguous(copy=True)` (ndarray.codon:922-940). -/
def Arr.contiguous {V : Type} (a : Arr) (h : Heap V) (w : Int) : Option (List V) :=
  if (a.contig w).1 then a.memcpy h w (count a.shape) else (multirange a.shape).mapM fun idx => a.read h idx

/-- `_fcontiguous(copy=True)` (ndarray.codon:942-960). -/
def Arr.fcontiguous {V : Type} (a : Arr) (h : Heap V) (w : Int) : Option (List V) :=
  if (a.contig w).2 then a.memcpy h w (count a.shape) else (fmultirange a.shape).mapM fun idx => a.read h idx

/-- The argument `order` after `_check_order`. -/
inductive Order where
  | C | F | A | K
  deriving DecidableEq, Repr

/-- The one-dimensional array over `vs` in a new block: `ndarray((n,), p)`. -/
def newFlat {V : Type} (h : Heap V) (w n : Int) (vs : List V) : Heap V × Arr := (h.alloc w vs, ⟨[n], stridesOf [n] false w, h.next, 0⟩)

/-- One pass of the bubble sort of `sort_by_stride` (util.codon:354-364) over the pairs (dimension, stride), with `k` comparisons; tells whether something was swapped. -/
def bubble : Nat → List (Int × Int) → List (Int × Int) × Bool
  | k + 1, x :: y :: r =>
    if x.2.natAbs < y.2.natAbs then (y :: (bubble k (x :: r)).1, true)
    else (x :: (bubble k (y :: r)).1, (bubble k (y :: r)).2)
  | _, l => (l, false)

/-- The `while True` of `sort_by_stride` (util.codon:352-367): `n` is one less after every pass. -/
def sortLoop : Nat → List (Int × Int) → List (Int × Int)
  | 0, l => l
  | n + 1, l => if (bubble n l).2 then sortLoop n (bubble n l).1 else (bubble n l).1

/-- `sort_by_stride` (util.codon:340-369). -/
def sortByStride (l : List (Int × Int)) : List (Int × Int) := sortLoop l.length l

/-- The array seen through the dimensions sorted by stride (`other` in `flatten`, ndarray.codon:1020-1023). -/
def Arr.sorted (a : Arr) : Arr :=
  let l := sortByStride (a.shape.zip a.strides)
  { a with shape := l.map (·.1), strides := l.map (·.2) }

/-- `flatten` (ndarray.codon:1009-1023). -/
def Arr.flatten {V : Type} (a : Arr) (h : Heap V) (w : Int) (order : Order) : Option (Heap V × Arr) :=
  match (if order = .A then (if (a.contig w).2 then Order.F else .C) else order) with
  | .C => (a.contiguous h w).map (newFlat h w (count a.shape))
  | .F => (a.fcontiguous h w).map (newFlat h w (count a.shape))
  | _ => (a.sorted.contiguous h w).map (newFlat h w (count a.sorted.shape))

/-- `ravel` (ndarray.codon:987-1007): a view when the layout allows it. -/
def Arr.ravel {V : Type} (a : Arr) (h : Heap V) (w : Int) (order : Order) : Option (Heap V × Arr) :=
  match (if order = .A then (if (a.contig w).2 then Order.F else .C) else order) with
  | .C => if (a.contig w).1 then some (h, ⟨[count a.shape], stridesOf [count a.shape] false w, a.blk, a.off⟩)
          else (a.contiguous h w).map (newFlat h w (count a.shape))
  | .F => if (a.contig w).2 then some (h, ⟨[count a.shape], stridesOf [count a.shape] false w, a.blk, a.off⟩)
          else (a.fcontiguous h w).map (newFlat h w (count a.shape))
  | _ => (a.sorted.contiguous h w).map (newFlat h w (count a.sorted.shape))

/-- What `tobytes` copies (ndarray.codon:962-985): `K` is treated like `C`. -/
def Arr.tobytes {V : Type} (a : Arr) (h : Heap V) (w : Int) (order : Order) : Option (List V) :=
  let order := if order = .A then (if (a.contig w).2 && !(a.contig w).1 then Order.F else .C) else order
  if (order = .C ∧ (a.contig w).1 = true) ∨ (order = .F ∧ (a.contig w).2 = true) then a.memcpy h w (count a.shape)
  else if order = .F then (fmultirange a.shape).mapM fun idx => a.read h idx
  else (multirange a.shape).mapM fun idx => a.read h idx

/-- `item(i)` (ndarray.codon:404-411); `none` inside is `IndexError`. -/
def Arr.item {V : Type} (a : Arr) (h : Heap V) (i : Int) : Option (Option V) :=
  let n := count a.shape
  if i < -n ∨ i ≥ n then some none
  else
    match indexToCoords (if i < 0 then i + n else i) a.shape with
    | none => none
    | some c => (a.read h c).map some

/-- `flatiter.__getitem__` (ndarray.codon:148-161). -/
def Arr.flatGet {V : Type} (a : Arr) (h : Heap V) (i : Int) : Option (Option V) :=
  let n := count a.shape
  let j := if i < 0 then i + n else i
  if j < 0 ∨ j ≥ n then some none
  else
    match indexToCoords j a.shape with
    | none => none
    | some c => (a.read h c).map some

/-- The carry loop of `flatiter.__iter__` (ndarray.codon:138-143) at position `i`; `p` are the coordinates, `s` the limits. -/
def carry (s : List Int) : Nat → List Int → List Int
  | i, p =>
    if p.getD i 0 ≥ s.getD i 0 then
      match i with
      | 0 => (p.set 0 0).set 0 ((p.set 0 0).getD 0 0 + 1)
      | i + 1 => carry s i ((p.set (i + 1) 0).set i ((p.set (i + 1) 0).getD i 0 + 1))
    else p

/-- One step of the coordinates (ndarray.codon:136-143).  With no dimensions `p[-1]` is written: undefined. -/
def nextCoords (s : List Int) (p : List Int) : Option (List Int) :=
  match s.length with
  | 0 => none
  | n + 1 => some (carry s n (p.set n (p.getD n 0 + 1)))

/-- The loop of `flatiter.__iter__` (ndarray.codon:125-146): `k` is the number of elements left. -/
def flatLoop {V : Type} (a : Arr) (h : Heap V) : Nat → List Int → Option (List V)
  | 0, _ => some []
  | k + 1, curr =>
    match nextCoords a.shape curr with
    | none => none
    | some curr' =>
      match a.read h curr with
      | none => none
      | some v => (flatLoop a h k curr').map (v :: ·)

/-- `coords` of a `flatiter` (ndarray.codon:113-123). -/
def Arr.flatCoords (a : Arr) (index : Int) : Option (List Int) :=
  match a.shape with
  | [] => some []
  | n :: ns => if index ≥ count a.shape then some (n :: ns.map fun _ => 0) else indexToCoords index a.shape

/-- Everything `for x in it` yields for a `flatiter` whose `index` is `index` (ndarray.codon:125-146). -/
def Arr.flatIter {V : Type} (a : Arr) (h : Heap V) (index : Int) : Option (List V) :=
  match a.flatCoords index with
  | none => none
  | some c => flatLoop a h (count a.shape - index).toNat c

end Codon.Numpy
