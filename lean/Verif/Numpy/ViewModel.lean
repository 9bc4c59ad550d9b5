import Verif.Numpy.Model
import Verif.Slice.Model
/-!
# Model of transposition and basic indexing of arrays
-/
namespace Codon.Numpy
variable {V : Type}

/-- How an operation can fail. -/
inductive Err where
  | index
  | value
  | axis
  | compile
  deriving DecidableEq

/-! ### Transposition -/

/-- `normalize_axis_index` (util.codon:230-235). -/
def normAxis (axis ndim : Int) : Except Err Int :=
  if axis < -ndim ∨ axis ≥ ndim then .error .axis else .ok (if axis < 0 then axis + ndim else axis)

/-- `has_duplicate` (util.codon:237-244): some element equals an earlier one. -/
def hasDuplicate (t : List Int) : Bool :=
  (List.range t.length).any fun i => (List.range i).any fun j => t.getD i 0 == t.getD j 0

/-- `tuple(self.shape[j] for j in axes)` with `j` in range; `none` outside. -/
def pick (l : List Int) (axes : List Int) : Option (List Int) :=
  axes.mapM fun j => if 0 ≤ j then l[j.toNat]? else none

/-- `transpose()` (ndarray.codon:418-419). -/
def Arr.transpose (a : Arr) : Arr := ⟨a.shape.reverse, a.strides.reverse, a.blk, a.off⟩

/-- The end of `transpose` (ndarray.codon:432-434, 444-446). -/
def Arr.permute (a : Arr) (axes : List Int) : Except Err Arr :=
  match pick a.shape axes, pick a.strides axes with
  | some sh, some st => .ok ⟨sh, st, a.blk, a.off⟩
  | _, _ => .error .index

/-- `transpose(*axes)` with integers, also for one tuple of them (ndarray.codon:417-434); the check of the number of axes is not reached for a single one (lines 420-426). -/
def Arr.transposeAxes (a : Arr) (axes : List Int) : Except Err Arr :=
  if axes.length = 0 then .ok a.transpose
  else if axes.length ≠ 1 ∧ axes.length ≠ a.shape.length then .error .compile
  else
    match axes.mapM (normAxis · a.shape.length) with
    | .error e => .error e
    | .ok axes => if hasDuplicate axes then .error .value else a.permute axes

/-- `tup[i]` for a tuple of integers and an index known at run time only: negative indices count from the end. -/
def tupleIdx (i n : Int) : Int := if i < 0 then i + n else i

/-- `transpose(axes: List[int])` (ndarray.codon:436-446). -/
def Arr.transposeList (a : Arr) (axes : List Int) : Except Err Arr :=
  if axes.length ≠ a.shape.length then .error .value
  else if hasDuplicate axes then .error .value
  else a.permute (axes.map (tupleIdx · a.shape.length))

/-- `p[i], p[j] = p[j], p[i]`. -/
def swap (l : List Int) (i j : Nat) : List Int := (l.set i (l.getD j 0)).set j (l.getD i 0)

/-- `swapaxes` (ndarray.codon:448-457). -/
def Arr.swapaxes (a : Arr) (axis1 axis2 : Int) : Except Err Arr :=
  match normAxis axis1 a.shape.length with
  | .error e => .error e
  | .ok i =>
    match normAxis axis2 a.shape.length with
    | .error e => .error e
    | .ok j => .ok ⟨swap a.shape i.toNat j.toNat, swap a.strides i.toNat j.toNat, a.blk, a.off⟩

/-! ### Basic indexing -/

/-- One item between the brackets. -/
inductive Idx where
  | int (i : Int)
  | slice (start stop step : Option Int)
  | newaxis
  | ellipsis
  deriving DecidableEq

/-- `slice(None, None, None)`. -/
def Idx.full : Idx := .slice none none none

/-- Number of items of one kind (`_extract_special`, indexing.codon:50-62). -/
def Idx.num (x : Idx) (l : List Idx) : Nat := (l.filter (· = x)).length

/-- `_expand_ellipsis` (indexing.codon:64-78) with `k > 0`. -/
def expandEllipsis (n : Nat) : List Idx → List Idx
  | [] => []
  | .ellipsis :: r => List.replicate n .full ++ expandEllipsis n r
  | x :: r => x :: expandEllipsis n r

/-- `_expand_newaxis` (indexing.codon:87-97): an index, dimension and stride for every axis; `none` when there are not as many axes (a compile-time error). -/
def expandNewaxis : List Idx → List (Int × Int) → Option (List (Idx × Int × Int))
  | [], [] => some []
  | [], _ :: _ => none
  | .newaxis :: r, l => (expandNewaxis r l).map ((.full, 1, 0) :: ·)
  | _ :: _, [] => none
  | x :: r, p :: l => (expandNewaxis r l).map ((x, p.1, p.2) :: ·)

/-- `normalize_index` (util.codon:222-228). -/
def normIndex (i n : Int) : Except Err Int :=
  let j := if i < 0 then i + n else i
  if j < 0 ∨ j ≥ n then .error .index else .ok j

/-- What is selected on one axis: first position, step, number, whether the axis stays, and its stride. -/
structure Sub where
  start : Int
  step : Int
  len : Int
  keep : Bool
  stride : Int

/-- `_multiindex` and `_keep_axes` (indexing.codon:9-36): the axes on the right first.  `newaxis` and `...` do not occur any more. -/
def multiindex : List (Idx × Int × Int) → Except Err (List Sub)
  | [] => .ok []
  | (x, n, s) :: r =>
    match multiindex r with
    | .error e => .error e
    | .ok rest =>
      match x with
      | .int i =>
        match normIndex i n with
        | .error e => .error e
        | .ok j => .ok (⟨j, 1, 1, false, s⟩ :: rest)
      | .slice b e k =>
        match Slice.adjust n b e k with
        | none => .error .value
        | some t => .ok (⟨t.start, t.step, t.length, true, s⟩ :: rest)
      | _ => .error .compile

/-- `_base_offset`, `_new_shape`, `_new_strides` (indexing.codon:38-48). -/
def baseOffset (l : List Sub) : Int := l.foldl (fun off m => off + m.start * m.stride) 0

/-- `_getset` (indexing.codon:497-541) without an item, for an index of integers, slices, `None` and `...`.  With no axis left the code returns the element itself:
    here it is an array without dimensions. -/
def Arr.view (a : Arr) (idx : List Idx) : Except Err Arr :=
  let nn := Idx.num .newaxis idx
  let ne := Idx.num .ellipsis idx
  let nd := a.shape.length
  if 1 < ne then .error .compile
  else if nd < idx.length - nn - ne then .error .compile
  else
    let idx := if ne = 0 then idx else expandEllipsis (nd - (idx.length - nn - ne)) idx
    let idx := idx ++ List.replicate (nd + nn - idx.length) .full
    match expandNewaxis idx (a.shape.zip a.strides) with
    | none => .error .compile
    | some axes =>
      match multiindex axes with
      | .error e => .error e
      | .ok m =>
        let kept := m.filter (·.keep)
        .ok ⟨kept.map (·.len), kept.map fun t => t.step * t.stride, a.blk, a.off + baseOffset m⟩

end Codon.Numpy
