import Verif.Numpy.ReshapeModel
import Verif.Numpy.ViewModel
import Verif.Numpy.UfuncModel
/-!
# Model of assigning to parts of arrays, and of indexing with masks and arrays of integers: stdlib/numpy/indexing.codon

The memory is that of `Verif/Numpy`.  Masks and index arrays live in memories of their own, as their elements have other types.  What a statement does is the memory afterwards and the exception it
raised, if any; undefined behaviour is `none`.  Left out: masks of fewer dimensions than the array, masks inside tuples (`nonzero`), and arrays without dimensions as operands of masks.
-/
namespace Codon.NpIdx
open Codon.Numpy
variable {U V : Type}

/-- An array on the right side of an assignment: of the same element type, or of another one, whose elements are converted by `util.cast` (util.codon:2234-2290). -/
inductive Src (U V : Type) where
  | same (b : Arr)
  | other (g : Heap U) (wu : Int) (cast : U → V) (b : Arr)

def Src.arr : Src U V → Arr
  | .same b => b
  | .other _ _ _ b => b

/-- The size of its elements. -/
def Src.size (w : Int) : Src U V → Int
  | .same _ => w
  | .other _ wu _ _ => wu

/-- `util.cast(q[0], dtype)`. -/
def Src.get (s : Src U V) (h : Heap V) (q : Ptr) : Option V :=
  match s with
  | .same _ => h.get q.1 q.2
  | .other g _ cast _ => (g.get q.1 q.2).map cast

/-- The right side of an assignment: a number (already converted) or an array.  Lists and tuples are first made into arrays (`asarray`, indexing.codon:543). -/
inductive Item (U V : Type) where
  | num (v : V)
  | arr (s : Src U V)

/-- `p[0] = util.cast(q[0], dtype)` for one pair of pointers after the other. -/
def copyAll (s : Src U V) : List (Ptr × Ptr) → Heap V → Option (Heap V)
  | [], h => some h
  | (p, q) :: r, h => do
    let v ← s.get h q
    let h ← h.write p.1 p.2 v
    copyAll s r h

/-- `p[0] = elem` for one pointer after the other. -/
def fillAll (v : V) : List Ptr → Heap V → Option (Heap V)
  | [], h => some h
  | p :: r, h => do
    let h ← h.write p.1 p.2 v
    fillAll v r h

/-- The pointers `p + i` for `i` below the number of elements. -/
def flatPtrs (a : Arr) (w : Int) : List Ptr := (upto (count a.shape)).map fun i => (a.blk, a.off + i * w)

/-- The pointers `_ptr(idx)` for all coordinates in order. -/
def coordPtrs (a : Arr) : List Ptr := (multirange a.shape).map a.ptr

/-- `_assign_one` (indexing.codon:482-495), the element being converted; `_is_contig` is ndarray.codon:355-357. -/
def assignOne (a : Arr) (w : Int) (v : V) (h : Heap V) : Option (Heap V) :=
  if a.shape = [] then h.write a.blk a.off v
  else if (a.contig w).1 || (a.contig w).2 then fillAll v (flatPtrs a w) h
  else fillAll v (coordPtrs a) h

/-- The end of `_getset` with a number (indexing.codon:530-534, 558-559). -/
def setNum (sub : Arr) (w : Int) (v : V) (h : Heap V) : Option (Heap V) := do
  let h ← (if sub.shape = [] then h.write sub.blk sub.off v else some h)
  assignOne sub w v h

/-- `_getset` with an item (indexing.codon:497-559), for an index of integers, slices, `None` and `...`.  `broadcast_to` is routines.codon:761-790, the same as ndarray.codon:761-780. -/
def setBasic (w : Int) (a : Arr) (idx : List Idx) (it : Item U V) (h : Heap V) : Option (Heap V × Option Err) :=
  match a.view idx with
  | .error e => some (h, some e)
  | .ok sub =>
    match it with
    | .num v => (setNum sub w v h).map fun h => (h, none)
    | .arr s =>
      if s.arr.shape = [] then do
        let v ← s.get h (s.arr.blk, s.arr.off)
        let h ← setNum sub w v h
        return (h, none)
      else
        match broadcastStrides true s.arr sub.shape with
        | .error e => some (h, some e)
        | .ok st =>
          let b : Arr := ⟨sub.shape, st, s.arr.blk, s.arr.off⟩
          (if contigMatch ⟨sub, w⟩ ⟨b, s.size w⟩ then copyAll s ((flatPtrs sub w).zip (flatPtrs b (s.size w))) h
            else copyAll s ((coordPtrs sub).zip (coordPtrs b)) h).map fun h => (h, none)

/-! ### Masks -/

/-- `_bool_idx_num_true` (indexing.codon:259-270). -/
def numTrue (g : Heap Bool) (m : Arr) : Option Nat := do
  let l ← (if (m.contig 1).1 || (m.contig 1).2 then flatPtrs m 1 else coordPtrs m).mapM fun p => g.get p.1 p.2
  return (l.filter id).length

/-- The loops of `_getset_bool` (indexing.codon:448-475): the places of the elements of the array and of the mask. -/
def maskPtrs (a m : Arr) (w : Int) : List (Ptr × Ptr) :=
  if (a.contig w).1 && (m.contig 1).1 then (flatPtrs a w).zip (flatPtrs ⟨a.shape, m.strides, m.blk, m.off⟩ 1)
  else (coordPtrs a).zip ((multirange a.shape).map m.ptr)

/-- The body of these loops: `step k p` for the `k`-th place that is selected. -/
def maskLoop (g : Heap Bool) (step : Nat → Ptr → Heap V → Option (Heap V)) : List (Ptr × Ptr) → Nat → Heap V → Option (Heap V)
  | [], _, h => some h
  | (p, q) :: r, k, h => do
    let b ← g.get q.1 q.2
    if b then do
      let h ← step k p h
      maskLoop g step r (k + 1) h
    else maskLoop g step r k h

/-- `_getset_bool` without an item (indexing.codon:416-478) for a mask of as many dimensions, at least one. -/
def getMask (w : Int) (a : Arr) (g : Heap Bool) (m : Arr) (junk : Int → V) (h : Heap V) : Option (Except Err (Heap V × Arr)) :=
  if a.shape ≠ m.shape then some (.error .index)
  else do
    let n ← numTrue g m
    let ans : Arr := ⟨[(n : Int)], stridesOf [(n : Int)] false w, h.next, 0⟩
    let h ← maskLoop g (fun k p h => do
      let v ← h.get p.1 p.2
      h.write ans.blk (ans.off + (k : Int) * w) v) (maskPtrs a m w) 0 (h.new w n junk)
    return .ok (h, ans)

/-- `_getset_bool` with an item (indexing.codon:416-475).  An item of more than one dimension does not compile (line 444). -/
def setMask (w : Int) (a : Arr) (g : Heap Bool) (m : Arr) (it : Item U V) (h : Heap V) : Option (Heap V × Option Err) :=
  if a.shape ≠ m.shape then some (h, some .index)
  else
    match it with
    | .num v => (maskLoop g (fun _ p h => h.write p.1 p.2 v) (maskPtrs a m w) 0 h).map fun h => (h, none)
    | .arr s =>
      if 1 < s.arr.shape.length then some (h, some .compile)
      else if s.arr.shape.length = 0 then
        (maskLoop g (fun _ p h => do
          let v ← s.get h (s.arr.blk, s.arr.off)
          h.write p.1 p.2 v) (maskPtrs a m w) 0 h).map fun h => (h, none)
      else do
        let n ← numTrue g m
        if count s.arr.shape ≠ 1 ∧ count s.arr.shape ≠ n then return (h, some .value)
        else
          let h ← maskLoop g (fun k p h => do
            let v ← s.get h (s.arr.blk, s.arr.off + (if count s.arr.shape = 1 then 0 else (k : Int)) * s.size w)
            h.write p.1 p.2 v) (maskPtrs a m w) 0 h
          return (h, none)

/-! ### Arrays of integers as indices -/

/-- One item between the brackets after `_adv_idx_convert` (indexing.codon:113-122). -/
inductive AIdx where
  | int (i : Int)
  | slice (start stop step : Option Int)
  | newaxis
  | ellipsis
  | arr (m : Arr)
  deriving DecidableEq

def AIdx.full : AIdx := .slice none none none

/-- `_adv_idx_replace_int` (indexing.codon:190-194). -/
def replaceInt : AIdx → Idx
  | .int i => .int i
  | .newaxis => .newaxis
  | _ => .full

/-- An index that is left after integers and `None` are gone. -/
inductive Ax where
  | slice (start stop step : Option Int)
  | arr (m : Arr)
  deriving DecidableEq

/-- `_adv_idx_prune_index` (indexing.codon:196-208). -/
def pruneIndex : List AIdx → List Ax
  | [] => []
  | .newaxis :: r => .slice none none none :: pruneIndex r
  | .int _ :: r => pruneIndex r
  | .slice b e k :: r => .slice b e k :: pruneIndex r
  | .arr m :: r => .arr m :: pruneIndex r
  | .ellipsis :: r => pruneIndex r

/-- Neither an integer nor `None` (indexing.codon:222-224). -/
def AIdx.stays : AIdx → Bool
  | .int _ | .newaxis => false
  | _ => true

/-- The beginning of `_getset_advanced` (indexing.codon:315-338) with `_adv_idx_eliminate_new_and_used` (lines 222-230): the array and the indices with integers and `None` dealt with.
`...` is refused by `_adv_idx_convert` (line 122). -/
def advPrep (a : Arr) (idx : List AIdx) : Except Err (Arr × List Ax) :=
  let nn := (idx.filter (· = .newaxis)).length
  let nd := a.shape.length
  if .ellipsis ∈ idx then .error .compile
  else if nd < idx.length - nn then .error .compile
  else
    let idx := idx ++ List.replicate (nd + nn - idx.length) .full
    if idx.all AIdx.stays then .ok (a, pruneIndex idx)
    else
      match a.view (idx.map replaceInt) with
      | .error e => .error e
      | .ok a' => .ok (a', pruneIndex idx)

/-- `_adv_idx_gather_arrays` (indexing.codon:166-176), the arrays. -/
def arraysOf : List Ax → List Arr
  | [] => []
  | .arr m :: r => m :: arraysOf r
  | .slice _ _ _ :: r => arraysOf r

/-- `_adv_idx_gather_arrays`, the positions. -/
def arraysWhere : List Ax → Nat → List Nat
  | [], _ => []
  | .arr _ :: r, k => k :: arraysWhere r (k + 1)
  | .slice _ _ _ :: r, k => arraysWhere r (k + 1)

/-- `arrays_at_front` (indexing.codon:350-353): some array is not right behind the one before. -/
def atFront : List Nat → Bool
  | i :: j :: r => decide (j ≠ i + 1) || atFront (j :: r)
  | _ => false

/-- `adjust_indices` for every index that is not an array, with the dimension it belongs to (indexing.codon:355-356, 370): `slice.codon:33-75`. -/
def adjusted : List Ax → List Int → Except Err (List Slice.Adj)
  | [], _ => .ok []
  | .arr _ :: r, sh => adjusted r sh.tail
  | .slice b e k :: r, sh =>
    match Slice.adjust (sh.headD 0) b e k with
    | none => .error .value
    | some t =>
      match adjusted r sh.tail with
      | .error e => .error e
      | .ok ts => .ok (t :: ts)

/-- `_adv_idx_iter_non_arrays` (indexing.codon:149-164): the pairs of a position in the result and a position in the array. -/
def iterNonArrays : List Slice.Adj → List (List (Int × Int))
  | [] => [[]]
  | t :: ts =>
    let r : Slice.Range := ⟨t.start, t.stop, t.step⟩
    (upto r.len).flatMap fun k => (iterNonArrays ts).map fun rest => (k, r.get k) :: rest

/-- `_adv_idx_build_for_contig_array` (indexing.codon:232-243). -/
def buildContig : List Ax → List Int → List Int → Bool → List Int
  | [], _, _, _ => []
  | .arr _ :: r, sl, bs, saw => if saw then buildContig r sl bs saw else bs ++ buildContig r sl bs true
  | .slice _ _ _ :: r, sl, bs, saw => sl.headD 0 :: buildContig r sl.tail bs saw

/-- The shape of the result, and its coordinates (indexing.codon:358-361, 379-382). -/
def buildShape (axs : List Ax) (sl bs : List Int) : List Int := if atFront (arraysWhere axs 0) then bs ++ sl else buildContig axs sl bs false

/-- The coordinates in the array (indexing.codon:384-391): the values of the index arrays and the positions of the slices are stored where they belong. -/
def srcIdx : List Ax → List Int → List Int → List Int
  | [], _, _ => []
  | .arr _ :: r, ia, sl => ia.headD 0 :: srcIdx r ia.tail sl
  | .slice _ _ _ :: r, ia, sl => sl.headD 0 :: srcIdx r ia sl.tail

/-- `a._ptr(idx, broadcast=True)[0]` (indexing.codon:373, ndarray.codon:1041-1070). -/
def readIndex (g : Heap Int) (bc : List Int) (m : Arr) : Option Int :=
  let p := m.ptr (List.zipWith (fun n x => if n = 1 then 0 else x) m.shape (bc.drop (bc.length - m.shape.length)))
  g.get p.1 p.2

/-- One step of the loops (indexing.codon:372-391): the coordinates in the result and in the array. -/
def stepIdx (g : Heap Int) (axs : List Ax) (bc : List Int) (sl : List (Int × Int)) : Option (List Int × List Int) := do
  let ia ← (arraysOf axs).mapM (readIndex g bc)
  return (buildShape axs (sl.map (·.1)) bc, srcIdx axs ia (sl.map (·.2)))

/-- `arr[src_idx]` with a tuple of integers for every axis (indexing.codon:497-532). -/
def getElem (a : Arr) (c : List Int) (h : Heap V) : Option (Except Err V) :=
  match a.view (c.map .int) with
  | .error e => some (.error e)
  | .ok s => (h.get s.blk s.off).map .ok

/-- The two loops (indexing.codon:372-396) over the coordinates of the index arrays and the positions of the slices. -/
def advLoop (g : Heap Int) (axs : List Ax) (step : List Int → List Int → Heap V → Option (Heap V × Option Err)) : List (List Int × List (Int × Int)) → Heap V → Option (Heap V × Option Err)
  | [], h => some (h, none)
  | (bc, sl) :: r, h => do
    let (dst, src) ← stepIdx g axs bc sl
    match ← step dst src h with
    | (h, none) => advLoop g axs step r h
    | (h, some e) => return (h, some e)

/-- `ans[dst_idx] = arr[src_idx]` (indexing.codon:394). -/
def getStep (w : Int) (a ans : Arr) (dst src : List Int) (h : Heap V) : Option (Heap V × Option Err) := do
  match ← getElem a src h with
  | .error e => return (h, some e)
  | .ok v => setBasic (U := Unit) w ans (dst.map .int) (.num v) h

/-- `arr[src_idx] = item[dst_idx]` (indexing.codon:396). -/
def putStep (w : Int) (a : Arr) (f : List Int → Heap V → Option (Except Err V)) (dst src : List Int) (h : Heap V) : Option (Heap V × Option Err) := do
  match ← f dst h with
  | .error e => return (h, some e)
  | .ok v => setBasic (U := Unit) w a (src.map .int) (.num v) h

/-- The order of the two loops. -/
def advOrder (bs : List Int) (ts : List Slice.Adj) : List (List Int × List (Int × Int)) := (multirange bs).flatMap fun bc => (iterNonArrays ts).map fun sl => (bc, sl)

/-- `_getset_advanced` without an item after the integers and `None` (indexing.codon:338-399); `_broadcast_shapes` (lines 273-312) is the same as that of ndarray.codon:725-759, with
`IndexError`. -/
def getAxes (w : Int) (a : Arr) (g : Heap Int) (axs : List Ax) (junk : Int → V) (h : Heap V) : Option (Except Err (Heap V × Arr)) :=
  if arraysOf axs = [] then some (.error .compile)
  else
    match broadcastShapes ((arraysOf axs).map (·.shape)) true with
    | .error _ => some (.error .index)
    | .ok bs =>
      match adjusted axs a.shape with
      | .error e => some (.error e)
      | .ok ts => do
        let sh := buildShape axs (ts.map (·.length)) bs
        let ans : Arr := ⟨sh, stridesOf sh false w, h.next, 0⟩
        match ← advLoop g axs (getStep w a ans) (advOrder bs ts) (h.new w (count sh) junk) with
        | (_, some e) => return .error e
        | (h, none) => return .ok (h, ans)

/-- The item stretched to the shape (indexing.codon:368, routines.codon:761-790), as a function from coordinates to elements. -/
def itemAt (it : Item U V) (sh : List Int) : Except Err (List Int → Heap V → Option (Except Err V)) :=
  match it with
  | .num v => .ok fun _ _ => some (.ok v)
  | .arr s =>
    match broadcastStrides true s.arr sh with
    | .error e => .error e
    | .ok st => .ok fun dst h =>
      match (Arr.view ⟨sh, st, s.arr.blk, s.arr.off⟩ (dst.map .int)) with
      | .error e => some (.error e)
      | .ok b => (s.get h (b.blk, b.off)).map .ok

/-- `_getset_advanced` with an item after the integers and `None` (indexing.codon:338-396). -/
def setAxes (w : Int) (a : Arr) (g : Heap Int) (axs : List Ax) (it : Item U V) (h : Heap V) : Option (Heap V × Option Err) :=
  if arraysOf axs = [] then some (h, some .compile)
  else
    match broadcastShapes ((arraysOf axs).map (·.shape)) true with
    | .error _ => some (h, some .index)
    | .ok bs =>
      match adjusted axs a.shape with
      | .error e => some (h, some e)
      | .ok ts =>
        match itemAt it (buildShape axs (ts.map (·.length)) bs) with
        | .error e => some (h, some e)
        | .ok f => advLoop g axs (putStep w a f) (advOrder bs ts) h

/-- `_getset_advanced` (indexing.codon:314-399) without an item. -/
def getAdv (w : Int) (a : Arr) (g : Heap Int) (idx : List AIdx) (junk : Int → V) (h : Heap V) : Option (Except Err (Heap V × Arr)) :=
  match advPrep a idx with
  | .error e => some (.error e)
  | .ok (a', axs) => getAxes w a' g axs junk h

/-- `_getset_advanced` (indexing.codon:314-396) with an item. -/
def setAdv (w : Int) (a : Arr) (g : Heap Int) (idx : List AIdx) (it : Item U V) (h : Heap V) : Option (Heap V × Option Err) :=
  match advPrep a idx with
  | .error e => some (h, some e)
  | .ok (a', axs) => setAxes w a' g axs it h

end Codon.NpIdx
