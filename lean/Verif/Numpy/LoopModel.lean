import Verif.Numpy.ViewModel
import Verif.Numpy.ReshapeModel
/-!
# Model of `ndarray._loop` and of the operators on arrays

`_loop` (ndarray.codon:622-920) visits the elements of several arrays together.  It is modelled as the list of the tuples of pointers for which the function is called, in order,
together with the array it allocates (all callers allocate at most one).  `optimize_order` is always true and `extra` is a constant argument of the function.
-/
namespace Codon.Numpy
variable {V : Type}

/-- An array with the size of its elements in bytes. -/
structure Opd where
  arr : Arr
  w : Int
  deriving DecidableEq, Repr

/-- A pointer: block and offset. -/
abbrev Ptr := Nat × Int

/-- `incr_ptr` (ndarray.codon:632-633). -/
def Ptr.add (p : Ptr) (s : Int) : Ptr := (p.1, p.2 + s)

/-- `loop` for one dimension (ndarray.codon:637-698); `ws` are the sizes of the elements, `ss` the strides. -/
def oneDim (n : Int) : List Int → List Int → List Ptr → List (List Ptr)
  | [e0, e1], [s0, s1], [p0, p1] =>
    if s0 = e0 ∧ s1 = e1 then (upto n).map fun i => [p0.add (i * e0), p1.add (i * e1)]
    else if s0 = e0 ∧ s1 = 0 then (upto n).map fun i => [p0.add (i * s0), p1]
    else (upto n).map fun i => [p0.add (i * s0), p1.add (i * s1)]
  | [e0, e1, e2], [s0, s1, s2], [p0, p1, p2] =>
    if s0 = e0 ∧ s1 = e1 ∧ s2 = e2 then (upto n).map fun i => [p0.add (i * e0), p1.add (i * e1), p2.add (i * e2)]
    else if s0 = e0 ∧ s1 = 0 ∧ s2 = e2 then (upto n).map fun i => [p0.add (i * s0), p1, p2.add (i * s2)]
    else if s0 = e0 ∧ s1 = e1 ∧ s2 = 0 then (upto n).map fun i => [p0.add (i * s0), p1.add (i * s1), p2]
    else (upto n).map fun i => [p0.add (i * s0), p1.add (i * s1), p2.add (i * s2)]
  | _, ss, ptrs => (upto n).map fun i => List.zipWith (fun p s => Ptr.add p (i * s)) ptrs ss

/-- `for _ in range(n): loop(…); ptrs = …` (ndarray.codon:699-705). -/
def rounds (f : List Ptr → List (List Ptr)) (ss : List Int) : Nat → List Ptr → List (List Ptr)
  | 0, _ => []
  | n + 1, ptrs => f ptrs ++ rounds f ss n (List.zipWith Ptr.add ptrs ss)

/-- `loop` (ndarray.codon:631-705); every tuple of strides has the length of `shape`. -/
def loopPtrs (ws : List Int) : List Int → List (List Int) → List Ptr → List (List Ptr)
  | [], _, ptrs => [ptrs]
  | [n], strides, ptrs => oneDim n ws (strides.map (·.headD 0)) ptrs
  | n :: m :: sh, strides, ptrs => rounds (loopPtrs ws (m :: sh) (strides.map List.tail)) (strides.map (·.headD 0)) n.toNat ptrs

/-- `reorder_loops` (ndarray.codon:707-723). -/
def reorderLoops : List Int → List Nat
  | [] => []
  | [_] => [0]
  | [s0, s1] => if s0 ≠ 0 ∧ s0.natAbs < s1.natAbs then [1, 0] else [0, 1]
  | strides => (sortByStride ((upto strides.length).zip strides)).map (·.1.toNat)

/-- `tuple_perm` (util.codon:108-118) for tuples of equal length. -/
def tuplePerm (t : List Int) (perm : List Nat) : List Int := if t.length ≤ 1 then t else perm.map fun p => t.getD p 0

/-- `tuple_perm_inv` (util.codon:120-126). -/
def tuplePermInv (perm : List Nat) : List Nat := (List.range perm.length).foldl (fun q i => q.set (perm.getD i 0) i) (List.replicate perm.length 0)

/-- `largest` (ndarray.codon:726-735). -/
def largest : List (List Int) → List Int
  | [] => []
  | [a] => a
  | a :: b :: r => if a.length < (largest (b :: r)).length then largest (b :: r) else a

/-- One array in the loop of `broadcast_shapes` (ndarray.codon:749-757), both shapes from the last dimension to the first. -/
def mergeDims (check : Bool) : List Int → List Int → Except Err (List Int)
  | ys, [] => .ok ys
  | [], _ :: _ => .error .compile
  | y :: ys, x :: xs =>
    if y = 1 then (mergeDims check ys xs).map (x :: ·)
    else if check = true ∧ x ≠ 1 ∧ x ≠ y then .error .value
    else (mergeDims check ys xs).map (y :: ·)

/-- The loop over the arguments. -/
def mergeAll (check : Bool) : List (List Int) → List Int → Except Err (List Int)
  | [], ans => .ok ans
  | a :: r, ans =>
    match mergeDims check ans a.reverse with
    | .error e => .error e
    | .ok ans => mergeAll check r ans

/-- `broadcast_shapes` (ndarray.codon:725-759). -/
def broadcastShapes (args : List (List Int)) (check : Bool) : Except Err (List Int) :=
  (mergeAll check args (largest args).reverse).map List.reverse

/-- The loop of `broadcast_to` (ndarray.codon:767-776): dimensions asked for, dimensions and strides of the array. -/
def substrides (check : Bool) : List Int → List Int → List Int → Except Err (List Int)
  | b :: bs, a :: as, s :: ss =>
    if a = b then (substrides check bs as ss).map (s :: ·)
    else if check = true ∧ a ≠ 1 then .error .value
    else (substrides check bs as ss).map (0 :: ·)
  | _, _, _ => .ok []

/-- The strides of `broadcast_to` (ndarray.codon:761-780). -/
def broadcastStrides (check : Bool) (a : Arr) (shape : List Int) : Except Err (List Int) :=
  if shape.length < a.shape.length then .error .compile
  else (substrides check (shape.drop (shape.length - a.shape.length)) a.shape a.strides).map (List.replicate (shape.length - a.shape.length) 0 ++ ·)

/-- The argument `broadcast`. -/
inductive Bc where
  | none | first | all
  deriving DecidableEq, Repr

/-- `broadcast_args` (ndarray.codon:837-852). -/
def broadcastArgs (bc : Bc) (check : Bool) (a : Opd) (r : List Opd) : Except Err (List Int × List (List Int)) :=
  match bc with
  | .none => .ok (a.arr.shape, (a :: r).map (·.arr.strides))
  | .first => (r.mapM fun x => broadcastStrides check x.arr a.arr.shape).map fun ss => (a.arr.shape, a.arr.strides :: ss)
  | .all =>
    match broadcastShapes ((a :: r).map (·.arr.shape)) check with
    | .error e => .error e
    | .ok shape => ((a :: r).mapM fun x => broadcastStrides false x.arr shape).map fun ss => (shape, ss)

/-- `max_dim` (ndarray.codon:799-810). -/
def maxDim : Opd → List Opd → Opd
  | a, [] => a
  | a, b :: r => if (maxDim b r).arr.shape.length > a.arr.shape.length then maxDim b r else a

/-- `min_dim` (ndarray.codon:786-797). -/
def minDim : Opd → List Opd → Opd
  | a, [] => a
  | a, b :: r => if (minDim b r).arr.shape.length < a.arr.shape.length then minDim b r else a

/-- `all_contiguous` (ndarray.codon:812-830). -/
def allContiguous (a : Opd) (r : List Opd) : Bool × Bool :=
  if (minDim a r).arr.shape.length = (maxDim a r).arr.shape.length then
    let sh := r.all fun x => decide (x.arr.shape = a.arr.shape)
    let cc := (a :: r).all fun x => (x.arr.contig x.w).1
    let fc := (a :: r).all fun x => (x.arr.contig x.w).2
    (sh && (cc || fc), cc)
  else (false, false)

/-- `_loop` (ndarray.codon:622-920) on the arrays `a :: r`, allocating an array of elements of the given size (if any) in block `next`. -/
def loop (a : Opd) (r : List Opd) (bc : Bc) (check : Bool) (alloc : Option Int) (next : Nat) : Except Err (List (List Ptr) × Option Arr) :=
  let all := allContiguous a r
  let args := if all.1 then .ok (a.arr.shape, (a :: r).map (·.arr.strides)) else broadcastArgs bc check a r
  match args with
  | .error e => .error e
  | .ok (shape, strides) =>
    let ptrs : List Ptr := (a :: r).map fun x => (x.arr.blk, x.arr.off)
    let new : List Ptr := alloc.toList.map fun _ => (next, 0)
    if all.1 then
      .ok ((upto (count a.arr.shape)).map fun i =>
          (alloc.toList.map fun w => ((next, 0 + i * w) : Ptr)) ++ (a :: r).map fun x => ((x.arr.blk, x.arr.off + i * x.w) : Ptr),
        alloc.map fun w => ⟨shape, stridesOf shape (!all.2) w, next, 0⟩)
    else
      let perm := reorderLoops (maxDim a r).arr.strides
      if perm.length ≠ shape.length then .error .compile
      else
        let pshape := tuplePerm shape perm
        let ast := alloc.toList.map fun w => stridesOf pshape false w
        .ok (loopPtrs (alloc.toList ++ (a :: r).map (·.w)) pshape (ast ++ strides.map (tuplePerm · perm)) (new ++ ptrs),
          alloc.map fun w =>
            let st := stridesOf pshape false w
            if 2 ≤ shape.length then
              if shape.length = 2 then ⟨shape, if perm.getD 0 0 = 1 then st.reverse else st, next, 0⟩
              else ⟨shape, tuplePerm st (tuplePermInv perm), next, 0⟩
            else ⟨shape, st, next, 0⟩)

/-! ### Functions called in the loop -/

/-- Calling the function for one tuple after the other; `none` is an access outside the memory. -/
def runAll (f : List Ptr → Heap V → Option (Heap V)) : List (List Ptr) → Heap V → Option (Heap V)
  | [], h => some h
  | t :: ts, h =>
    match f t h with
    | none => none
    | some h' => runAll f ts h'

/-- `_UnaryFunctor`, and with a constant operand `_ScalarFunctor`, `_RightScalarFunctor` (ndarray.codon:208-216, 267-279, 296-308); casts are part of `op`. -/
def unaryFunctor (op : V → V) : List Ptr → Heap V → Option (Heap V)
  | [y, x], h =>
    match h.get x.1 x.2 with
    | some u => h.write y.1 y.2 (op u)
    | none => none
  | _, _ => none

/-- `_InplaceUnaryFunctor`, `_InplaceScalarFunctor` (ndarray.codon:219-227, 282-292). -/
def inplaceUnaryFunctor (op : V → V) : List Ptr → Heap V → Option (Heap V)
  | [x], h =>
    match h.get x.1 x.2 with
    | some u => h.write x.1 x.2 (op u)
    | none => none
  | _, _ => none

/-- `_BinaryFunctor` (ndarray.codon:230-240). -/
def binaryFunctor (op : V → V → V) : List Ptr → Heap V → Option (Heap V)
  | [z, x, y], h =>
    match h.get x.1 x.2, h.get y.1 y.2 with
    | some u, some v => h.write z.1 z.2 (op u v)
    | _, _ => none
  | _, _ => none

/-- `_RightBinaryFunctor` (ndarray.codon:254-264). -/
def rightBinaryFunctor (op : V → V → V) : List Ptr → Heap V → Option (Heap V)
  | [z, x, y], h =>
    match h.get x.1 x.2, h.get y.1 y.2 with
    | some u, some v => h.write z.1 z.2 (op v u)
    | _, _ => none
  | _, _ => none

/-- `_InplaceBinaryFunctor` (ndarray.codon:243-251). -/
def inplaceBinaryFunctor (op : V → V → V) : List Ptr → Heap V → Option (Heap V)
  | [x, y], h =>
    match h.get x.1 x.2, h.get y.1 y.2 with
    | some u, some v => h.write x.1 x.2 (op u v)
    | _, _ => none
  | _, _ => none

/-! ### Operators -/

/-- `_loop(…, alloc=Tuple[T])[0]` with the given function; `none` is undefined behaviour. -/
def allocLoop (h : Heap V) (junk : Int → V) (w0 : Int) (f : List Ptr → Heap V → Option (Heap V)) (a : Opd) (r : List Opd) : Option (Except Err (Heap V × Arr)) :=
  match loop a r .all true (some w0) h.next with
  | .error e => some (.error e)
  | .ok (_, none) => none
  | .ok (ts, some b) => (runAll f ts (h.new w0 (count b.shape) junk)).map fun h' => .ok (h', b)

/-- `_op_elemwise` (ndarray.codon:1178-1188). -/
def Opd.binary (a b : Opd) (h : Heap V) (junk : Int → V) (w0 : Int) (op : V → V → V) : Option (Except Err (Heap V × Arr)) :=
  allocLoop h junk w0 (binaryFunctor op) a [b]

/-- `_rop_elemwise` (ndarray.codon:1190-1200). -/
def Opd.rbinary (a b : Opd) (h : Heap V) (junk : Int → V) (w0 : Int) (op : V → V → V) : Option (Except Err (Heap V × Arr)) :=
  allocLoop h junk w0 (rightBinaryFunctor op) a [b]

/-- `_op_unary` (ndarray.codon:1234-1236); with a constant also `_op_scalar` and `_rop_scalar` (1202-1212, 1222-1232). -/
def Opd.unary (a : Opd) (h : Heap V) (junk : Int → V) (w0 : Int) (op : V → V) : Option (Except Err (Heap V × Arr)) :=
  allocLoop h junk w0 (unaryFunctor op) a []

/-- `_loop` without allocation. -/
def inplaceLoop (h : Heap V) (bc : Bc) (check : Bool) (f : List Ptr → Heap V → Option (Heap V)) (a : Opd) (r : List Opd) : Option (Except Err (Heap V)) :=
  match loop a r bc check none h.next with
  | .error e => some (.error e)
  | .ok (ts, _) => (runAll f ts h).map .ok

/-- `_iop_elemwise` (ndarray.codon:1214-1216). -/
def Opd.ibinary (a b : Opd) (h : Heap V) (op : V → V → V) : Option (Except Err (Heap V)) := inplaceLoop h .all true (inplaceBinaryFunctor op) a [b]

/-- `_iop_unary` (ndarray.codon:1238-1240); with a constant also `_iop_scalar` (1218-1220). -/
def Opd.iunary (a : Opd) (h : Heap V) (op : V → V) : Option (Except Err (Heap V)) := inplaceLoop h .all true (inplaceUnaryFunctor op) a []

end Codon.Numpy
