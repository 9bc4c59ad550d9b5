import Verif.Numpy.LoopModel
import Verif.Numpy.UfuncModel
import Verif.NpLine.Model
/-!
# Model of the reductions of NumPy arrays: `sum`, `prod`, `min`, `max`, `ptp`, `argmin`, `argmax`, `any`, `all`, `count_nonzero`

File: stdlib/numpy/reductions.codon.  The heap of the operand holds elements of type `V`, that of the mask `bool`s, and that of the result the values of the reduction: the
result is a new array (`out=None`), so its memory is not that of the operands.  `keepdims` is `False` (it only adds a `reshape` of the result).  The casts of elements
(`_cast_elem`, `util.cast`) are part of the reducers.  `float` sums, which `_pairwise_sum` adds up in a different order, and `mean` are not modelled.
-/
namespace Codon.NpRed
open Codon.Numpy Codon.NpLine
variable {V S O T : Type}

/-- How a reduction can end other than with a value: an access outside the memory, `ValueError`, `AxisError`, or taking the value of `None` from an `Optional`. -/
inductive Fail where
  | ub
  | value
  | axis
  | unwrap
  deriving DecidableEq, Repr

/-- The methods `gradual_init` and `gradual_accept` of a reducer. -/
structure Gradual (V O : Type) where
  start : Option O
  step : O → V → Nat → O

/-- A reducer: the state made by `__init__`, the methods `accept`, `done`, `result`, whether `empty` raises `ValueError`, and the methods that only some have; `loop` is given
the elements it reads and `partial`. -/
structure Redux (V S O : Type) where
  start : S
  accept : S → V → Nat → S
  done : S → Bool
  result : S → Nat → Except Fail O
  raises : Bool
  loop : Option (S → List V → Bool → Except Fail S)
  gradual : Option (Gradual V O)

/-! ### The reducers -/

/-- `SumRedux` (reductions.codon:1119-1162) and `ProdRedux` (1204-1240) with `+`, `0` or `*`, `1`; `cast` makes an element a value of type `T` (`util.cast(item, T)`). -/
def foldRedux (op : T → T → T) (unit : T) (cast : V → T) (initial : T) : Redux V T T where
  start := initial
  accept s v _ := op s (cast v)
  done _ := false
  result s _ := .ok s
  raises := false
  loop := some fun s l _ => .ok (op s (l.foldl (fun t v => op t (cast v)) unit))
  gradual := some ⟨some initial, fun c v _ => op c (cast v)⟩

/-- `MinRedux._min` (reductions.codon:1405-1410) for types other than floats; with `>` for `<` `MaxRedux._max` (1476-1481). -/
def best (lt : V → V → Bool) (m x : V) : V := if lt x m then x else m

/-- `MinRedux` (reductions.codon:1358-1427) and, with `>` for `<`, `MaxRedux` (1429-1498), which for an empty line would
raise an exception where `MinRedux` reads outside the array. -/
def minRedux (lt : V → V → Bool) (initial : Option V) : Redux V (Option V) V where
  start := initial
  accept s v _ := some (match s with | none => v | some m => best lt m v)
  done _ := false
  result s _ := match s with | none => .error .unwrap | some m => .ok m
  raises := initial.isNone
  loop := some fun s l part =>
    match s, l with
    | none, [] => .error .ub
    | none, x :: l => .ok (some (l.foldl (best lt) x))
    | some m, l => .ok (some (if part then best lt m (l.foldl (best lt) m) else l.foldl (best lt) m))
  gradual := some ⟨initial, fun c v k => if initial.isNone ∧ k = 0 then v else best lt c v⟩

/-- `PTPRedux` (reductions.codon:1500-1553). -/
def ptpRedux (lt : V → V → Bool) (sub : V → V → V) : Redux V (Option V × Option V) V where
  start := (none, none)
  accept s v _ :=
    (some (match s.1 with | none => v | some m => best (fun x y => lt y x) m v), some (match s.2 with | none => v | some m => best lt m v))
  done _ := false
  result s _ := match s with | (some hi, some lo) => .ok (sub hi lo) | _ => .error .unwrap
  raises := true
  loop := some fun s l part =>
    match l with
    | [] => .error .ub
    | x :: l =>
      let m := l.foldl (best lt) x
      let M := l.foldl (best fun x y => lt y x) x
      .ok (if part then
          (some (match s.1 with | none => M | some hi => if lt hi M then M else hi), some (match s.2 with | none => m | some lo => if lt m lo then m else lo))
        else (some M, some m))
  gradual := none

/-- `ArgMinRedux` (reductions.codon:1555-1579) and, with `>` for `<`, `ArgMaxRedux` (1581-1605). -/
def argRedux (lt : V → V → Bool) : Redux V (Option V × Nat) Nat where
  start := (none, 0)
  accept s v i := match s.1 with | none => (some v, i) | some m => if lt v m then (some v, i) else s
  done _ := false
  result s _ := .ok s.2
  raises := true
  loop := none
  gradual := none

/-- `AnyRedux` (reductions.codon:1607-1628); `truth` is the truth value of an element. -/
def anyRedux (truth : V → Bool) : Redux V Bool Bool where
  start := false
  accept s v _ := if truth v then true else s
  done s := s
  result s _ := .ok s
  raises := false
  loop := none
  gradual := none

/-- `AllRedux` (reductions.codon:1630-1651). -/
def allRedux (truth : V → Bool) : Redux V Bool Bool where
  start := true
  accept s v _ := if truth v then s else false
  done s := !s
  result s _ := .ok s
  raises := false
  loop := none
  gradual := none

/-- `NonZeroRedux` (reductions.codon:1653-1683). -/
def nonzeroRedux (truth : V → Bool) : Redux V Nat Nat where
  start := 0
  accept s v _ := if truth v then s + 1 else s
  done _ := false
  result s _ := .ok s
  raises := false
  loop := none
  gradual := some ⟨some 0, fun c v _ => if truth v then c + 1 else c⟩

/-! ### `_reduce_all` -/

/-- Reading memory. -/
def need {α : Type} : Option α → Except Fail α
  | none => .error .ub
  | some v => .ok v

/-- `accept` for one element after the other until `done` (reductions.codon:248-254, 261-266, 295-300); the number is `i`. -/
def scan (R : Redux V S O) : List (Option V) → S → Nat → Except Fail (S × Nat)
  | [], s, i => .ok (s, i)
  | none :: _, _, _ => .error .ub
  | some v :: r, s, i => if R.done (R.accept s v i) then .ok (R.accept s v i, i) else scan R r (R.accept s v i) (i + 1)

/-- The same with a mask (reductions.codon:304-311, 320-327). -/
def scanWhere (R : Redux V S O) : List (Option Bool × Option V) → S → Nat → Except Fail (S × Nat)
  | [], s, i => .ok (s, i)
  | (none, _) :: _, _, _ => .error .ub
  | (some false, _) :: r, s, i => scanWhere R r s i
  | (some true, none) :: _, _, _ => .error .ub
  | (some true, some v) :: r, s, i => if R.done (R.accept s v i) then .ok (R.accept s v i, i) else scanWhere R r (R.accept s v i) (i + 1)

/-- Elements that lie at equal distances (reductions.codon:243-254, 257-266). -/
def flat (R : Redux V S O) (h : Heap V) (b : Nat) (off stride : Int) (n : Nat) : Except Fail (S × Nat) :=
  match R.loop with
  | some f => do
    let l ← need (readLine h b stride n off)
    let s ← f R.start l false
    return (s, n)
  | none => scan R ((upto n).map fun i => h.get b (off + i * stride)) R.start 0

/-- The choice of `loop_axis` (reductions.codon:269-281): the strides from `j` on, the axis and the stride chosen so far. -/
def loopAxis : Nat → List Int → Option Nat → Nat → Option Nat
  | _, [], k, _ => k
  | j, s :: r, k, m => if s ≠ 0 ∧ s.natAbs < m then loopAxis (j + 1) r (some j) s.natAbs else loopAxis (j + 1) r k m

/-- The loop of reductions.codon:287-290. -/
def chunks (f : S → List V → Bool → Except Fail S) (h : Heap V) (a : Arr) (k : Nat) : List (List Int) → S → Except Fail S
  | [], s => .ok s
  | idx :: r, s => do
    let l ← need (readLine h a.blk (a.strides.getD k 0) (a.shape.getD k 0).toNat (a.off + ptrOff (idx.insertIdx k 0) a.strides))
    let s ← f s l true
    chunks f h a k r s

/-- `_reduce_all` without `where` (reductions.codon:241-300). -/
def plain (R : Redux V S O) (w : Int) (a : Arr) (h : Heap V) : Except Fail (S × Nat) :=
  if a.shape.length = 1 then flat R h a.blk a.off (a.strides.headD 0) (count a.shape).toNat
  else if (a.contig w).1 || (a.contig w).2 then flat R h a.blk a.off w (count a.shape).toNat
  else
    match R.loop with
    | some f => do
      let k := (loopAxis 0 a.strides none 0x7FFFFFFFFFFFFFFF).getD (a.shape.length - 1)
      let s ← chunks f h a k (multirange (a.shape.eraseIdx k)) R.start
      return (s, (a.shape.getD k 0 * count (a.shape.eraseIdx k)).toNat)
    | none =>
      let A := if a.shouldTranspose then a.transpose else a
      scan R ((multirange A.shape).map (A.read h)) R.start 0

/-- `_contig_match` with an array of `bool` (ndarray.codon:359-368). -/
def contigMatch (w : Int) (a m : Arr) : Bool :=
  decide (a.shape = m.shape) && (((a.contig w).1 && (m.contig 1).1) || ((a.contig w).2 && (m.contig 1).2))

/-- `_should_transpose(other)` for arrays of the same number of dimensions (ndarray.codon:1146-1152, 1162). -/
def shouldTranspose2 (a m : Arr) : Bool := a.shouldTranspose && m.shouldTranspose

/-- `_reduce_all` with `where`, an array already broadcast to the shape of `a` (reductions.codon:301-327). -/
def masked (R : Redux V S O) (w : Int) (a : Arr) (h : Heap V) (m : Arr) (g : Heap Bool) : Except Fail (S × Nat) :=
  if contigMatch w a m then scanWhere R ((upto (count a.shape)).map fun k => (m.flatRead g 1 k, a.flatRead h w k)) R.start 0
  else
    let A := if shouldTranspose2 a m then a.transpose else a
    let W := if shouldTranspose2 a m then m.transpose else m
    scanWhere R ((multirange A.shape).map fun idx => (W.read g idx, A.read h idx)) R.start 0

/-- `_reduce_all` (reductions.codon:212-338); `empty` tells whether a function for the empty array is passed. -/
def reduceAll (R : Redux V S O) (w : Int) (a : Arr) (h : Heap V) (empty : Bool) (wh : Option (Arr × Heap Bool)) : Except Fail O :=
  if empty = true ∧ count a.shape = 0 ∧ R.raises = true then .error .value
  else do
    let (s, i) ← match wh with
      | none => plain R w a h
      | some (m, g) => masked R w a h m g
    R.result s i

/-! ### `_reduce_gradual` -/

/-- The dimensions that stay: `new_shape`, `out_strides` (reductions.codon:593-614), for the mask made there. -/
def stay (mask : List Bool) (l : List Int) : List Int := ((mask.zip l).filter (·.1)).map (·.2)

/-- The dimensions that are reduced: `idx_bound`, `sub_strides`. -/
def gone (mask : List Bool) (l : List Int) : List Int := ((mask.zip l).filter (!·.1)).map (·.2)

/-- The mask (reductions.codon:593-614): true for the dimensions not in `ax`. -/
def maskOf (ax : List Nat) (n : Nat) : List Bool := (List.range n).map fun i => !ax.contains i

/-- `_GradualFunctor` called for the pairs of pointers of `_loop` (reductions.codon:340-362). -/
def stepAll (G : Gradual V O) (k : Nat) (h : Heap V) : List (List Ptr) → Heap O → Except Fail (Heap O)
  | [], ho => .ok ho
  | [q, p] :: r, ho => do
    let v ← need (h.get p.1 p.2)
    let c ← need (ho.get q.1 q.2)
    let ho ← need (ho.write q.1 q.2 (G.step c v k))
    stepAll G k h r ho
  | _ :: _, _ => .error .ub

/-- One `_loop` for every offset (reductions.codon:413-417, 498-507). -/
def rounds (G : Gradual V O) (w wo : Int) (h : Heap V) (ans : Arr) (sh st : List Int) (b : Nat) (off : Int) : List Int → Nat → Heap O → Except Fail (Heap O)
  | [], _, ho => .ok ho
  | o :: r, k, ho =>
    match loop ⟨ans, wo⟩ [⟨⟨sh, st, b, off + o⟩, w⟩] .none true none ho.next with
    | .error _ => .error .ub
    | .ok (ts, _) => do
      let ho ← stepAll G k h ts ho
      rounds G w wo h ans sh st b off r (k + 1) ho

/-- `_reduce_gradual` (reductions.codon:364-519) without `out`; the new array is filled with the initial value, if there is one (lines 409-411, 490-492); `_empty_like` (207-210) makes it. -/
def gradual (G : Gradual V O) (w wo : Int) (a : Arr) (h : Heap V) (ax : List Nat) (ho : Heap O) (junk : Int → O) : Except Fail (Heap O × Arr) :=
  let init : Int → O := match G.start with | some v => fun _ => v | none => junk
  match ax with
  | [k] => do
    let sh := a.shape.eraseIdx k
    let ans : Arr := ⟨sh, stridesOf sh a.shouldTranspose wo, ho.next, 0⟩
    let ho ← rounds G w wo h ans sh (a.strides.eraseIdx k) a.blk a.off ((upto (a.shape.getD k 0)).map (· * a.strides.getD k 0)) 0 (ho.new wo (count sh) init)
    return (ho, ans)
  | _ => do
    let mask := maskOf ax a.shape.length
    let sh := stay mask a.shape
    let ans : Arr := ⟨sh, stridesOf sh a.shouldTranspose wo, ho.next, 0⟩
    let bound := if a.shouldTranspose then (gone mask a.shape).reverse else gone mask a.shape
    let sub := if a.shouldTranspose then (gone mask a.strides).reverse else gone mask a.strides
    let ho ← rounds G w wo h ans sh (stay mask a.strides) a.blk a.off ((multirange bound).map fun t => ptrOff t sub) 0 (ho.new wo (count sh) init)
    return (ho, ans)

/-! ### `_reduce` -/

/-- `min_stride_bound`, `min_stride_shape` (reductions.codon:588-614); the stride is remembered with its sign. -/
def minStride : List Int → Int → Int
  | [], m => m
  | s :: r, m => minStride r (if s ≠ 0 ∧ (m = -1 ∨ (s.natAbs : Int) < m) then s else m)

/-- The argument `axis`. -/
inductive Axis where
  | all
  | one (i : Int)
  | many (l : List Int)

/-- The axes after normalization (reductions.codon:552-557). -/
def axes (n : Nat) : Axis → Except Fail (List Nat)
  | .all => .ok (List.range n)
  | .one i => if i < -n ∨ i ≥ n then .error .axis else .ok [(if i < 0 then i + n else i).toNat]
  | .many l =>
    match l.mapM (normAxis · n) with
    | .error _ => .error .axis
    | .ok t => if hasDuplicate t then .error .value else .ok (t.map Int.toNat)

/-- What a call gives. -/
inductive Ans (O : Type) where
  | num (v : O)
  | arr (h : Heap O) (a : Arr)

/-- The loop of reductions.codon:690-719; `ans` and the strides are those after a possible reversal. -/
def fill (R : Redux V S O) (w : Int) (h : Heap V) (bound sub out : List Int) (b : Nat) (off : Int) (wh : Option (Arr × Heap Bool)) (wsub wout : List Int) (ans : Arr) :
    List (List Int) → Heap O → Except Fail (Heap O)
  | [], ho => .ok ho
  | idx :: r, ho => do
    let v ← reduceAll R w ⟨bound, sub, b, off + ptrOff idx out⟩ h false (wh.map fun (m, g) => (⟨bound, wsub, m.blk, m.off + ptrOff idx wout⟩, g))
    let ho ← need (ho.write ans.blk (ans.off + ptrOff idx ans.strides) v)
    fill R w h bound sub out b off wh wsub wout ans r ho

/-- `_reduce` for given axes (reductions.codon:559-728). -/
def reduceAxes (R : Redux V S O) (w wo : Int) (a : Arr) (h : Heap V) (ax : List Nat) (wh : Option (Arr × Heap Bool)) (ho : Heap O) (junk : Int → O) : Except Fail (Ans O) :=
  if ax.length = a.shape.length then (reduceAll R w a h true wh).map .num
  else if count a.shape = 0 ∧ R.raises = true then .error .value
  else
    let mask := maskOf ax a.shape.length
    let slow := do
      let sh := stay mask a.shape
      let t := a.shouldTranspose
      let rev := fun l : List Int => if t then l.reverse else l
      let ans : Arr := ⟨sh, stridesOf sh t wo, ho.next, 0⟩
      let ho ← fill R w h (gone mask a.shape) (gone mask a.strides) (rev (stay mask a.strides)) a.blk a.off wh
        (match wh with | some (m, _) => gone mask m.strides | none => []) (match wh with | some (m, _) => rev (stay mask m.strides) | none => [])
        ⟨sh, rev ans.strides, ho.next, 0⟩ (multirange (rev sh)) (ho.new wo (count sh) junk)
      return .arr ho ans
    match R.gradual with
    | some G =>
      if wh.isNone ∧ 1 < a.shape.length ∧ 0 < minStride (stay mask a.strides) (-1) ∧ minStride (stay mask a.strides) (-1) < minStride (gone mask a.strides) (-1) then do
        let (ho, r) ← gradual G w wo a h ax ho junk
        return .arr ho r
      else slow
    | none => slow

/-- `_reduce` (reductions.codon:521-728). -/
def reduce (R : Redux V S O) (w wo : Int) (a : Arr) (h : Heap V) (axis : Axis) (wh : Option (Arr × Heap Bool)) (ho : Heap O) (junk : Int → O) : Except Fail (Ans O) :=
  match a.shape, axis with
  | [], .one i => if i ≠ 0 ∧ i ≠ -1 then .error .axis else reduceAxes R w wo a h [] wh ho junk
  | _, _ => do
    let ax ← axes a.shape.length axis
    reduceAxes R w wo a h ax wh ho junk

end Codon.NpRed
