import Verif.Numpy.LoopModel
/-!
# Model of universal functions

`UnaryUFunc.__call__` and `BinaryUFunc.__call__` (ufunc.codon:395-442, 573-641) with the vectorised loops (ufunc.codon:21-125, runtime/numpy/loops.cpp:414-516).  Casts are part of
the element operation; the vector and the scalar versions of a function are the same operation `op` here (they differ at most in rounding).  `vec` says whether the function has a
vectorised loop and all arrays have its element type (`_have_vectorized_loop`, ufunc.codon:10-19).  `none` is undefined behaviour (access outside the allocated memory).
-/
namespace Codon.Numpy
variable {V : Type}

/-! ### The vectorised loops -/

/-- `tmp[j] = in[i + j]` for `j < m`, with steps of `s` bytes. -/
def gather (h : Heap V) (p : Ptr) (s : Int) : Nat → Nat → Option (List V)
  | _, 0 => some []
  | i, m + 1 =>
    match h.get p.1 (p.2 + i * s), gather h p s (i + 1) m with
    | some v, some vs => some (v :: vs)
    | _, _ => none

/-- `out[i + j] = tmp[j]` for all `j`, with steps of `t` bytes. -/
def scatter (q : Ptr) (t : Int) : Nat → List V → Heap V → Option (Heap V)
  | _, [], h => some h
  | i, v :: vs, h =>
    match h.write q.1 (q.2 + i * t) v with
    | none => none
    | some h' => scatter q t (i + 1) vs h'

/-- The rounds of `UnaryLoop` with `L` lanes (loops.cpp:422-427, 432-441). -/
def uVector (L : Nat) (op : V → V) (p : Ptr) (s : Int) (q : Ptr) (t : Int) : Nat → Nat → Heap V → Option (Heap V)
  | 0, _, h => some h
  | k + 1, i, h =>
    match gather h p s i L with
    | none => none
    | some tmp =>
      match scatter q t i (tmp.map op) h with
      | none => none
      | some h' => uVector L op p s q t k (i + L) h'

/-- The rest of `UnaryLoop` (loops.cpp:429-430, 443-444). -/
def uScalar (op : V → V) (p : Ptr) (s : Int) (q : Ptr) (t : Int) : Nat → Nat → Heap V → Option (Heap V)
  | 0, _, h => some h
  | k + 1, i, h =>
    match h.get p.1 (p.2 + i * s) with
    | none => none
    | some v =>
      match h.write q.1 (q.2 + i * t) (op v) with
      | none => none
      | some h' => uScalar op p s q t k (i + 1) h'

/-- `UnaryLoop` (loops.cpp:414-446) on elements of `w` bytes. -/
def unaryLoop (L : Nat) (w : Int) (op : V → V) (p : Ptr) (s : Int) (q : Ptr) (t : Int) (n : Nat) (h : Heap V) : Option (Heap V) :=
  if s = w ∧ t = w then
    match uVector L op p w q w (n / L) 0 h with
    | none => none
    | some h' => uScalar op p w q w (n - n / L * L) (n / L * L) h'
  else
    match uVector L op p s q t (n / L) 0 h with
    | none => none
    | some h' => uScalar op p s q t (n - n / L * L) (n / L * L) h'

/-- The rounds of `BinaryLoop` that load both operands (loops.cpp:458-465, 498-510). -/
def bVector (L : Nat) (op : V → V → V) (p1 : Ptr) (s1 : Int) (p2 : Ptr) (s2 : Int) (q : Ptr) (t : Int) : Nat → Nat → Heap V → Option (Heap V)
  | 0, _, h => some h
  | k + 1, i, h =>
    match gather h p1 s1 i L, gather h p2 s2 i L with
    | some tmp1, some tmp2 =>
      match scatter q t i (List.zipWith op tmp1 tmp2) h with
      | none => none
      | some h' => bVector L op p1 s1 p2 s2 q t k (i + L) h'
    | _, _ => none

/-- The rounds with a fixed first operand (loops.cpp:473-479): the result is stored in `tmp1`, from where the next round takes its first operand. -/
def bVectorLeft (L : Nat) (op : V → V → V) (p2 : Ptr) (s2 : Int) (q : Ptr) (t : Int) : Nat → Nat → List V → Heap V → Option (Heap V)
  | 0, _, _, h => some h
  | k + 1, i, tmp1, h =>
    match gather h p2 s2 i L with
    | none => none
    | some tmp2 =>
      match scatter q t i (List.zipWith op tmp1 tmp2) h with
      | none => none
      | some h' => bVectorLeft L op p2 s2 q t k (i + L) (List.zipWith op tmp1 tmp2) h'

/-- The rounds with a fixed second operand (loops.cpp:487-493). -/
def bVectorRight (L : Nat) (op : V → V → V) (p1 : Ptr) (s1 : Int) (tmp2 : List V) (q : Ptr) (t : Int) : Nat → Nat → Heap V → Option (Heap V)
  | 0, _, h => some h
  | k + 1, i, h =>
    match gather h p1 s1 i L with
    | none => none
    | some tmp1 =>
      match scatter q t i (List.zipWith op tmp1 tmp2) h with
      | none => none
      | some h' => bVectorRight L op p1 s1 tmp2 q t k (i + L) h'

/-- The rest of `BinaryLoop` (loops.cpp:467-468, 481-482, 495-496, 512-514). -/
def bScalar (op : V → V → V) (p1 : Ptr) (s1 : Int) (p2 : Ptr) (s2 : Int) (q : Ptr) (t : Int) : Nat → Nat → Heap V → Option (Heap V)
  | 0, _, h => some h
  | k + 1, i, h =>
    match h.get p1.1 (p1.2 + i * s1), h.get p2.1 (p2.2 + i * s2) with
    | some u, some v =>
      match h.write q.1 (q.2 + i * t) (op u v) with
      | none => none
      | some h' => bScalar op p1 s1 p2 s2 q t k (i + 1) h'
    | _, _ => none

/-- `BinaryLoop` (loops.cpp:448-516). -/
def binaryLoop (L : Nat) (w : Int) (op : V → V → V) (p1 : Ptr) (s1 : Int) (p2 : Ptr) (s2 : Int) (q : Ptr) (t : Int) (n : Nat) (h : Heap V) : Option (Heap V) :=
  if s1 = w ∧ s2 = w ∧ t = w then
    match bVector L op p1 w p2 w q w (n / L) 0 h with
    | none => none
    | some h' => bScalar op p1 w p2 w q w (n - n / L * L) (n / L * L) h'
  else if s1 = 0 ∧ s2 = w ∧ t = w then
    match h.get p1.1 p1.2 with
    | none => none
    | some u =>
      match bVectorLeft L op p2 w q w (n / L) 0 (List.replicate L u) h with
      | none => none
      | some h' => bScalar op p1 0 p2 w q w (n - n / L * L) (n / L * L) h'
  else if s1 = w ∧ s2 = 0 ∧ t = w then
    match h.get p2.1 p2.2 with
    | none => none
    | some v =>
      match bVectorRight L op p1 w (List.replicate L v) q w (n / L) 0 h with
      | none => none
      | some h' => bScalar op p1 w p2 0 q w (n - n / L * L) (n / L * L) h'
  else
    match bVector L op p1 s1 p2 s2 q t (n / L) 0 h with
    | none => none
    | some h' => bScalar op p1 s1 p2 s2 q t (n - n / L * L) (n / L * L) h'

/-- `_contig_match` (ndarray.codon:359-368). -/
def contigMatch (a b : Opd) : Bool :=
  decide (a.arr.shape = b.arr.shape) && (((a.arr.contig a.w).1 && (b.arr.contig b.w).1) || ((a.arr.contig a.w).2 && (b.arr.contig b.w).2))

/-- The choice of the axis of the inner loop (ufunc.codon:46-51, 105-111): the loop over the dimensions from number `i` on; `si` is the stride of the axis chosen so far. -/
def pickAxis : List Int → List Int → Nat → Option (Nat × Int) → Option (Nat × Int)
  | n :: ns, s :: ss, i, best =>
    pickAxis ns ss (i + 1) (if 1 < n then (match best with
      | none => some (i, s)
      | some (k, si) => if s < si then some (i, s) else some (k, si)) else best)
  | _, _, _, best => best

/-- The axis: the first one if there is none with more than one element (ufunc.codon:53-57, 113-118). -/
def loopAxis (shape strides : List Int) : Nat :=
  match pickAxis shape strides 0 none with
  | none => 0
  | some (k, _) => k

/-- Running over the rows (ufunc.codon:59-64, 120-125). -/
def rows (f : List Int → Heap V → Option (Heap V)) : List (List Int) → Heap V → Option (Heap V)
  | [], h => some h
  | idx :: r, h =>
    match f idx h with
    | none => none
    | some h' => rows f r h'

/-- `_ptr(idx)` (ndarray.codon:1041-1070). -/
def Arr.ptr (a : Arr) (c : List Int) : Ptr := (a.blk, a.off + ptrOff c a.strides)

/-- `_apply_vectorized_loop_unary` (ufunc.codon:21-64).  `tuple_delete` and `tuple_insert` (util.codon:68-98) are `eraseIdx` and `insertIdx`; `broadcast_to(arr, arr.shape)` is
    `arr`. -/
def applyUnary (L : Nat) (op : V → V) (a out : Opd) (h : Heap V) : Option (Except Err (Heap V)) :=
  if a.arr.shape.length = 0 ∨ out.arr.shape.length = 0 ∨ out.arr.shape.length < a.arr.shape.length then some (.error .compile)
  else if out.arr.shape.length = 1 then
    (unaryLoop L a.w op (a.arr.blk, a.arr.off) (a.arr.strides.headD 0) (out.arr.blk, out.arr.off) (out.arr.strides.headD 0) (count out.arr.shape).toNat h).map .ok
  else if contigMatch a out then
    (unaryLoop L a.w op (a.arr.blk, a.arr.off) out.w (out.arr.blk, out.arr.off) out.w (count out.arr.shape).toNat h).map .ok
  else
    let k := loopAxis a.arr.shape a.arr.strides
    (rows (fun idx => unaryLoop L a.w op (a.arr.ptr (idx.insertIdx k 0)) (a.arr.strides.getD k 0) (out.arr.ptr (idx.insertIdx k 0)) (out.arr.strides.getD k 0)
      (a.arr.shape.getD k 0).toNat) (multirange (a.arr.shape.eraseIdx k)) h).map .ok

/-- `_apply_vectorized_loop_binary` (ufunc.codon:66-125) with `routines.broadcast_to` (routines.codon:761-790). -/
def applyBinary (L : Nat) (op : V → V → V) (a1 a2 out : Opd) (h : Heap V) : Option (Except Err (Heap V)) :=
  if (a1.arr.shape.length = 0 ∧ a2.arr.shape.length = 0) ∨ out.arr.shape.length = 0 ∨ out.arr.shape.length < a1.arr.shape.length ∨ out.arr.shape.length < a2.arr.shape.length then
    some (.error .compile)
  else if out.arr.shape.length = 1 then
    (binaryLoop L out.w op (a1.arr.blk, a1.arr.off) (if a1.arr.shape.length = 0 then 0 else a1.arr.strides.headD 0) (a2.arr.blk, a2.arr.off)
      (if a2.arr.shape.length = 0 then 0 else a2.arr.strides.headD 0) (out.arr.blk, out.arr.off) (out.arr.strides.headD 0) (count out.arr.shape).toNat h).map .ok
  else
    match broadcastStrides true a1.arr out.arr.shape, broadcastStrides true a2.arr out.arr.shape with
    | .error e, _ => some (.error e)
    | _, .error e => some (.error e)
    | .ok st1, .ok st2 =>
      let b1 : Opd := ⟨⟨out.arr.shape, st1, a1.arr.blk, a1.arr.off⟩, a1.w⟩
      let b2 : Opd := ⟨⟨out.arr.shape, st2, a2.arr.blk, a2.arr.off⟩, a2.w⟩
      if contigMatch b1 out && contigMatch b2 out then
        (binaryLoop L out.w op (b1.arr.blk, b1.arr.off) out.w (b2.arr.blk, b2.arr.off) out.w (out.arr.blk, out.arr.off) out.w (count out.arr.shape).toNat h).map .ok
      else
        let k := loopAxis out.arr.shape st1
        (rows (fun idx => binaryLoop L out.w op (b1.arr.ptr (idx.insertIdx k 0)) (st1.getD k 0) (b2.arr.ptr (idx.insertIdx k 0)) (st2.getD k 0)
          (out.arr.ptr (idx.insertIdx k 0)) (out.arr.strides.getD k 0) (out.arr.shape.getD k 0).toNat) (multirange (out.arr.shape.eraseIdx k)) h).map .ok

/-! ### Calls -/

/-- The loop of `broadcast` on both shapes from the last dimension to the first (util.codon:199-213). -/
def broadcast2Loop : List Int → List Int → Except Err (List Int)
  | [], ys => .ok ys
  | xs, [] => .ok xs
  | a :: xs, b :: ys =>
    if a = 1 then (broadcast2Loop xs ys).map (b :: ·)
    else if b ≠ 1 ∧ a ≠ b then .error .value
    else (broadcast2Loop xs ys).map (a :: ·)

/-- `broadcast` (util.codon:187-215). -/
def broadcast2 (s1 s2 : List Int) : Except Err (List Int) := (broadcast2Loop s1.reverse s2.reverse).map List.reverse

/-- The loop for the strides in `empty_like` (routines.codon:203-206): the dimensions from the innermost to the outermost. -/
def kStrides (shape : List Int) : List Nat → Int → List Int → List Int
  | [], _, st => st
  | p :: ps, s, st => kStrides shape ps (s * shape.getD p 0) (st.set p s)

/-- The strides of `empty_like(x, dtype)` (routines.codon:176-213 with `order='K'` and no `shape`); elements of `w` bytes in `x` and `w'` bytes in the result. -/
def likeStrides (a : Arr) (w w' : Int) : List Int :=
  if (a.contig w).1 = true ∨ a.shape.length ≤ 1 then stridesOf a.shape false w'
  else if (a.contig w).2 = true then stridesOf a.shape true w'
  else kStrides a.shape ((sortByStride ((upto a.shape.length).zip a.strides)).map (·.1.toNat)).reverse w' (List.replicate a.strides.length 0)

/-- `_should_transpose()` (ndarray.codon:1137-1144). -/
def Arr.shouldTranspose (a : Arr) : Bool :=
  decide (1 < a.shape.length) && decide (a.strides.headD 0 ≠ 0) && decide ((a.strides.headD 0).natAbs < (a.strides.getLastD 0).natAbs)

/-- The argument `where`. -/
inductive Where where
  | const (b : Bool)
  | mask (m : Opd)

/-- What a call gives: a number, or an array in memory. -/
inductive Ans (V : Type) where
  | val (v : V)
  | arr (h : Heap V) (a : Opd)

/-- `_UnaryWhereFunctor` (ufunc.codon:247-259). -/
def unaryWhere (tr : V → Bool) (op : V → V) : List Ptr → Heap V → Option (Heap V)
  | [y, x, w], h =>
    match h.get w.1 w.2 with
    | none => none
    | some m => if tr m then unaryFunctor op [y, x] h else some h
  | _, _ => none

/-- `_BinaryWhereFunctor` (ufunc.codon:346-363). -/
def binaryWhere (tr : V → Bool) (op : V → V → V) : List Ptr → Heap V → Option (Heap V)
  | [z, x, y, w], h =>
    match h.get w.1 w.2 with
    | none => none
    | some m => if tr m then binaryFunctor op [z, x, y] h else some h
  | _, _ => none

/-- A heap after an operation on the array `a`. -/
def withArr (a : Opd) (r : Option (Except Err (Heap V))) : Option (Except Err (Ans V)) := r.map fun e => e.map fun h => .arr h a

/-- The second half of `UnaryUFunc.__call__` (ufunc.codon:423-442): `ans` gets the values. -/
def unaryInto (L : Nat) (vec : Bool) (op : V → V) (tr : V → Bool) (x ans : Opd) (wh : Where) (h : Heap V) : Option (Except Err (Ans V)) :=
  withArr ans <| match wh with
  | .const true => if vec then applyUnary L op x ans h else inplaceLoop h .all false (unaryFunctor op) ans [x]
  | .const false => some (.ok h)
  | .mask m => inplaceLoop h .first true (unaryWhere tr op) ans [x, m]

/-- `UnaryUFunc.__call__` (ufunc.codon:395-442); a new array has elements of `w0` bytes.  Comparing shapes of different lengths does not compile. -/
def unaryCall (L : Nat) (vec : Bool) (op : V → V) (tr : V → Bool) (x : Opd) (out : Option Opd) (wh : Where) (w0 : Int) (junk : Int → V) (h : Heap V) : Option (Except Err (Ans V)) :=
  if x.arr.shape.length = 0 then
    match h.get x.arr.blk x.arr.off with
    | none => none
    | some v =>
      match out with
      | none => some (.ok (.val (op v)))
      | some o => withArr o (o.iunary h fun _ => op v)
  else
    match out with
    | none => unaryInto L vec op tr x ⟨⟨x.arr.shape, likeStrides x.arr x.w w0, h.next, 0⟩, w0⟩ wh (h.new w0 (count x.arr.shape) junk)
    | some o =>
      match broadcast2 x.arr.shape o.arr.shape with
      | .error e => some (.error e)
      | .ok bs => if bs.length ≠ o.arr.shape.length then some (.error .compile) else if bs ≠ o.arr.shape then some (.error .value) else unaryInto L vec op tr x o wh h

/-- The end of `BinaryUFunc.__call__` (ufunc.codon:613-645). -/
def binaryInto (L : Nat) (vec : Bool) (op : V → V → V) (tr : V → Bool) (x y ans : Opd) (wh : Where) (h : Heap V) : Option (Except Err (Ans V)) :=
  withArr ans <| match wh with
  | .const true =>
    if vec then applyBinary L op x y ans h
    else if x.arr.shape.length = 0 then
      match h.get x.arr.blk x.arr.off with
      | none => none
      | some u => inplaceLoop h .first false (unaryFunctor (op u)) ans [y]
    else if y.arr.shape.length = 0 then
      match h.get y.arr.blk y.arr.off with
      | none => none
      | some v => inplaceLoop h .first false (unaryFunctor fun u => op u v) ans [x]
    else inplaceLoop h .first false (binaryFunctor op) ans [x, y]
  | .const false => some (.ok h)
  | .mask m => inplaceLoop h .first true (binaryWhere tr op) ans [x, y, m]

/-- `BinaryUFunc.__call__` (ufunc.codon:573-645). -/
def binaryCall (L : Nat) (vec : Bool) (op : V → V → V) (tr : V → Bool) (x y : Opd) (out : Option Opd) (wh : Where) (w0 : Int) (junk : Int → V) (h : Heap V) :
    Option (Except Err (Ans V)) :=
  match out with
  | none =>
    if x.arr.shape.length = 0 ∧ y.arr.shape.length = 0 then
      match h.get x.arr.blk x.arr.off, h.get y.arr.blk y.arr.off with
      | some u, some v => some (.ok (.val (op u v)))
      | _, _ => none
    else
      match broadcast2 x.arr.shape y.arr.shape with
      | .error e => some (.error e)
      | .ok s =>
        let f := if y.arr.shape.length ≤ x.arr.shape.length then x.arr.shouldTranspose else y.arr.shouldTranspose
        binaryInto L vec op tr x y ⟨⟨s, stridesOf s f w0, h.next, 0⟩, w0⟩ wh (h.new w0 (count s) junk)
  | some o =>
    match broadcast2 x.arr.shape o.arr.shape with
    | .error e => some (.error e)
    | .ok bs => if bs.length ≠ o.arr.shape.length then some (.error .compile) else if bs ≠ o.arr.shape then some (.error .value) else binaryInto L vec op tr x y o wh h

end Codon.Numpy
