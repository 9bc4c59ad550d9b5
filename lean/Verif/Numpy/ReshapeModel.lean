import Verif.Numpy.Model
/-!
# Model of `copy` and `reshape`
-/
namespace Codon.Numpy
variable {V : Type}

/-- `Ptr[dtype](n)`: a new block of `n` elements with arbitrary contents (`junk`). -/
def Heap.new (h : Heap V) (w n : Int) (junk : Int → V) : Heap V where
  get b o := if b = h.next then (if 0 ≤ o ∧ o < n * w ∧ o % w = 0 then some (junk o) else none) else h.get b o
  next := h.next + 1

/-- Storing an element; where no element can start it is undefined. -/
def Heap.write (h : Heap V) (b : Nat) (o : Int) (v : V) : Option (Heap V) :=
  match h.get b o with
  | none => none
  | some _ => some { h with get := fun b' o' => if b' = b ∧ o' = o then some v else h.get b' o' }

/-- `for idx in util.multirange(self.shape): q[0] = p[0]` (ndarray.codon:1108-1111): `x` gets the elements of `a`. -/
def copyLoop (a x : Arr) : List (List Int) → Heap V → Option (Heap V)
  | [], h => some h
  | idx :: r, h =>
    match a.read h idx with
    | none => none
    | some v =>
      match h.write x.blk (x.off + ptrOff idx x.strides) v with
      | none => none
      | some h' => copyLoop a x r h'

/-- `memcpy` of `n` elements to the start of block `b`. -/
def memcpyLoop (a : Arr) (w : Int) (b : Nat) : List Int → Heap V → Option (Heap V)
  | [], h => some h
  | i :: r, h =>
    match a.flatRead h w i with
    | none => none
    | some v =>
      match h.write b (i * w) v with
      | none => none
      | some h' => memcpyLoop a w b r h'

/-- `copy(order)`, i.e. `astype` with the same type and `copy=True` (ndarray.codon:1085-1112, 1131-1132). -/
def Arr.copy (a : Arr) (h : Heap V) (w : Int) (junk : Int → V) (order : Order) : Option (Heap V × Arr) :=
  let cc := (a.contig w).1
  let fc := (a.contig w).2
  let h1 := h.new w (count a.shape) junk
  if (order = .C ∧ cc = true) ∨ (order = .F ∧ fc = true) then
    (memcpyLoop a w h.next (upto (count a.shape)) h1).map fun h' => (h', ⟨a.shape, stridesOf a.shape (fc && !cc) w, h.next, 0⟩)
  else
    let f := if order = .F then true else if order = .A ∨ order = .K then fc else false
    let x : Arr := ⟨a.shape, stridesOf a.shape f w, h.next, 0⟩
    (copyLoop a x (multirange a.shape) h1).map fun h' => (h', x)

/-- The loop of `_fix_unknown_dimension` (ndarray.codon:486-494) from position `i`: the product of the known dimensions and the position of the unknown one; `none` is
    `ValueError` for a second unknown dimension. -/
def knownLoop : List Int → Int → Int → Option Int → Option (Int × Option Int)
  | [], _, known, unknown => some (known, unknown)
  | d :: ds, i, known, unknown =>
    if d < 0 then
      match unknown with
      | none => knownLoop ds (i + 1) known (some i)
      | some _ => none
    else knownLoop ds (i + 1) (known * d) unknown

/-- `_fix_unknown_dimension` (ndarray.codon:463-504) for an array of size `n`; `none` is `ValueError`. -/
def fixUnknown (n : Int) (newshape : List Int) : Option (List Int) :=
  match newshape with
  | [] => if n ≠ 1 then none else some []
  | [d] => if d < 0 then some [n] else if d ≠ n then none else some [d]
  | _ =>
    match knownLoop newshape 0 1 none with
    | none => none
    | some (known, some i) => if known = 0 ∨ n.tmod known ≠ 0 then none else some (newshape.set i.toNat (n.tdiv known))
    | some (known, none) => if n ≠ known then none else some newshape

/-- The inner loop of `_attempt_reshape_nocopy` (ndarray.codon:536-542).  `np` and `op` are the products of the new and old dimensions taken so far (`gn`, and `go` with
    strides); the remaining ones are in the lists.  Reading past the end of either is counted as undefined. -/
def grow (np op : Int) (gn : List Int) (go : List (Int × Int)) (rn : List Int) (ro : List (Int × Int)) :
    Option (List Int × List (Int × Int) × List Int × List (Int × Int)) :=
  if np = op then some (gn, go, rn, ro)
  else if np < op then
    match rn with
    | [] => none
    | d :: rn' => grow (np * d) op (gn ++ [d]) go rn' ro
  else
    match ro with
    | [] => none
    | p :: ro' => grow np (op * p.1) gn (go ++ [p]) rn ro'
termination_by rn.length + ro.length

/-- The check of the old strides (ndarray.codon:544-552). -/
def chainOk (forder : Bool) : List (Int × Int) → Bool
  | x :: y :: r => (if forder then y.2 = x.1 * x.2 else x.2 = y.1 * y.2) && chainOk forder (y :: r)
  | _ => true

/-- The strides of a group of new dimensions (ndarray.codon:554-565). -/
def groupStrides (forder : Bool) (gn : List Int) (go : List (Int × Int)) : Option (List Int) :=
  if forder then go.head?.map fun p => stridesLoop gn p.2
  else go.getLast?.map fun p => (stridesLoop gn.reverse p.2).reverse

/-- `last_stride` and the strides of what is left (ndarray.codon:572-584): `acc` are the new strides so far, `last` the last new dimension they belong to. -/
def finishStrides (w : Int) (forder : Bool) (acc : List Int) (last : Option Int) (rn : List Int) : Option (List Int) :=
  let s := match acc.getLast? with
    | some s => s
    | none => w
  if forder then
    match last with
    | none => none
    | some d => some (acc ++ rn.map fun _ => s * d)
  else some (acc ++ rn.map fun _ => s)

/-- The outer loop of `_attempt_reshape_nocopy` (ndarray.codon:532-570); the inner `none` is the result `False`.  `fuel` bounds the number of rounds. -/
def attemptLoop (w : Int) (forder : Bool) : Nat → List Int → List (Int × Int) → List Int → Option Int → Option (Option (List Int))
  | _, [], _, acc, last => (finishStrides w forder acc last []).map some
  | _, rn, [], acc, last => (finishStrides w forder acc last rn).map some
  | 0, _ :: _, _ :: _, _, _ => none
  | fuel + 1, n :: rn, o :: ro, acc, _ =>
    match grow n o.1 [n] [o] rn ro with
    | none => none
    | some (gn, go, rn', ro') =>
      if chainOk forder go then
        match groupStrides forder gn go with
        | none => none
        | some st => attemptLoop w forder fuel rn' ro' (acc ++ st) gn.getLast?
      else some none

/-- `_attempt_reshape_nocopy` (ndarray.codon:506-586): dimensions of size one are dropped first (lines 520-524). -/
def attempt (a : Arr) (w : Int) (newdims : List Int) (forder : Bool) : Option (Option (List Int)) :=
  attemptLoop w forder newdims.length newdims ((a.shape.zip a.strides).filter fun p => decide (p.1 ≠ 1)) [] none

/-- The result of `reshape`. -/
inductive Res (V : Type) where
  | valueError
  | ok (h : Heap V) (b : Arr)

/-- `reshape(*shape, order=order)` with the dimensions as separate arguments (ndarray.codon:588-620). -/
def Arr.reshape (a : Arr) (h : Heap V) (w : Int) (junk : Int → V) (shape : List Int) (order : Order) : Option (Res V) :=
  if shape = [] then
    if count a.shape ≠ 1 then some .valueError else some (.ok h ⟨[], [], a.blk, a.off⟩)
  else
    let cc := (a.contig w).1
    let fc := (a.contig w).2
    if order = .K then some .valueError
    else
      let f := if order = .A then fc && !cc else order = .F
      if shape = a.shape then some (.ok h a)
      else
        match fixUnknown (count a.shape) shape with
        | none => some .valueError
        | some shape =>
          if (f = false ∧ cc = false) ∨ (f = true ∧ fc = false) then
            match attempt a w shape f with
            | none => none
            | some (some st) => some (.ok h ⟨shape, st, a.blk, a.off⟩)
            | some none => (a.copy h w junk (if f then .F else .C)).map fun p => .ok p.1 ⟨shape, stridesOf shape f w, p.2.blk, p.2.off⟩
          else some (.ok h ⟨shape, stridesOf shape f w, a.blk, a.off⟩)

/-- `reshape(shape, order=order)` with a tuple (ndarray.codon:597-598): `order` is not passed on. -/
def Arr.reshapeTuple (a : Arr) (h : Heap V) (w : Int) (junk : Int → V) (shape : List Int) (_order : Order) : Option (Res V) := a.reshape h w junk shape .C

end Codon.Numpy
