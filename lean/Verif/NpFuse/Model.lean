import Verif.Numpy.UfuncModel
/-!
# Model of the optimisation of array expressions

Files: codon/cir/transform/numpy/numpy.cpp, expr.cpp, stdlib/numpy/fusion.codon.  An expression of array operators and universal functions is parsed into a tree whose leaves are all
other expressions (numpy.cpp:590-696).  The pass replaces it by code that evaluates the leaves first and then the tree: parts of it in one loop over all leaves ("fused"), the rest one
operation after the other, storing results in temporary arrays that are no longer needed and freeing them.

Generating code and running it are one step here: the functions below do what the code generated for a tree does.  Not modelled: transposition and matrix products (which are
optimised separately and act as leaves), casts (they are part of the element operations), parsing, and the differences in rounding between the vectorised and the scalar versions of
functions.  Forwarding of expressions assigned to variables is a pass of its own (forward.cpp).
-/
namespace Codon.NpFuse
open Codon.Numpy
variable {V : Type}

/-- Outcomes: `none` is undefined behaviour, `error` an exception. -/
abbrev Out (α : Type) := Option (Except Err α)

/-- One step after the other. -/
def Out.bind {α β : Type} (x : Out α) (f : α → Out β) : Out β :=
  match x with
  | none => none
  | some (.error e) => some (.error e)
  | some (.ok a) => f a

/-- An element type: its name and its size in bytes. -/
structure DT where
  id : Nat
  w : Int
  deriving DecidableEq, Repr

/-- Static types of leaves: numbers, or arrays of a number of dimensions. -/
inductive Ty where
  | num
  | arr (dt : DT) (ndim : Nat)
  deriving DecidableEq, Repr

/-- What an operation is: an operator, a universal function, or a universal function with a vectorised loop for these types (`haveVectorizedLoop`, expr.cpp:112-130). -/
inductive Kind where
  | oper | ufunc | vloop
  deriving DecidableEq, Repr

/-- `NumPyExpr` (numpy.h:120-290): element operation, element type of the result, kind, and the cost of the node itself (`opcost` with the adjustments in `cost`,
    expr.cpp:132-323). -/
inductive Tree (V α : Type) where
  | leaf (x : α)
  | un (fn : V → V) (dt : DT) (k : Kind) (cost : Int) (l : Tree V α)
  | bin (fn : V → V → V) (dt : DT) (k : Kind) (cost : Int) (l r : Tree V α)

/-- `depth` (numpy.h:248-250). -/
def Tree.depth {α : Type} : Tree V α → Nat
  | .leaf _ => 1
  | .un _ _ _ _ l => l.depth + 1
  | .bin _ _ _ _ l r => max l.depth r.depth + 1

/-- `nodes` (numpy.h:252). -/
def Tree.nodes {α : Type} : Tree V α → Nat
  | .leaf _ => 1
  | .un _ _ _ _ l => l.nodes + 1
  | .bin _ _ _ _ l r => l.nodes + r.nodes + 1

/-- The sum in `cost`, which is -1 if some cost is -1 (expr.cpp:289-293, 325-340). -/
def Tree.cost {α : Type} : Tree V α → Int
  | .leaf _ => 0
  | .un _ _ _ c l => if c = -1 then -1 else if l.cost = -1 then -1 else c + l.cost
  | .bin _ _ _ c l r => if c = -1 then -1 else if l.cost = -1 then -1 else if r.cost = -1 then -1 else c + l.cost + r.cost

/-- The values of expressions. -/
inductive Val (V : Type) where
  | num (v : V)
  | arr (a : Arr) (dt : DT)

/-- `_shape` (fusion.codon:134-138). -/
def Val.shape : Val V → List Int
  | .num _ => []
  | .arr a _ => a.shape

/-- The type of a value. -/
def Val.ty : Val V → Ty
  | .num _ => .num
  | .arr a dt => .arr dt a.shape.length

/-- A leaf when the tree is evaluated: the value of its variable, whether it is a temporary array (`freeable`, numpy.h:217), and the variable of the program that the leaf was, if it
    was one. -/
structure Leaf (V : Type) where
  val : Val V
  free : Bool
  name : Option Nat

/-- A leaf in the program: what evaluating it does, and its type. -/
structure Act (V : Type) where
  run : Heap V → Out (Heap V × Val V)
  ty : Ty
  name : Option Nat

/-! ### What the program does without the pass -/

/-- `asarray` of a number: an array without dimensions. -/
def Val.opd (h : Heap V) : Val V → Heap V × Opd
  | .num v => (h.new 1 1 fun _ => v, ⟨⟨[], [], h.next, 0⟩, 1⟩)
  | .arr a dt => (h, ⟨a, dt.w⟩)

/-- The result of a universal function. -/
def ofAns (h : Heap V) (dt : DT) : Ans V → Heap V × Val V
  | .val v => (h, .num v)
  | .arr h' a => (h', .arr a.arr dt)

/-- An operation on one operand (ndarray.codon:1234-1236, ufunc.codon:395-442). -/
def plainUn (L : Nat) (junk : Int → V) (fn : V → V) (dt : DT) (k : Kind) (x : Val V) (h : Heap V) : Out (Heap V × Val V) :=
  match k, x with
  | .oper, .num v => some (.ok (h, .num (fn v)))
  | .oper, .arr a d => Out.bind (Opd.unary ⟨a, d.w⟩ h junk dt.w fn) fun (h', b) => some (.ok (h', .arr b dt))
  | k, x =>
    let (h1, o) := x.opd h
    Out.bind (unaryCall L (decide (k = .vloop)) fn (fun _ => true) o none (.const true) dt.w junk h1) fun r => some (.ok (ofAns h1 dt r))

/-- An operation on two operands (ndarray.codon:1178-1232, ufunc.codon:573-645). -/
def plainBin (L : Nat) (junk : Int → V) (fn : V → V → V) (dt : DT) (k : Kind) (x y : Val V) (h : Heap V) : Out (Heap V × Val V) :=
  match k, x, y with
  | .oper, .num u, .num v => some (.ok (h, .num (fn u v)))
  | .oper, .arr a d, .num v => Out.bind (Opd.unary ⟨a, d.w⟩ h junk dt.w fun u => fn u v) fun (h', b) => some (.ok (h', .arr b dt))
  | .oper, .num u, .arr a d => Out.bind (Opd.unary ⟨a, d.w⟩ h junk dt.w (fn u)) fun (h', b) => some (.ok (h', .arr b dt))
  | .oper, .arr a d, .arr a' d' => Out.bind (Opd.binary ⟨a, d.w⟩ ⟨a', d'.w⟩ h junk dt.w fn) fun (h', b) => some (.ok (h', .arr b dt))
  | k, x, y =>
    let (h1, o) := x.opd h
    let (h2, o') := y.opd h1
    Out.bind (binaryCall L (decide (k = .vloop)) fn (fun _ => true) o o' none (.const true) dt.w junk h2) fun r => some (.ok (ofAns h2 dt r))

/-- The expression as it is written: operands from left to right, then the operation. -/
def plain (L : Nat) (junk : Int → V) : Tree V (Act V) → Heap V → Out (Heap V × Val V)
  | .leaf a, h => a.run h
  | .un fn dt k _ l, h => Out.bind (plain L junk l h) fun (h1, x) => plainUn L junk fn dt k x h1
  | .bin fn dt k _ l r, h => Out.bind (plain L junk l h) fun (h1, x) => Out.bind (plain L junk r h1) fun (h2, y) => plainBin L junk fn dt k x y h2

/-! ### Functions of `fusion.codon` -/

/-- `bc_same` with `bc_one` (fusion.codon:66-75). -/
def bcSame : List Int → List Int → Except Err (List Int)
  | a :: s1, b :: s2 => if a = 1 ∨ b = 1 ∨ a = b then (bcSame s1 s2).map (max a b :: ·) else .error .value
  | _, _ => .ok []

/-- `_broadcast` (fusion.codon:64-90). -/
def fbroadcast (s1 s2 : List Int) : Except Err (List Int) :=
  if s1.length = 0 then .ok s2
  else if s2.length = 0 then .ok s1
  else if s2.length < s1.length then (bcSame (s1.drop (s1.length - s2.length)) s2).map (s1.take (s1.length - s2.length) ++ ·)
  else if s1.length < s2.length then (bcSame s1 (s2.drop (s2.length - s1.length))).map (s2.take (s2.length - s1.length) ++ ·)
  else bcSame s1 s2

/-- The strides of `empty_like(a, shape=shape, dtype=…)` (routines.codon:176-213 with `order='K'`), called by `_create` (fusion.codon:131-132); elements of `w` bytes in `a` and `w'`
    bytes in the result. -/
def createStrides (a : Arr) (w : Int) (shape : List Int) (w' : Int) : List Int :=
  if shape.length = a.shape.length then
    if (a.contig w).1 = true ∨ a.shape.length ≤ 1 then stridesOf shape false w'
    else if (a.contig w).2 = true then stridesOf shape true w'
    else kStrides shape ((sortByStride ((upto shape.length).zip a.strides)).map (·.1.toNat)).reverse w' (List.replicate a.strides.length 0)
  else stridesOf shape false w'

/-- `_free` (fusion.codon:140-141): the pointer must be the start of a block that is not freed yet (a block without elements may be freed again). -/
def Heap.free (h : Heap V) (a : Arr) : Option (Heap V) :=
  if a.off = 0 ∧ (count a.shape = 0 ∨ (h.get a.blk 0).isSome) then some ⟨fun b o => if b = a.blk then none else h.get b o, h.next⟩ else none

/-- The choice of the axis of the inner loop (fusion.codon:169-174, 227-233), as `pickAxis` but by the size of the strides. -/
def pickAbs : List Int → List Int → Nat → Option (Nat × Int) → Option (Nat × Int)
  | n :: ns, s :: ss, i, best =>
    pickAbs ns ss (i + 1) (if 1 < n then (match best with
      | none => some (i, s)
      | some (k, si) => if s.natAbs < si.natAbs then some (i, s) else some (k, si)) else best)
  | _, _, _, best => best

/-- The axis: the first one if there is none with more than one element (fusion.codon:176-180, 235-240). -/
def absAxis (shape strides : List Int) : Nat :=
  match pickAbs shape strides 0 none with
  | none => 0
  | some (k, _) => k

/-- `_apply_vectorized_loop_unary` (fusion.codon:143-187). -/
def vecUn (L : Nat) (op : V → V) (a out : Opd) (h : Heap V) : Out (Heap V) :=
  if a.arr.shape.length = 0 ∨ out.arr.shape.length = 0 ∨ out.arr.shape.length < a.arr.shape.length then some (.error .compile)
  else if out.arr.shape.length = 1 then
    (unaryLoop L a.w op (a.arr.blk, a.arr.off) (a.arr.strides.headD 0) (out.arr.blk, out.arr.off) (out.arr.strides.headD 0) (count out.arr.shape).toNat h).map .ok
  else if contigMatch a out then
    (unaryLoop L a.w op (a.arr.blk, a.arr.off) out.w (out.arr.blk, out.arr.off) out.w (count out.arr.shape).toNat h).map .ok
  else
    let k := absAxis a.arr.shape a.arr.strides
    (rows (fun idx => unaryLoop L a.w op (a.arr.ptr (idx.insertIdx k 0)) (a.arr.strides.getD k 0) (out.arr.ptr (idx.insertIdx k 0)) (out.arr.strides.getD k 0)
      (a.arr.shape.getD k 0).toNat) (multirange (a.arr.shape.eraseIdx k)) h).map .ok

/-- `_apply_vectorized_loop_binary` (fusion.codon:189-248). -/
def vecBin (L : Nat) (op : V → V → V) (a1 a2 out : Opd) (h : Heap V) : Out (Heap V) :=
  if (a1.arr.shape.length = 0 ∧ a2.arr.shape.length = 0) ∨ out.arr.shape.length = 0 ∨ out.arr.shape.length < a1.arr.shape.length ∨ out.arr.shape.length < a2.arr.shape.length then
    some (.error .compile)
  else if out.arr.shape.length = 1 then
    (binaryLoop L out.w op (a1.arr.blk, a1.arr.off) (if a1.arr.shape.length = 0 then 0 else a1.arr.strides.headD 0) (a2.arr.blk, a2.arr.off)
      (if a2.arr.shape.length = 0 then 0 else a2.arr.strides.headD 0) (out.arr.blk, out.arr.off) (out.arr.strides.headD 0) (count out.arr.shape).toNat h).map .ok
  else
    match broadcastStrides true a1.arr out.arr.shape, broadcastStrides true a2.arr out.arr.shape with
    | .error e, _ => some (.error e)
    | _, .error e => some (.error e)
    | .ok st1, .ok st2 =>
      let b1 : Opd := ⟨⟨out.arr.shape, st1, a1.arr.blk, a1.arr.off⟩, a1.w⟩
      let b2 : Opd := ⟨⟨out.arr.shape, st2, a2.arr.blk, a2.arr.off⟩, a2.w⟩
      if contigMatch b1 out && contigMatch b2 out then
        (binaryLoop L out.w op (b1.arr.blk, b1.arr.off) out.w (b2.arr.blk, b2.arr.off) out.w (out.arr.blk, out.arr.off) out.w (count out.arr.shape).toNat h).map .ok
      else
        let k := absAxis out.arr.shape st1
        (rows (fun idx => binaryLoop L out.w op (b1.arr.ptr (idx.insertIdx k 0)) (st1.getD k 0) (b2.arr.ptr (idx.insertIdx k 0)) (st2.getD k 0)
          (out.arr.ptr (idx.insertIdx k 0)) (out.arr.strides.getD k 0) (out.arr.shape.getD k 0).toNat) (multirange (out.arr.shape.eraseIdx k)) h).map .ok

/-! ### One operation after the other -/

/-- A value with the information whether it is an array that only this expression has (`lfreeable`, `rfreeable`, expr.cpp:646-647). -/
structure Ev (V : Type) where
  val : Val V
  tmp : Bool

/-- Where the result goes (expr.cpp:656-721): the heap with the new array if there is one, the result, whether it is at compile time known to be the left or the right operand, and
    which operands are freed afterwards. -/
structure Plan (V : Type) where
  heap : Heap V
  res : Arr
  isL : Bool
  isR : Bool
  freeL : Bool
  freeR : Bool

/-- `newArray` (expr.cpp:652-657). -/
def create (junk : Int → V) (like : Val V) (s : List Int) (dt : DT) (h : Heap V) : Heap V × Arr :=
  (h.new dt.w (count s) junk,
    ⟨s, match like with
      | .num _ => stridesOf s false dt.w
      | .arr a d => createStrides a d.w s dt.w, h.next, 0⟩)

/-- `ltmp`, `rtmp` (expr.cpp:648-649): an array of the type of the result that can be overwritten. -/
def Ev.reuse (x : Ev V) (dt : DT) (ndim : Nat) : Option Arr :=
  match x.val with
  | .num _ => none
  | .arr a d => if x.tmp = true ∧ d = dt ∧ a.shape.length = ndim then some a else none

/-- The choice for two operands (expr.cpp:664-713 with the conditions for freeing 873-893). -/
def planBin (junk : Int → V) (dt : DT) (x y : Ev V) (s : List Int) (h : Heap V) : Plan V :=
  let like := if x.val.shape.length < y.val.shape.length then y.val else x.val
  let new := create junk like s dt h
  match x.reuse dt s.length, y.reuse dt s.length with
  | some a, yr =>
    if y.val.shape.length = 0 then ⟨h, a, true, false, false, false⟩
    else match yr with
    | some b =>
      if x.val.shape.length = 0 then ⟨h, b, false, true, false, false⟩
      else if a.shape = s then ⟨h, a, false, false, false, true⟩
      else if b.shape = s then ⟨h, b, false, false, true, false⟩
      else ⟨new.1, new.2, false, false, true, true⟩
    | none => if a.shape = s then ⟨h, a, false, false, false, y.tmp⟩ else ⟨new.1, new.2, false, false, true, y.tmp⟩
  | none, some b =>
    if x.val.shape.length = 0 then ⟨h, b, false, true, false, false⟩
    else if b.shape = s then ⟨h, b, false, false, x.tmp, false⟩
    else ⟨new.1, new.2, false, false, x.tmp, true⟩
  | none, none => ⟨new.1, new.2, false, false, x.tmp, y.tmp⟩

/-- The element function when the result is the right operand (expr.cpp:799-801). -/
def inplaceRight (op : V → V → V) : List Ptr → Heap V → Option (Heap V)
  | [z, x], h =>
    match h.get x.1 x.2, h.get z.1 z.2 with
    | some u, some v => h.write z.1 z.2 (op u v)
    | _, _ => none
  | _, _ => none

/-- The loop of an operation on two operands (expr.cpp:726-866): `_loop_basic` (fusion.codon:61-62) on the result and those operands that are arrays and not known to be the
    result. -/
def runBin (L : Nat) (fn : V → V → V) (dt : DT) (k : Kind) (x y : Val V) (p : Plan V) : Out (Heap V) :=
  let res : Opd := ⟨p.res, dt.w⟩
  match x, y with
  | .num _, .num _ => some (.error .compile)
  | .arr a d, .arr b e =>
    if k = .vloop then vecBin L fn ⟨a, d.w⟩ ⟨b, e.w⟩ res p.heap
    else if p.isL then inplaceLoop p.heap .all true (inplaceBinaryFunctor fn) res [⟨b, e.w⟩]
    else if p.isR then inplaceLoop p.heap .all true (inplaceRight fn) res [⟨a, d.w⟩]
    else inplaceLoop p.heap .all true (binaryFunctor fn) res [⟨a, d.w⟩, ⟨b, e.w⟩]
  | .arr a d, .num v =>
    if p.isL then inplaceLoop p.heap .all true (inplaceUnaryFunctor fun u => fn u v) res []
    else inplaceLoop p.heap .all true (unaryFunctor fun u => fn u v) res [⟨a, d.w⟩]
  | .num u, .arr b e =>
    if p.isR then inplaceLoop p.heap .all true (inplaceUnaryFunctor (fn u)) res []
    else inplaceLoop p.heap .all true (unaryFunctor (fn u)) res [⟨b, e.w⟩]

/-- Freeing an operand. -/
def freeVal (c : Bool) (x : Val V) (h : Heap V) : Out (Heap V) :=
  match c, x with
  | true, .arr a _ => (Heap.free h a).map .ok
  | _, _ => some (.ok h)

/-- An operation on two operands (expr.cpp:616-899). -/
def seqBin (L : Nat) (junk : Int → V) (fn : V → V → V) (dt : DT) (k : Kind) (x y : Ev V) (h : Heap V) : Out (Heap V × Ev V) :=
  match fbroadcast x.val.shape y.val.shape with
  | .error e => some (.error e)
  | .ok s =>
    let p := planBin junk dt x y s h
    Out.bind (runBin L fn dt k x.val y.val p) fun h1 =>
    Out.bind (freeVal p.freeL x.val h1) fun h2 =>
    Out.bind (freeVal p.freeR y.val h2) fun h3 => some (.ok (h3, ⟨.arr p.res dt, true⟩))

/-- An operation on one operand (expr.cpp:636-643, 714-721, 735-741, 855-899). -/
def seqUn (L : Nat) (junk : Int → V) (fn : V → V) (dt : DT) (k : Kind) (x : Ev V) (h : Heap V) : Out (Heap V × Ev V) :=
  match x.val with
  | .num _ => some (.error .compile)
  | .arr a d =>
    match x.reuse dt a.shape.length with
    | some r =>
      Out.bind (if k = .vloop then vecUn L fn ⟨a, d.w⟩ ⟨r, dt.w⟩ h else inplaceLoop h .all true (inplaceUnaryFunctor fn) ⟨r, dt.w⟩ []) fun h1 =>
        some (.ok (h1, ⟨.arr r dt, true⟩))
    | none =>
      let new := create junk x.val a.shape dt h
      Out.bind (if k = .vloop then vecUn L fn ⟨a, d.w⟩ ⟨new.2, dt.w⟩ new.1 else inplaceLoop new.1 .all true (unaryFunctor fn) ⟨new.2, dt.w⟩ [⟨a, d.w⟩]) fun h1 =>
      Out.bind (freeVal x.tmp x.val h1) fun h2 => some (.ok (h2, ⟨.arr new.2 dt, true⟩))

/-- `codegenSequentialEval` (expr.cpp:597-902). -/
def seq (L : Nat) (junk : Int → V) : Tree V (Leaf V) → Heap V → Out (Heap V × Ev V)
  | .leaf x, h => some (.ok (h, ⟨x.val, x.free⟩))
  | .un fn dt k _ l, h => Out.bind (seq L junk l h) fun (h1, x) => seqUn L junk fn dt k x h1
  | .bin fn dt k _ l r, h => Out.bind (seq L junk l h) fun (h1, x) => Out.bind (seq L junk r h1) fun (h2, y) => seqBin L junk fn dt k x y h2

/-! ### All in one loop -/

/-- The leaves from left to right (`apply`, expr.cpp:462-468). -/
def Tree.leaves {α : Type} : Tree V α → List α
  | .leaf x => [x]
  | .un _ _ _ _ l => l.leaves
  | .bin _ _ _ _ l r => l.leaves ++ r.leaves

/-- The array of a leaf. -/
def Leaf.opd? (x : Leaf V) : Option Opd :=
  match x.val with
  | .num _ => none
  | .arr a dt => some ⟨a, dt.w⟩

/-- The arrays among the leaves (expr.cpp:532-545). -/
def arrays (t : Tree V (Leaf V)) : List Opd := t.leaves.filterMap Leaf.opd?

/-- `codegenScalarExpr` (expr.cpp:943-985): the value for one place; each leaf that is an array takes the next of the given elements. -/
def elemOf : Tree V (Leaf V) → List V → Option (V × List V)
  | .leaf x, vs =>
    match x.val, vs with
    | .num v, vs => some (v, vs)
    | .arr _ _, v :: vs => some (v, vs)
    | .arr _ _, [] => none
  | .un fn _ _ _ l, vs => (elemOf l vs).map fun p => (fn p.1, p.2)
  | .bin fn _ _ _ l r, vs => (elemOf l vs).bind fun p => (elemOf r p.2).map fun q => (fn p.1 q.1, q.2)

/-- The function called in the loop (expr.cpp:548-567). -/
def scalarFn (t : Tree V (Leaf V)) : List Ptr → Heap V → Option (Heap V)
  | z :: ps, h =>
    match ps.mapM fun p => h.get p.1 p.2 with
    | none => none
    | some vs =>
      match elemOf t vs with
      | none => none
      | some (v, _) => h.write z.1 z.2 v
  | [], _ => none

/-- The element type of the result. -/
def Tree.dt? : Tree V (Leaf V) → Option DT
  | .leaf _ => none
  | .un _ dt _ _ _ => some dt
  | .bin _ dt _ _ _ _ => some dt

/-- Freeing the temporary arrays among the leaves (expr.cpp:581-592). -/
def freeLeaves : List (Leaf V) → Heap V → Out (Heap V)
  | [], h => some (.ok h)
  | x :: xs, h => Out.bind (freeVal x.free x.val h) fun h' => freeLeaves xs h'

/-- `codegenFusedEval` (expr.cpp:503-595) with `_loop_alloc` (fusion.codon:58-59). -/
def fused (junk : Int → V) (dt : DT) (t : Tree V (Leaf V)) (h : Heap V) : Out (Heap V × Arr) :=
  match arrays t with
  | [] => some (.error .compile)
  | a :: r => Out.bind (allocLoop h junk dt.w (scalarFn t) a r) fun (h1, b) => Out.bind (freeLeaves t.leaves h1) fun h2 => some (.ok (h2, b))

/-! ### The pass -/

/-- What is done with a node. -/
inductive Choice where
  | fuse | test | keep
  deriving DecidableEq, Repr

/-- `getBroadcastInfo` (expr.cpp:904-941): `none` is MAYBE.  A temporary array is in a variable of its own; as such it counts like a leaf that is no variable. -/
def broadcastInfo (t : Tree V (Leaf V)) : Option Bool :=
  let arrs : List (Nat × Option Nat) := t.leaves.filterMap fun x => x.opd?.map fun o => (o.arr.shape.length, x.name)
  let names : List Nat := arrs.filterMap fun p => p.2
  let others := (arrs.filter fun p => p.2.isNone).length
  if arrs.any fun p => decide (p.1 ≠ (arrs.headD (0, none)).1) then some true
  else if 1 < others ∨ (names.any fun n => decide (n ≠ names.headD 0)) ∨ (others = 1 ∧ names ≠ []) then none
  else some false

/-- The choice (numpy.cpp:744-778) with the thresholds `always` (10) and `never` (50). -/
def choose (always never : Int) (t : Tree V (Leaf V)) : Choice :=
  if t.cost ≤ always ∨ (t.cost ≤ never ∧ broadcastInfo t = some false) then .fuse
  else if t.cost ≤ never ∧ broadcastInfo t ≠ some true then .test
  else .keep

/-- `codegenBroadcasts` (expr.cpp:470-501): some array has another shape than the first one.  Arrays of other numbers of dimensions do not occur here. -/
def differ (t : Tree V (Leaf V)) : Bool :=
  match arrays t with
  | [] => false
  | a :: r => r.any fun b => decide (a.arr.shape ≠ b.arr.shape)

/-- The new leaf (numpy.cpp:780-786). -/
def newLeaf (dt : DT) (a : Arr) : Tree V (Leaf V) := .leaf ⟨.arr a dt, true, none⟩

/-- Fusing a node, if need be after the test (numpy.cpp:748-778). -/
def fuseNode (L : Nat) (junk : Int → V) (dt : DT) (test : Bool) (t : Tree V (Leaf V)) (h : Heap V) : Out (Heap V × Tree V (Leaf V)) :=
  if test ∧ differ t = true then
    Out.bind (seq L junk t h) fun (h1, x) =>
      match x.val with
      | .num _ => some (.error .compile)
      | .arr a _ => some (.ok (h1, newLeaf dt a))
  else Out.bind (fused junk dt t h) fun (h1, b) => some (.ok (h1, newLeaf dt b))

/-- One round over the nodes (numpy.cpp:740-788): a node before its operands; nodes of depth 2 at most are left alone.  Tells whether something was changed. -/
def pass (L : Nat) (junk : Int → V) (ch : Tree V (Leaf V) → Choice) : Tree V (Leaf V) → Heap V → Out (Heap V × Tree V (Leaf V) × Bool)
  | .leaf x, h => some (.ok (h, .leaf x, false))
  | .un fn dt k c l, h =>
    if l.depth + 1 ≤ 2 then some (.ok (h, .un fn dt k c l, false))
    else match ch (.un fn dt k c l) with
    | .keep => Out.bind (pass L junk ch l h) fun (h1, l', b) => some (.ok (h1, .un fn dt k c l', b))
    | m => Out.bind (fuseNode L junk dt (decide (m = .test)) (.un fn dt k c l) h) fun (h1, t) => some (.ok (h1, t, true))
  | .bin fn dt k c l r, h =>
    if max l.depth r.depth + 1 ≤ 2 then some (.ok (h, .bin fn dt k c l r, false))
    else match ch (.bin fn dt k c l r) with
    | .keep =>
      Out.bind (pass L junk ch l h) fun (h1, l', b1) =>
      Out.bind (pass L junk ch r h1) fun (h2, r', b2) => some (.ok (h2, .bin fn dt k c l' r', b1 || b2))
    | m => Out.bind (fuseNode L junk dt (decide (m = .test)) (.bin fn dt k c l r) h) fun (h1, t) => some (.ok (h1, t, true))

/-- The loop (numpy.cpp:738-789), with a bound on the number of rounds. -/
def rounds (L : Nat) (junk : Int → V) (ch : Tree V (Leaf V) → Choice) : Nat → Tree V (Leaf V) → Heap V → Out (Heap V × Tree V (Leaf V))
  | 0, t, h => some (.ok (h, t))
  | n + 1, t, h => Out.bind (pass L junk ch t h) fun (h1, t', b) => if b then rounds L junk ch n t' h1 else some (.ok (h1, t'))

/-- Evaluating the leaves (numpy.cpp:805-808). -/
def evalLeaves : Tree V (Act V) → Heap V → Out (Heap V × Tree V (Leaf V))
  | .leaf a, h => Out.bind (a.run h) fun (h1, v) => some (.ok (h1, .leaf ⟨v, false, a.name⟩))
  | .un fn dt k c l, h => Out.bind (evalLeaves l h) fun (h1, l') => some (.ok (h1, .un fn dt k c l'))
  | .bin fn dt k c l r, h => Out.bind (evalLeaves l h) fun (h1, l') => Out.bind (evalLeaves r h1) fun (h2, r') => some (.ok (h2, .bin fn dt k c l' r'))

/-- `optimizeHelper` (numpy.cpp:699-792) after the separate parts. -/
def evalTree (L : Nat) (junk : Int → V) (ch : Tree V (Leaf V) → Choice) (t : Tree V (Leaf V)) (h : Heap V) : Out (Heap V × Val V) :=
  Out.bind (rounds L junk ch t.nodes t h) fun (h1, t') => Out.bind (seq L junk t' h1) fun (h2, x) => some (.ok (h2, x.val))

/-- `NumPyOptimizationUnit::optimize` (numpy.cpp:795-814): trees of depth 2 at most are left as they are. -/
def optimised (L : Nat) (junk : Int → V) (ch : Tree V (Leaf V) → Choice) (t : Tree V (Act V)) (h : Heap V) : Out (Heap V × Val V) :=
  if t.depth ≤ 2 then plain L junk t h else Out.bind (evalLeaves t h) fun (h1, t') => evalTree L junk ch t' h1

end Codon.NpFuse
