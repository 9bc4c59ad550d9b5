import Verif.ListM.Model

/-!
# Model of the fusion of list additions

`codon/cir/transform/pythonic/list.cpp` replaces `x1 + x2 + … + xn` on lists by code that evaluates
all operands, counts the elements, allocates one list and copies every operand into it.

An operand is any computation on a program state: it may change lists, do input and output (the
`world`), and raise.  Lists that have a name live in a heap and are referred to by address; the
intermediate results of `+`, of a slice and of a list literal are held as values, since nothing but
the enclosing `+` can refer to them.  List objects and their methods are those of `Verif.ListM`.
-/

namespace Codon.Fuse

open ListM (L Sl)

variable {T W E : Type}

/-- The state of the program: all lists with a name, and everything else. -/
structure State (T W : Type) where
  heap : List (L T)
  world : W
deriving DecidableEq

/-- An exception: one of the library, or any other. -/
inductive Exn (E : Type) where
  | lib (e : ListM.Err)
  | user (e : E)
deriving DecidableEq

/-- How a computation ends; after an exception the state matters, since it can be caught. -/
inductive Res (T W E α : Type) where
  | ub
  | exc (e : Exn E) (s : State T W)
  | ok (a : α) (s : State T W)
deriving DecidableEq

/-- Computations. -/
def M (T W E α : Type) := State T W → Res T W E α

instance : Monad (M T W E) where
  pure a := fun s => .ok a s
  bind x f := fun s =>
    match x s with
    | .ub => .ub
    | .exc e s => .exc e s
    | .ok a s => f a s

/-- A method of the list library that does not change a named list. -/
def lift {α : Type} (x : ListM.R α) : M T W E α := fun s =>
  match x with
  | .ub => .ub
  | .exc e => .exc (.lib e) s
  | .ok a => .ok a s

/-- The list at an address. -/
def deref (a : Nat) : M T W E (L T) := fun s =>
  match s.heap[a]? with
  | some l => .ok l s
  | none => .ub

/-- An operand of the sum as `ElementHandler::get` (list.cpp:183-191) classifies it: a slice
`e[s]` with a slice of integers (121-135), a literal `[e1, …, ek]` without starred elements
(165-180), any other list expression (82-86). -/
inductive Opd (T W E : Type) where
  | val (e : M T W E Nat)
  | slice (e : M T W E Nat) (s : M T W E Sl)
  | literal (es : List (M T W E T))

/-- The expression: nested additions of lists. -/
inductive Tree (T W E : Type) where
  | leaf (o : Opd T W E)
  | add (l r : Tree T W E)

/-! ### The expression as written -/

/-- A list value: a named list, or an intermediate result. -/
inductive Rv (T : Type) where
  | ref (a : Nat)
  | tmp (l : L T)
deriving DecidableEq

def Rv.load : Rv T → M T W E (L T)
  | .ref a => deref a
  | .tmp l => pure l

/-- `cont.append(e)` for every item of a literal
(codon/parser/visitors/typecheck/collections.cpp:278-317). -/
def buildFrom (l : L T) : List (M T W E T) → M T W E (L T)
  | [] => pure l
  | e :: es => do
    let v ← e
    buildFrom (← lift (ListM.append l v)) es

/-- Evaluation of an operand: a slice calls `List.__getitem__(Slice)` (list.codon:86-97); a literal
creates a list with the capacity of its items (`List()` if there are none) and appends them
(collections.cpp:260-277). -/
def Opd.eval : Opd T W E → M T W E (Rv T)
  | .val e => do return .ref (← e)
  | .slice e s => do
    let a ← e
    let sl ← s
    return .tmp (← lift (ListM.getSlice (← deref a) sl))
  | .literal es => do
    let l ← lift (if es.isEmpty then ListM.new else ListM.newCap es.length)
    return .tmp (← buildFrom l es)

/-- Evaluation of `l + r`: left operand, right operand, `List.__add__` (list.codon:207-218). -/
def Tree.eval : Tree T W E → M T W E (Rv T)
  | .leaf o => o.eval
  | .add l r => do
    let a ← l.eval
    let b ← r.eval
    return .tmp (← lift (ListM.add (← a.load) (← b.load)))

/-! ### The pass -/

/-- list.cpp:198-214 `inspect`: the operands from left to right. -/
def Tree.inspect : Tree T W E → List (Opd T W E)
  | .leaf o => [o]
  | .add l r => l.inspect ++ r.inspect

/-- The variables a handler assigns (list.cpp:38, 46-51). -/
inductive Saved (T : Type) where
  | val (a : Nat)
  | slice (a : Nat) (s : Sl)
  | literal (vs : List T)

/-- `doSetup` (list.cpp:46-51) for the elements of a literal. -/
def saveAll : List (M T W E T) → M T W E (List T)
  | [] => pure []
  | e :: es => do
    let v ← e
    return v :: (← saveAll es)

/-- `setup` of the handlers (list.cpp:61-63, 96-98, 144-146). -/
def Opd.setup : Opd T W E → M T W E (Saved T)
  | .val e => do return .val (← e)
  | .slice e s => do
    let a ← e
    return .slice a (← s)
  | .literal es => do return .literal (← saveAll es)

/-- list.codon:495-499 `_list_add_opt_slice_len`. -/
def sliceLen (v : L T) (s : Sl) : ListM.R Int := do
  if s.isFull then return v.len
  else return (← s.adjust v.len).length

/-- `length` of the handlers (list.cpp:65-71, 100-108, 148): list.codon:486-487
`_list_add_opt_default_len`, `_list_add_opt_slice_len`, the number of elements. -/
def Saved.length : Saved T → M T W E Int
  | .val a => do return (← deref a).len
  | .slice a s => do lift (sliceLen (← deref a) s)
  | .literal vs => pure vs.length

/-- `memcpy(ans.arr.ptr + ans.len, v.arr.ptr + start, n); ans.len += n` (list.codon:491-493, 503-510). -/
def blit (ans : L T) (v : L T) (start n : Int) : ListM.R (L T) := do
  return ⟨← memcpyB ans.mem ans.len v.mem start n, ans.len + n⟩

/-- `ans.arr.ptr[ans.len] = elem; ans.len += 1`: list.codon:518-520 `_list_add_opt_literal_append`
and the body of the loop 514-516. -/
def put (ans : L T) (x : T) : ListM.R (L T) := do
  return ⟨← st ans.mem ans.len x, ans.len + 1⟩

/-- The loop of list.codon:514-516. -/
def putAt (ans v : L T) : List Int → ListM.R (L T)
  | [] => .ok ans
  | i :: is => do putAt (← put ans (← v.get i)) v is

/-- list.codon:501-516 `_list_add_opt_slice_append`. -/
def sliceAppend (ans v : L T) (s : Sl) : ListM.R (L T) := do
  if s.isFull then blit ans v 0 v.len
  else if s.step.isNone then
    let a ← s.adjust v.len
    blit ans v a.start (a.stop - a.start)
  else
    let a ← s.adjust v.len
    putAt ans v (← ListM.rangeList a.start a.stop a.step)

/-- The block of calls of `LiteralHandler::append` (list.cpp:150-163). -/
def putAll (ans : L T) : List T → ListM.R (L T)
  | [] => .ok ans
  | x :: xs => do putAll (← put ans x) xs

/-- `append` of the handlers (list.cpp:73-80, 110-119, 150-163); the default one is list.codon:489-493
`_list_add_opt_default_append`. -/
def Saved.append (ans : L T) : Saved T → M T W E (L T)
  | .val a => do
    let v ← deref a
    lift (blit ans v 0 v.len)
  | .slice a s => do
    let v ← deref a
    lift (sliceAppend ans v s)
  | .literal vs => lift (putAll ans vs)

/-- The loop of list.cpp:232-234. -/
def setupAll : List (Opd T W E) → M T W E (List (Saved T))
  | [] => pure []
  | o :: os => do
    let v ← o.setup
    return v :: (← setupAll os)

/-- `len = len + h->length()` (list.cpp:230, 236-238). -/
def countAll (len : Int) : List (Saved T) → M T W E Int
  | [] => pure len
  | v :: vs => do
    countAll (len + (← v.length)) vs

/-- Last loop of `optimize` (list.cpp:244-246). -/
def appendAll (ans : L T) : List (Saved T) → M T W E (L T)
  | [] => pure ans
  | v :: vs => do appendAll (← v.append ans) vs

/-- The code built by `optimize` (list.cpp:216-249): set up, count, create
(`_list_add_opt_opt_new`, list.codon:522-523), append. -/
def fused (os : List (Opd T W E)) : M T W E (L T) := do
  let vs ← setupAll os
  let n ← countAll 0 vs
  let ans ← lift (ListM.newCap n)
  appendAll ans vs

/-- `ListAdditionOptimization::handle` (list.cpp:254-266): an addition is replaced by the fused
code, every other expression is left alone. -/
def Tree.optimized : Tree T W E → M T W E (Rv T)
  | .leaf o => o.eval
  | .add l r => do return .tmp (← fused (Tree.add l r).inspect)

end Codon.Fuse
