import Verif.Base.Out
import Verif.Slice.Model

/-!
# Model of `list`

`stdlib/internal/types/collections/list.codon`.  A list is a block of cells (its length is the
capacity `arr.len`) and a length.  Indices are unbounded integers: the only arithmetic on
user-supplied indices is `idx += len` for a negative `idx`, which cannot overflow; lengths are
bounded by memory.  A method that changes the list returns the new one; an exception is always
raised before anything is changed.  Iterating over a list (`__iter__`, 193-199) is modelled by
reading cells `0 … len-1` of the block the iterator took at the start; the block of a list that is
re-allocated during the iteration is not modelled.
-/

namespace Codon.ListM

inductive Err where
  | indexError
  | valueError
deriving DecidableEq, Repr

/-- Fields `arr` and `len` (`array.codon:50-54`). -/
structure L (T : Type) where
  mem : Block T
  len : Int
deriving DecidableEq

abbrev R (α : Type) := Out Err α

section
variable {T : Type}

def L.cap (l : L T) : Int := l.mem.length

/-- `list.codon:16-18` `__init__()`. -/
def new : R (L T) := do return ⟨← alloc 10, 0⟩

/-- `list.codon:20-24` `__init__(capacity)`. -/
def newCap (capacity : Int) : R (L T) := do
  return ⟨← alloc (if capacity < 0 then 0 else capacity), 0⟩

/-- `list.codon:42-43` `_get`. -/
def L.get (l : L T) (idx : Int) : R T := ld l.mem idx

/-- `list.codon:45-46` `_set`. -/
def L.set (l : L T) (idx : Int) (v : T) : R (L T) := do return { l with mem := ← st l.mem idx v }

/-- `list.codon:377-379` `_idx_check`. -/
def L.idxCheck (l : L T) (idx : Int) : R Unit :=
  if idx ≥ l.len ∨ idx < 0 then .exc .indexError else .ok ()

/-- `list.codon:381-385` `_resize`. -/
def L.resize (l : L T) (newCap : Int) : R (L T) := do
  return { l with mem := ← reallocB l.mem newCap }

/-- `list.codon:387-392` `_resize_if_full`. -/
def L.resizeIfFull (l : L T) : R (L T) :=
  if l.len = l.cap then
    let c := (1 + 3 * l.len).tdiv 2
    l.resize (if c ≤ 0 then 1 else c)
  else .ok l

/-- `if self.arr.len < n: self._resize(n)` (`list.codon:222-223`; 258-262 inlines `_resize`). -/
def L.growTo (l : L T) (n : Int) : R (L T) := if l.cap < n then l.resize n else .ok l

/-- `list.codon:54-58` `__getitem__(int)`. -/
def getItem (l : L T) (idx : Int) : R T := do
  let idx := if idx < 0 then idx + l.len else idx
  l.idxCheck idx
  l.get idx

/-- `list.codon:60-64` `__setitem__(int)`. -/
def setItem (l : L T) (idx : Int) (v : T) : R (L T) := do
  let idx := if idx < 0 then idx + l.len else idx
  l.idxCheck idx
  l.set idx v

/-- The loop of `list.codon:70-72`, `n` iterations. -/
def shiftLeft (l : L T) (idx : Int) : Nat → R (L T)
  | 0 => .ok l
  | n + 1 => do
    let l ← l.set idx (← l.get (idx + 1))
    shiftLeft l (idx + 1) n

/-- `list.codon:66-73` `__delitem__(int)`. -/
def delItem (l : L T) (idx : Int) : R (L T) := do
  let idx := if idx < 0 then idx + l.len else idx
  l.idxCheck idx
  let l ← shiftLeft l idx (l.len - 1 - idx).toNat
  return { l with len := l.len - 1 }

/-- `list.codon:293-296` `append`. -/
def append (l : L T) (x : T) : R (L T) := do
  let l ← l.resizeIfFull
  let l ← l.set l.len x
  return { l with len := l.len + 1 }

/-- `list.codon:298-300` `extend` from a sequence of values. -/
def extend (l : L T) : List T → R (L T)
  | [] => .ok l
  | x :: xs => do extend (← append l x) xs

/-- The loop of `list.codon:312-314`, `n` iterations. -/
def shiftRight (l : L T) (i : Int) : Nat → R (L T)
  | 0 => .ok l
  | n + 1 => do
    let l ← l.set i (← l.get (i - 1))
    shiftRight l (i - 1) n

/-- `list.codon:302-316` `insert`. -/
def insert (l : L T) (idx : Int) (x : T) : R (L T) := do
  let n := l.len
  let idx := if idx < 0 then (if idx + n < 0 then 0 else idx + n) else idx
  let idx := if idx > n then n else idx
  let l ← l.resizeIfFull
  let l ← shiftRight l n (n - idx).toNat
  let l ← l.set idx x
  return { l with len := l.len + 1 }

/-- `list.codon:318-326` `pop`. -/
def pop (l : L T) (idx : Int) : R (L T × T) := do
  if l.len = 0 then .exc .indexError
  else
    let idx := if idx < 0 then idx + l.len else idx
    l.idxCheck idx
    let x ← l.get idx
    let l ← delItem l idx
    return (l, x)

/-- `list.codon:337-338` `clear`. -/
def clear (l : L T) : L T := { l with len := 0 }

/-- Reading cells `i, i+1, …` (`n` of them), as `__iter__` does (`list.codon:193-199`). -/
def iterFrom (l : L T) (i : Int) : Nat → R (List T)
  | 0 => .ok []
  | n + 1 => do return (← l.get i) :: (← iterFrom l (i + 1) n)

/-- `list.codon:193-199` `__iter__` run to the end. -/
def iter (l : L T) : R (List T) := iterFrom l 0 l.len.toNat

/-- The loop of `list.codon:203-205`. -/
def revFrom (l : L T) (i : Int) : Nat → R (List T)
  | 0 => .ok []
  | n + 1 => do return (← l.get i) :: (← revFrom l (i - 1) n)

/-- `list.codon:201-205` `__reversed__` run to the end. -/
def reversed (l : L T) : R (List T) := revFrom l (l.len - 1) l.len.toNat

/-- The loop of `list.codon:342-345, 350-353`: position of the first equal element from `i` on. -/
def findFrom [DecidableEq T] (l : L T) (x : T) (i : Int) : Nat → R (Option Int)
  | 0 => .ok none
  | n + 1 => do if (← l.get i) = x then return some i else findFrom l x (i + 1) n

/-- `list.codon:340-346` `index`. -/
def index [DecidableEq T] (l : L T) (x : T) : R Int := do
  match ← findFrom l x 0 l.len.toNat with
  | some i => return i
  | none => .exc .valueError

/-- `list.codon:348-354` `find`. -/
def find [DecidableEq T] (l : L T) (x : T) : R Int := do
  match ← findFrom l x 0 l.len.toNat with
  | some i => return i
  | none => return -1

/-- `list.codon:181-185` `__contains__`. -/
def contains [DecidableEq T] (l : L T) (x : T) : R Bool := do
  return (← findFrom l x 0 l.len.toNat).isSome

/-- `list.codon:328-335` `remove`: returns whether something was removed. -/
def remove [DecidableEq T] (l : L T) (x : T) : R (L T × Bool) := do
  match ← findFrom l x 0 l.len.toNat with
  | some i => return (← delItem l i, true)
  | none => return (l, false)

/-- The loop of `list.codon:358-360`. -/
def countFrom [DecidableEq T] (l : L T) (x : T) (i : Int) (c : Int) : Nat → R Int
  | 0 => .ok c
  | n + 1 => do countFrom l x (i + 1) (if (← l.get i) = x then c + 1 else c) n

/-- `list.codon:356-361` `count`. -/
def count [DecidableEq T] (l : L T) (x : T) : R Int := countFrom l x 0 0 l.len.toNat

/-- The loop of `list.codon:365-370`. -/
def reverseLoop (l : L T) (i : Int) : Nat → R (L T)
  | 0 => .ok l
  | n + 1 => do
    let j := l.len - i - 1
    let x ← l.get i
    let l ← l.set i (← l.get j)
    let l ← l.set j x
    reverseLoop l (i + 1) n

/-- `list.codon:363-370` `reverse`. -/
def reverse (l : L T) : R (L T) := reverseLoop l 0 (l.len.tdiv 2).toNat

/-- `list.codon:187-188` `__copy__` (`Array.__copy__`, `array.codon:19-22`). -/
def copy (l : L T) : R (L T) := do
  let p ← alloc l.cap
  return ⟨← memcpyB p 0 l.mem 0 l.cap, l.len⟩

/-- The loop of `list.codon:78-80`. -/
def eqFrom [DecidableEq T] (a b : L T) (i : Int) : Nat → R Bool
  | 0 => .ok true
  | n + 1 => do if (← a.get i) ≠ (← b.get i) then return false else eqFrom a b (i + 1) n

/-- `list.codon:75-81` `__eq__`. -/
def eq [DecidableEq T] (a b : L T) : R Bool :=
  if a.len ≠ b.len then .ok false else eqFrom a b 0 a.len.toNat

/-- `list.codon:207-218` `__add__`. -/
def add (a b : L T) : R (L T) := do
  let n := a.len + b.len
  let v ← newCap n
  let p ← memcpyB v.mem 0 a.mem 0 a.len
  let p ← memcpyB p a.len b.mem 0 b.len
  return ⟨p, n⟩

/-- `list.codon:220-228` `__iadd__` with a different list. -/
def iadd (a b : L T) : R (L T) := do
  let n := a.len + b.len
  let a ← a.growTo n
  return ⟨← memcpyB a.mem a.len b.mem 0 b.len, n⟩

/-- `list.codon:220-228` `__iadd__` with the list itself: source and destination are the (resized)
own block. -/
def iaddSelf (a : L T) : R (L T) := do
  let n := a.len + a.len
  let a ← a.growTo n
  return ⟨← memcpyB a.mem a.len a.mem 0 a.len, n⟩

/-- Inner loop of `list.codon:238-240`. -/
def appendCells (v : L T) (l : L T) (j : Int) : Nat → R (L T)
  | 0 => .ok v
  | n + 1 => do appendCells (← append v (← l.get j)) l (j + 1) n

/-- Outer loop of `list.codon:236-241`. -/
def mulLoop (v : L T) (l : L T) : Nat → R (L T)
  | 0 => .ok v
  | n + 1 => do mulLoop (← appendCells v l 0 l.len.toNat) l n

/-- `list.codon:230-243` `__mul__` (the product `len * n` does not overflow). -/
def mul (l : L T) (n : Int) : R (L T) := do
  if n ≤ 0 then new
  else mulLoop (← newCap (l.len * n)) l n.toNat

/-- Inner loop of `list.codon:266-269`. -/
def imulInner (l : L T) (idx j : Int) : Nat → R (L T)
  | 0 => .ok l
  | n + 1 => do
    let l ← l.set idx (← l.get j)
    imulInner l (idx + 1) (j + 1) n

/-- Outer loop of `list.codon:264-270`. -/
def imulOuter (l : L T) (len0 idx : Int) : Nat → R (L T)
  | 0 => .ok l
  | n + 1 => do imulOuter (← imulInner l idx 0 len0.toNat) len0 (idx + len0) n

/-- `list.codon:248-275` `__imul__` (the product `n * len` does not overflow). -/
def imul (l : L T) (n : Int) : R (L T) := do
  if n = 1 then return l
  else if n ≤ 0 then return clear l
  else
    let len0 := l.len
    let newCap := n * len0
    let l ← l.growTo newCap
    let l ← imulOuter l len0 len0 (n - 1).toNat
    return { l with len := newCap }

/-! ### Slices -/

/-- `Slice` with optional start, stop and step. -/
structure Sl where
  start : Option Int
  stop : Option Int
  step : Option Int

def Sl.isFull (s : Sl) : Bool := s.start.isNone && s.stop.isNone && s.step.isNone

/-- `s.adjust_indices(len)` (`slice.codon:33-75`). -/
def Sl.adjust (s : Sl) (len : Int) : R Slice.Adj :=
  match Slice.adjust len s.start s.stop s.step with
  | some a => .ok a
  | none => .exc .valueError

/-- `list.codon:446-449` `_copy_arr` with `Array.slice`, `Array.__copy__`. -/
def copyArr (l : L T) (start stop length : Int) : R (Block T) := do
  if length ≤ 0 then return []
  else
    let p ← alloc (stop - start)
    memcpyB p 0 l.mem start (stop - start)

/-- `for i in range(start, stop, step): other.append(self._get(i))` (`list.codon:95-96`). -/
def appendAt (v l : L T) : List Int → R (L T)
  | [] => .ok v
  | i :: is => do appendAt (← append v (← l.get i)) l is

/-- Iterating `range(start, stop, step)` (`Verif.Slice.Model`); the step is not zero here. -/
def rangeList (start stop step : Int) : R (List Int) :=
  match (Slice.Range.mk start stop step).iter with
  | some is => .ok is
  | none => .ub

/-- `list.codon:86-97` `__getitem__(Slice)`. -/
def getSlice (l : L T) (s : Sl) : R (L T) := do
  if s.isFull then copy l
  else if s.step.isNone then
    let a ← s.adjust l.len
    return ⟨← copyArr l a.start a.stop a.length, a.length⟩
  else
    let a ← s.adjust l.len
    appendAt (← newCap a.length) l (← rangeList a.start a.stop a.step)

/-- Loop of `list.codon:439-443`: `n` cells of `v` to `a[ilow..]`. -/
def assignLoop (a : L T) (ilow : Int) (v : Block T) (k : Int) : Nat → R (L T)
  | 0 => .ok a
  | n + 1 => do
    let a ← a.set ilow (← ld v k)
    assignLoop a (ilow + 1) v (k + 1) n

/-- `list.codon:421-437`, the part of `_assign_slice` that moves the tail by `d`. -/
def makeRoom (a : L T) (ihigh d : Int) : R (L T) :=
  if d < 0 then do
    let m ← memmoveB a.mem (ihigh + d) ihigh (a.len - ihigh)
    L.resize { a with mem := m } (a.len + d)
  else if d > 0 then do
    let a ← a.resize (a.len + d)
    let m ← memmoveB a.mem (ihigh + d) ihigh (a.len - ihigh)
    return { a with mem := m }
  else .ok a

/-- `list.codon:401-444` `_assign_slice`. -/
def assignSlice (a : L T) (ilow ihigh : Int) (v : Block T) (n : Int) : R (L T) := do
  let len := a.len
  let ilow := if ilow < 0 then 0 else if ilow > len then len else ilow
  let ihigh := if ihigh < ilow then ilow else if ihigh > len then len else ihigh
  let norig := ihigh - ilow
  let d := n - norig
  if len + d = 0 then return clear a
  else
    let a ← makeRoom a ihigh d
    let a ← assignLoop a ilow v 0 n.toNat
    return { a with len := a.len + d }

/-- Loop of `list.codon:133-138`. -/
def setExtLoop (a : L T) (cur step : Int) (seq : L T) (i : Int) : Nat → R (L T)
  | 0 => .ok a
  | n + 1 => do
    let a ← a.set cur (← seq.get i)
    setExtLoop a (cur + step) step seq (i + 1) n

/-- `list.codon:102-138` `__setitem__(Slice, List)` with a different list on the right. -/
def setSlice (l : L T) (s : Sl) (other : L T) : R (L T) := do
  if s.isFull then extend (clear l) (← iter other)
  else
    let a ← s.adjust l.len
    if s.step.isNone ∨ a.step = 1 then assignSlice l a.start a.stop other.mem other.len
    else if other.len ≠ a.length then .exc .valueError
    else setExtLoop l a.start a.step other 0 a.length.toNat

/-- `list.codon:102-138` `__setitem__(Slice, List)` with the list itself on the right: `l[s] = l`.
The full slice clears the list before reading it; the other cases copy it first. -/
def setSliceSelf (l : L T) (s : Sl) : R (L T) := do
  if s.isFull then
    let l := clear l
    extend l (← iter l)
  else
    let a ← s.adjust l.len
    let other ← copy l
    if s.step.isNone ∨ a.step = 1 then assignSlice l a.start a.stop other.mem other.len
    else if other.len ≠ a.length then .exc .valueError
    else setExtLoop l a.start a.step other 0 a.length.toNat

/-- Loop of `list.codon:157-168` (`while cur < stop`), `n` bounding the number of iterations. -/
def delLoop (m : Block T) (len cur stop step i : Int) : Nat → R (Block T)
  | 0 => if cur < stop then .ub else .ok m
  | n + 1 => do
    if cur < stop then
      let lim := if cur + step > len then len - cur - 1 else step - 1
      let m ← memmoveB m (cur - i) (cur + 1) lim
      delLoop m len (cur + step) stop step (i + 1) n
    else return m

/-- `list.codon:171-176`, moving what is after the last deleted element. -/
def delTail (m : Block T) (len cur length : Int) : R (Block T) :=
  if cur < len then memmoveB m (cur - length) cur (len - cur) else .ok m

/-- `list.codon:140-179` `__delitem__(Slice)`. -/
def delSlice (l : L T) (s : Sl) : R (L T) := do
  if s.isFull then return clear l
  else
    let a ← s.adjust l.len
    if s.step.isNone ∨ a.step = 1 then assignSlice l a.start a.stop [] 0
    else if a.length < 0 then return l
    else
      let stop := if a.step < 0 then a.start + 1 else a.stop
      let start := if a.step < 0 then stop + a.step * (a.length - 1) - 1 else a.start
      let step := if a.step < 0 then -a.step else a.step
      let m ← delLoop l.mem l.len start stop step 0 (l.len.toNat + 1)
      let cur := start + a.length * step
      let m ← delTail m l.len cur a.length
      return ⟨m, l.len - a.length⟩

/-- `list.codon:451-470` `_cmp`, with `lt` and `==` of the elements. -/
def cmpLoop (lt : T → T → Bool) [DecidableEq T] (a b : L T) (i : Int) : Nat → R (Option Int)
  | 0 => .ok none
  | n + 1 => do
    let x ← a.get i
    let y ← b.get i
    if lt x y then return some (-1)
    else if x = y then cmpLoop lt a b (i + 1) n
    else return some 1

/-- `list.codon:451-470` `_cmp`. -/
def cmp (lt : T → T → Bool) [DecidableEq T] (a b : L T) : R Int := do
  let nmin := if a.len < b.len then a.len else b.len
  match ← cmpLoop lt a b 0 nmin.toNat with
  | some r => return r
  | none => if a.len < b.len then return -1 else if a.len = b.len then return 0 else return 1

end

end Codon.ListM
