import Verif.Base.Out
import Mathlib.Data.Int.Bitwise

/-!
# `collections.deque`

Model of `/repo/stdlib/collections.codon:6-145`.  The ring buffer is a block of cells with a head
and a tail index.  Indices are mathematical integers (no deque has 2^63 cells); `&` is the bitwise
conjunction of two's complement integers, as in the source.  Element reads and writes outside the
block and reads of never-written cells are `Out.ub`.
-/

namespace Codon.Deque

open Codon

/-- The exceptions deque code raises. -/
inductive Err where
  | index      -- IndexError
  | assertion  -- AssertionError
deriving DecidableEq, Repr

/-- collections.codon:6-12 -/
structure Dq (α : Type) where
  arr : Block α
  head : Int
  tail : Int
  maxlen : Int
deriving DecidableEq, Repr

variable {α : Type}

/-- `x & (len(self._arr) - 1)` -/
def mask (d : Dq α) (x : Int) : Int := Int.land x ((d.arr.length : Int) - 1)

/-- collections.codon:19-23 -/
def new : Dq α := ⟨List.replicate 16 none, 0, 0, -1⟩

/-- The loop of collections.codon:26-28, `fuel` iterations at most. -/
def capLoop : Nat → Int → Int → Int
  | 0, cap, _ => cap
  | fuel + 1, cap, maxlen => if cap < maxlen then capLoop fuel (cap * 2) maxlen else cap

/-- collections.codon:25-32.  `maxlen` iterations are enough for the loop: the capacity at least
doubles. -/
def newMax (maxlen : Int) : Dq α :=
  ⟨List.replicate (capLoop maxlen.toNat 1 maxlen).toNat none, 0, 0, maxlen⟩

/-- The copying loops of collections.codon:53-56: `dst[d + i] = src[s + i]` for `i < n`. -/
def copyLoop (dst src : Block α) (d s : Int) : Nat → Out Err (Block α)
  | 0 => pure dst
  | n + 1 => do
    let dst ← copyLoop dst src d s n
    let x ← ld src (s + n)
    st dst (d + n) x

/-- collections.codon:46-59 -/
def doubleCap (d : Dq α) : Out Err (Dq α) := do
  let p := d.head
  let n : Int := d.arr.length
  let r := n - p
  let newArr ← alloc (n * 2)
  let newArr ← copyLoop newArr d.arr 0 p r.toNat
  let newArr ← copyLoop newArr d.arr r 0 p.toNat
  pure ⟨newArr, 0, n, d.maxlen⟩

/-- `__bool__`, collections.codon:65-66 -/
def nonEmpty (d : Dq α) : Bool := d.head ≠ d.tail

/-- `__len__`, collections.codon:68-69 -/
def len (d : Dq α) : Int := mask d (d.tail - d.head)

/-- collections.codon:87-91 -/
def popleft (d : Dq α) : Out Err (α × Dq α) :=
  if nonEmpty d then do
    let res ← ld d.arr d.head
    pure (res, { d with head := mask d (d.head + 1) })
  else .exc .index

/-- collections.codon:93-96 -/
def pop (d : Dq α) : Out Err (α × Dq α) :=
  if nonEmpty d then do
    let d' := { d with tail := mask d (d.tail - 1) }
    let res ← ld d'.arr d'.tail
    pure (res, d')
  else .exc .index

/-- Lines 74-75 and 82-83: drop an element from the other end when over `maxlen`. -/
def trim (d : Dq α) (p : Dq α → Out Err (α × Dq α)) : Out Err (Dq α) :=
  if d.maxlen ≥ 0 ∧ len d > d.maxlen then do
    let r ← p d
    pure r.2
  else pure d

/-- Lines 76-77 and 84-85: double the capacity when the indices meet. -/
def grow (d : Dq α) : Out Err (Dq α) :=
  if d.head = d.tail then doubleCap d else pure d

/-- collections.codon:71-77 -/
def appendleft (d : Dq α) (x : α) : Out Err (Dq α) := do
  let h := mask d (d.head - 1)
  let arr ← st d.arr h x
  let d ← trim { d with arr := arr, head := h } pop
  grow d

/-- collections.codon:79-85 -/
def append (d : Dq α) (x : α) : Out Err (Dq α) := do
  let arr ← st d.arr d.tail x
  let d ← trim { d with arr := arr, tail := mask d (d.tail + 1) } popleft
  grow d

/-- collections.codon:98-100 -/
def clear (d : Dq α) : Dq α := { d with head := 0, tail := 0 }

/-- The loop of `__iter__`, collections.codon:102-106, collecting what is yielded.  `fuel` bounds
the number of iterations; running out counts as not terminating (`ub`). -/
def iterLoop (d : Dq α) : Nat → Int → Out Err (List α)
  | 0, i => if i = d.tail then pure [] else .ub
  | fuel + 1, i =>
    if i = d.tail then pure []
    else do
      let x ← ld d.arr i
      let rest ← iterLoop d fuel (mask d (i + 1))
      pure (x :: rest)

/-- collections.codon:102-106 -/
def iter (d : Dq α) : Out Err (List α) := iterLoop d d.arr.length d.head

/-- collections.codon:108-112 -/
def contains [DecidableEq α] (d : Dq α) (x : α) : Out Err Bool := do
  let xs ← iter d
  pure (xs.any (fun i => i = x))

/-- collections.codon:34-40: build from a generator. -/
def fromList (xs : List α) : Out Err (Dq α) := xs.foldlM append new

/-- collections.codon:114-115 for an element type whose deep copy is the value itself. -/
def deepcopy (d : Dq α) : Out Err (Dq α) := do
  let xs ← iter d
  fromList xs

/-- collections.codon:117-121; the cells are copied to a new block, so the copy and the original
are separate values. -/
def copy (d : Dq α) : Dq α := ⟨d.arr, d.head, d.tail, d.maxlen⟩

/-- collections.codon:126-128 -/
def idxCheck (d : Dq α) (idx : Int) : Bool :=
  !(d.head = d.tail || idx ≥ len d || idx < 0)

/-- collections.codon:130-133 -/
def left (d : Dq α) : Out Err α :=
  if idxCheck d 0 then ld d.arr d.head else .exc .index

/-- collections.codon:135-146 -/
def getitem (d : Dq α) (idx : Int) : Out Err α :=
  let idx := if idx < 0 then idx + len d else idx
  if idxCheck d idx then
    if d.head ≤ d.tail then ld d.arr (d.head + idx)
    else if d.head + idx < d.arr.length then ld d.arr (d.head + idx)
    else
      let idx := idx - (d.arr.length - d.head)
      if 0 ≤ idx ∧ idx < d.tail then ld d.arr idx else .exc .assertion
  else .exc .index

end Codon.Deque
