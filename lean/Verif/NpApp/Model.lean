/-!
# `numpy.append`

Source: `/repo/stdlib/numpy/routines.codon:1788-1864`.

Simplifications: arrays have one axis, so that both kinds of contiguity are the same.  An operand comes
with the bytes of its elements after the conversion to the type of the result, in order, and with the
bytes that lie in memory from its pointer on.
-/

namespace Codon.NpApp

variable {β : Type}

/-- An operand. -/
structure Arr (β : Type) where
  /-- the bytes of each element as an element of the result -/
  elems : List (List β)
  /-- the bytes from `data` on -/
  raw : List β
  /-- the size of an element -/
  item : Nat
  /-- whether its type is that of the result -/
  same : Bool
  /-- whether its elements are next to each other -/
  contig : Bool

/-- `nbytes`. -/
def Arr.nbytes (a : Arr β) : Nat := a.elems.length * a.item

/-- Writing bytes; `none` is a write outside. -/
def write (mem : List (Option β)) (off : Nat) (b : List β) : Option (List (Option β)) :=
  if off + b.length ≤ mem.length then some (mem.take off ++ b.map some ++ mem.drop (off + b.length)) else none

/-- `str.memcpy` of all the bytes of an operand; `none` also for a read outside. -/
def memcpy (mem : List (Option β)) (off : Nat) (a : Arr β) : Option (List (Option β)) :=
  if a.nbytes ≤ a.raw.length then write mem off (a.raw.take a.nbytes) else none

/-- The loops that convert and write elements with the numbers from `off` on, of size `s`. -/
def writeElems (s : Nat) : List (List β) → Nat → List (Option β) → Option (List (Option β))
  | [], _, mem => some mem
  | e :: r, off, mem =>
    match write mem (off * s) e with
    | none => none
    | some mem => writeElems s r (off + 1) mem

/-- `append` without an axis (`routines.codon:1840-1862`); `s` is the size of an element of the result,
which has no values at first.  After `memcpy`, `off` is still 0. -/
def appendFlat (s : Nat) (arr values : Arr β) : Option (List (Option β)) :=
  let mem := List.replicate ((arr.elems.length + values.elems.length) * s) none
  let first :=
    if arr.same && arr.contig then (memcpy mem 0 arr).map fun m => (m, 0)
    else (writeElems s arr.elems 0 mem).map fun m => (m, arr.elems.length)
  match first with
  | none => none
  | some (mem, off) =>
    if values.same && values.contig then memcpy mem arr.nbytes values
    else writeElems s values.elems off mem

/-- `append` with an axis (`routines.codon:1811-1839`); the second test is on the contiguity of the
first operand. -/
def appendAxis (s : Nat) (arr values : Arr β) : Option (List (Option β)) :=
  let mem := List.replicate ((arr.elems.length + values.elems.length) * s) none
  let first :=
    if arr.same && arr.contig then memcpy mem 0 arr
    else writeElems s arr.elems 0 mem
  match first with
  | none => none
  | some mem =>
    if values.same && arr.contig then memcpy mem arr.nbytes values
    else writeElems s values.elems arr.elems.length mem

end Codon.NpApp
