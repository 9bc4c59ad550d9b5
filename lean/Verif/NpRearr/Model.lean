/-!
# Rearranging arrays

Source: `/repo/stdlib/numpy/routines.codon`: `repeat` without an axis (`:1504-1519, 1578-1618`), `delete`
with one index, a list of indices or a mask (`:1622-1655, 1709-1783`), `array_split` into a number of
sections (`:1964-2012`), `resize` (`:2149-2179`), `roll` (`:2209-2270`).

Simplifications: arrays have one axis and are the lists of their elements; where the code writes the
elements of a new array one after the other, the model lists them.
-/

namespace Codon.NpRearr

/-- How a function ends; `bad` is an access outside an array, an element of the result that was never
written, or that the bound on the number of rounds is used up. -/
inductive Out (α : Type) where
  | ok (a : α)
  | valueError
  | indexError
  | bad
  deriving DecidableEq, Repr

variable {α : Type}

/-! ### `roll` -/

/-- `pymod` (`routines.codon:2255-2260`): the division of C, put right; the highest bit of `b ^ m` tells
whether the signs differ. -/
def pymod (a b : Int) : Int :=
  let d := a.tdiv b
  let m := a - d * b
  if m ≠ 0 ∧ (decide (b < 0) != decide (m < 0)) = true then m + b else m

/-- Writing into a new array, whose elements have no values at first. -/
def writeAll : List (Int × α) → List (Option α) → Option (List (Option α))
  | [], l => some l
  | (t, v) :: r, l =>
    if 0 ≤ t ∧ t < (l.length : Int) then writeAll r (l.set t.toNat (some v)) else none

/-- The values of a new array, if all are written. -/
def finished (l : List (Option α)) : Out (List α) :=
  match l.mapM id with
  | some r => .ok r
  | none => .bad

/-- `roll` (`routines.codon:2209-2270`). -/
def roll (a : List α) (shift : Int) : Out (List α) :=
  match writeAll (a.zipIdx.map fun p => (pymod ((p.2 : Int) + shift) a.length, p.1))
      (List.replicate a.length none) with
  | some l => finished l
  | none => .bad

/-! ### `array_split` -/

/-- `correct` (`routines.codon:1965-1973`). -/
def correct (idx n : Int) : Int :=
  if idx > n then n else if idx < -n then 0 else if idx < 0 then idx + n else idx

/-- `slice_axis` (`routines.codon:1975-1990`). -/
def sliceAxis (a : List α) (start stop : Int) : List α :=
  let start := correct start a.length
  let stop := correct stop a.length
  if stop > start then (a.drop start.toNat).take (stop - start).toNat else []

/-- The loop over the sections (`routines.codon:2005-2008`). -/
def splitLoop (a : List α) (neach extras : Int) : Nat → Int → Int → List (List α)
  | 0, _, _ => []
  | k + 1, i, start =>
    let stop := start + neach + (if i < extras then 1 else 0)
    sliceAxis a start stop :: splitLoop a neach extras k (i + 1) stop

/-- `array_split` (`routines.codon:1996-2010`) into a number of sections. -/
def arraySplit (a : List α) (nsections : Int) : Out (List (List α)) :=
  if nsections ≤ 0 then .valueError
  else .ok (splitLoop a ((a.length : Int) / nsections) ((a.length : Int) % nsections) nsections.toNat 0 0)

/-! ### `resize` -/

/-- The loop of `resize` (`routines.codon:2168-2177`), with the number of places left. -/
def resizeLoop (a : List α) : Nat → Nat → Out (List α)
  | 0, _ => .bad
  | f + 1, left =>
    if left ≤ a.length then .ok (a.take left)
    else
      match resizeLoop a f (left - a.length) with
      | .ok l => .ok (a ++ l)
      | o => o

/-- `resize` (`routines.codon:2149-2179`) to one axis. -/
def resize (zero : α) (a : List α) (newSize : Int) : Out (List α) :=
  if newSize < 0 then .valueError
  else if a.length = 0 ∨ newSize = 0 then .ok (List.replicate newSize.toNat zero)
  else resizeLoop a (newSize.toNat + 1) newSize.toNat

/-! ### `repeat` -/

/-- The loops of `repeat` (`routines.codon:1612-1616`). -/
def repeatLoop : List α → List Int → List α
  | e :: r, k :: ks => List.replicate k.toNat e ++ repeatLoop r ks
  | _, _ => []

/-- `repeat` with a list (`routines.codon:1513-1519, 1596-1618`). -/
def repeatList (a : List α) (repeats : List Int) : Out (List α) :=
  if repeats.any fun r => decide (r < 0) then .valueError
  else if repeats.length ≠ a.length then .valueError
  else .ok (repeatLoop a repeats)

/-! ### `delete` -/

/-- `util.normalize_index` (`/repo/stdlib/numpy/util.codon:222-228`). -/
def normalizeIndex (idx n : Int) : Option Int :=
  let i := if idx < 0 then idx + n else idx
  if i < 0 ∨ i ≥ n then none else some i

/-- The removal of duplicates (`routines.codon:1719-1727`): the values are written to the front of the
same list, never behind the place that is read. -/
def distinct : List Int → List Int
  | x :: y :: r => if x ≠ y then x :: distinct (y :: r) else distinct (y :: r)
  | l => l

/-- The loop over the elements (`routines.codon:1735-1750`); the list is `remove` from `curr` on.  When
it is used up, `skip` keeps a smaller value and no more elements are left out. -/
def deleteLoop : List α → Int → List Int → List α
  | x :: r, i, s :: rs => if i = s then deleteLoop r (i + 1) rs else x :: deleteLoop r (i + 1) (s :: rs)
  | a, _, [] => a
  | [], _, _ => []

/-- `delete` with a list of indices (`routines.codon:1709-1752`); `sort` sorts (C29). -/
def deleteList (a : List α) (obj : List Int) : Out (List α) :=
  match obj.mapM fun r => normalizeIndex r a.length with
  | none => .indexError
  | some remove => .ok (deleteLoop a 0 (distinct (remove.mergeSort fun x y => decide (x ≤ y))))

/-- `delete` with one index (`routines.codon:1636-1655`). -/
def deleteOne (a : List α) (obj : Int) : Out (List α) :=
  match normalizeIndex obj a.length with
  | none => .indexError
  | some i => .ok (a.take i.toNat ++ a.drop (i.toNat + 1))

/-- The loop of `delete` with a mask (`routines.codon:1767-1779`). -/
def maskLoop : List α → List Bool → List α
  | x :: r, m :: ms => if m then maskLoop r ms else x :: maskLoop r ms
  | _, _ => []

/-- `delete` with a mask (`routines.codon:1753-1781`). -/
def deleteMask (a : List α) (mask : List Bool) : Out (List α) :=
  if mask.length ≠ a.length then .valueError else .ok (maskLoop a mask)

end Codon.NpRearr
