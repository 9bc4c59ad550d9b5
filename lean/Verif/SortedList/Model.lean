import Verif.Bisect.Model
/-!
# Model of `SortedList`

`stdlib/sortedlist.codon`.  The inner `list` objects are sequences (C23 relates the class to sequences).  `_offset` is
never read and left out.  `_delete` (86-119) is the only way to remove one element; `pos` is not negative.  Sizes are
unbounded integers.  An exception is raised before anything is changed.
-/
namespace Codon.SortedList
open Codon.Bisect

variable {T : Type}

/-- sortedlist.codon:8-14: the fields. -/
structure SL (T : Type) where
  len : Int
  load : Int
  lists : List (List T)
  maxes : List T
  deriving DecidableEq

/-- `a[i] = v` (list.codon:60-64). -/
def setItem (a : List T) (i : Int) (v : T) : R (List T) :=
  match ListM.Spec.pos a.length i with
  | some p => .ok (a.set p v)
  | none => .exc .indexError

/-- `del a[i]` (list.codon:66-73). -/
def delItem (a : List T) (i : Int) : R (List T) :=
  match ListM.Spec.pos a.length i with
  | some p => .ok (a.eraseIdx p)
  | none => .exc .indexError

/-- Where the slice `a[k:]` starts (C24). -/
def sliceStart (a : List T) (k : Int) : Nat :=
  if k < 0 then (if k + a.length < 0 then 0 else (k + a.length).toNat) else min k.toNat a.length

/-- sortedlist.codon:16-21 `__init__`, 6 `DEFAULT_LOAD_FACTOR`. -/
def init : SL T := ⟨0, 1000, [], []⟩

/-- sortedlist.codon:23-31 `clear`. -/
def clear (s : SL T) : SL T := { s with len := 0, lists := [], maxes := [] }

/-- sortedlist.codon:33-37 `left`. -/
def left (s : SL T) : R T :=
  if s.lists = [] then .exc .indexError
  else do
    let l ← item s.lists 0
    item l 0

/-- sortedlist.codon:67-84 `_expand`. -/
def expand (s : SL T) (pos : Int) : R (SL T) := do
  let l ← item s.lists pos
  if (l.length : Int) > s.load * 2 then
    let half := l.drop (sliceStart l s.load)
    let l := l.take (sliceStart l s.load)
    let lists ← setItem s.lists pos l
    let maxes ← setItem s.maxes pos (← item l (-1))
    let lists := insertAt lists (pos + 1) half
    let maxes := insertAt maxes (pos + 1) (← item half (-1))
    return { s with lists := lists, maxes := maxes }
  else return s

/-- sortedlist.codon:54-60: putting the value into a list. -/
def place (lt : T → T → Bool) (s : SL T) (value : T) : R (SL T × Int) := do
  let pos ← bisectRight lt s.maxes value 0 none
  if pos = s.maxes.length then
    let pos := pos - 1
    let l ← item s.lists pos
    let lists ← setItem s.lists pos (l ++ [value])
    let maxes ← setItem s.maxes pos value
    return ({ s with lists := lists, maxes := maxes }, pos)
  else
    let l ← item s.lists pos
    let lists ← setItem s.lists pos (← insortRight lt l value 0 none)
    return ({ s with lists := lists }, pos)

/-- sortedlist.codon:39-64 `add`. -/
def add (lt : T → T → Bool) (s : SL T) (value : T) : R (SL T) := do
  if s.maxes ≠ [] then
    let r ← place lt s value
    let s ← expand r.1 r.2
    return { s with len := s.len + 1 }
  else
    return { s with lists := s.lists ++ [[value]], maxes := s.maxes ++ [value], len := s.len + 1 }

/-- sortedlist.codon:107-114: joining a small list with its neighbour; at 104-105 `pos` is 1 instead of 0. -/
def join (s : SL T) (pos : Int) : R (SL T) := do
  let prev := pos - 1
  let l ← item s.lists prev
  let lists ← setItem s.lists prev (l ++ (← item s.lists pos))
  let maxes ← setItem s.maxes prev (← item (← item lists prev) (-1))
  let lists ← delItem lists pos
  let maxes ← delItem maxes pos
  expand { s with lists := lists, maxes := maxes } prev

/-- sortedlist.codon:86-119 `_delete`.  `load >> 1` rounds down. -/
def delete (s : SL T) (pos : Nat) (idx : Int) : R (SL T) := do
  let l ← item s.lists pos
  let l ← delItem l idx
  let s := { s with lists := ← setItem s.lists pos l, len := s.len - 1 }
  if (l.length : Int) > s.load / 2 then
    return { s with maxes := ← setItem s.maxes pos (← item l (-1)) }
  else if s.lists.length > 1 then
    join s (if pos = 0 then 1 else pos)
  else if l.length ≠ 0 then
    return { s with maxes := ← setItem s.maxes pos (← item l (-1)) }
  else
    return { s with lists := ← delItem s.lists pos, maxes := ← delItem s.maxes pos }

/-- sortedlist.codon:121-123 `__iter__`. -/
def iter (s : SL T) : List T := s.lists.flatten

/-- sortedlist.codon:125-126 `__len__`. -/
def length (s : SL T) : Int := s.len

end Codon.SortedList
