import Verif.KHash.Model

/-!
# Model of `set`

`stdlib/internal/types/collections/set.codon`.  The `_kh_*` functions are those of
`Verif.KHash.Model`; the value cells are of type `Unit` and never read.
-/

namespace Codon.KHash.SetM

section
variable {K : Type} [DecidableEq K] (h : K → BitVec 64)

abbrev CSet (K : Type) := Tbl K Unit

/-- `set.codon:152-153` `add`. -/
def add (t : CSet K) (k : K) : Option (CSet K) := do
  let (t, _, _) ← kput h t k
  return t

/-- `set.codon:155-157` `update` (also `__ior__`, 61-64, and `__init__`, 35-38). -/
def addAll (t : CSet K) : List K → Option (CSet K)
  | [] => some t
  | k :: ks => do addAll (← add h t k) ks

/-- `set.codon:159-164` `remove`; the flag is `true` when `KeyError` is raised. -/
def remove (t : CSet K) (k : K) : Option (CSet K × Bool) := do
  let x ← kget h t k
  if x ≠ t.nb then return (← kdel t x, false) else return (t, true)

/-- `set.codon:173-176` `discard`. -/
def discard (t : CSet K) (k : K) : Option (CSet K) := do
  let x ← kget h t k
  if x ≠ t.nb then kdel t x else return t

/-- `set.codon:166-171` `pop`: remove and return the first bucket in use. -/
def popFrom (t : CSet K) : Nat → Nat → Option (CSet K × Option K)
  | 0, _ => some (t, none)
  | n + 1, i => do
    if ← iseither t.flags i then popFrom t n (i + 1)
    else
      let a ← rd t.keys i
      let (t, _) ← remove h t a
      return (t, some a)

/-- `set.codon:166-171` `pop`; `none` in the result is `ValueError`. -/
def pop (t : CSet K) : Option (CSet K × Option K) :=
  if t.size = 0 then some (t, none) else popFrom h t t.nb 0

/-- `for a in keys: if (a in other) == want: s.add(a)` (`set.codon:180-182, 193-195, 205-210`). -/
def addIf (other : CSet K) (want : Bool) (s : CSet K) : List K → Option (CSet K)
  | [] => some s
  | a :: ks => do
    let b ← contains h other a
    let s ← if b = want then add h s a else some s
    addIf other want s ks

/-- `set.codon:178-183` `difference`. -/
def difference (t other : CSet K) : Option (CSet K) := do
  addIf h other false Tbl.empty (← keysList t)

/-- `set.codon:185-187` `difference_update` with a different set. -/
def discardAll (t : CSet K) : List K → Option (CSet K)
  | [] => some t
  | a :: ks => do discardAll (← discard h t a) ks

def differenceUpdate (t other : CSet K) : Option (CSet K) := do
  discardAll h t (← keysList other)

/-- `set.codon:189-196` `intersection`. -/
def intersection (t other : CSet K) : Option (CSet K) := do
  let (t, other) := if other.size < t.size then (other, t) else (t, other)
  addIf h other true Tbl.empty (← keysList t)

/-- `for a in self: if cond(a): self.discard(a)`, iterating over the set being changed, from bucket
`i` with `n` buckets left (`set.codon:199-201, 217-219`).  `discard` does not move buckets, so the
number of buckets is fixed. -/
def discardWhileIter (cond : K → Option Bool) (t : CSet K) : Nat → Nat → Option (CSet K)
  | 0, _ => some t
  | n + 1, i => do
    if ← iseither t.flags i then discardWhileIter cond t n (i + 1)
    else
      let a ← rd t.keys i
      if ← cond a then
        let t ← discard h t a
        discardWhileIter cond t n (i + 1)
      else discardWhileIter cond t n (i + 1)

/-- `set.codon:198-201` `intersection_update` (other set is a different object). -/
def intersectionUpdate (t other : CSet K) : Option (CSet K) :=
  discardWhileIter h (fun a => (contains h other a).map (!·)) t t.nb 0

/-- `set.codon:203-211` `symmetric_difference`. -/
def symmetricDifference (t other : CSet K) : Option (CSet K) := do
  let s ← addIf h other false Tbl.empty (← keysList t)
  addIf h t false s (← keysList other)

/-- `for a in other: if a in self: self.discard(a)` (`set.codon:214-216`). -/
def discardIfIn (t : CSet K) : List K → Option (CSet K)
  | [] => some t
  | a :: ks => do
    let t ← if ← contains h t a then discard h t a else some t
    discardIfIn t ks

/-- `set.codon:213-219` `symmetric_difference_update`. -/
def symmetricDifferenceUpdate (t other : CSet K) : Option (CSet K) := do
  let t ← discardIfIn h t (← keysList other)
  discardWhileIter h (fun a => contains h other a) t t.nb 0

/-- `set.codon:221-230` `union`. -/
def union (t other : CSet K) : Option (CSet K) := do
  let s ← kresize h (Tbl.empty : CSet K)
    (BitVec.ofNat 64 (if t.nb ≥ other.nb then t.nb else other.nb))
  let s ← addAll h s (← keysList t)
  addAll h s (← keysList other)

/-- `for a in keys: if (a in other) == bad: return False` then `return True`
(`set.codon:81-84, 235-238, 243-246`). -/
def noneIs (other : CSet K) (bad : Bool) : List K → Option Bool
  | [] => some true
  | a :: ks => do if (← contains h other a) = bad then return false else noneIs other bad ks

/-- `set.codon:232-238` `isdisjoint`. -/
def isdisjoint (t other : CSet K) : Option Bool := do
  let (t, other) := if other.size < t.size then (other, t) else (t, other)
  noneIs h other true (← keysList t)

/-- `set.codon:240-246` `issubset`. -/
def issubset (t other : CSet K) : Option Bool := do
  if other.size < t.size then return false
  noneIs h other false (← keysList t)

/-- `set.codon:78-84` `__eq__`. -/
def eq (t other : CSet K) : Option Bool := do
  if t.size ≠ other.size then return false
  noneIs h other false (← keysList t)

/-- `set.codon:95-96` `__lt__`. -/
def lt (t other : CSet K) : Option Bool := do
  if ← eq h t other then return false else issubset h t other

end

end Codon.KHash.SetM
