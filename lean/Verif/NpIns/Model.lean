import Verif.NpRearr.Model

/-!
# `numpy.insert`

Source: `/repo/stdlib/numpy/routines.codon:1866-1960`.

Simplifications: arrays have one axis and are the lists of their elements; where the code writes the
elements of the new array one after the other, the model lists them; values need no conversion.
-/

namespace Codon.NpIns

open Codon.NpRearr (Out normalizeIndex)

variable {α : Type}

/-- The argument `values`: a number, or an array of one axis. -/
inductive Vals (α : Type) where
  | one (v : α)
  | many (l : List α)
  deriving DecidableEq, Repr

/-- `normalize_special` (`routines.codon:1867-1873`). -/
def normalizeSpecial (idx n numnew : Int) : Option Int :=
  let i := if idx < 0 then idx + n else idx
  if i < 0 ∨ i ≥ n + numnew then none else some i

/-- The order of pairs, by which `indices.sort()` sorts. -/
def pairLe (x y : Int × Nat) : Bool := decide (x.1 < y.1 ∨ x.1 = y.1 ∧ x.2 ≤ y.2)

/-- The indices in the new array, with a check (`routines.codon:1909-1913`). -/
def positions : List (Int × Nat) → Int → Int → Option (List (Int × Nat))
  | [], _, _ => some []
  | (idx, rank) :: r, i, total =>
    match normalizeIndex (idx + i) total with
    | none => none
    | some _ =>
      match positions r (i + 1) total with
      | none => none
      | some l => some ((idx + i, rank) :: l)

/-- The value to be put in for the index with a number (`routines.codon:1924-1943`): with as many values
as indices each has its own; otherwise it is the first; nothing is checked. -/
def valueAt (vals : Vals α) (numnew rank : Nat) : Option α :=
  match vals with
  | .one v => some v
  | .many l => if l.length = numnew then l[rank]? else l[0]?

/-- The loop over the new array (`routines.codon:1928-1956`), with the number of places left; the list
is `indices` from `curr` on.  When it is used up, `next_index` keeps a smaller value and is not met
again. -/
def insertLoop (val : Nat → Option α) : Nat → Int → List (Int × Nat) → List α → Out (List α)
  | 0, _, _, _ => .ok []
  | f + 1, ai, (p, rank) :: rest, a =>
    if ai = p then
      match val rank with
      | none => .bad
      | some v =>
        match insertLoop val f (ai + 1) rest a with
        | .ok l => .ok (v :: l)
        | o => o
    else
      match a with
      | [] => .bad
      | x :: r =>
        match insertLoop val f (ai + 1) ((p, rank) :: rest) r with
        | .ok l => .ok (x :: l)
        | o => o
  | f + 1, ai, [], a =>
    match a with
    | [] => .bad
    | x :: r =>
      match insertLoop val f (ai + 1) [] r with
      | .ok l => .ok (x :: l)
      | o => o

/-- The part after the indices are sorted (`routines.codon:1907-1958`). -/
def insertSorted (a : List α) (indices : List (Int × Nat)) (vals : Vals α) : Out (List α) :=
  match positions indices 0 ((a.length : Int) + indices.length) with
  | none => .indexError
  | some pos =>
    if indices.length = 0 then .ok a
    else insertLoop (valueAt vals indices.length) (a.length + indices.length) 0 pos a

/-- `insert` with a list of indices (`routines.codon:1901-1905`). -/
def insertList (a : List α) (obj : List Int) (vals : Vals α) : Out (List α) :=
  match obj.zipIdx.mapM fun p => (normalizeSpecial p.1 a.length obj.length).map fun i => (i, p.2) with
  | none => .indexError
  | some indices => insertSorted a (indices.mergeSort pairLe) vals

/-- `insert` with one index (`routines.codon:1898-1900`). -/
def insertOne (a : List α) (obj : Int) (vals : Vals α) : Out (List α) :=
  match normalizeSpecial obj a.length 1 with
  | none => .indexError
  | some i => insertSorted a [(i, 0)] vals

end Codon.NpIns
