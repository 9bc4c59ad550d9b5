import Verif.Base.Out
import Verif.ListM.Spec

/-!
# Model of `bisect`

`stdlib/bisect.codon`.  The list is the sequence of its elements (C23 relates the `list` class to
sequences); reading an index outside raises `IndexError`.  Indices are unbounded integers (the sum
`lo + hi` of the code does not overflow for indices below `2**62`).
-/

namespace Codon.Bisect

inductive Err where
  | indexError | valueError
deriving DecidableEq

abbrev R (α : Type) := Out Err α

section
variable {T S : Type}

/-- `a[i]` (`list.codon:54-58`). -/
def item (a : List T) (i : Int) : R T :=
  match ListM.Spec.pos a.length i with
  | some p => match a[p]? with | some v => .ok v | none => .ub
  | none => .exc .indexError

/-- The loop of `bisect.codon:9-14`, with a bound on the iterations. -/
def leftLoop (ltTS : T → S → Bool) (a : List T) (x : S) (lo hi : Int) : Nat → R Int
  | 0 => .ub
  | n + 1 =>
    if lo < hi then do
      let mid := (lo + hi).tdiv 2
      if ltTS (← item a mid) x then leftLoop ltTS a x (mid + 1) hi n
      else leftLoop ltTS a x lo mid n
    else .ok lo

/-- `bisect.codon:3-15` `bisect_left`; `ltTS` is `<` of a list element and `x`. -/
def bisectLeft (ltTS : T → S → Bool) (a : List T) (x : S) (lo : Int) (hi : Option Int) : R Int :=
  if lo < 0 then .exc .valueError
  else
    let hi := hi.getD a.length
    leftLoop ltTS a x lo hi ((hi - lo).toNat + 1)

/-- The loop of `bisect.codon:23-28`. -/
def rightLoop (ltST : S → T → Bool) (a : List T) (x : S) (lo hi : Int) : Nat → R Int
  | 0 => .ub
  | n + 1 =>
    if lo < hi then do
      let mid := (lo + hi).tdiv 2
      if ltST x (← item a mid) then rightLoop ltST a x lo mid n
      else rightLoop ltST a x (mid + 1) hi n
    else .ok lo

/-- `bisect.codon:17-29` `bisect_right`; `ltST` is `<` of `x` and a list element. -/
def bisectRight (ltST : S → T → Bool) (a : List T) (x : S) (lo : Int) (hi : Option Int) : R Int :=
  if lo < 0 then .exc .valueError
  else
    let hi := hi.getD a.length
    rightLoop ltST a x lo hi ((hi - lo).toNat + 1)

/-- `a.insert(i, x)` on the sequence (C23). -/
def insertAt (a : List T) (i : Int) (x : T) : List T :=
  a.take (ListM.Spec.insPos a.length i) ++ x :: a.drop (ListM.Spec.insPos a.length i)

/-- `bisect.codon:31-35` `insort_left`. -/
def insortLeft (lt : T → T → Bool) (a : List T) (x : T) (lo : Int) (hi : Option Int) : R (List T) := do
  return insertAt a (← bisectLeft lt a x lo hi) x

/-- `bisect.codon:37-45` `insort_right`. -/
def insortRight (lt : T → T → Bool) (a : List T) (x : T) (lo : Int) (hi : Option Int) : R (List T) := do
  let lo ← bisectRight lt a x lo hi
  if lo = a.length then return a ++ [x] else return insertAt a lo x

end

end Codon.Bisect
