import Verif.Numpy.LoopSpec
import Verif.NpFuse.Model
/-!
# Specification: what an array expression means
-/
namespace Codon.NpFuse
open Codon.Numpy
variable {V : Type}

/-- Coordinates can be compared with a shape. -/
instance decValid : (c s : List Int) → Decidable (Valid c s)
  | [], [] => isTrue trivial
  | x :: c, n :: s =>
    match decValid c s with
    | isTrue h => if h1 : 0 ≤ x ∧ x < n then isTrue ⟨h1, h⟩ else isFalse fun hh => h1 hh.1
    | isFalse h => isFalse fun hh => h hh.2
  | [], _ :: _ => isFalse id
  | _ :: _, [] => isFalse id

/-- The element function of an array of shape `s`: nothing outside of the shape. -/
def clip (s : List Int) (e : List Int → Option V) (c : List Int) : Option V := if Valid c s then e c else none

/-- What an expression stands for: a number, or a shape with an element at every place. -/
inductive Sem (V : Type) where
  | num (v : V)
  | arr (s : List Int) (e : List Int → Option V)

/-- The shape; numbers have none. -/
def Sem.shape : Sem V → List Int
  | .num _ => []
  | .arr s _ => s

/-- The element that stands at `c` when it is broadcast. -/
def Sem.at (x : Sem V) (c : List Int) : Option V :=
  match x with
  | .num v => some v
  | .arr s e => e (proj s c)

/-- The meaning of a tree: operations are done for each place of the broadcast shape. -/
inductive Means : Tree V (Sem V) → Sem V → Prop
  | leaf (x : Sem V) : Means (.leaf x) x
  | un {fn : V → V} {dt : DT} {k : Kind} {cost : Int} {l : Tree V (Sem V)} {s : List Int} {e : List Int → Option V} (hl : Means l (.arr s e)) :
      Means (.un fn dt k cost l) (.arr s fun c => (e c).map fn)
  | bin {fn : V → V → V} {dt : DT} {k : Kind} {cost : Int} {l r : Tree V (Sem V)} {x y : Sem V} {s : List Int} (hl : Means l x) (hr : Means r y) (hs : Broadcasts [x.shape, y.shape] s) :
      Means (.bin fn dt k cost l r) (.arr s (clip s fun c => (x.at c).bind fun u => (y.at c).map (fn u)))

/-- What a value stands for. -/
def Val.sem (h : Heap V) : Val V → Sem V
  | .num v => .num v
  | .arr a _ => .arr a.shape (clip a.shape fun c => a.read h c)

/-- Replacing the leaves. -/
def Tree.map {α β : Type} (f : α → β) : Tree V α → Tree V β
  | .leaf x => .leaf (f x)
  | .un fn dt k c l => .un fn dt k c (l.map f)
  | .bin fn dt k c l r => .bin fn dt k c (l.map f) (r.map f)

/-- Arrays in memory with at least one element. -/
def Val.Ok (h : Heap V) : Val V → Prop
  | .num _ => True
  | .arr a dt => a.WF h ∧ (∀ n ∈ a.shape, 0 < n) ∧ 0 < dt.w

/-- The heap grows; what was there is unchanged. -/
def Grows (h h' : Heap V) : Prop := Kept h h' ∧ h.next ≤ h'.next

/-- A leaf without effects on what exists in `h`: it always gives a value of its type that stands for `m`. -/
def Act.Pure (h : Heap V) (a : Act V) (m : Sem V) : Prop :=
  ∀ h1, Grows h h1 → ∃ h2 v, a.run h1 = some (.ok (h2, v)) ∧ Grows h1 h2 ∧ v.Ok h2 ∧ v.ty = a.ty ∧ v.sem h2 = m

/-- The type of a tree, where types of leaves are given by `ty`; an expression of arrays has at least one dimension.  `none`: not typed. -/
def Tree.tyOf {α : Type} (ty : α → Ty) : Tree V α → Option Ty
  | .leaf x => some (ty x)
  | .un _ dt k _ l =>
    match l.tyOf ty with
    | some (.arr d n) => if n = 0 ∨ (k = .vloop ∧ d ≠ dt) then none else some (.arr dt n)
    | _ => none
  | .bin _ dt k _ l r =>
    match l.tyOf ty, r.tyOf ty with
    | some (.arr d n), some (.arr d' n') => if max n n' = 0 ∨ (k = .vloop ∧ (d ≠ dt ∨ d' ≠ dt)) then none else some (.arr dt (max n n'))
    | some (.arr _ n), some .num => if n = 0 ∨ k = .vloop then none else some (.arr dt n)
    | some .num, some (.arr _ n) => if n = 0 ∨ k = .vloop then none else some (.arr dt n)
    | _, _ => none

/-- Sizes of elements are positive. -/
def Tree.Sized {α : Type} : Tree V α → Prop
  | .leaf _ => True
  | .un _ dt _ _ l => 0 < dt.w ∧ l.Sized
  | .bin _ dt _ _ l r => 0 < dt.w ∧ l.Sized ∧ r.Sized

/-- No vectorised loop with two operands (`arctan2`, `hypot`). -/
def Tree.NoVec2 {α : Type} : Tree V α → Prop
  | .leaf _ => True
  | .un _ _ _ _ l => l.NoVec2
  | .bin _ _ k _ l r => k ≠ .vloop ∧ l.NoVec2 ∧ r.NoVec2

/-- `v` is a new array in `h'` that stands for `m`, and all that existed in `h` is unchanged. -/
def Gives (h : Heap V) (m : Sem V) (h' : Heap V) (v : Val V) : Prop :=
  ∃ a dt, v = .arr a dt ∧ a.WF h' ∧ h.next ≤ a.blk ∧ (∀ c c', Valid c a.shape → Valid c' a.shape → a.addr c = a.addr c' → c = c') ∧ Kept h h' ∧ v.sem h' = m

end Codon.NpFuse
