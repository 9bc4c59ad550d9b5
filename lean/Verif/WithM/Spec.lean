import Verif.WithM.Model

/-!
# `with` statements in Python

The expansion given in the language reference (8.5, "The with statement"), with the exception passed to `__exit__`
and its result deciding whether the exception is swallowed.
-/

namespace Codon.WithM

/-- Sequencing of expressions in a statement. -/
def bindS {α U : Type} (r : Res α U) (k : α → U → SRes U) : SRes U :=
  match r with
  | none => none
  | some (.error x, u) => some (.raised x, u)
  | some (.ok v, u) => k v u

/-- `target = value`, if there is a target. -/
def bindTarget {U : Type} (S : Sem U) (x : Option Nat) (v : Nat) (u : U) : U :=
  match x with
  | some x => S.set u x v
  | none => u

/-- Leaving the statement: `pyExit m e` is `__exit__` of `m` with the exception, if any, and gives whether the
exception is swallowed. -/
def pyLeave {U : Type} (pyExit : Nat → Option Nat → U → Res Bool U) (m : Nat) (r : SRes U) : SRes U :=
  match r with
  | none => none
  | some (.raised e, u) => bindS (pyExit m (some e) u) fun b u => some (if b then .normal else .raised e, u)
  | some (o, u) => bindS (pyExit m none u) fun _ u => some (o, u)

/-- The `with` statement of Python with items (expression and optional target); `pyEnter` is `__enter__`. -/
def pyWith {U : Type} (S : Sem U) (pyEnter : Nat → U → Res Nat U) (pyExit : Nat → Option Nat → U → Res Bool U) :
    List (Nat × Option Nat) → U → SRes U
  | [], u => S.suite u
  | (e, x) :: items, u =>
    bindS (S.expr e u) fun m u =>
      bindS (pyEnter m u) fun v u =>
        pyLeave pyExit m (pyWith S pyEnter pyExit items (bindTarget S x v u))

/-- `__exit__` never swallows an exception and does not look at it. -/
def PlainExit {U : Type} (S : Sem U) (pyExit : Nat → Option Nat → U → Res Bool U) : Prop :=
  ∀ m e u, pyExit m e u = (S.exit m u).map fun r => (r.1.map fun _ => false, r.2)

/-- A result without its value. -/
def erase {α U : Type} (r : Res α U) : Res Unit U := r.map fun r => (r.1.map fun _ => (), r.2)

/-- `__enter__` does the same in both languages, except for its result (which Codon does not use). -/
def SameEnter {U : Type} (S : Sem U) (pyEnter : Nat → U → Res Nat U) : Prop :=
  ∀ m u, erase (pyEnter m u) = erase (S.enter m u)

/-- For an item with the target `x`: `__enter__` returns (in Python) the object itself, raises no exception, and does
not depend on the variable `x`. -/
structure PlainEnter {U : Type} (S : Sem U) (pyEnter : Nat → U → Res Nat U) (x : Nat) : Prop where
  self : ∀ m u v u', pyEnter m u = some (.ok v, u') → v = m
  ok : ∀ m u y u', S.enter m u ≠ some (.error y, u')
  blind : ∀ m u v, S.enter m (S.set u x v) = (S.enter m u).map fun r => (r.1, S.set r.2 x v)

/-- Variables work. -/
def Vars {U : Type} (S : Sem U) : Prop := ∀ u x v y, S.get (S.set u x v) y = if y = x then v else S.get u y

/-- No code of the statement assigns the variable `x`, except the statement itself. -/
structure Untouched {U : Type} (S : Sem U) (x : Nat) : Prop where
  expr : ∀ e u r u', S.expr e u = some (r, u') → S.get u' x = S.get u x
  enter : ∀ m u r u', S.enter m u = some (r, u') → S.get u' x = S.get u x
  exit : ∀ m u r u', S.exit m u = some (r, u') → S.get u' x = S.get u x
  suite : ∀ u o u', S.suite u = some (o, u') → S.get u' x = S.get u x

/-- The targets of the items. -/
def targets (items : List (Nat × Option Nat)) : List Nat := items.filterMap (·.2)

/-- A quantity (locks held, say) that `__enter__` increases by one if it succeeds, `__exit__` decreases by one however
it ends, and nothing else changes. -/
structure Counts {U : Type} (S : Sem U) (d : U → Int) : Prop where
  set : ∀ u x v, d (S.set u x v) = d u
  expr : ∀ e u r u', S.expr e u = some (r, u') → d u' = d u
  enterOk : ∀ m u v u', S.enter m u = some (.ok v, u') → d u' = d u + 1
  enterErr : ∀ m u x u', S.enter m u = some (.error x, u') → d u' = d u
  exit : ∀ m u r u', S.exit m u = some (r, u') → d u' = d u - 1
  suite : ∀ u o u', S.suite u = some (o, u') → d u' = d u

/-- The lowered statement run from a state of the program. -/
def runWith {U : Type} (S : Sem U) (items : List (Nat × Option Nat)) (next : Nat) (w : World U) :
    Option (Out × World U) :=
  (lower items next).bind fun s => exec S s w

end Codon.WithM
