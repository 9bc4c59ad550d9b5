import Verif.SortedList.Model
import Verif.Base.Order
/-!
# What a sorted list is

The contents are one sequence; adding puts a value behind all values that are not greater.
-/
namespace Codon.SortedList
variable {T : Type}

/-- `ys` is `xs` with `x` put behind everything that is not greater and before everything greater. -/
def Added (lt : T → T → Bool) (x : T) (xs ys : List T) : Prop :=
  ∃ b c, xs = b ++ c ∧ ys = b ++ x :: c ∧ (∀ v ∈ b, lt x v = false) ∧ ∀ v ∈ c, lt x v = true

/-- Operations: `delete pos idx` names an element by list and index. -/
inductive Op (T : Type) where
  | add (x : T)
  | delete (pos : Nat) (idx : Int)
  | clear

/-- One operation; `none` for an exception. -/
def step (lt : T → T → Bool) (s : SL T) : Op T → Bisect.R (SL T)
  | .add x => add lt s x
  | .delete pos idx => delete s pos idx
  | .clear => .ok (clear s)

/-- The number of elements before the list at `pos`. -/
def before (s : SL T) (pos : Nat) : Nat := (s.lists.take pos).flatten.length

/-- How the sequence of all elements changes. -/
def Change (lt : T → T → Bool) (s : SL T) (xs : List T) : Op T → List T → Prop
  | .add x, ys => Added lt x xs ys
  | .delete pos idx, ys => ∃ l i, s.lists[pos]? = some l ∧ ListM.Spec.pos l.length idx = some i ∧
      ys = xs.eraseIdx (before s pos + i)
  | .clear, ys => ys = []

/-- The operation raises `IndexError`: no such list, or no such index in it. -/
def Fails (s : SL T) : Op T → Prop
  | .delete pos idx => match s.lists[pos]? with
    | none => True
    | some l => ListM.Spec.pos l.length idx = none
  | _ => False

/-- The state after any sequence of operations, with the contents it should have; operations that raise change nothing. -/
inductive Reach (lt : T → T → Bool) (load : Int) : SL T → List T → Prop
  | init : Reach lt load { init with load := load } []
  | step {s s' xs ys} (op : Op T) : Reach lt load s xs → step lt s op = .ok s' → Change lt s xs op ys →
      Reach lt load s' ys

end Codon.SortedList
