import Verif.Fuse.Model
import Verif.ListM.Slices
import Mathlib.Data.List.Forall2

/-! Vocabulary for the claims about the fusion of list additions. -/

namespace Codon.Fuse

open ListM (L Sl)
open Codon.SliceSpec (first last)

variable {T W E : Type}

/-- In state `s` the list at address `a` has the elements `xs`. -/
def Holds (s : State T W) (a : Nat) (xs : List T) : Prop :=
  ∃ l, s.heap[a]? = some l ∧ ListM.Rel l xs

/-- The slice does not end before it starts, unless it has a step. -/
def Ascending (n : Nat) (s : Sl) : Prop :=
  s.step = none → first n s.start 1 ≤ last n s.stop 1

/-- Which elements an evaluated operand contributes in state `s`: those of the list, those Python
selects for the slice, those of the literal.  The step of a slice must not be zero, and the slice
must be ascending. -/
def Shows (s : State T W) : Saved T → List T → Prop
  | .val a, ys => Holds s a ys
  | .slice a sl, ys => ∃ xs, Holds s a xs ∧ sl.step ≠ some 0 ∧ Ascending xs.length sl ∧
      ys = ListM.Spec.slice xs sl.start sl.stop (sl.step.getD 1)
  | .literal vs, ys => ys = vs

/-- The states after each operand when they are evaluated in order. -/
def trail : List (Opd T W E) → State T W → List (State T W)
  | [], _ => []
  | o :: os, s =>
    match o.setup s with
    | .ok _ s' => s' :: trail os s'
    | _ => []

/-- No operand disturbs what an earlier one contributes: its elements are the same right after its
evaluation and after the evaluation of every later operand. -/
def Steady : List (Opd T W E) → State T W → Prop
  | [], _ => True
  | o :: os, s =>
    match o.setup s with
    | .ok v s' => (∃ ys, ∀ s'' ∈ s' :: trail os s', Shows s'' v ys) ∧ Steady os s'
    | _ => True

end Codon.Fuse
