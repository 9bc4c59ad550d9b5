import Verif.Random.Model
/-!
# What drawing programs may do
-/
namespace Codon.Random

/-- Whatever words are drawn, the program returns a value with `P` (or wants more words); it raises nothing. -/
def Only {α : Type} (p : M α) (P : α → Prop) : Prop :=
  ∀ ws, p ws = .exc .more ∨ ∃ a ws', p ws = .ok (a, ws') ∧ P a

/-- Some words make the program return `a`, whatever the words after them. -/
def Can {α : Type} (p : M α) (a : α) : Prop := ∃ ws, ∀ rest, p (ws ++ rest) = .ok (a, rest)

/-- The program returns the values of `P`, each of them for some words, and no others. -/
def Exactly {α : Type} (p : M α) (P : α → Prop) : Prop := Only p P ∧ ∀ a, P a → Can p a

/-- The values of Python's `range(start, stop, step)`. -/
def InRange (start stop step v : Int) : Prop :=
  ∃ i : Nat, v = start + step * i ∧ (0 < step ∧ v < stop ∨ step < 0 ∧ stop < v)

/-- `xs` is made of elements of `ys` at different positions, in any order. -/
def Picked {T : Type} (xs ys : List T) : Prop := ∃ rest, (xs ++ rest).Perm ys

end Codon.Random
