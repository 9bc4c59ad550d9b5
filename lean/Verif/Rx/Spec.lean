import Verif.Rx.Model

/-!
# What Python says about the matches of a pattern in a string

(`Modules/_sre`: after a match the search goes on at its end; if it was empty, another empty match at
the same place does not count.)
-/

namespace Codon.Rx

/-- Matches end where they start or later, and within the string. -/
def Rx.Ok (M : Rx) (n : Nat) : Prop := ∀ p e, e ∈ M p → p ≤ e ∧ e ≤ n

/-- The matches at `q` that count when the search begins at `pos`; with `adv` the match must not be
empty at `pos`. -/
def allowed (M : Rx) (pos : Nat) (adv : Bool) (q : Nat) : List Nat :=
  if adv = true ∧ q = pos then (M q).filter (· ≠ q) else M q

/-- The next match: at the first position that has one, the preferred one. -/
def Finds (M : Rx) (n pos : Nat) (adv : Bool) (m : Nat × Nat) : Prop :=
  pos ≤ m.1 ∧ m.1 ≤ n ∧ (allowed M pos adv m.1).head? = some m.2 ∧
    ∀ q, pos ≤ q → q < m.1 → allowed M pos adv q = []

/-- All matches, one after the other. -/
inductive Matches (M : Rx) (n : Nat) : Nat → Bool → List (Nat × Nat) → Prop
  | stop {pos adv} : (∀ m, ¬ Finds M n pos adv m) → Matches M n pos adv []
  | next {pos adv m l} : Finds M n pos adv m → Matches M n m.2 (decide (m.1 = m.2)) l →
      Matches M n pos adv (m :: l)

/-- The preferred match at `p` is the empty one. -/
def Empty (M : Rx) (p : Nat) : Prop := (M p).head? = some p

/-- Where an empty match is preferred there is no other match, and before it, unless it is at the
beginning, there is a match too.  So for patterns that do not match the empty string, and for those
like `x*` that match everywhere and take as much as possible. -/
def Steady (M : Rx) (from_ : Nat) : Prop :=
  ∀ p, Empty M p → M p = [p] ∧ (p ≤ from_ ∨ M (p - 1) ≠ [])

/-- Spans in order, without overlap, between `a` and `n`. -/
inductive Ordered (n : Nat) : Nat → List (Nat × Nat) → Prop
  | nil {a} : a ≤ n → Ordered n a []
  | cons {a m l} : a ≤ m.1 → m.1 ≤ m.2 → Ordered n m.2 l → Ordered n a (m :: l)

/-- The string with the spans replaced. -/
inductive Replaced {α : Type} (str : List α) (repl : Nat × Nat → List α) :
    Nat → List (Nat × Nat) → List α → Prop
  | nil {a} : Replaced str repl a [] (str.drop a)
  | cons {a m l gap r} : a + gap.length = m.1 → gap <+: str.drop a → Replaced str repl m.2 l r →
      Replaced str repl a (m :: l) (gap ++ repl m ++ r)

end Codon.Rx
