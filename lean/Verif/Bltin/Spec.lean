/-!
# Specification: Python's iterator functions

A stream is what it yields by position; `none` is its end. In Python asking an iterator that is at its end again says so
again and changes nothing.
-/

namespace Codon.Bltin.Spec

variable {α : Type}

/-- `next(it)`: the item, if any, and the new position. -/
def pyNext (src : Nat → Option α) (pos : Nat) : Option α × Nat :=
  match src pos with
  | some a => (some a, pos + 1)
  | none => (none, pos)

/-- One item of Python's `zip`: ask the iterators in order, stop at the first that has no item. `pos` are the positions of
all iterators. -/
def pyZip (src : Nat → Nat → Option α) : List Nat → (Nat → Nat) → Option (List α) × (Nat → Nat)
  | [], pos => (some [], pos)
  | g :: gs, pos =>
    match pyNext (src g) (pos g) with
    | (none, _) => (none, pos)
    | (some a, p) =>
      let r := pyZip src gs (fun h => if h = g then p else pos h)
      (r.1.map (a :: ·), r.2)

/-- Take up to `n` items from an iterator. -/
def takeN {σ β : Type} (step : σ → Option β × σ) : Nat → σ → List β × σ
  | 0, s => ([], s)
  | n + 1, s =>
    match step s with
    | (none, s) => ([], s)
    | (some b, s) => let r := takeN step n s; (b :: r.1, r.2)

/-- `q` is the first position from `p` on at which the stream ends or has an item with `t`. -/
def First (src : Nat → Option α) (t : α → Bool) (p q : Nat) : Prop :=
  p ≤ q ∧ (∀ i, p ≤ i → i < q → ∃ a, src i = some a ∧ t a = false) ∧ ∀ a, src q = some a → t a = true

/-- The items from position `p` on are `l`, and then the stream ends. -/
def Rest (src : Nat → Option α) (p : Nat) (l : List α) : Prop :=
  (∀ i, (h : i < l.length) → src (p + i) = some l[i]) ∧ src (p + l.length) = none

/-- `x` is the first item of `l` such that no item is below it. -/
def IsFirstLeast (below : α → α → Prop) (l : List α) (x : α) : Prop :=
  ∃ pre post, l = pre ++ x :: post ∧ (∀ y ∈ pre, below x y) ∧ ∀ y ∈ post, ¬ below y x

/-- A strict order in which being unordered is transitive, as `<` of keys has to be. -/
structure Weak (lt : α → α → Prop) : Prop where
  asymm : ∀ a b, lt a b → ¬ lt b a
  trans : ∀ a b c, ¬ lt a b → ¬ lt b c → ¬ lt a c

end Codon.Bltin.Spec
