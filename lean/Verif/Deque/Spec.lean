import Mathlib.Data.List.Basic

/-! Python's `deque`, on mathematical lists (the leftmost element first). -/

namespace Codon.Deque.Spec

/-- What a program can do with a deque. -/
inductive Op (α : Type) where
  | append (x : α)
  | appendleft (x : α)
  | pop
  | popleft
  | clear
  | get (i : Int)
  | left
  | len
  | bool
  | iter
  | contains (x : α)
deriving DecidableEq, Repr

/-- What a program sees of an operation. -/
inductive Obs (α : Type) where
  | done
  | val (x : α)
  | num (n : Int)
  | truth (b : Bool)
  | items (xs : List α)
  | indexError
deriving DecidableEq, Repr

variable {α : Type}

/-- The last `m` elements. -/
def keepRight (m : Option Nat) (xs : List α) : List α :=
  match m with
  | none => xs
  | some m => xs.drop (xs.length - m)

/-- The first `m` elements. -/
def keepLeft (m : Option Nat) (xs : List α) : List α :=
  match m with
  | none => xs
  | some m => xs.take m

def ofOption : Option α → Obs α
  | none => .indexError
  | some x => .val x

/-- One operation on a deque with the given bound on its length. -/
def step [DecidableEq α] (m : Option Nat) (xs : List α) : Op α → Obs α × List α
  | .append x => (.done, keepRight m (xs ++ [x]))
  | .appendleft x => (.done, keepLeft m (x :: xs))
  | .pop => (ofOption xs.getLast?, xs.dropLast)
  | .popleft => (ofOption xs.head?, xs.tail)
  | .clear => (.done, [])
  | .get i =>
    if 0 ≤ i then (ofOption xs[i.toNat]?, xs)
    else if -xs.length ≤ i then (ofOption xs[(i + xs.length).toNat]?, xs)
    else (.indexError, xs)
  | .left => (ofOption xs.head?, xs)
  | .len => (.num xs.length, xs)
  | .bool => (.truth (decide (xs ≠ [])), xs)
  | .iter => (.items xs, xs)
  | .contains x => (.truth (decide (x ∈ xs)), xs)

/-- A history of operations: everything seen, and the contents afterwards. -/
def run [DecidableEq α] (m : Option Nat) (xs : List α) : List (Op α) → List (Obs α) × List α
  | [] => ([], xs)
  | op :: ops =>
    let r := step m xs op
    let s := run m r.2 ops
    (r.1 :: s.1, s.2)

example : run (some 2) [] [.append 1, .append 2, .append 3, .appendleft 0, .get (-1), .pop, .pop,
    .pop] = ([.done, .done, .done, .done, .val 2, .val 2, .val 0, .indexError], []) := by decide

end Codon.Deque.Spec
