/-!
# Model of generators and the built-in functions that consume them

`stdlib/internal/types/generator.codon`, `stdlib/internal/builtin.codon:61-143`, `175-229`, the `for` loop of
`codon/cir/llvm/llvisitor.cpp:2600-2656`.

A generator is what it will yield (`src`, by position; `none` is its end, which may never come) and how far it is. Resuming
a coroutine that has finished or was destroyed, and destroying one twice, is undefined behaviour: `none`. The programs
here have no other effects than advancing generators.
-/

namespace Codon.Bltin

variable {α β : Type}

/-- Suspended (or not started), at its end, or freed. -/
inductive St where
  | live | fin | dead
  deriving DecidableEq, Repr

structure Gen (α : Type) where
  src : Nat → Option α
  pos : Nat
  st : St

/-- All generators. -/
abbrev World (α : Type) := Nat → Gen α

def World.set (w : World α) (g : Nat) (x : Gen α) : World α := fun h => if h = g then x else w h

/-- `generator.codon:54-59` `__resume__`: run to the next `yield` or to the end. -/
def resume (g : Nat) (w : World α) : Option (World α) :=
  match (w g).st with
  | .live =>
    match (w g).src (w g).pos with
    | some _ => some (w.set g { w g with pos := (w g).pos + 1 })
    | none => some (w.set g { w g with st := .fin })
  | _ => none

/-- `generator.codon:17-19` `done`. -/
def done (g : Nat) (w : World α) : Option (Bool × World α) := do
  let w ← resume g w
  return ((w g).st == .fin, w)

/-- `generator.codon:21-25` `__next__`: what the last `yield` left in the promise. -/
def value (g : Nat) (w : World α) : Option α :=
  match (w g).st, (w g).pos with
  | .live, p + 1 => (w g).src p
  | _, _ => none

/-- `generator.codon:70-75` `destroy`. -/
def destroy (g : Nat) (w : World α) : Option (World α) :=
  match (w g).st with
  | .dead => none
  | _ => some (w.set g { w g with st := .dead })

/-- How the body of a loop ends: with the next round, or with `return`. -/
inductive Ctl (σ ρ : Type) where
  | next (s : σ)
  | ret (r : ρ)

/-- `llvisitor.cpp:2627-2655`: `for a in g`. The result is the `return` value, or the state after the last round. `f` bounds
the number of rounds. -/
def forGen {σ ρ : Type} (body : σ → α → Ctl σ ρ) (g : Nat) : Nat → σ → World α → Option ((σ ⊕ ρ) × World α)
  | 0, _, _ => none
  | f + 1, s, w => do
    let w ← resume g w
    if (w g).st = .fin then return (.inl s, ← destroy g w)
    else
      match body s (← value g w) with
      | .next s => forGen body g f s w
      | .ret r => return (.inr r, w)

/-- `builtin.codon:183-187` `any`. -/
def any (t : α → Bool) (f : Nat) (g : Nat) (w : World α) : Option (Bool × World α) := do
  match ← forGen (fun (_ : Unit) a => if t a then .ret true else .next ()) g f () w with
  | (.inl _, w) => return (false, w)
  | (.inr r, w) => return (r, w)

/-- `builtin.codon:189-193` `all`. -/
def all (t : α → Bool) (f : Nat) (g : Nat) (w : World α) : Option (Bool × World α) := do
  match ← forGen (fun (_ : Unit) a => if !t a then .ret false else .next ()) g f () w with
  | (.inl _, w) => return (true, w)
  | (.inr r, w) => return (r, w)

/-- `builtin.codon:175-181` `next`; `none` as value is a `StopIteration`. -/
def next (default : Option α) (g : Nat) (w : World α) : Option (Option α × World α) := do
  let (d, w) ← done g w
  if d then
    match default with
    | some x => return (some x, w)
    | none => return (none, w)
  else return (some (← value g w), w)

/-! ## Generators built on generators: one resumption

The result is what is yielded, or `none` at the end. -/

/-- `builtin.codon:202-204`: ask every iterator. -/
def zipDone : List Nat → Bool → World α → Option (Bool × World α)
  | [], d, w => some (d, w)
  | i :: is, d, w => do
    let (x, w) ← done i w
    zipDone is (if x then true else d) w

/-- `builtin.codon:207-208`. -/
def destroyAll : List Nat → World α → Option (World α)
  | [], w => some w
  | i :: is, w => do destroyAll is (← destroy i w)

/-- `i.__next__() for i in iters` (`builtin.codon:206`). -/
def values : List Nat → World α → Option (List α)
  | [], _ => some []
  | i :: is, w => do return (← value i w) :: (← values is w)

/-- `builtin.codon:195-208` `zip`. -/
def zipStep (iters : List Nat) (w : World α) : Option (Option (List α) × World α) :=
  match iters with
  | [] => some (none, w)
  | _ => do
    let (d, w) ← zipDone iters false w
    if d then return (none, ← destroyAll iters w)
    else return (some (← values iters w), w)

/-- `builtin.codon:215-220` `map` over one iterable. -/
def mapStep (f : α → β) (g : Nat) (w : World α) : Option (Option β × World α) := do
  let w ← resume g w
  if (w g).st = .fin then return (none, ← destroy g w) else return (some (f (← value g w)), w)

/-- `builtin.codon:210-213` `filter`. -/
def filterStep (p : α → Bool) (g : Nat) : Nat → World α → Option (Option α × World α)
  | 0, _ => none
  | n + 1, w => do
    let w ← resume g w
    if (w g).st = .fin then return (none, ← destroy g w)
    else
      let a ← value g w
      if p a then return (some a, w) else filterStep p g n w

/-- `builtin.codon:225-229` `enumerate`; `i` is its counter. -/
def enumStep (g : Nat) (i : Int) (w : World α) : Option (Option (Int × α) × World α) := do
  let w ← resume g w
  if (w g).st = .fin then return (none, ← destroy g w) else return (some (i, ← value g w), w)

/-! ## `min` and `max` -/

/-- `builtin.codon:70-77`, `112-119`: the loop of `min(it, key=k)`, and of `max` with `lt` turned round. -/
def bestLoop (better : α → α → Bool) (g : Nat) : Nat → α → World α → Option (α × World α)
  | 0, _, _ => none
  | f + 1, s, w => do
    let (d, w) ← done g w
    if d then return (s, w)
    else
      let i ← value g w
      bestLoop better g f (if better i s then i else s) w

/-- `builtin.codon:66-85`, `108-127`: with one argument. `none` as value is a `ValueError`. -/
def best1 (better : α → α → Bool) (default : Option α) (f : Nat) (g : Nat) (w : World α) : Option (Option α × World α) := do
  let (d, w) ← done g w
  if !d then
    let s ← value g w
    let (s, w) ← bestLoop better g f s w
    return (some s, ← destroy g w)
  else
    let w ← destroy g w
    match default with
    | none => return (none, w)
    | some x => return (some x, w)

/-- `builtin.codon:92-101`, `134-143`: with three arguments or more. -/
def bestN (better : α → α → Bool) (m : α) : List α → α
  | [] => m
  | i :: l => bestN better (if better i m then i else m) l

/-- An ordered type of keys, as its four operators. -/
structure Ops (κ : Type) where
  lt : κ → κ → Bool
  le : κ → κ → Bool
  gt : κ → κ → Bool
  ge : κ → κ → Bool

variable {κ : Type}

def min1 (o : Ops κ) (key : α → κ) := best1 fun i s => o.lt (key i) (key s)
def max1 (o : Ops κ) (key : α → κ) := best1 fun i s => o.gt (key i) (key s)

/-- `builtin.codon:61-101` `min` with two or more arguments; without a key it is the identity. -/
def minArgs (o : Ops κ) (key : α → κ) : α → α → List α → α
  | a, b, [] => if o.le (key a) (key b) then a else b
  | a, b, l => bestN (fun i m => o.lt (key i) (key m)) a (b :: l)

/-- `builtin.codon:103-143` `max` with two or more arguments. -/
def maxArgs (o : Ops κ) (key : α → κ) : α → α → List α → α
  | a, b, [] => if o.ge (key a) (key b) then a else b
  | a, b, l => bestN (fun i m => o.gt (key i) (key m)) a (b :: l)

end Codon.Bltin
