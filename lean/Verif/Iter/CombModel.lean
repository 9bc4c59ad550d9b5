import Verif.Base.Out

/-!
# The combinatoric generators of `itertools`

Model of /repo/stdlib/itertools.codon:273-690.  A generator is a step function from the state at one `yield` to the state
at the next one.  Arrays are lists with checked accesses; an access outside an array makes the result `none` (undefined
behaviour in the code).  A loop variable `i` that counts down to `-1` is represented by `i + 1`.

The `r: Literal[int]` overloads (423-468, 509-556, 621-680) run the same loops on storage of fixed size; they are covered
by the same definitions except for `product`, which has its own model.  Integers are unbounded here (they count elements
of lists in memory).
-/

namespace Codon.Iter

variable {α β σ : Type}

/-- Run a generator to its end.  The step delivers `none` for undefined behaviour, `some none` at the end. -/
def collect (step : σ → Option (Option σ)) : Nat → σ → Option (List σ)
  | 0, _ => none
  | fuel + 1, s =>
    match step s with
    | none => none
    | some none => some [s]
    | some (some s') => (collect step fuel s').map (s :: ·)

/-- `a[i] = v`. -/
def setAt (a : List α) (i : Nat) (v : α) : Option (List α) := if i < a.length then some (a.set i v) else none

/-! ### product -/

/-- The loop that moves to the next selection (itertools.codon:309-321). -/
def productNext (pools : List (List α)) : Nat → List Nat → List α → Option (Option (List Nat × List α))
  | 0, _, _ => some none
  | i + 1, indices, result =>
    match pools[i]?, indices[i]? with
    | some pool, some d =>
      match setAt indices i (d + 1) with
      | none => none
      | some indices =>
        if d + 1 = pool.length then
          match setAt indices i 0, pool[0]? with
          | some indices, some x =>
            match setAt result i x with
            | some result => productNext pools i indices result
            | none => none
          | _, _ => none
        else
          match pool[d + 1]? with
          | some x =>
            match setAt result i x with
            | some result => some (some (indices, result))
            | none => none
          | none => none
    | _, _ => none

/-- `product(*iterables, repeat)` with `repeat` not a literal (itertools.codon:273-324). -/
def product (fuel : Nat) (iterables : List (List α)) (rep : Int) : Out String (List (List α)) :=
  if rep < 0 then .exc "ValueError" else
    let nargs := if rep = 0 then 0 else iterables.length
    if (iterables.take nargs).any (·.isEmpty) then .ok []
    else
      let pools := (List.replicate rep.toNat (iterables.take nargs)).flatten
      match pools.mapM (·[0]?) with
      | none => .ub
      | some result =>
        match collect (fun s => productNext pools pools.length s.1 s.2) fuel (List.replicate pools.length 0, result) with
        | none => .ub
        | some ss => .ok (ss.map (·.2))

/-- The loop of the literal overload: only the indices move (itertools.codon:368-378). -/
def productNextS (pools : List (List α)) : Nat → List Nat → Option (Option (List Nat))
  | 0, _ => some none
  | i + 1, indices =>
    match pools[i]?, indices[i]? with
    | some pool, some d =>
      match setAt indices i (d + 1) with
      | none => none
      | some indices =>
        if d + 1 = pool.length then
          match setAt indices i 0 with
          | some indices => productNextS pools i indices
          | none => none
        else some (some indices)
    | _, _ => none

/-- `tuple(pools[i][indices[i]] for i in static.range(npools))` (itertools.codon:363, 383). -/
def pick : List (List α) → List Nat → Option (List α)
  | [], [] => some []
  | p :: ps, i :: is =>
    match p[i]?, pick ps is with
    | some x, some xs => some (x :: xs)
    | _, _ => none
  | _, _ => none

/-- An iterable argument: a container can be iterated again and again, a generator only once.  A `for` loop that runs to its
end destroys the generator (/repo/codon/cir/llvm/llvisitor.cpp:2651-2653), and iterating it again resumes a destroyed
coroutine. -/
inductive Iterable (α : Type) where
  | container (xs : List α)
  | generator (xs : List α)

/-- The elements of the first iteration. -/
def Iterable.first : Iterable α → List α
  | .container xs => xs
  | .generator xs => xs

/-- A complete pass over the iterable, the first one or a later one. -/
def Iterable.pass : Iterable α → Bool → Option (List α)
  | .container xs, _ => some xs
  | .generator xs, fresh => if fresh then some xs else none

/-- `for x in xs: body(x)`, collecting what the body yields; the body is told whether it runs for the first time. -/
def passes (body : Bool → β → Option (List α)) : Bool → List β → Option (List α)
  | _, [] => some []
  | fresh, x :: xs =>
    match body fresh x, passes body false xs with
    | some a, some b => some (a ++ b)
    | _, _ => none

def Out.ofOption : Option α → Out String α
  | some a => .ok a
  | none => .ub

/-- `product(*iterables, repeat)` with `repeat` a literal (itertools.codon:326-383). -/
def productStatic (fuel : Nat) (iterables : List (Iterable α)) (rep : Nat) : Out String (List (List α)) :=
  if rep = 0 then .ok [[]]
  else match rep, iterables with
  | 1, [it0] => .ok (it0.first.map fun a => [a])
  | 1, [it0, it1] => Out.ofOption (passes (fun fresh a => (it1.pass fresh).map fun bs => bs.map fun b => [a, b]) true it0.first)
  | 1, [it0, it1, it2] =>
    Out.ofOption (passes (fun fresh1 a => (it1.pass fresh1).bind fun bs =>
      passes (fun fresh2 b => (it2.pass fresh2).map fun cs => cs.map fun c => [a, b, c]) fresh1 bs) true it0.first)
  | _, _ =>
    let lists := iterables.map (·.first)
    if lists.any (·.isEmpty) then .ok []
    else
      let pools := (List.replicate rep lists).flatten
      match collect (productNextS pools pools.length) fuel (List.replicate pools.length 0) with
      | none => .ub
      | some ss => Out.ofOption (ss.mapM (pick pools))

/-! ### combinations -/

/-- `for i in is: result.append(pool[i])` (itertools.codon:399-401, 575-576). -/
def gather (pool : List α) : List Nat → Option (List α)
  | [] => some []
  | i :: is =>
    match pool[i]?, gather pool is with
    | some x, some xs => some (x :: xs)
    | _, _ => none

/-- `while i >= 0 and indices[i] == lim(i): i -= 1` (itertools.codon:406-408, 493-495). -/
def findDown (lim : Nat → Nat) : Nat → List Nat → Option (Option Nat)
  | 0, _ => some none
  | i + 1, indices =>
    match indices[i]? with
    | none => none
    | some d => if d = lim i then findDown lim i indices else some (some i)

/-- `for j in range(i + 1, r): indices[j] = indices[j-1] + 1`, the last `cnt` iterations from `j` on
(itertools.codon:415-416). -/
def chainUp : Nat → Nat → List Nat → Option (List Nat)
  | 0, _, indices => some indices
  | cnt + 1, j, indices =>
    match indices[j - 1]? with
    | none => none
    | some d =>
      match setAt indices j (d + 1) with
      | none => none
      | some indices => chainUp cnt (j + 1) indices

/-- `while i < r: result[i] = pool[indices[i]]; i += 1` with `cnt` iterations left (itertools.codon:419-421). -/
def copyUp (pool : List α) (indices : List Nat) : Nat → Nat → List α → Option (List α)
  | 0, _, result => some result
  | cnt + 1, i, result =>
    match indices[i]? with
    | none => none
    | some d =>
      match pool[d]? with
      | none => none
      | some x =>
        match setAt result i x with
        | none => none
        | some result => copyUp pool indices cnt (i + 1) result

/-- From one `yield` of `combinations` to the next (itertools.codon:406-421). -/
def combNext (pool : List α) (r : Nat) (s : List Nat × List α) : Option (Option (List Nat × List α)) :=
  match findDown (fun i => i + pool.length - r) r s.1 with
  | none => none
  | some none => some none
  | some (some i) =>
    match s.1[i]? with
    | none => none
    | some d =>
      match setAt s.1 i (d + 1) with
      | none => none
      | some indices =>
        match chainUp (r - (i + 1)) (i + 1) indices with
        | none => none
        | some indices =>
          match copyUp pool indices (r - i) i s.2 with
          | none => none
          | some result => some (some (indices, result))

/-- `combinations(pool, r)` (itertools.codon:385-421). -/
def combinations (fuel : Nat) (pool : List α) (r : Int) : Out String (List (List α)) :=
  if r < 0 then .exc "ValueError"
  else if r > pool.length then .ok []
  else
    match gather pool (List.range r.toNat) with
    | none => .ub
    | some result =>
      match collect (combNext pool r.toNat) fuel (List.range r.toNat, result) with
      | none => .ub
      | some ss => .ok (ss.map (·.2))

/-! ### combinations_with_replacement -/

/-- `while i < r: indices[i] = index; result[i] = elem; i += 1` (itertools.codon:504-507). -/
def fillUp (v : β) : Nat → Nat → List β → Option (List β)
  | 0, _, a => some a
  | cnt + 1, i, a =>
    match setAt a i v with
    | none => none
    | some a => fillUp v cnt (i + 1) a

/-- From one `yield` to the next (itertools.codon:493-507). -/
def cwrNext (pool : List α) (r : Nat) (s : List Nat × List α) : Option (Option (List Nat × List α)) :=
  match findDown (fun _ => pool.length - 1) r s.1 with
  | none => none
  | some none => some none
  | some (some i) =>
    match s.1[i]? with
    | none => none
    | some d =>
      match pool[d + 1]? with
      | none => none
      | some x =>
        match fillUp (d + 1) (r - i) i s.1, fillUp x (r - i) i s.2 with
        | some indices, some result => some (some (indices, result))
        | _, _ => none

/-- `combinations_with_replacement(pool, r)` (itertools.codon:470-507). -/
def combinationsWR (fuel : Nat) (pool : List α) (r : Int) : Out String (List (List α)) :=
  if r < 0 then .exc "ValueError"
  else
    match pool with
    | [] => if r = 0 then .ok [[]] else .ok []
    | x :: _ =>
      match collect (cwrNext pool r.toNat) fuel (List.replicate r.toNat 0, List.replicate r.toNat x) with
      | none => .ub
      | some ss => .ok (ss.map (·.2))

/-! ### permutations -/

/-- `for j in range(i, n - 1): indices[j] = indices[j+1]` with `cnt` iterations left (itertools.codon:601-602). -/
def shiftUp : Nat → Nat → List Nat → Option (List Nat)
  | 0, _, indices => some indices
  | cnt + 1, j, indices =>
    match indices[j + 1]? with
    | none => none
    | some d =>
      match setAt indices j d with
      | none => none
      | some indices => shiftUp cnt (j + 1) indices

structure PermState (α : Type) where
  indices : List Nat
  cycles : List Nat
  result : List α

/-- The loop of the permutation generator (itertools.codon:596-616).  A cycle counter is at least 1 before it is
decremented; `cycles[i] = 0` before the decrement is treated as undefined. -/
def permLoop (pool : List α) (n r : Nat) : Nat → PermState α → Option (Option (PermState α))
  | 0, _ => some none
  | i + 1, s =>
    match s.cycles[i]? with
    | none => none
    | some 0 => none
    | some (c + 1) =>
      if c = 0 then
        match s.indices[i]? with
        | none => none
        | some index =>
          match shiftUp (n - 1 - i) i s.indices with
          | none => none
          | some indices =>
            match setAt indices (n - 1) index, setAt s.cycles i (n - i) with
            | some indices, some cycles => permLoop pool n r i { s with indices, cycles }
            | _, _ => none
      else
        match setAt s.cycles i c, s.indices[i]?, s.indices[n - c]? with
        | some cycles, some index, some other =>
          match setAt s.indices i other with
          | none => none
          | some indices =>
            match setAt indices (n - c) index with
            | none => none
            | some indices =>
              match copyUp pool indices (r - i) i s.result with
              | none => none
              | some result => some (some { indices, cycles, result })
        | _, _, _ => none

/-- From one `yield` to the next. -/
def permNext (pool : List α) (r : Nat) (s : PermState α) : Option (Option (PermState α)) :=
  if pool.length = 0 then some none else permLoop pool pool.length r r s

/-- `permutations(pool, r)`; `r = None` means the length of the pool (itertools.codon:558-619, 682-690). -/
def permutations (fuel : Nat) (pool : List α) (r : Option Int) : Out String (List (List α)) :=
  let r := r.getD pool.length
  if r < 0 then .exc "ValueError"
  else if r > pool.length then .ok []
  else
    let n := pool.length
    match gather pool (List.range r.toNat) with
    | none => .ub
    | some result =>
      match collect (permNext pool r.toNat) fuel
          { indices := List.range n, cycles := (List.range r.toNat).map fun i : Nat => n - i, result } with
      | none => .ub
      | some ss => .ok (ss.map (·.result))

end Codon.Iter
