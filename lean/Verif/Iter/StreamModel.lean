import Verif.Slice.Model
/-!
# Model of the stream combinators of `itertools`

A finite iterable is the list of the elements it still has to deliver.  A generator function is
modelled by the list of values it yields when it is run to its end, together with the part of the
input it did not consume where the source lets a caller observe that (a `for` loop that is left by
`break` does not destroy the iterator).  The infinite generators and `tee` are modelled as step
functions.

User callbacks (`predicate`, `func`, `key`) are pure total functions; callbacks that raise or that
mutate the input are not modelled.  `!=` on keys is a decidable equality.
-/
namespace Codon.Iter

/-- A `for` loop over an iterable: `body state element` gives the values yielded in this round, the
new state and whether the round ended in `break`.  The result is everything yielded, the final state
and the unconsumed rest of the iterable. -/
def forLoop {σ α β : Type} (body : σ → α → List β × σ × Bool) : σ → List α → List β × σ × List α
  | s, [] => ([], s, [])
  | s, x :: xs =>
    match body s x with
    | (ys, s', true) => (ys, s', xs)
    | (ys, s', false) =>
      let r := forLoop body s' xs
      (ys ++ r.1, r.2.1, r.2.2)

/-- stdlib/itertools.codon:176-183 `takewhile`: yielded values and unconsumed rest. -/
def takewhile {α : Type} (p : α → Bool) (xs : List α) : List α × List α :=
  let r := forLoop (fun (_ : Unit) x => if p x then ([x], (), false) else ([], (), true)) () xs
  (r.1, r.2.2)

/-- stdlib/itertools.codon:76-84 `dropwhile`; the state is the flag `b`. -/
def dropwhile {α : Type} (p : α → Bool) (xs : List α) : List α :=
  (forLoop (fun (b : Bool) x =>
    let b' := if !b && !(p x) then true else b
    (if b' then [x] else [], b', false)) false xs).1

/-- stdlib/itertools.codon:87-92 `filterfalse`. -/
def filterfalse {α : Type} (p : α → Bool) (xs : List α) : List α :=
  (forLoop (fun (_ : Unit) x => (if !(p x) then [x] else [], (), false)) () xs).1

/-- stdlib/internal/builtin.codon:195-208 `zip` of two iterables: every round advances both
iterators and stops when one of them was done. -/
def zip2 {α β : Type} : List α → List β → List (α × β)
  | x :: xs, y :: ys => (x, y) :: zip2 xs ys
  | _, _ => []

/-- stdlib/itertools.codon:68-73 `compress`. -/
def compress {α : Type} (data : List α) (selectors : List Bool) : List α :=
  (forLoop (fun (_ : Unit) (ds : α × Bool) => (if ds.2 then [ds.1] else [], (), false)) ()
    (zip2 data selectors)).1

/-- stdlib/itertools.codon:56-65 `chain.__new__` and `chain.from_iterable` (the same loops). -/
def chain {α : Type} (its : List (List α)) : List α :=
  (forLoop (fun (_ : Unit) it =>
    ((forLoop (fun (_ : Unit) x => ([x], (), false)) () it).1, (), false)) () its).1

/-- stdlib/itertools.codon:171-173 `starmap` (the callback takes the tuple). -/
def starmap {α β : Type} (f : α → β) (xs : List α) : List β :=
  (forLoop (fun (_ : Unit) x => ([f x], (), false)) () xs).1

/-- stdlib/itertools.codon:37-42 `accumulate` with `initial`. -/
def accumulateInit {α β : Type} (f : β → α → β) (initial : β) (xs : List α) : List β :=
  initial :: (forLoop (fun (total : β) x => ([f total x], f total x, false)) initial xs).1

/-- stdlib/itertools.codon:46-50 `accumulate` without `initial`; the state is the optional
`total`. -/
def accumulate {α : Type} (f : α → α → α) (xs : List α) : List α :=
  (forLoop (fun (total : Option α) x =>
    let t := match total with
      | none => x
      | some t => f t x
    ([t], some t, false)) none xs).1

/-- stdlib/itertools.codon:101-108: one round of `groupby`; the state is `currkey`, `group`. -/
def groupBody {α κ : Type} [DecidableEq κ] (key : α → κ) (st : Option κ × List α) (v : α) :
    List (κ × List α) × (Option κ × List α) × Bool :=
  let k := key v
  let ck := match st.1 with
    | none => k
    | some c => c
  if k ≠ ck then ([(ck, st.2)], (some k, [v]), false)
  else ([], (some ck, st.2 ++ [v]), false)

/-- stdlib/itertools.codon:96-110 `groupby`. -/
def groupby {α κ : Type} [DecidableEq κ] (key : α → κ) (xs : List α) : List (κ × List α) :=
  let r := forLoop (groupBody key) (none, []) xs
  match r.2.1 with
  | (none, _) => r.1
  | (some ck, g) => r.1 ++ [(ck, g)]

/-- stdlib/itertools.codon:112-122 `islice(iterable, stop)`: yielded values and unconsumed rest;
`none` is the raised `ValueError`. -/
def isliceStop {α : Type} (xs : List α) (stop : Option Int) : Option (List α × List α) :=
  if (match stop with | some s => decide (s < 0) | none => false) then none
  else
    let r := forLoop (fun (i : Int) x =>
      if (match stop with | some s => decide (i ≥ s) | none => false) then ([], i, true)
      else ([x], i + 1, false)) 0 xs
    some (r.1, r.2.2)

/-- `sys.maxsize` (stdlib/sys.codon): `2^63 - 1`. -/
def maxsize : Int := 9223372036854775807

/-- State of the main loop of `islice(iterable, start, stop, step)`: the counter of `enumerate`,
`idx`, `nexti`. -/
structure SliceSt where
  i : Int
  idx : Int
  nexti : Int

/-- stdlib/itertools.codon:157-164: one round of the main loop.  `it[idx]` is taken with
`idx < N`, so its `IndexError` case (`getD`) is unreachable. -/
def sliceBody {α : Type} (it : Slice.Range) (st : SliceSt) (x : α) : List α × SliceSt × Bool :=
  if st.i = st.nexti then
    if st.idx + 1 ≥ it.len then ([x], ⟨st.i, st.idx + 1, st.nexti⟩, true)
    else ([x], ⟨st.i + 1, st.idx + 1, (it.getItem (st.idx + 1)).getD 0⟩, false)
  else ([], ⟨st.i + 1, st.idx, st.nexti⟩, false)

/-- stdlib/itertools.codon:125-168 `islice(iterable, start, stop, step)`: yielded values; `none` is
a raised `ValueError`.  The consumption of further elements by the `zip` loops (lines 152, 167) is
not modelled: `zip` destroys its iterators at its end. -/
def islice {α : Type} (xs : List α) (start stop step : Option Int) : Option (List α) :=
  let start := start.getD 0
  let stop := stop.getD maxsize
  let step := step.getD 1
  if start < 0 ∨ stop < 0 then none
  else if step < 0 then none
  else
    match Slice.Range.new start stop step with
    | none => none
    | some it =>
      if it.len = 0 then some []
      else
        match it.getItem 0 with
        | none => none
        | some nexti => some (forLoop (sliceBody it) ⟨0, 0, nexti⟩ xs).1

/-! ## `zip_longest` -/

/-- stdlib/itertools.codon:224-225: the loop over the rest of `b`. -/
def zipLongest2B {α β : Type} (fa : α) : List β → List (α × β)
  | [] => []
  | b :: bs => (fa, b) :: zipLongest2B fa bs

/-- stdlib/itertools.codon:214-221: the loop over `a`; state `b_done` and the rest of `b`.
Afterwards lines 223-225.  The fill value has the type of both element types in the source; the
model lets the two positions differ. -/
def zipLongest2 {α β : Type} (fa : α) (fb : β) : Bool → List α → List β → List (α × β)
  | bDone, a :: as, bs =>
    match bDone, bs with
    | true, bs => (a, fb) :: zipLongest2 fa fb true as bs
    | false, [] => (a, fb) :: zipLongest2 fa fb true as []
    | false, b :: bs => (a, b) :: zipLongest2 fa fb false as bs
  | bDone, [], bs => if bDone then [] else zipLongest2B fa bs

/-- stdlib/itertools.codon:236-245: one pass over the iterators.  An iterator is its rest and its
`__done__` flag.  Result: `none` for the `return`, otherwise the row, the iterators and
`num_active`. -/
def longestRow {α : Type} (fill : α) :
    List (List α × Bool) → Nat → Option (List α × List (List α × Bool) × Nat)
  | [], active => some ([], [], active)
  | (xs, true) :: its, active =>
    (longestRow fill its active).map fun r => (fill :: r.1, (xs, true) :: r.2.1, r.2.2)
  | ([], false) :: its, active =>
    if active - 1 = 0 then none
    else (longestRow fill its (active - 1)).map fun r => (fill :: r.1, ([], true) :: r.2.1, r.2.2)
  | (x :: xs, false) :: its, active =>
    (longestRow fill its active).map fun r => (x :: r.1, (xs, false) :: r.2.1, r.2.2)

/-- stdlib/itertools.codon:234-246: the `while True` loop, `fuel` rounds at most (`none`: fuel
exhausted). -/
def longestLoop {α : Type} (fill : α) :
    Nat → List (List α × Bool) → Nat → Option (List (List α))
  | 0, _, _ => none
  | fuel + 1, its, active =>
    match longestRow fill its active with
    | none => some []
    | some (row, its', active') => (longestLoop fill fuel its' active').map (row :: ·)

/-- stdlib/itertools.codon:207-246 `zip_longest` with `fillvalue`, other than two iterables. -/
def zipLongest {α : Type} (fuel : Nat) (fill : α) (its : List (List α)) : Option (List (List α)) :=
  if its.length = 0 then some []
  else longestLoop fill fuel (its.map (·, false)) its.length

/-- stdlib/itertools.codon:252-255 `get_next`; an element that is itself `None` is returned as
`None`, so elements have an option type here. -/
def getNext {α : Type} : List (Option α) × Bool → Option α × (List (Option α) × Bool)
  | (xs, true) => (none, (xs, true))
  | ([], false) => (none, ([], true))
  | (x :: xs, false) => (x, (xs, false))

/-- stdlib/itertools.codon:258-267: the loop of `zip_longest` without `fillvalue`. -/
def longestNone {α : Type} : Nat → List (List (Option α) × Bool) → Option (List (List (Option α)))
  | 0, _ => none
  | fuel + 1, its =>
    let rs := its.map getNext
    let result := rs.map (·.1)
    if result.all (·.isNone) then some []
    else (longestNone fuel (rs.map (·.2))).map (result :: ·)

/-- stdlib/itertools.codon:250-269 `zip_longest` without `fillvalue`. -/
def zipLongestNone {α : Type} (fuel : Nat) (its : List (List (Option α))) :
    Option (List (List (Option α))) :=
  longestNone fuel (its.map (·, false))

/-! ## Infinite generators -/

/-- stdlib/itertools.codon:9-13 `count` on `int` (64-bit wrap-around): one step yields `n` and adds
`step`. -/
def countStep (step n : BitVec 64) : BitVec 64 × BitVec 64 := (n, n + step)

/-- State of `cycle`: the rest of the input with `saved` (first loop) or the position in `saved`
(second loop). -/
inductive CycleSt (α : Type) where
  | first (rest saved : List α)
  | second (rest saved : List α)

/-- stdlib/itertools.codon:16-23 `cycle`: run to the next `yield`; `none` is the end of the
generator. -/
def cycleStep {α : Type} : CycleSt α → Option (α × CycleSt α)
  | .first (x :: xs) saved => some (x, .first xs (saved ++ [x]))
  | .first [] [] => none
  | .first [] (y :: ys) => some (y, .second ys (y :: ys))
  | .second (x :: xs) saved => some (x, .second xs saved)
  | .second [] [] => none
  | .second [] (y :: ys) => some (y, .second ys (y :: ys))

/-- The first `n` values of a step function (fewer if it ends). -/
def takeSteps {σ α : Type} (step : σ → Option (α × σ)) : Nat → σ → List α
  | 0, _ => []
  | n + 1, s =>
    match step s with
    | none => []
    | some (x, s') => x :: takeSteps step n s'

/-- stdlib/itertools.codon:26-32 `repeat` with `times` (the loop runs over `range(times)`). -/
def repeatTimes {α : Type} (obj : α) (times : Int) : Option (List α) :=
  ((Slice.Range.new 0 times 1).bind Slice.Range.iter).map (·.map fun _ => obj)

/-! ## `tee` -/

/-- The shared state of the children of `tee`: the rest of the source with its done flag, one deque
per child (a list, front first; the deque itself is modelled in `Verif.Deque`), and which children
have returned. -/
structure TeeSt (α : Type) where
  rest : List α
  done : Bool
  deques : List (List α)
  finished : List Bool

/-- stdlib/itertools.codon:185-189, 204: the initial state. -/
def teeInit {α : Type} (xs : List α) (n : Nat) : TeeSt α :=
  ⟨xs, false, List.replicate n [], List.replicate n false⟩

/-- stdlib/itertools.codon:191-202: resume child `i` up to its next `yield` (`some v`) or its
`return` (inner `none`).  Outer `none`: there is no such child or it has already returned
(resuming a finished coroutine is undefined). -/
def teeNext {α : Type} (st : TeeSt α) (i : Nat) : Option (Option α × TeeSt α) :=
  match st.deques[i]?, st.finished[i]? with
  | some dq, some false =>
    match dq with
    | v :: vs => some (some v, { st with deques := st.deques.set i vs })
    | [] =>
      if st.done then some (none, { st with finished := st.finished.set i true })
      else
        match st.rest with
        | [] => some (none, { st with done := true, finished := st.finished.set i true })
        | x :: xs =>
          let deques := st.deques.map (· ++ [x])
          match deques[i]? with
          | some (v :: vs) => some (some v, { st with rest := xs, deques := deques.set i vs })
          | _ => none
  | _, _ => none

/-- Resume the children in the order given by a schedule. -/
def teeRun {α : Type} : TeeSt α → List Nat → Option (List (Option α))
  | _, [] => some []
  | st, i :: sched =>
    match teeNext st i with
    | none => none
    | some (o, st') => (teeRun st' sched).map (o :: ·)

end Codon.Iter
