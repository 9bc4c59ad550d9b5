/-!
# Model of run-time slicing and `range`

Codon `int` is modelled by unbounded `Int` (no sum or product is assumed to overflow).  Codon's
default integer `//` and `%` are LLVM `sdiv`/`srem`, i.e. truncating: `Int.tdiv`/`Int.tmod`
(stdlib/internal/types/int.codon).
-/
namespace Codon.Slice

/-- Result of `adjust_indices`. -/
structure Adj where
  start : Int
  stop : Int
  step : Int
  length : Int
  deriving Repr, DecidableEq

/-- stdlib/internal/types/slice.codon:51-75 `Slice.adjust_indices_helper`. -/
def adjustHelper (length start stop step : Int) : Adj :=
  let start :=
    if start < 0 then
      let start := start + length
      if start < 0 then (if step < 0 then -1 else 0) else start
    else if start ≥ length then (if step < 0 then length - 1 else length)
    else start
  let stop :=
    if stop < 0 then
      let stop := stop + length
      if stop < 0 then (if step < 0 then -1 else 0) else stop
    else if stop ≥ length then (if step < 0 then length - 1 else length)
    else stop
  if step < 0 then
    if stop < start then ⟨start, stop, step, (start - stop - 1).tdiv (-step) + 1⟩
    else ⟨start, stop, step, 0⟩
  else
    if start < stop then ⟨start, stop, step, (stop - start - 1).tdiv step + 1⟩
    else ⟨start, stop, step, 0⟩

/-- stdlib/internal/types/slice.codon:33-49 `Slice.adjust_indices`; `none` is the raised
`ValueError("slice step cannot be zero")`. -/
def adjust (length : Int) (start stop step : Option Int) : Option Adj :=
  let k := step.getD 1
  if k = 0 then none
  else if k > 0 then
    some (adjustHelper length (start.getD 0) (stop.getD length) k)
  else
    some (adjustHelper length (start.getD (length - 1)) (stop.getD (-(length + 1))) k)

/-- stdlib/internal/types/range.codon:3-7 -/
structure Range where
  start : Int
  stop : Int
  step : Int
  deriving Repr, DecidableEq

/-- stdlib/internal/types/range.codon:19-23 `range.__new__`; `none` is `ValueError`. -/
def Range.new (start stop step : Int) : Option Range :=
  if step = 0 then none else some ⟨start, stop, step⟩

/-- stdlib/internal/types/range.codon:25-26 `_get`. -/
def Range.get (r : Range) (idx : Int) : Int := r.start + idx * r.step

/-- stdlib/internal/types/range.codon:81-89 `__len__`. -/
def Range.len (r : Range) : Int :=
  if r.step > 0 ∧ r.start < r.stop then 1 + (r.stop - 1 - r.start).tdiv r.step
  else if r.step < 0 ∧ r.start > r.stop then 1 + (r.start - 1 - r.stop).tdiv (-r.step)
  else 0

/-- stdlib/internal/types/range.codon:28-35 `__getitem__(int)`; `none` is `IndexError`. -/
def Range.getItem (r : Range) (idx : Int) : Option Int :=
  let n := r.len
  let idx := if idx < 0 then idx + n else idx
  if idx < 0 ∨ idx ≥ n then none else some (r.get idx)

/-- stdlib/internal/types/range.codon:37-46 `__getitem__(Slice)`; `none` is a raised `ValueError`. -/
def Range.getSlice (r : Range) (start stop step : Option Int) : Option Range :=
  if start = none ∧ stop = none ∧ step = none then some r
  else
    match adjust r.len start stop step with
    | none => none
    | some a => Range.new (r.get a.start) (r.get a.stop) (r.step * a.step)

/-- stdlib/internal/types/range.codon:48-54 `__contains__`. -/
def Range.contains (r : Range) (idx : Int) : Bool :=
  if (r.step > 0 ∧ ¬ (r.start ≤ idx ∧ idx < r.stop)) ∨
     (r.step < 0 ∧ ¬ (r.stop < idx ∧ idx ≤ r.start)) then false
  else (idx - r.start).tmod r.step == 0

/-- stdlib/internal/types/range.codon:56-63 `_index`, `index`; `none` is `ValueError`. -/
def Range.index (r : Range) (n : Int) : Option Int :=
  if r.contains n then some ((n - r.start).tdiv r.step) else none

/-- stdlib/internal/types/range.codon:65-66 `count`. -/
def Range.count (r : Range) (n : Int) : Nat := if r.contains n then 1 else 0

/-- The loop of stdlib/internal/types/range.codon:73-75 (`while i < stop: yield i; i += step`),
for `step > 0` (otherwise the loop need not terminate; the code only enters it for `step > 0`). -/
def iterUp (stop step : Int) (hs : 0 < step) (i : Int) : List Int :=
  if i < stop then i :: iterUp stop step hs (i + step) else []
  termination_by (stop - i).toNat
  decreasing_by omega

/-- The loop of stdlib/internal/types/range.codon:77-79 (`while i > stop: yield i; i += step`). -/
def iterDown (stop step : Int) (hs : step < 0) (i : Int) : List Int :=
  if i > stop then i :: iterDown stop step hs (i + step) else []
  termination_by (i - stop).toNat
  decreasing_by omega

/-- stdlib/internal/types/range.codon:68-79 `__iter__`: the list of yielded values.  `none` models
the non-terminating iteration of a `range` object with step 0, which `__new__` never creates. -/
def Range.iter (r : Range) : Option (List Int) :=
  if h : 0 < r.step then some (iterUp r.stop r.step h r.start)
  else if h : r.step < 0 then some (iterDown r.stop r.step h r.start)
  else none

/-- stdlib/internal/types/range.codon:94-97 `__reversed__`; `none` is `ValueError`. -/
def Range.reversed (r : Range) : Option (List Int) :=
  (Range.new (r.start + (r.len - 1) * r.step) (r.start - r.step) (-r.step)).bind Range.iter

end Codon.Slice
