import Mathlib.Data.Int.DivMod
/-!
# Model of parallel counted loops

`stdlib/openmp.codon` (the outline templates) and `codon/cir/transform/parallel/openmp.cpp` (`collapseLoop`).  Integers
are 64 bit: every sum, difference and product is cut to 64 bits.  The body is represented by the values of the loop
variable it is called with; it cannot change the loop variable of the template, which is a local of the outlined function.
`none` is "no result within the fuel".
-/
namespace Codon.Omp

/-- Two's complement. -/
def w (x : Int) : Int := x.bmod (2 ^ 64)

/-- stdlib/internal/types/range.codon:25-26 `_get`. -/
def get (start step idx : Int) : Int := w (start + w (idx * step))

/-- range.codon:82-89 `__len__`; the same code is openmp.codon:880-886 `_range_len`. -/
def rangeLen (start stop step : Int) : Int :=
  if step > 0 ∧ start < stop then w (1 + (w (w (stop - 1) - start)).tdiv step)
  else if step < 0 ∧ start > stop then w (1 + (w (w (start - 1) - stop)).tdiv (w (-step)))
  else 0

/-- The condition of the loops openmp.codon:378, 431, 433, 494. -/
def more (step stop i : Int) : Bool := (step ≥ 0 ∧ i < stop) ∨ (step < 0 ∧ i > stop)

/-- openmp.codon:378-380 (also 433-435 and 494-496): the values of `i`. -/
def body (step stop : Int) : Nat → Int → Option (List Int)
  | 0, _ => none
  | f + 1, i => if more step stop i then (body step stop f (w (i + step))).map (i :: ·) else some []

/-- openmp.codon:376, 429, 439: the end of the part, not beyond the end of the loop. -/
def cut (step stop part : Int) : Int := if step ≥ 0 then min part stop else max part stop

/-- openmp.codon:198-217, 335-386 `_static_loop_outline_template`, for the bounds `lo` and `up` given by the runtime. -/
def staticThread (start stop step lo up : Int) (fuel : Nat) : Option (List Int) :=
  body step (cut step stop (get start step (w (up + 1)))) fuel (get start step lo)

/-- openmp.codon:431-439: the loop over the chunks of one thread. -/
def chunks (stop step stride : Int) : Nat → Int → Int → Option (List Int)
  | 0, _, _ => none
  | f + 1, s, e =>
    if more step stop s then
      (body step e f s).bind fun l =>
        (chunks stop step stride f (w (s + w (stride * step))) (cut step stop (w (e + w (stride * step))))).map (l ++ ·)
    else some []

/-- openmp.codon:388-445 `_static_chunked_loop_outline_template`. -/
def chunkedThread (start stop step lo up stride : Int) (fuel : Nat) : Option (List Int) :=
  chunks stop step stride fuel (get start step lo) (cut step stop (get start step (w (up + 1))))

/-- openmp.codon:234-252, 447-502 `_dynamic_loop_outline_template`, for the parts handed to this thread. -/
def dynamicThread (start step : Int) : List (Int × Int) → Nat → Option (List Int)
  | [], _ => some []
  | (lo, up) :: ps, fuel =>
    (body step (get start step (w (up + 1))) fuel (get start step lo)).bind fun l => (dynamicThread start step ps fuel).map (l ++ ·)

/-- The loop that is not parallel: llvisitor.cpp:2658-2701. -/
def seqLoop (stop step : Int) : Nat → Int → Option (List Int)
  | 0, _ => none
  | f + 1, phi =>
    if (if step > 0 then phi ≥ stop else phi ≤ stop) then some []
    else (seqLoop stop step f (w (phi + step))).map (phi :: ·)

/-! ### Collapsed loops -/

/-- A loop of the nest: openmp.cpp:1309-1315 `LoopRange`. -/
structure Level where
  start : Int
  stop : Int
  step : Int

def Level.len (r : Level) : Int := rangeLen r.start r.stop r.step

/-- openmp.cpp:1364-1367: the number of iterations. -/
def numIters (rs : List Level) : Int := rs.foldl (fun a r => w (a * r.len)) 1

/-- openmp.cpp:1377-1389: from the last loop to the first. -/
def decode : List Level → Int → List Int
  | [], _ => []
  | r :: rs, k => w (r.start + w (w (k.tmod r.len) * r.step)) :: decode rs (w (k.tdiv r.len))

/-- openmp.cpp:1369-1394: the values of all loop variables, outermost first, in the order of the iterations. -/
def collapsed (rs : List Level) (fuel : Nat) : Option (List (List Int)) :=
  (seqLoop (numIters rs) 1 fuel 0).map fun ks => ks.map fun k => (decode rs.reverse k).reverse

end Codon.Omp
