import Verif.Async.Model
/-!
What is seen of an event loop.
-/
namespace Codon.Async
universe u v
variable {W : Type u} {K : Type v}

/-- The nodes run, in order. -/
def ranNodes (es : List (Ev W K)) : List Nat := es.flatMap fun
  | .stepped _ _ (.ran n _) => [n]
  | _ => []

/-- The nodes taken from the queue and not run. -/
def lostNodes (es : List (Ev W K)) : List Nat := es.flatMap fun
  | .stepped _ _ (.stopped (some (n, _))) => [n]
  | _ => []

/-- The timers that fired, in order: deadline, timer, and the node enqueued for it. -/
def fired (es : List (Ev W K)) : List (K × Nat × Option Nat) := es.flatMap fun
  | .stepped _ f _ => f
  | _ => []

/-- The nodes enqueued, in order: by `call_soon` and for timers. -/
def enqueued (es : List (Ev W K)) : List Nat := es.flatMap fun
  | .scheduled n _ => [n]
  | .stepped _ f _ => f.filterMap (fun x => x.2.2)
  | _ => []

/-- Node `n` was enqueued for the work `w`: by `call_soon`, or for a timer. -/
inductive Gave (es : List (Ev W K)) : Nat → W → Prop where
  | soon {n w} : Ev.scheduled n w ∈ es → Gave es n w
  | timer {n w t k} : (k, t, some n) ∈ fired es → Ev.timer t k w ∈ es → Gave es n w

end Codon.Async
