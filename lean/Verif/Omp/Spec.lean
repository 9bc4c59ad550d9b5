import Verif.Omp.Model
import Mathlib.Data.List.Perm.Basic
/-!
# Specification of parallel counted loops

`iterations`: what the loop means.  `StaticInit`, `ChunkedInit`, `DynamicParts`: what is assumed of the OpenMP runtime
(`__kmpc_for_static_init_8`, `__kmpc_dispatch_next_8`, LLVM `kmp_sched.cpp`, `kmp_dispatch.cpp`), which is not in the repository.
-/
namespace Codon.Omp.Spec

/-- The number of iterations. -/
def count (start stop step : Int) : Nat :=
  if 0 < step then ((stop - start + step - 1) / step).toNat else ((start - stop - step - 1) / (-step)).toNat

/-- The values of the loop variable. -/
def iterations (start stop step : Int) : List Int := (List.range (count start stop step)).map fun k : Nat => start + k * step

def Fits (x : Int) : Prop := -(2 ^ 63) ≤ x ∧ x < 2 ^ 63

/-- `kmp_sch_static`: thread `t` gets the iterations `lo t … up t`; each iteration goes to one thread. -/
structure StaticInit (n threads : Nat) (lo up : Nat → Int) : Prop where
  bounds : ∀ t < threads, 0 ≤ lo t ∧ lo t ≤ up t + 1 ∧ up t + 1 ≤ n
  cover : ∀ k : Nat, k < n → ∃ t < threads, lo t ≤ k ∧ k ≤ up t
  once : ∀ t < threads, ∀ u < threads, ∀ k : Nat, lo t ≤ k → k ≤ up t → lo u ≤ k → k ≤ up u → t = u

/-- `kmp_sch_static_chunked` with chunks of `c`: chunk `t` goes to thread `t` of the first `m`, the stride is `c * m`.  `m`
    is the number of threads, or smaller if there are fewer chunks; the other threads get nothing. -/
structure ChunkedInit (n threads c m : Nat) (lo up : Nat → Int) (stride : Int) : Prop where
  pos : 0 < c ∧ 0 < m
  stride : stride = c * m
  all : m = threads ∨ m < threads ∧ n ≤ c * m
  busy : ∀ t < threads, t < m → lo t = c * t ∧ up t = c * t + c - 1
  idle : ∀ t < threads, m ≤ t → lo t = n ∧ up t = (n : Int) - 1

/-- Dynamic schedules: each thread gets some parts; each iteration is in one part. -/
structure DynamicParts (n threads : Nat) (parts : Nat → List (Int × Int)) : Prop where
  bounds : ∀ t < threads, ∀ p ∈ parts t, 0 ≤ p.1 ∧ p.1 ≤ p.2 ∧ p.2 < n
  cover : ∀ k : Nat, k < n → ∃ t < threads, ∃ p ∈ parts t, p.1 ≤ k ∧ k ≤ p.2
  apart : ∀ t < threads, (parts t).Pairwise fun p q => ∀ k : Int, ¬ (p.1 ≤ k ∧ k ≤ p.2 ∧ q.1 ≤ k ∧ k ≤ q.2)
  once : ∀ t < threads, ∀ u < threads, t ≠ u → ∀ p ∈ parts t, ∀ q ∈ parts u, ∀ k : Int, ¬ (p.1 ≤ k ∧ k ≤ p.2 ∧ q.1 ≤ k ∧ k ≤ q.2)

/-- What all threads do, one after the other. -/
def allThreads (threads : Nat) (f : Nat → List Int) : List Int := (List.range threads).flatMap f

/-- The nest of loops, outermost first: the values of all loop variables. -/
def nest : List Level → List (List Int)
  | [] => [[]]
  | r :: rs => (iterations r.start r.stop r.step).flatMap fun i => (nest rs).map fun is => i :: is

end Codon.Omp.Spec
