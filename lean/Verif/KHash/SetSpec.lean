/-! Specification of sets, independent of the hash table: a set is its membership predicate plus
its number of elements. -/

namespace Codon.KHash.SetSpec

section
variable {K : Type} [DecidableEq K]

inductive Op (K : Type) where
  | add (k : K)
  | remove (k : K)
  | discard (k : K)
  | clear
  | resize (m : BitVec 64)
  | contains (k : K)
  | len
  | copy

inductive Obs where
  | none
  | keyError
  | bool (b : Bool)
  | nat (n : Nat)
deriving DecidableEq

/-- The elements are kept in a list without repetitions. -/
def step (S : List K) : Op K → List K × Obs
  | .add k => (if k ∈ S then S else k :: S, .none)
  | .remove k => if k ∈ S then (S.filter (· ≠ k), .none) else (S, .keyError)
  | .discard k => (S.filter (· ≠ k), .none)
  | .clear => ([], .none)
  | .resize _ => (S, .none)
  | .contains k => (S, .bool (decide (k ∈ S)))
  | .len => (S, .nat S.length)
  | .copy => (S, .none)

def run (S : List K) : List (Op K) → List K × List Obs
  | [] => (S, [])
  | op :: ops =>
    let (S, o) := step S op
    let (S, os) := run S ops
    (S, o :: os)

end

end Codon.KHash.SetSpec
