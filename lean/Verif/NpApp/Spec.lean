import Verif.NpApp.Model

/-!
# Operands that can be
-/

namespace Codon.NpApp

variable {β : Type}

/-- What holds for every operand: its elements after conversion have the size of the result's; if its
type is that of the result, so is its size; then, if it is contiguous, its memory has its elements. -/
def Arr.Valid (s : Nat) (a : Arr β) : Prop :=
  (∀ e ∈ a.elems, e.length = s) ∧ (a.same = true → a.item = s) ∧
    (a.same = true → a.contig = true →
      a.nbytes ≤ a.raw.length ∧ a.raw.take a.nbytes = a.elems.flatten)

/-- The memory with the elements of both. -/
def joined (a b : Arr β) : List (Option β) := ((a.elems ++ b.elems).flatten).map some

end Codon.NpApp
