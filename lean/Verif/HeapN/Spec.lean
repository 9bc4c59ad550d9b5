import Verif.Base.Order

/-! What `nsmallest`, `nlargest` and `merge` should compute: parts of Python's stable sort. -/

namespace Codon.HeapN

variable {T : Type}

/-- `s` is `sorted(xs)` for the order `lt`: the same elements in ascending order, and elements of which neither is
less than the other keep their order (each class of equivalent elements comes in the same sequence). -/
structure IsSorted (lt : T → T → Bool) (xs s : List T) : Prop where
  perm : s.Perm xs
  sorted : s.Pairwise fun a b => lt b a = false
  stable : ∀ z, s.filter (fun x => !lt z x && !lt x z) = xs.filter (fun x => !lt z x && !lt x z)

/-- `==` is the equivalence that belongs to `<`. -/
def EqOk (lt eq : T → T → Bool) : Prop := ∀ a b, eq a b = (!lt a b && !lt b a)

end Codon.HeapN
