import Verif.Sort.Base
/-! What a stable sort is; nothing here mentions the algorithms. -/
namespace Codon.NpSort
open Codon.Sort
variable {α : Type}

/-- `b` is `a` sorted stably: in order, the same elements, equivalent ones in the order they had. -/
structure StableSortOf (lt : α → α → Bool) (a b : List α) : Prop where
  sorted : b.Pairwise fun x y => lt y x = false
  perm : b.Perm a
  stable : ∀ z, b.filter (fun w => !lt z w && !lt w z) = a.filter (fun w => !lt z w && !lt w z)

/-- The order of `lt2`, ties decided by `lt1`. -/
def lexOf (lt2 lt1 : α → α → Bool) (x y : α) : Bool := lt2 x y || (!lt2 y x && lt1 x y)

/-- The order of `lexsort`: the last key is the first that counts. -/
def lexAll : List (α → α → Bool) → α → α → Bool
  | [] => fun _ _ => false
  | k :: ks => lexOf k (lexAll ks)

/-- The number that `w` bits stand for in two's complement. -/
def toSigned (w x : Nat) : Int := if x < 2 ^ (w - 1) then x else (x : Int) - 2 ^ w

end Codon.NpSort
