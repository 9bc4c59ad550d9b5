import Verif.NpSort.Radix
import Verif.NpSort.Heap
import Verif.NpSort.Quick
import Verif.NpSel.Line
/-!
# C77: `numpy.sort(kind='stable')`, `argsort(kind='stable')` and `lexsort` are stable sorts
-/
namespace Codon.NpSort
open Codon.Sort
variable {α : Type} {lt : α → α → Bool}

/-- `timsort` of an array with fewer than 2^63 elements stays within the array, its buffer and its stack of 128 runs, and gives the stable sort of it, of which there is only one. -/
theorem c77_timsort_partial (ho : SWO lt) (a : List α) (hbig : a.length < 2 ^ 63) : ∃ b, timsort lt a = some b ∧ StableSortOf lt a b ∧ ∀ c, StableSortOf lt a c → c = b := by
  obtain ⟨b, h1, h2⟩ := timsort_stable ho a hbig
  exact ⟨b, h1, h2, fun c hc => hc.unique ho h2⟩

/-- Pairs that are equivalent but not equal, two runs and a merge. -/
example : timsort (fun a b : Nat × Nat => decide (a.1 < b.1)) [(5, 0), (3, 1), (3, 2), (9, 3), (1, 4), (5, 5)] = some [(1, 4), (3, 1), (3, 2), (5, 0), (5, 5), (9, 3)] := by decide +kernel

/-- Two long runs that overlap, so that both ends are trimmed and the merge goes from the right. -/
example : mergeAt (fun a b : Nat => decide (a < b)) [1, 4, 5, 6, 9, 2, 3, 7, 11] (0, 5) (5, 4) = some [1, 2, 3, 4, 5, 6, 7, 9, 11] := by decide +kernel

/-- The number a cell of `8 * m` bits holds. -/
def value (signed : Bool) (w : Nat) (x : Nat) : Int := if signed then toSigned w x else x

theorem key_value (signed : Bool) {m : Nat} (hm : 1 ≤ m) (x : Fin (2 ^ (8 * m))) : keyOf signed (8 * m) x < 256 ^ m ∧ (keyOf signed (8 * m) x : Int) = value signed (8 * m) x + if signed then 2 ^ (8 * m - 1) else 0 := by
  have e : (256 : Nat) ^ m = 2 ^ (8 * m) := by rw [Nat.pow_mul]
  rw [e]
  cases signed with
  | false => exact ⟨x.isLt, by simp [keyOf, value]⟩
  | true =>
    obtain ⟨h1, h2⟩ := keyOf_signed (8 * m) x (by omega) x.isLt
    exact ⟨h2, by rw [h1]; simp [value]⟩

theorem ltKey_value (signed : Bool) {m : Nat} (hm : 1 ≤ m) {β : Type} (f : β → Fin (2 ^ (8 * m))) :
    ltKey (fun x => keyOf signed (8 * m) (f x)) = fun x y => decide (value signed (8 * m) (f x) < value signed (8 * m) (f y)) := by
  funext x y
  unfold ltKey
  have h1 := (key_value signed hm (f x)).2
  have h2 := (key_value signed hm (f y)).2
  by_cases c : keyOf signed (8 * m) (f x) < keyOf signed (8 * m) (f y)
  · have : value signed (8 * m) (f x) < value signed (8 * m) (f y) := by omega
    simp [c, this]
  · have : ¬ value signed (8 * m) (f x) < value signed (8 * m) (f y) := by omega
    simp [c, this]

/-- The radix sort of numbers of `m` bytes, signed or not, puts them in the order of their values. -/
theorem c77_radix_partial (signed : Bool) {m : Nat} (hm : 1 ≤ m) (a : List (Fin (2 ^ (8 * m)))) :
    ∃ b, radixsort (fun x => keyOf signed (8 * m) x.val) m a = some b ∧ b.Perm a ∧ b.Pairwise fun (x y : Fin (2 ^ (8 * m))) => value signed (8 * m) x ≤ value signed (8 * m) y := by
  obtain ⟨b, h1, h2⟩ := radixsort_stable (fun x : Fin (2 ^ (8 * m)) => keyOf signed (8 * m) x.val) m (fun x => (key_value signed hm x).1) a
  rw [ltKey_value signed hm fun x => x] at h2
  exact ⟨b, h1, h2.perm, h2.sorted.imp fun h => by simpa using h⟩

/-- Signed 16-bit numbers, 65535 standing for -1. -/
example : radixsort (fun x : Fin (2 ^ 16) => keyOf true 16 x.val) 2 [5, 65535, 300, 0, 32768] = some [32768, 65535, 0, 5, 300] := by decide +kernel

/-- The indices that `argsort(kind='stable')` gives: those of the stable sort of the values. -/
theorem c77_argsort_partial (ho : SWO lt) (n : Nat) (v : Nat → α) (hbig : n < 2 ^ 63) :
    ∃ r, timsort (fun i j => lt (v i) (v j)) (List.range n) = some r ∧ r.Perm (List.range n) ∧ r.Pairwise fun i j => lt (v j) (v i) = false ∧ (lt (v i) (v j) = false → i < j) := by
  obtain ⟨r, h1, h2⟩ := timsort_stable (ho.key v) (List.range n) (by simpa using hbig)
  refine ⟨r, h1, h2.perm, ?_⟩
  have hr : (List.range n).Pairwise fun i j => (fun i j : Nat => decide (i < j)) j i = false := List.pairwise_lt_range.imp fun h => by simp; omega
  have h3 : StableSortOf _ (List.range n) r := StableSortOf.step (lt1 := fun i j : Nat => decide (i < j)) (lt2 := fun i j => lt (v i) (v j)) (fun i => ho.irrefl _) (StableSortOf.refl hr) h2
  have hnd : r.Nodup := h2.perm.nodup_iff.2 List.nodup_range
  refine (h3.sorted.and hnd).imp fun {i j} h => ?_
  obtain ⟨g1, g2⟩ := h
  unfold lexOf at g1
  simp only [Bool.or_eq_false_iff, Bool.and_eq_false_iff, Bool.not_eq_false', decide_eq_false_iff_not] at g1
  refine ⟨g1.1, fun g3 => ?_⟩
  rcases g1.2 with h | h
  · rw [g3] at h; cases h
  · omega

/-- The same for integers. -/
theorem c77_argsort_ints_partial (signed : Bool) {m : Nat} (hm : 1 ≤ m) (n : Nat) (v : Nat → Fin (2 ^ (8 * m))) :
    ∃ r, aradixsort (fun i => keyOf signed (8 * m) (v i)) m n (List.range n) = some r ∧ r.Perm (List.range n) ∧
      r.Pairwise fun i j => value signed (8 * m) (v i) ≤ value signed (8 * m) (v j) ∧ (value signed (8 * m) (v i) = value signed (8 * m) (v j) → i < j) := by
  obtain ⟨r, h1, h2⟩ := aradixsort_stable (fun i => keyOf signed (8 * m) (v i)) m n (fun i => (key_value signed hm (v i)).1) (List.range n) (List.Perm.refl _)
  rw [ltKey_value signed hm v] at h2
  refine ⟨r, h1, h2.perm, ?_⟩
  have hr : (List.range n).Pairwise fun i j => (fun i j : Nat => decide (i < j)) j i = false := List.pairwise_lt_range.imp fun h => by simp; omega
  have h3 := StableSortOf.step (lt1 := fun i j : Nat => decide (i < j)) (lt2 := fun i j => decide (value signed (8 * m) (v i) < value signed (8 * m) (v j))) (fun i => by simp) (StableSortOf.refl hr) h2
  have hnd : r.Nodup := h2.perm.nodup_iff.2 List.nodup_range
  refine (h3.sorted.and hnd).imp fun {i j} h => ?_
  obtain ⟨g1, g2⟩ := h
  unfold lexOf at g1
  simp only [Bool.or_eq_false_iff, Bool.and_eq_false_iff, Bool.not_eq_false', decide_eq_false_iff_not, decide_eq_true_eq] at g1
  omega

example : aradixsort (fun i => [3, 1, 3, 2, 1].getD i 0) 1 5 [0, 1, 2, 3, 4] = some [1, 4, 3, 0, 2] := by decide +kernel

/-- `lexsort`: the rows in the order of the last key, ties in that of the key before it, and so on; rows with the same keys stay in order. -/
theorem c77_lexsort_partial (ho : SWO lt) (n : Nat) (keys : List (Nat → α)) (hbig : n < 2 ^ 63) :
    ∃ r, lexsort (fun k idx => timsort (fun i j => lt (k i) (k j)) idx) keys (List.range n) = some r ∧
      StableSortOf (lexAll (keys.reverse.map fun k i j => lt (k i) (k j))) (List.range n) r := by
  obtain ⟨r, h1, h2⟩ := lexsort_stable (fun (k : Nat → α) i j => lt (k i) (k j)) (fun k i => ho.irrefl _) (fun k idx => timsort (fun i j => lt (k i) (k j)) idx) (List.range n)
    (fun k b hb => timsort_stable (ho.key k) b (by rw [hb.length_eq]; simpa using hbig)) keys [] (List.range n)
    (StableSortOf.refl (by rw [List.pairwise_iff_forall_sublist]; intro x y _; rfl))
  exact ⟨r, h1, by simpa using h2⟩

/-- The same for integers. -/
theorem c77_lexsort_ints_partial (signed : Bool) {m : Nat} (hm : 1 ≤ m) (n : Nat) (keys : List (Nat → Fin (2 ^ (8 * m)))) :
    ∃ r, lexsort (fun (k : Nat → Fin (2 ^ (8 * m))) idx => aradixsort (fun i => keyOf signed (8 * m) (k i)) m n idx) keys (List.range n) = some r ∧
      StableSortOf (lexAll (keys.reverse.map fun k i j => decide (value signed (8 * m) (k i) < value signed (8 * m) (k j)))) (List.range n) r := by
  obtain ⟨r, h1, h2⟩ := lexsort_stable (fun (k : Nat → Fin (2 ^ (8 * m))) i j => decide (value signed (8 * m) (k i) < value signed (8 * m) (k j))) (fun k i => by simp)
    (fun k idx => aradixsort (fun i => keyOf signed (8 * m) (k i)) m n idx) (List.range n)
    (fun k b hb => by
      have := aradixsort_stable (fun i => keyOf signed (8 * m) (k i)) m n (fun i => (key_value signed hm (k i)).1) b hb
      rw [ltKey_value signed hm k] at this
      exact this) keys [] (List.range n)
    (StableSortOf.refl (by rw [List.pairwise_iff_forall_sublist]; intro x y _; rfl))
  exact ⟨r, h1, by simpa using h2⟩

/-- The last key counts first. -/
example : lexsort (fun (k : List Nat) idx => timsort (fun i j => decide (k.getD i 0 < k.getD j 0)) idx) [[9, 4, 0, 4], [1, 5, 1, 5]] [0, 1, 2, 3] = some [2, 0, 1, 3] := by decide +kernel

/-- Bytes are sorted as signed numbers by the radix sort (`wrap(start, num, i8, u8)`, sorting.codon:849-850), although `byte.__lt__` and so the other kinds of sort compare them as unsigned ones. -/
theorem c77_byte_violation : radixsort (fun x : Fin (2 ^ 8) => keyOf true 8 x.val) 1 [100, 200] = some [200, 100] ∧ timsort (fun x y : Fin (2 ^ 8) => decide (x < y)) [100, 200] = some [100, 200] := by decide +kernel

/-- `kind='heapsort'` puts the elements in order (it is not stable), and stays within the array. -/
theorem c77_heapsort_partial (ho : SWO lt) (a : List α) : ∃ b, heapsort lt a = some b ∧ b.Perm a ∧ b.Pairwise fun x y => lt y x = false := heapsort_spec ho a

example : heapsort (fun a b : Nat × Nat => decide (a.1 < b.1)) [(2, 0), (5, 1), (2, 2), (9, 3), (1, 4)] = some [(1, 4), (2, 2), (2, 0), (5, 1), (9, 3)] := by decide +kernel

/-- The default kind, for elements that are none of the numbers sorted by the compiled library: the elements in order (it is not stable); nothing outside the array is accessed, although the searches of the partitions are unguarded. -/
theorem c77_quicksort_partial (ho : SWO lt) (a : List α) : ∃ b, quicksort lt a = some b ∧ b.Perm a ∧ b.Pairwise fun x y => lt y x = false := quicksort_spec ho a

/-- `argsort` with the default kind. -/
theorem c77_argsort_quick_partial (ho : SWO lt) (n : Nat) (v : Nat → α) :
    ∃ r, quicksort (fun i j => lt (v i) (v j)) (List.range n) = some r ∧ r.Perm (List.range n) ∧ r.Pairwise fun i j => lt (v j) (v i) = false := quicksort_spec (ho.key v) (List.range n)

/-- An array long enough for partitions, with many equal elements. -/
example : ((quicksort (fun a b : Nat => decide (a < b)) ((List.range 30).map fun i => i * 7 % 10)).map fun l => l.take 8) = some [0, 0, 0, 1, 1, 1, 2, 2] := by decide +kernel

/-- Floats: the numbers in order, then the NaNs, whatever the kind of sort. -/
theorem c77_nan {β : Type} {lt0 : β → β → Bool} (h : SWO lt0) (a : List (Option β)) (hbig : a.length < 2 ^ 63) :
    ∃ b c, timsort (NpSel.fless lt0) a = some b ∧ heapsort (NpSel.fless lt0) a = some c ∧ b.map Option.isSome = c.map Option.isSome ∧
      ∃ (xs : List β) (k : Nat), b = xs.map some ++ List.replicate k none ∧ xs.Pairwise fun x y => lt0 y x = false := by
  have ho := NpSel.fless_swo h
  obtain ⟨b, b1, b2, b3, _⟩ := timsort_spec ho a hbig
  obtain ⟨c, c1, c2, c3⟩ := heapsort_spec ho a
  have shape : ∀ d : List (Option β), d.Pairwise (fun x y => NpSel.fless lt0 y x = false) → ∃ (xs : List β) (k : Nat), d = xs.map some ++ List.replicate k none ∧ xs.Pairwise fun x y => lt0 y x = false := by
    intro d
    induction d with
    | nil => intro _; exact ⟨[], 0, rfl, List.Pairwise.nil⟩
    | cons x d ih =>
      intro hd
      obtain ⟨h1, h2⟩ := List.pairwise_cons.1 hd
      obtain ⟨xs, k, e1, e2⟩ := ih h2
      cases x with
      | some x =>
        refine ⟨x :: xs, k, by rw [e1]; rfl, List.pairwise_cons.2 ⟨fun y hy => ?_, e2⟩⟩
        have := h1 (some y) (by rw [e1]; simp [hy])
        rw [NpSel.fless_some h] at this
        exact this
      | none =>
        cases xs with
        | nil => exact ⟨[], k + 1, by rw [e1, List.replicate_succ]; rfl, List.Pairwise.nil⟩
        | cons y xs =>
          have := h1 (some y) (by rw [e1]; simp)
          rw [NpSel.fless_some h] at this
          cases this
  obtain ⟨xs, k, e1, e2⟩ := shape b b3
  obtain ⟨ys, j, f1, _⟩ := shape c c3
  refine ⟨b, c, b1, c1, ?_, xs, k, e1, e2⟩
  have hp : b.Perm c := b2.trans c2.symm
  have n1 : b.countP Option.isSome = xs.length := by rw [e1]; simp [List.countP_append, List.countP_map, List.countP_replicate, Function.comp_def]
  have n2 : c.countP Option.isSome = ys.length := by rw [f1]; simp [List.countP_append, List.countP_map, List.countP_replicate, Function.comp_def]
  have n3 : xs.length = ys.length := by rw [← n1, ← n2]; exact hp.countP_eq _
  have n4 : k = j := by
    have := hp.length_eq
    rw [e1, f1] at this
    simp at this
    omega
  rw [e1, f1]
  simp [Function.comp_def, n4, List.map_const', n3]

example : timsort (NpSel.fless fun a b : Nat => decide (a < b)) [some 3, none, some 1, none, some 2] = some [some 1, some 2, some 3, none, none] := by decide +kernel

end Codon.NpSort
