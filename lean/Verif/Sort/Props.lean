import Verif.Sort.Quick
import Verif.Sort.Pdq
import Verif.Sort.TimRuns

/-!
# C29, C30: sorting

`lt` is the comparison of the keys; `SWO lt` (a strict weak order) is what `<` has to be for sorting to make
sense.  It fails for floats with NaN, so those are outside.  In the model every array access is checked
(`none` when out of bounds) and every loop has fuel (`none` when it runs out), so `= some a'` says that the
algorithm terminates and never reads or writes outside the array.
-/

namespace Codon.Sort

variable {α : Type} {lt : α → α → Bool}

theorem sortList_spec (ho : SWO lt) (algo : Algo) (a : List α) :
    ∃ a', sortList lt algo a = some a' ∧ a'.Perm a ∧ Sorted lt a' := by
  have fin : ∀ {a'}, a'.Perm a → SortedSeg lt a' 0 a.length → Sorted lt a' := by
    intro a' hp hs
    refine sorted_of_seg ?_
    rw [hp.length_eq]; exact hs
  cases algo with
  | insertion =>
    obtain ⟨a', q1, q2, _, q3⟩ := insertionSort_spec ho (a := a) (b := 0) (e := a.length) (Int.le_refl _) (by omega) (Int.le_refl _)
    exact ⟨a', q1, q2.perm, fin q2.perm q3⟩
  | heap =>
    obtain ⟨a', q1, q2, q3⟩ := heapSort_spec ho (a := a) (b := 0) (e := a.length) (Int.le_refl _) (by omega) (Int.le_refl _)
    exact ⟨a', q1, q2.perm, fin q2.perm q3⟩
  | quick =>
    obtain ⟨a', q1, q2, q3⟩ := qsortArray_spec ho a
    exact ⟨a', q1, q2, fin q2 q3⟩
  | pdq =>
    obtain ⟨a', q1, q2, q3⟩ := pdqSortArray_spec ho a
    exact ⟨a', q1, q2, fin q2 q3⟩
  | tim =>
    obtain ⟨a', q1, q2, q3, _⟩ := timSort_spec ho (arr := a) (b := 0) (e := a.length) (Int.le_refl _) (by omega) (Int.le_refl _)
    exact ⟨a', q1, q2.perm, fin q2.perm q3⟩

/-- C29: every sorting algorithm terminates on every list, never leaves the bounds of the array, and yields
a permutation of the list in ascending order. -/
theorem c29_sorts (ho : SWO lt) (algo : Algo) (a : List α) :
    ∃ a', sortList lt algo a = some a' ∧ a'.Perm a ∧ a'.Pairwise (fun x y => lt y x = false) :=
  sortList_spec ho algo a

example : SWO (fun a b : Nat × Nat => decide (a.1 < b.1)) := fstSWO
example : (sortList (fun a b : Nat × Nat => decide (a.1 < b.1)) .pdq [(3, 0), (1, 1), (3, 2), (2, 3)]).isSome := by
  decide +kernel

theorem listSort_eq (alg : Option Algo) (hasKey pdqCompat rev : Bool) (a : List α) :
    ∃ algo, listSort lt alg hasKey pdqCompat rev a = (do
      let a' ← (if a.isEmpty && alg.isNone && !hasKey then some a else sortList lt algo a)
      return if rev then a'.reverse else a') := by
  unfold listSort
  cases hasKey <;> cases alg <;> cases pdqCompat <;> cases he : a.isEmpty <;>
    first
    | exact ⟨_, by simp; rfl⟩
    | exact ⟨.tim, by simp [he]⟩
    | exact ⟨.pdq, by simp [he]⟩

/-- C29: `list.sort` and `sorted`, with or without a key, whatever the algorithm argument (including
`"auto"`) and `reverse`: an ordered permutation, descending with `reverse=True`. -/
theorem c29_list_sort (ho : SWO lt) (alg : Option Algo) (hasKey pdqCompat rev : Bool) (a : List α) :
    ∃ a', listSort lt alg hasKey pdqCompat rev a = some a' ∧ a'.Perm a ∧
      (rev = false → a'.Pairwise fun x y => lt y x = false) ∧
      (rev = true → a'.Pairwise fun x y => lt x y = false) := by
  obtain ⟨algo, h⟩ := listSort_eq (lt := lt) alg hasKey pdqCompat rev a
  rw [h]
  have key : ∃ a', (if a.isEmpty && alg.isNone && !hasKey then some a else sortList lt algo a) = some a' ∧
      a'.Perm a ∧ Sorted lt a' := by
    split
    · rename_i hc
      have : a = [] := by simp at hc; exact hc.1.1
      subst this
      exact ⟨[], rfl, List.Perm.refl _, List.Pairwise.nil⟩
    · exact sortList_spec ho algo a
  obtain ⟨a', q1, q2, q3⟩ := key
  rw [q1]
  cases rev with
  | false => exact ⟨a', rfl, q2, fun _ => q3, by simp⟩
  | true =>
    refine ⟨a'.reverse, rfl, (List.reverse_perm a').trans q2, by simp, fun _ => ?_⟩
    rw [List.pairwise_reverse]
    exact q3

example : listSort (fun a b : Nat => decide (a < b)) none false true true [2, 9, 2, 4] = some [9, 4, 2, 2] := by
  decide +kernel

theorem sorted_unique : ∀ {xs ys : List α}, xs.Perm ys → Sorted lt xs → Sorted lt ys →
    (∀ x y, lt x y = false → lt y x = false → x = y) → xs = ys := by
  intro xs
  induction xs with
  | nil => intro ys hp _ _ _; exact (List.nil_perm.mp hp).symm
  | cons x xs ih =>
    intro ys hp h1 h2 ha
    cases ys with
    | nil => exact absurd hp.symm (by simp)
    | cons y ys =>
      have p1 := List.pairwise_cons.mp h1
      have p2 := List.pairwise_cons.mp h2
      have hxy : x = y := by
        have m1 : x ∈ y :: ys := hp.subset (List.mem_cons_self ..)
        have m2 : y ∈ x :: xs := hp.symm.subset (List.mem_cons_self ..)
        rcases List.mem_cons.mp m1 with h | h
        · exact h
        · rcases List.mem_cons.mp m2 with h' | h'
          · exact h'.symm
          · exact ha x y (p2.1 x h) (p1.1 y h')
      subst hxy
      rw [ih (List.Perm.cons_inv hp) p1.2 p2.2 ha]

/-- C29: when equivalent elements are equal (integers, strings and tuples of these sorted without a key),
all the algorithms give the same list. -/
theorem c29_algorithms_agree (ho : SWO lt) (ha : ∀ x y, lt x y = false → lt y x = false → x = y)
    (algo algo' : Algo) (a : List α) : sortList lt algo a = sortList lt algo' a := by
  obtain ⟨x, q1, q2, q3⟩ := sortList_spec ho algo a
  obtain ⟨y, r1, r2, r3⟩ := sortList_spec ho algo' a
  rw [q1, r1, sorted_unique (q2.trans r2.symm) q3 r3 ha]

example : ∀ x y : Nat, decide (x < y) = false → decide (y < x) = false → x = y := by
  intro x y h1 h2; simp at *; omega

/-- C29: the algorithms on a sub-range touch nothing outside it (`_insertion_sort`, `_heap_sort` and
`_tim_sort` take the bounds as arguments). -/
theorem c29_subrange (ho : SWO lt) {a : List α} {b e : Int} (hb : 0 ≤ b) (hbe : b ≤ e) (he : e ≤ a.length) :
    (∃ a', insertionSort lt a b e = some a' ∧ Rearr a a' b e ∧ SortedSeg lt a' b e) ∧
    (∃ a', heapSort lt a b e = some a' ∧ Rearr a a' b e ∧ SortedSeg lt a' b e) ∧
    (∃ a', timSort lt a b e = some a' ∧ Rearr a a' b e ∧ SortedSeg lt a' b e) := by
  refine ⟨?_, heapSort_spec ho hb hbe he, ?_⟩
  · obtain ⟨a', q1, q2, _, q3⟩ := insertionSort_spec ho hb hbe he
    exact ⟨a', q1, q2, q3⟩
  · obtain ⟨a', q1, q2, q3, _⟩ := timSort_spec ho hb hbe he
    exact ⟨a', q1, q2, q3⟩

example : timSort (fun a b : Nat => decide (a < b)) [9, 5, 7, 1, 0] 1 4 = some [9, 1, 5, 7, 0] := by decide +kernel

/-! ## C30 -/

/-- Elements with equivalent keys come in the same order in both lists. -/
def SameOrder (lt : α → α → Bool) (a a' : List α) : Prop :=
  ∀ z, a'.filter (fun x => !lt z x && !lt x z) = a.filter (fun x => !lt z x && !lt x z)

/-- C30 is false: `sorted` with a key uses `_tim_sort`, whose `_count_run` takes a run of equal keys for a
descending one and reverses it. -/
theorem c30_violation :
    listSort (fun a b : Nat × Nat => decide (a.1 < b.1)) none true false false [(1, 0), (1, 1)] =
      some [(1, 1), (1, 0)] ∧
    ¬ SameOrder (fun a b : Nat × Nat => decide (a.1 < b.1)) [(1, 0), (1, 1)] [(1, 1), (1, 0)] := by
  refine ⟨by decide +kernel, fun h => ?_⟩
  have := h (1, 0)
  revert this
  decide

/-- C30 is false with `reverse=True`: the list is sorted and then reversed, where Python keeps the original
order of equal keys. -/
theorem c30_reverse_violation :
    listSort (fun a b : Nat × Nat => decide (a.1 < b.1)) none true false true [(2, 0), (5, 1), (2, 2)] =
      some [(5, 1), (2, 2), (2, 0)] ∧
    ¬ SameOrder (fun a b : Nat × Nat => decide (a.1 < b.1)) [(2, 0), (5, 1), (2, 2)] [(5, 1), (2, 2), (2, 0)] := by
  refine ⟨by decide +kernel, fun h => ?_⟩
  have := h (2, 0)
  revert this
  decide

/-- C30, what holds: `sort(key=…)` with the default algorithm keeps the order of equal keys when no two
*neighbouring* elements of the original list have equal keys. (Missing: lists with equal neighbours, and
`reverse=True`, where the claim is false.) -/
theorem c30_tim_partial (ho : SWO lt) (hasKey : Bool) (a : List α)
    (hne : ∀ (i : Nat) x y, a[i]? = some x → a[i + 1]? = some y → lt x y = true ∨ lt y x = true) :
    ∃ a', listSort lt none hasKey false false a = some a' ∧ a'.Perm a ∧ a'.Pairwise (fun x y => lt y x = false) ∧
      SameOrder lt a a' := by
  obtain ⟨a', q1, q2, q3, q4⟩ := timSort_spec ho (arr := a) (b := 0) (e := a.length) (Int.le_refl _) (by omega) (Int.le_refl _)
  have hs : Sorted lt a' := sorted_of_seg (by rw [q2.length]; exact q3)
  have hst : Stab lt a a' := q4 (by
    intro i x y i1 i2 i3 i4
    obtain ⟨n, rfl⟩ := Int.eq_ofNat_of_zero_le i1
    rw [rd_nat] at i3
    rw [show ((n : Int) + 1) = ((n + 1 : Nat) : Int) by omega, rd_nat] at i4
    exact hne n x y i3 i4)
  refine ⟨a', ?_, q2.perm, hs, hst⟩
  unfold listSort sortList
  cases hasKey with
  | true => simp [q1]
  | false =>
    cases a with
    | nil =>
      have : a' = [] := List.perm_nil.mp q2.perm
      subst this; simp
    | cons x xs => simpa using q1

/-- Non-vacuous: equal keys that are not neighbours. -/
example : ∀ (i : Nat) (x y : Nat × Nat), [(1, 0), (0, 1), (1, 2)][i]? = some x → [(1, 0), (0, 1), (1, 2)][i + 1]? = some y →
    decide (x.1 < y.1) = true ∨ decide (y.1 < x.1) = true := by
  intro i x y h1 h2
  match i with
  | 0 => simp at h1 h2; subst h1 h2; simp
  | 1 => simp at h1 h2; subst h1 h2; simp
  | n + 2 => simp at h2

/-- C30, what holds: insertion sort is stable on every list. -/
theorem c30_insertion_partial (ho : SWO lt) (hasKey pdqCompat : Bool) (a : List α) :
    ∃ a', listSort lt (some .insertion) hasKey pdqCompat false a = some a' ∧ a'.Perm a ∧
      a'.Pairwise (fun x y => lt y x = false) ∧ SameOrder lt a a' := by
  obtain ⟨a', q1, q2, q3, q4⟩ := insertionSort_spec ho (a := a) (b := 0) (e := a.length) (Int.le_refl _) (by omega) (Int.le_refl _)
  have hs : Sorted lt a' := sorted_of_seg (by rw [q2.length]; exact q4)
  refine ⟨a', ?_, q2.perm, hs, q3⟩
  unfold listSort sortList
  cases hasKey <;> simp [q1]

example : listSort (fun a b : Nat × Nat => decide (a.1 < b.1)) (some .insertion) true false false
    [(1, 0), (0, 1), (1, 2), (1, 3)] = some [(0, 1), (1, 0), (1, 2), (1, 3)] := by decide +kernel

/-- C30: merging two neighbouring runs (`_merge_at`) is stable, so reversing runs of equal keys is the only
cause of instability in `_tim_sort`. -/
theorem c30_merge_stable_partial (ho : SWO lt) {arr : List α} {sa la lb : Int} (h0 : 0 ≤ sa) (h1 : 1 ≤ la) (h2 : 1 ≤ lb)
    (hl : sa + la + lb ≤ arr.length) (hs1 : SortedSeg lt arr sa (sa + la))
    (hs2 : SortedSeg lt arr (sa + la) (sa + la + lb)) :
    ∃ a', mergeAt lt arr (sa, la) (sa + la, lb) = some a' ∧ a'.Perm arr ∧ SortedSeg lt a' sa (sa + la + lb) ∧
      SameOrder lt arr a' := by
  obtain ⟨a', q1, q2, q3, q4⟩ := mergeAt_spec ho h0 h1 h2 hl hs1 hs2
  exact ⟨a', q1, q2.perm, q4, q3⟩

example : mergeAt (fun a b : Nat × Nat => decide (a.1 < b.1)) [(1, 0), (3, 1), (1, 2), (2, 3)] (0, 2) (2, 2) =
    some [(1, 0), (1, 2), (2, 3), (3, 1)] := by decide +kernel

end Codon.Sort
