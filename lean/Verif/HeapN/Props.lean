import Verif.HeapN.Oks

/-!
# C84: `heapq.nsmallest`, `heapq.nlargest` and `heapq.merge`

The results are compared with Python's stable sort (`IsSorted`), not with Codon's `sorted`, which is not
stable with a key (C30).
-/

namespace Codon.HeapN

section
variable {T K : Type}

/-- There is only one stable sort of a list. -/
theorem isSorted_unique {lt : T → T → Bool} (ho : SWO lt) : ∀ {xs s s' : List T}, IsSorted lt xs s → IsSorted lt xs s' → s = s' := by
  have key : ∀ s s' : List T, s.Perm s' → s.Pairwise (fun a b => lt b a = false) → s'.Pairwise (fun a b => lt b a = false) →
      (∀ z, s.filter (fun x => !lt z x && !lt x z) = s'.filter (fun x => !lt z x && !lt x z)) → s = s' := by
    intro s
    induction s with
    | nil => intro s' hp _ _ _; exact (List.nil_perm.mp hp).symm
    | cons x s ih =>
      intro s' hp h1 h2 hf
      cases s' with
      | nil => exact absurd hp (by simp)
      | cons y s' =>
        have p1 := List.pairwise_cons.mp h1
        have p2 := List.pairwise_cons.mp h2
        have hxy : lt x y = false := by
          rcases List.mem_cons.mp (hp.subset (List.mem_cons_self ..)) with h | h
          · rw [h]; exact ho.irrefl _
          · exact p2.1 x h
        have hyx : lt y x = false := by
          rcases List.mem_cons.mp (hp.symm.subset (List.mem_cons_self ..)) with h | h
          · rw [h]; exact ho.irrefl _
          · exact p1.1 y h
        have e := hf x
        rw [List.filter_cons_of_pos (by simp [ho.irrefl]), List.filter_cons_of_pos (by simp [hxy, hyx])] at e
        have : x = y := (List.cons.inj e).1
        subst this
        rw [ih s' (List.Perm.cons_inv hp) p1.2 p2.2]
        intro z
        have := hf z
        by_cases hz : (!lt z x && !lt x z) = true
        · rw [List.filter_cons, List.filter_cons, if_pos hz, if_pos hz] at this
          exact (List.cons.inj this).2
        · rwa [List.filter_cons, List.filter_cons, if_neg hz, if_neg hz] at this
  intro xs s s' h h'
  exact key s s' (h.perm.trans h'.perm.symm) h.sorted h'.sorted fun z => (h.stable z).trans (h'.stable z).symm

/-- `nsmallest(n, it)` is `sorted(it)[:n]`, for every `n` (nothing when `n` is not positive). -/
theorem c84_nsmallest_partial {lt eq : T → T → Bool} (ho : SWO lt) (he : EqOk lt eq) (pdq : Bool) (n : Int) (xs : List T) :
    ∃ s, IsSorted lt xs s ∧ nsmallest (plain lt eq) pdq lt n xs = some (s.take n.toNat) :=
  ⟨_, sortOf_spec ho xs, nsmallest_spec (ok_plain ho he) pdq n xs⟩

/-- `nsmallest(n, it, key)` is `sorted(it, key=key)[:n]`: elements with equal keys come in the order of the iterable. -/
theorem c84_nsmallest_key_partial {lt eq : K → K → Bool} {tlt : T → T → Bool} (ho : SWO lt) (he : EqOk lt eq) (ht : SWO tlt)
    (key : T → K) (pdq : Bool) (n : Int) (xs : List T) :
    ∃ s, IsSorted (fun a b => lt (key a) (key b)) xs s ∧
      nsmallest (keyed lt eq tlt key) pdq lt n xs = some (s.take n.toNat) :=
  ⟨_, sortOf_spec (ho.key key) xs, nsmallest_spec (ok_keyed ho he ht key) pdq n xs⟩

/-- `nlargest(n, it)` is `sorted(it, reverse=True)[:n]`. -/
theorem c84_nlargest_partial {lt gt eq : T → T → Bool} (ho : SWO lt) (he : EqOk lt eq) (hg : ∀ a b, gt a b = lt b a)
    (pdq : Bool) (n : Int) (xs : List T) :
    ∃ s, IsSorted (fun a b => lt b a) xs s ∧ nlargest (plain lt eq) pdq lt gt n xs = some (s.take n.toNat) :=
  ⟨_, sortOf_spec ho.flip xs, nlargest_spec (ok_mirror (ok_plain ho he)) pdq gt hg n xs⟩

/-- `nlargest(n, it, key)` is `sorted(it, key=key, reverse=True)[:n]`, equal keys in the order of the iterable. -/
theorem c84_nlargest_key_partial {lt gt eq : K → K → Bool} {tlt : T → T → Bool} (ho : SWO lt) (he : EqOk lt eq)
    (hg : ∀ a b, gt a b = lt b a) (ht : SWO tlt) (key : T → K) (pdq : Bool) (n : Int) (xs : List T) :
    ∃ s, IsSorted (fun a b => lt (key b) (key a)) xs s ∧
      nlargest (keyed lt eq tlt key) pdq lt gt n xs = some (s.take n.toNat) :=
  ⟨_, sortOf_spec (ho.flip.key key) xs, nlargest_spec (ok_mirror (ok_keyed ho he ht key)) pdq gt hg n xs⟩

/-- `merge(*its, reverse=…)` yields every element of the inputs once, whatever the inputs; if each of them is in
order (descending for `reverse`), it yields the stable sort of all of them one after the other. -/
theorem c84_merge_partial {lt eq : T → T → Bool} (ho : SWO lt) (he : EqOk lt eq) (reverse : Bool) (its : List (List T)) :
    ∃ out, merge (itemLt lt eq) reverse its = some out ∧ out.Perm its.flatten ∧
      ((∀ xs ∈ its, xs.Pairwise fun a b => if reverse then lt a b = false else lt b a = false) →
        IsSorted (fun a b => if reverse then lt b a else lt a b) its.flatten out) := by
  obtain ⟨out, h1, h2, h3⟩ := merge_spec (mok_plain ho he reverse) its
  refine ⟨out, h1, h2, fun hs => ?_⟩
  rw [h3 fun xs hx => (hs xs hx).imp fun h => by cases reverse <;> simpa using h]
  exact sortOf_spec (mok_plain ho he reverse).swoK _

/-- The same with a key. -/
theorem c84_merge_key_partial {lt eq : K → K → Bool} {tlt : T → T → Bool} (ho : SWO lt) (he : EqOk lt eq) (ht : SWO tlt)
    (key : T → K) (reverse : Bool) (its : List (List T)) :
    ∃ out, merge (itemLtKey lt eq tlt key) reverse its = some out ∧ out.Perm its.flatten ∧
      ((∀ xs ∈ its, xs.Pairwise fun a b => if reverse then lt (key a) (key b) = false else lt (key b) (key a) = false) →
        IsSorted (fun a b => if reverse then lt (key b) (key a) else lt (key a) (key b)) its.flatten out) := by
  obtain ⟨out, h1, h2, h3⟩ := merge_spec (mok_keyed ho he ht key reverse) its
  refine ⟨out, h1, h2, fun hs => ?_⟩
  rw [h3 fun xs hx => (hs xs hx).imp fun h => by cases reverse <;> simpa using h]
  exact sortOf_spec (mok_keyed ho he ht key reverse).swoK _

end

/-! ### Cases: pairs compared by their first components -/

def fstLt (a b : Nat × Nat) : Bool := decide (a.1 < b.1)
def fstEq (a b : Nat × Nat) : Bool := decide (a.1 = b.1)
def pairEq (a b : Nat × Nat) : Bool := decide (a = b)
def data : List (Nat × Nat) := [(3, 0), (1, 1), (3, 2), (2, 3), (1, 4), (0, 5), (1, 6), (3, 7)]

example : SWO fstLt := fstSWO
example : EqOk fstLt fstEq := by
  intro a b
  simp only [fstLt, fstEq]
  by_cases h : a.1 = b.1
  · simp [h]
  · rcases Nat.lt_or_gt_of_ne h with h' | h'
    · simp [h, h']
    · simp [h, h']
example : nsmallest (plain fstLt fstEq) false fstLt 3 data = some [(0, 5), (1, 1), (1, 4)] := by decide +kernel
example : nlargest (plain fstLt fstEq) false fstLt (fun a b => fstLt b a) 4 data = some [(3, 0), (3, 2), (3, 7), (2, 3)] := by decide +kernel
example : nsmallest (keyed (fun a b => decide (a < b)) (fun a b : Nat => decide (a = b)) fstLt Prod.fst) true (fun a b => decide (a < b)) 3 data =
    some [(0, 5), (1, 1), (1, 4)] := by decide +kernel
example : nsmallest (plain fstLt fstEq) false fstLt (-2) data = some [] := by decide +kernel
example : merge (itemLt fstLt fstEq) false [[(1, 0), (1, 1), (4, 2)], [], [(0, 3), (1, 4), (4, 5)], [(1, 6)]] =
    some [(0, 3), (1, 0), (1, 1), (1, 4), (1, 6), (4, 2), (4, 5)] := by decide +kernel
example : merge (itemLt fstLt fstEq) true [[(4, 0), (1, 1), (1, 2)], [], [(4, 3), (1, 4), (0, 5)], [(1, 6)]] =
    some [(4, 0), (4, 3), (1, 1), (1, 2), (1, 4), (1, 6), (0, 5)] := by decide +kernel

/-- When `==` tells apart elements of which neither is less (a class that defines `<` by one field and `==` by all), the
position in the tuple is not reached: `nsmallest` and `merge` do not keep the order of equivalent elements. -/
theorem c84_violation_eq :
    nsmallest (plain fstLt pairEq) false fstLt 2 data = some [(0, 5), (1, 4)] ∧
    (∀ s, IsSorted fstLt data s → s.take 2 = [(0, 5), (1, 1)]) ∧
    merge (itemLt fstLt pairEq) false [[(1, 0), (1, 1)], [(1, 2)]] = some [(1, 2), (1, 0), (1, 1)] ∧
    ¬ IsSorted fstLt [(1, 0), (1, 1), (1, 2)] [(1, 2), (1, 0), (1, 1)] := by
  refine ⟨by decide +kernel, fun s h => ?_, by decide +kernel, fun h => ?_⟩
  · rw [isSorted_unique fstSWO h (sortOf_spec fstSWO data)]
    decide
  · have := h.stable (1, 0)
    revert this; decide

end Codon.HeapN
