import Verif.NpSrch.Lemmas

/-!
# C95: searches in sorted arrays
-/

namespace Codon.NpSrch

variable {α : Type} {lt : α → α → Bool}

/-- `<` of integers. -/
def ilt (a b : Int) : Bool := decide (a < b)

theorem iltSWO : SWO ilt :=
  ⟨by intro a b h; simp [ilt] at *; omega, by intro a b c h1 h2; simp [ilt] at *; omega⟩

/-- C95: in a sorted array `searchsorted` finds the place of every key, although each search starts
from the bounds of the one before, and whatever the order of the keys. -/
theorem c95_searchsorted (swo : SWO lt) (left : Bool) (a xs : List α) (hs : Sorted lt a) :
    ∃ l, searchsorted lt a xs (if left then "left" else "right") none = .ok l ∧
      List.Forall₂ (Place lt left a) xs l := by
  cases xs with
  | nil => exact ⟨[], by cases left <;> simp [searchsorted], .nil⟩
  | cons x r =>
    obtain ⟨l, hl, hf⟩ := search_all swo (left := left) hs (get := fun k => a[k]?) (fun _ _ => rfl) x r
    refine ⟨l, ?_, hf⟩
    rw [← hl]
    cases left <;> simp [searchsorted]

example : searchsorted ilt [1, 3, 3, 3, 7, 9] [3, 9, 0, 3, 8, 2] "left" none = .ok [1, 5, 0, 1, 5, 1] := by
  decide
example : Sorted ilt [1, 3, 3, 3, 7, 9] := by unfold Sorted; decide

/-- C95: with a sorter the array in the order of the sorter counts. -/
theorem c95_sorter (swo : SWO lt) (left : Bool) (a xs : List α) (perm : List Int) (b : List α)
    (hlen : perm.length = a.length) (hrange : ∀ i ∈ perm, 0 ≤ i ∧ i < (a.length : Int))
    (hb : Permuted a perm b) (hs : Sorted lt b) :
    ∃ l, searchsorted lt a xs (if left then "left" else "right") (some perm) = .ok l ∧
      List.Forall₂ (Place lt left b) xs l := by
  have hany : (perm.any fun i => decide (i < 0 ∨ i ≥ (a.length : Int))) = false := by
    rw [List.any_eq_false]
    intro i hi
    have := hrange i hi
    simp; omega
  have hbl : b.length = a.length := by rw [hb.1, hlen]
  cases xs with
  | nil => exact ⟨[], by rw [searchsorted.eq_def]; cases left <;> simp [hlen] <;> exact hrange, .nil⟩
  | cons x r =>
    have hget : ∀ k, k < b.length → through a perm k = b[k]? := by
      intro k hk
      have hkp : k < perm.length := by omega
      have hpk := List.getElem?_eq_getElem hkp
      obtain ⟨h0, h1⟩ := hb.2 k _ hpk
      simp only [through, hpk, if_pos h0, h1]
    obtain ⟨l, hl, hf⟩ := search_all swo (left := left) hs hget x r
    refine ⟨l, ?_, hf⟩
    rw [hbl] at hl
    rw [← hl]
    rw [searchsorted.eq_def]
    simp only [if_neg (show ¬ perm.length ≠ a.length from fun h => h hlen), hany]
    cases left <;> simp

example : searchsorted ilt [7, 1, 3] [3, 8, 2] "right" (some [1, 2, 0]) = .ok [2, 3, 1] := by decide

/-- C95: what is refused: a side other than the two, and a sorter of another length or with an index
out of range. -/
theorem c95_refused (a xs : List α) (side : String) (sorter : Option (List Int)) :
    searchsorted lt a xs side sorter = .valueError →
      (side ≠ "left" ∧ side ≠ "right") ∨
      ∃ perm, sorter = some perm ∧
        (perm.length ≠ a.length ∨ ∃ i ∈ perm, i < 0 ∨ i ≥ (a.length : Int)) := by
  intro h
  have hbis : ∀ (left : Bool) (get : Nat → Option α) (x : α) (f lo hi : Nat),
      bisect lt left get x f lo hi ≠ .valueError := by
    intro left get x f
    induction f with
    | zero => intro lo hi h; cases h
    | succ f ih =>
      intro lo hi
      rw [bisect.eq_def]
      by_cases h1 : lo < hi
      · simp only [if_pos h1]
        cases get ((lo + hi) / 2) with
        | none => simp
        | some e =>
          simp only
          split <;> split <;> exact ih _ _
      · simp [if_neg h1]
  have hloop : ∀ (left : Bool) (get : Nat → Option α) (n : Nat) (xs : List α) (last : α) (lo hi : Nat),
      searchLoop lt left get n xs last lo hi ≠ .valueError := by
    intro left get n xs
    induction xs with
    | nil => intro _ _ _ h; cases h
    | cons x r ih =>
      intro last lo hi
      rw [searchLoop.eq_def]
      simp only
      have hb := hbis left get x (n + 1) (if lt last x then lo else 0)
        (if lt last x then n else if hi < n then hi + 1 else n)
      generalize bisect lt left get x (n + 1) (if lt last x then lo else 0)
        (if lt last x then n else if hi < n then hi + 1 else n) = o at hb ⊢
      cases o with
      | bad => simp
      | valueError => exact absurd rfl hb
      | ok p =>
        have := ih x p.1 p.2
        simp only
        generalize searchLoop lt left get n r x p.1 p.2 = o at this ⊢
        cases o with
        | bad => simp
        | valueError => exact absurd rfl this
        | ok l => simp
  rw [searchsorted.eq_def] at h
  by_cases h1 : side ≠ "left" ∧ side ≠ "right"
  · exact .inl h1
  rw [if_neg h1] at h
  cases sorter with
  | none =>
    cases xs with
    | nil => simp at h
    | cons x r => exact absurd h (hloop _ _ _ _ _ _ _)
  | some perm =>
    refine .inr ⟨perm, rfl, ?_⟩
    simp only at h
    by_cases h2 : perm.length ≠ a.length
    · exact .inl h2
    rw [if_neg h2] at h
    by_cases h3 : (perm.any fun i => decide (i < 0 ∨ i ≥ (a.length : Int))) = true
    · rw [List.any_eq_true] at h3
      obtain ⟨i, hi, hc⟩ := h3
      exact .inr ⟨i, hi, by simpa using hc⟩
    rw [if_neg h3] at h
    cases xs with
    | nil => simp at h
    | cons x r => exact absurd h (hloop _ _ _ _ _ _ _)

example : searchsorted ilt [1, 2] [3] "middle" none = .valueError := by decide
example : searchsorted ilt [1, 2] [3] "left" (some [0, 2]) = .valueError := by decide

/-- C95: every such side and sorter is refused. -/
theorem c95_refuses (a xs : List α) (side : String) (sorter : Option (List Int))
    (h : (side ≠ "left" ∧ side ≠ "right") ∨
      ∃ perm, sorter = some perm ∧
        (perm.length ≠ a.length ∨ ∃ i ∈ perm, i < 0 ∨ i ≥ (a.length : Int))) :
    searchsorted lt a xs side sorter = .valueError := by
  rw [searchsorted.eq_def]
  by_cases h1 : side ≠ "left" ∧ side ≠ "right"
  · rw [if_pos h1]
  rw [if_neg h1]
  rcases h with h | ⟨perm, rfl, h⟩
  · exact absurd h h1
  simp only
  by_cases h2 : perm.length ≠ a.length
  · rw [if_pos h2]
  rw [if_neg h2]
  rcases h with h | ⟨i, hi, hc⟩
  · exact absurd h h2
  rw [if_pos]
  rw [List.any_eq_true]
  exact ⟨i, hi, by simpa using hc⟩

/-- C95: a key has one place only, so the results do not depend on the other keys. -/
theorem c95_place_unique (left : Bool) (b : List α) (x : α) (i j : Nat) (h1 : Place lt left b x i)
    (h2 : Place lt left b x j) : i = j := place_unique h1 h2

example : Place ilt true [1, 3, 3] 3 1 := by
  refine ⟨by decide, ?_, ?_⟩
  · intro k e hk he
    have : k = 0 := by omega
    subst this; simp at he; subst he; decide
  · intro k e hk he
    have : k = 1 ∨ k = 2 ∨ 3 ≤ k := by omega
    rcases this with rfl | rfl | h
    · simp at he; subst he; decide
    · simp at he; subst he; decide
    · rw [List.getElem?_eq_none (by simpa using h)] at he; cases he

/-- C95: `searchsorted` with one key. -/
theorem c95_one (swo : SWO lt) (left : Bool) (a : List α) (x : α) (hs : Sorted lt a) :
    ∃ i, searchsortedOne lt a x left = .ok i ∧ Place lt left a x i := by
  obtain ⟨i, hpi⟩ := place_exists swo left x a hs
  refine ⟨i, ?_, hpi⟩
  rw [searchsortedOne, bisect_spec (fun _ _ => rfl) hpi _ _ _ (by omega) (by omega) hpi.1 (Nat.le_refl _)]

/-- C95: `digitize` with bins that go up. -/
theorem c95_digitize_up (swo : SWO lt) (right : Bool) (bins xs : List α) (hs : Sorted lt bins) :
    ∃ l, digitize lt xs bins right = .ok l ∧ List.Forall₂ (Bin lt true right bins) xs l := by
  have hm : monotonicity lt bins = 1 := by
    have := (mono_iff (lt := lt) bins true true).1.2 ⟨rfl, sorted_up bins hs⟩
    simp [monotonicity, this]
  obtain ⟨l, hl, hf⟩ := c95_searchsorted swo right bins xs hs
  refine ⟨l.map fun (i : Nat) => (i : Int), ?_, ?_⟩
  · simp [digitize, hm, hl]
  · rw [List.forall₂_map_right_iff]
    refine hf.imp ?_
    intro x i h
    refine ⟨by omega, by have := h.1; omega, ?_, ?_⟩
    · intro k e hk he; exact h.2.1 k e (by omega) he
    · intro k e hk he; exact h.2.2 k e (by omega) he

example : digitize ilt [0, 3, 12] [1, 3, 10] false = .ok [0, 2, 3] := by decide

/-- C95: `digitize` with bins that go down. -/
theorem c95_digitize_down (swo : SWO lt) (right : Bool) (bins xs : List α)
    (hs : Sorted (fun a b => lt b a) bins) (hns : ¬ Sorted lt bins) :
    ∃ l, digitize lt xs bins right = .ok l ∧ List.Forall₂ (Bin lt false right bins) xs l := by
  have hm : monotonicity lt bins = -1 := by
    have h1 := (mono_iff (lt := lt) bins true true).2.2 ⟨rfl, sorted_up bins hs⟩
    have h2 : ¬ (monoLoop lt bins true true).1 = true := by
      intro h
      exact hns (up_sorted swo bins ((mono_iff (lt := lt) bins true true).1.1 h).2)
    simp [monotonicity, h1, h2]
  have hsr : Sorted lt bins.reverse := by
    unfold Sorted
    rw [List.pairwise_reverse]
    exact hs
  obtain ⟨l, hl, hf⟩ := c95_searchsorted swo right bins.reverse xs hsr
  refine ⟨l.map fun (i : Nat) => (bins.length : Int) - (i : Int), ?_, ?_⟩
  · simp [digitize, hm, hl]
  · rw [List.forall₂_map_right_iff]
    refine hf.imp ?_
    intro x i h
    have hi := h.1
    rw [List.length_reverse] at hi
    refine ⟨by omega, by omega, ?_, ?_⟩
    · intro k e hk he
      have hkl : k < bins.length := by omega
      have := h.2.2 (bins.length - 1 - k) e (by omega) (by
        rw [List.getElem?_reverse (by omega)]
        rw [show bins.length - 1 - (bins.length - 1 - k) = k by omega, he])
      cases right <;> simpa using this
    · intro k e hk he
      have hkl : k < bins.length := by
        by_contra hc
        rw [List.getElem?_eq_none (by omega)] at he; cases he
      have := h.2.1 (bins.length - 1 - k) e (by omega) (by
        rw [List.getElem?_reverse (by omega)]
        rw [show bins.length - 1 - (bins.length - 1 - k) = k by omega, he])
      cases right <;> simpa using this

example : digitize ilt [0, 3, 12] [10, 3, 1] false = .ok [3, 1, 0] := by decide

/-- C95: other bins are refused. -/
theorem c95_digitize_refused (swo : SWO lt) (right : Bool) (bins xs : List α)
    (h1 : ¬ Sorted lt bins) (h2 : ¬ Sorted (fun a b => lt b a) bins) :
    digitize lt xs bins right = .valueError := by
  have hm : monotonicity lt bins = 0 := by
    have a1 : ¬ (monoLoop lt bins true true).1 = true := fun h =>
      h1 (up_sorted swo bins ((mono_iff (lt := lt) bins true true).1.1 h).2)
    have a2 : ¬ (monoLoop lt bins true true).2 = true := fun h =>
      h2 (up_sorted swo.flip bins ((mono_iff (lt := lt) bins true true).2.1 h).2)
    simp [monotonicity, a1, a2]
  simp [digitize, hm]

example : ¬ Sorted ilt [1, 3, 2] ∧ ¬ Sorted (fun a b => ilt b a) [1, 3, 2] := by
  unfold Sorted; decide

/-- C95: the search of `interp`: whatever the guess, no read leaves the array and the interval of the
key is found. -/
theorem c95_guess (swo : SWO lt) (arr : List α) (key : α) (guess : Int) (hn : arr ≠ [])
    (hs : Sorted lt arr) : ∃ j, guessSearch lt arr key guess = .ok j ∧ Between lt arr key j := by
  have hl : 0 < arr.length := List.length_pos_iff.2 hn
  obtain ⟨c, hp⟩ := place_exists swo false key arr hs
  have hc := hp.1
  have hg := guess_spec hp hl guess
  have hlast : arr.getLast? = some (arr[arr.length - 1]'(by omega)) := by
    rw [List.getLast?_eq_getElem?, List.getElem?_eq_getElem (by omega)]
  refine ⟨_, hg, ?_⟩
  by_cases h1 : lt (arr[arr.length - 1]'(by omega)) key = true
  · rw [if_pos h1]
    refine .inr (.inl ⟨rfl, ?_⟩)
    intro e he
    rw [hlast] at he; cases he; exact h1
  · rw [if_neg h1]
    by_cases h2 : c = 0
    · refine .inl ⟨by omega, ?_⟩
      intro e he
      rw [List.head?_eq_getElem?] at he
      have := hp.2.2 0 e (by omega) he
      simpa using this
    · refine .inr (.inr ⟨by omega, by omega, ?_, ?_, ?_⟩)
      · intro e he
        have := hp.2.1 _ e (by omega) he
        simpa using this
      · intro e he
        have := hp.2.2 _ e (by omega) he
        simpa using this
      · intro e he
        rw [hlast] at he; cases he; simpa using h1

example : guessSearch ilt [0, 2, 4, 6, 8, 10, 12, 14, 16, 18, 20, 22] 19 2 = .ok 9 := by decide
example : guessSearch ilt [0, 2, 4, 6, 8, 10, 12, 14, 16, 18, 20, 22] 22 (-5) = .ok 11 := by decide

/-- C95: the guess does not matter. -/
theorem c95_guess_free (swo : SWO lt) (arr : List α) (key : α) (g g' : Int) (hn : arr ≠ [])
    (hs : Sorted lt arr) : guessSearch lt arr key g = guessSearch lt arr key g' := by
  obtain ⟨c, hp⟩ := place_exists swo false key arr hs
  have hl : 0 < arr.length := List.length_pos_iff.2 hn
  rw [guess_spec hp hl g, guess_spec hp hl g']

/-- C95, `bincount` (partial): of a non-empty array without negative elements the result has one more
place than the greatest element, or `minlength`, and at each place how often it occurs.  Missing: the
empty array, see `c95_violation_bincount_empty`. -/
theorem c95_bincount_partial (xs : List Int) (minlength : Int) (hml : 0 ≤ minlength) (hne : xs ≠ [])
    (hnn : ∀ x ∈ xs, 0 ≤ x) :
    ∃ l m, bincount xs minlength = .ok l ∧ m ∈ xs ∧ (∀ x ∈ xs, x ≤ m) ∧
      (l.length : Int) = max (m + 1) minlength ∧
      ∀ k : Nat, k < l.length → l[k]? = some (xs.count (k : Int)) := by
  cases xs with
  | nil => exact absurd rfl hne
  | cons a r =>
    have hmx : (minmax (a :: r)).2 ∈ a :: r ∧ ∀ e ∈ a :: r, e ≤ (minmax (a :: r)).2 := foldmax r a
    have hmn : (minmax (a :: r)).1 ∈ a :: r ∧ ∀ e ∈ a :: r, (minmax (a :: r)).1 ≤ e := foldmin r a
    rw [bincount.eq_def]
    simp only
    generalize minmax (a :: r) = mm at hmx hmn ⊢
    obtain ⟨mn, mx⟩ := mm
    simp only at hmx hmn ⊢
    have h0 := hnn _ hmn.1
    have h1 := hnn _ hmx.1
    rw [if_neg (by omega), if_neg (by omega)]
    have hlen : ((if minlength > mx + 1 then minlength else mx + 1).toNat : Int)
        = max (mx + 1) minlength := by split <;> omega
    generalize hN : (if minlength > mx + 1 then minlength else mx + 1).toNat = N at hlen ⊢
    obtain ⟨l, hl, hll, hk⟩ := countLoop_spec (a :: r) (List.replicate N 0) (by
      intro x hx
      refine ⟨hnn x hx, ?_⟩
      have := hmx.2 x hx
      rw [List.length_replicate]; omega)
    rw [List.length_replicate] at hll
    refine ⟨l, mx, hl, hmx.1, hmx.2, by omega, ?_⟩
    intro k hkl
    rw [hk k, List.getElem?_replicate, if_pos (by omega)]
    simp

example : bincount [3, 1, 3, 0] 6 = .ok [1, 1, 0, 2, 0, 0] := by decide

/-- C95: negative elements and a negative `minlength` are refused. -/
theorem c95_bincount_refused (xs : List Int) (minlength : Int)
    (h : minlength < 0 ∨ ∃ x ∈ xs, x < 0) : bincount xs minlength = .valueError := by
  rw [bincount.eq_def]
  by_cases hm : minlength < 0
  · rw [if_pos hm]
  rw [if_neg hm]
  rcases h with h | ⟨x, hx, hlt⟩
  · exact absurd h hm
  cases xs with
  | nil => cases hx
  | cons a r =>
    have hmn : (minmax (a :: r)).1 ≤ x := (foldmin r a).2 x hx
    simp only
    rw [if_pos (by omega)]

example : bincount [3, -1] 0 = .valueError := by decide

/-- C95, violated: NumPy gives an array of length `minlength` for an empty array; here there is always
one place. -/
theorem c95_violation_bincount_empty : bincount [] 0 = .ok [0] := by decide

end Codon.NpSrch
