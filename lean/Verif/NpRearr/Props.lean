import Verif.NpRearr.Lemmas

/-!
# C98: rearranging arrays
-/

namespace Codon.NpRearr

variable {α : Type}

/-- C98: `roll` moves every element by the shift, around the end; every element of the result is
written. -/
theorem c98_roll (a : List α) (shift : Int) :
    ∃ r, roll a shift = .ok r ∧ r.length = a.length ∧
      ∀ j : Nat, j < a.length → r[j]? = a[(((j : Int) - shift) % a.length).toNat]? := by
  by_cases hn : a.length = 0
  · have : a = [] := by simpa using hn
    subst this
    exact ⟨[], rfl, rfl, by intro j hj; simp at hj⟩
  have hpos : (0 : Int) < a.length := by omega
  have hmod : ∀ x : Int, 0 ≤ x % (a.length : Int) ∧ x % (a.length : Int) < a.length := fun x =>
    ⟨Int.emod_nonneg _ (by omega), Int.emod_lt_of_pos _ hpos⟩
  have hmem : ∀ w, w ∈ (a.zipIdx.map fun p => (pymod ((p.2 : Int) + shift) a.length, p.1)) →
      ∃ i, i < a.length ∧ w.1 = ((i : Int) + shift) % a.length ∧ a[i]? = some w.2 := by
    intro w hw
    rw [List.mem_map] at hw
    obtain ⟨⟨v, i⟩, hp, rfl⟩ := hw
    have := List.mk_mem_zipIdx_iff_getElem?.1 hp
    exact ⟨i, (List.getElem?_eq_some_iff.1 this).1, pymod_eq _ _ hpos, this⟩
  obtain ⟨l, h1, h2, h3, _⟩ := writeAll_spec
    (a.zipIdx.map fun p => (pymod ((p.2 : Int) + shift) a.length, p.1))
    (List.replicate a.length none)
    (by
      intro w hw
      obtain ⟨i, _, he, _⟩ := hmem w hw
      rw [he, List.length_replicate]
      exact hmod _)
    (by
      rw [List.map_map]
      have e : a.zipIdx.map ((fun x : Int × α => x.1) ∘ fun p => (pymod ((p.2 : Int) + shift) a.length, p.1))
          = (a.zipIdx.map (·.2)).map fun (i : Nat) => pymod ((i : Int) + shift) a.length := by
        rw [List.map_map]; rfl
      rw [e, List.zipIdx_map_snd]
      apply List.Nodup.map_on
      · intro x hx y hy hxy
        rw [List.mem_range'_1] at hx hy
        rw [pymod_eq _ _ hpos, pymod_eq _ _ hpos] at hxy
        exact mod_inj shift (by omega) (by omega) hxy
      · exact List.nodup_range')
  rw [List.length_replicate] at h2
  have hval : ∀ j : Nat, j < a.length → ∃ v, l[j]? = some (some v) ∧
      a[(((j : Int) - shift) % a.length).toNat]? = some v := by
    intro j hj
    have hb := hmod ((j : Int) - shift)
    generalize hi : (((j : Int) - shift) % a.length).toNat = i at *
    have hil : i < a.length := by omega
    have hget := List.getElem?_eq_getElem hil
    refine ⟨a[i], ?_, hget⟩
    have hw := h3 (pymod ((i : Int) + shift) a.length, a[i]) (by
      rw [List.mem_map]
      exact ⟨(a[i], i), List.mk_mem_zipIdx_iff_getElem?.2 hget, rfl⟩)
    have ht : pymod ((i : Int) + shift) a.length = j := by
      rw [pymod_eq _ _ hpos, show (i : Int) = ((j : Int) - shift) % a.length by omega,
        Int.emod_add_emod, show (j : Int) - shift + shift = j by omega,
        Int.emod_eq_of_lt (by omega) (by omega)]
    simp only [ht, Int.toNat_natCast] at hw
    exact hw
  obtain ⟨r, h5, h6, h7⟩ := finished_spec l (fun k hk => by
    obtain ⟨v, hv, _⟩ := hval k (by omega)
    exact ⟨v, hv⟩)
  refine ⟨r, ?_, by omega, ?_⟩
  · rw [roll, h1]; simp only [finished, h5]
  · intro j hj
    obtain ⟨v, hv, hav⟩ := hval j hj
    rw [h7 j v hv, hav]

example : roll [1, 2, 3, 4, 5] (-7) = .ok [3, 4, 5, 1, 2] := by decide
example : roll [1, 2, 3, 4, 5] 2 = .ok [4, 5, 1, 2, 3] := by decide

/-- C98: `array_split` cuts the array into the given number of pieces, which make it up, and whose sizes
differ by one at most, the larger ones first. -/
theorem c98_array_split (a : List α) (k : Nat) (hk : 0 < k) :
    ∃ r, arraySplit a k = .ok r ∧ r.flatten = a ∧ r.length = k ∧
      ∀ j : Nat, j < k → ∃ p, r[j]? = some p ∧
        p.length = a.length / k + (if j < a.length % k then 1 else 0) := by
  have hd := Nat.div_add_mod a.length k
  have hl := Nat.mod_lt a.length hk
  have hexp : ((a.length : Int) / k) * k = ((k * (a.length / k) : Nat) : Int) := by
    push_cast; rw [Int.mul_comm]
  have hx : (a.length : Int) % k = ((a.length % k : Nat) : Int) := by push_cast; rfl
  obtain ⟨h1, h2, h3⟩ := splitLoop_spec a ((a.length : Int) / k) ((a.length : Int) % k)
    (Int.ediv_nonneg (by omega) (by omega)) k 0 0 (by omega) (by rw [hexp, hx]; omega)
  refine ⟨_, by rw [arraySplit, if_neg (by omega), Int.toNat_natCast], ?_, h2, ?_⟩
  · rw [h1]; simp
  · intro j hj
    obtain ⟨p, hp, hpl⟩ := h3 j hj
    refine ⟨p, hp, ?_⟩
    have hq : (a.length : Int) / k = ((a.length / k : Nat) : Int) := by push_cast; rfl
    rw [hx, hq] at hpl
    by_cases h : j < a.length % k
    · rw [if_pos (by omega)] at hpl; rw [if_pos h]; omega
    · rw [if_neg (by omega)] at hpl; rw [if_neg h]; omega

example : arraySplit [1, 2, 3, 4, 5, 6, 7] 3 = .ok [[1, 2, 3], [4, 5], [6, 7]] := by decide
example : arraySplit [1, 2] 0 = .valueError := by decide

/-- C98: `resize` repeats the array as often as needed. -/
theorem c98_resize (zero : α) (a : List α) (n : Nat) (ha : a ≠ []) :
    ∃ r, resize zero a n = .ok r ∧ r.length = n ∧ ∀ i, i < n → r[i]? = a[i % a.length]? := by
  have hl : 0 < a.length := List.length_pos_iff.2 ha
  rw [resize, if_neg (by omega)]
  by_cases h : n = 0
  · subst h
    exact ⟨[], by simp, rfl, by intro i hi; omega⟩
  · rw [if_neg (by omega), Int.toNat_natCast]
    exact resizeLoop_spec a hl (n + 1) n (by omega)

example : resize 0 [1, 2, 3] 7 = .ok [1, 2, 3, 1, 2, 3, 1] := by decide

/-- C98: an empty array becomes zeros. -/
theorem c98_resize_empty (zero : α) (n : Nat) : resize zero [] n = .ok (List.replicate n zero) := by
  simp [resize]

/-- C98: `repeat` puts each element as often as its number says, behind all those before it. -/
theorem c98_repeat (a : List α) (reps : List Nat) (h : reps.length = a.length) :
    ∃ r, repeatList a (reps.map fun (k : Nat) => (k : Int)) = .ok r ∧ r.length = reps.sum ∧
      ∀ (i j : Nat) (k : Nat), reps[i]? = some k → j < k → r[(reps.take i).sum + j]? = a[i]? := by
  have key : ∀ (a : List α) (reps : List Nat), reps.length = a.length →
      (repeatLoop a (reps.map fun (k : Nat) => (k : Int))).length = reps.sum ∧
      ∀ (i j : Nat) (k : Nat), reps[i]? = some k → j < k →
        (repeatLoop a (reps.map fun (k : Nat) => (k : Int)))[(reps.take i).sum + j]? = a[i]? := by
    intro a
    induction a with
    | nil =>
      intro reps h
      have : reps = [] := by simpa using h
      subst this
      exact ⟨rfl, by intro i j k h; simp at h⟩
    | cons e r ih =>
      intro reps h
      cases reps with
      | nil => simp at h
      | cons n ns =>
        obtain ⟨h1, h2⟩ := ih ns (by simpa using h)
        rw [List.map_cons, repeatLoop, Int.toNat_natCast]
        refine ⟨by rw [List.length_append, List.length_replicate, h1, List.sum_cons], ?_⟩
        intro i j k hi hj
        cases i with
        | zero =>
          simp only [List.getElem?_cons_zero, Option.some.injEq] at hi
          subst hi
          rw [List.getElem?_append_left (by simp; omega), List.getElem?_replicate, if_pos (by simp; omega)]
          rfl
        | succ i =>
          rw [List.take_succ_cons, List.sum_cons, List.getElem?_append_right (by simp; omega),
            List.length_replicate, show n + (ns.take i).sum + j - n = (ns.take i).sum + j by omega]
          rw [h2 i j k (by simpa using hi) hj]
          rfl
  obtain ⟨h1, h2⟩ := key a reps h
  refine ⟨_, ?_, h1, h2⟩
  rw [repeatList, if_neg, if_neg (by simp [h])]
  simp

example : repeatList [7, 8, 9] [2, 0, 3] = .ok [7, 7, 9, 9, 9] := by decide
example : repeatList [7, 8, 9] [2, -1, 3] = .valueError := by decide

/-- C98: a negative number, or too few or too many numbers, are refused. -/
theorem c98_repeat_refused (a : List α) (reps : List Int)
    (h : (∃ r ∈ reps, r < 0) ∨ reps.length ≠ a.length) : repeatList a reps = .valueError := by
  unfold repeatList
  split
  · rfl
  · rename_i hn
    rw [if_pos]
    rcases h with ⟨r, hr, h0⟩ | h
    · exact absurd (List.any_eq_true.2 ⟨r, hr, by simpa using h0⟩) hn
    · exact h

example : repeatList [7, 8] [1, 1, 1] = .valueError := by decide

/-- C98: `delete` with a list of indices, in any order, from either end and with repetitions, keeps just
the other elements, in order. -/
theorem c98_delete (a : List α) (obj : List Int) (h : ∀ o ∈ obj, ∃ k, Means a.length o k) :
    ∃ r, deleteList a obj = .ok r ∧
      ∀ p : Nat → Bool, (∀ k, k < a.length → (p k = true ↔ ¬ ∃ o ∈ obj, Means a.length o k)) →
        r = keep p a := by
  cases hm : obj.mapM fun r => normalizeIndex r a.length with
  | none =>
    obtain ⟨o, ho, hn⟩ := (mapM_none _ obj).1 hm
    obtain ⟨k, hk⟩ := h o ho
    rw [(normalize_iff o a.length k).2 ⟨k, rfl, hk⟩] at hn
    cases hn
  | some remove =>
    obtain ⟨hmem, _⟩ := mapM_some _ obj remove hm
    have hsort : (remove.mergeSort fun x y => decide (x ≤ y)).Pairwise (· ≤ ·) := by
      have := List.pairwise_mergeSort (le := fun x y : Int => decide (x ≤ y))
        (by intro a b c h1 h2; simp at *; omega) (by intro a b; simp; omega) remove
      exact this.imp (by intro a b h; simpa using h)
    refine ⟨_, by rw [deleteList, hm], ?_⟩
    intro p hp
    have hge : ∀ s ∈ distinct (remove.mergeSort fun x y => decide (x ≤ y)), ((0 : Nat) : Int) ≤ s := by
      intro s hs
      rw [distinct_mem, List.mem_mergeSort, hmem] at hs
      obtain ⟨o, _, ho⟩ := hs
      obtain ⟨k, rfl, _⟩ := (normalize_iff o a.length s).1 ho
      omega
    have := deleteLoop_spec a 0 _ (distinct_lt _ hsort) hge
    simp only [Int.natCast_zero] at this
    rw [this, keep]
    congr 1
    apply List.filter_congr
    intro q hq
    have hql : q.2 < a.length := by
      have := List.snd_lt_of_mem_zipIdx hq
      omega
    have hiff : ((q.2 : Int) ∈ distinct (remove.mergeSort fun x y => decide (x ≤ y))) ↔
        ∃ o ∈ obj, Means a.length o q.2 := by
      rw [distinct_mem, List.mem_mergeSort, hmem]
      constructor
      · rintro ⟨o, ho, he⟩
        obtain ⟨k, hk, hM⟩ := (normalize_iff o a.length _).1 he
        have : k = q.2 := by omega
        subst this
        exact ⟨o, ho, hM⟩
      · rintro ⟨o, ho, hM⟩
        exact ⟨o, ho, (normalize_iff o a.length _).2 ⟨q.2, rfl, hM⟩⟩
    have h2 := hp q.2 hql
    rw [← hiff] at h2
    cases hpq : p q.2 with
    | true => exact decide_eq_true (h2.1 hpq)
    | false =>
      apply decide_eq_false
      intro hc
      rw [h2.2 hc] at hpq
      cases hpq

example : deleteList [10, 11, 12, 13, 14] [-1, 1, 4, 1] = .ok [10, 12, 13] := by
  obtain ⟨r, h1, h2⟩ := c98_delete [10, 11, 12, 13, 14] [-1, 1, 4, 1] (by
    intro o ho
    simp only [List.mem_cons, List.not_mem_nil, or_false] at ho
    rcases ho with rfl | rfl | rfl | rfl
    · exact ⟨4, by unfold Means; simp⟩
    · exact ⟨1, by unfold Means; simp⟩
    · exact ⟨4, by unfold Means; simp⟩
    · exact ⟨1, by unfold Means; simp⟩)
  rw [h1, h2 (fun k => k != 1 && k != 4) (by
    intro k hk
    simp [Means] at *
    omega)]
  decide
example : keep (fun k => k != 1 && k != 4) [10, 11, 12, 13, 14] = [10, 12, 13] := by decide

/-- C98: an index outside is refused. -/
theorem c98_delete_refused (a : List α) (obj : List Int) (h : ∃ o ∈ obj, ¬ ∃ k, Means a.length o k) :
    deleteList a obj = .indexError := by
  obtain ⟨o, ho, hn⟩ := h
  have : (obj.mapM fun r => normalizeIndex r a.length) = none := by
    rw [mapM_none]
    refine ⟨o, ho, ?_⟩
    cases he : normalizeIndex o a.length with
    | none => rfl
    | some i =>
      obtain ⟨k, _, hk⟩ := (normalize_iff o a.length i).1 he
      exact absurd ⟨k, hk⟩ hn
  rw [deleteList, this]

example : deleteList [10, 11] [0, 2] = .indexError := by decide +kernel

/-- C98: `delete` with one index. -/
theorem c98_delete_one (a : List α) (o : Int) (k : Nat) (h : Means a.length o k) :
    ∃ r, deleteOne a o = .ok r ∧ r.length + 1 = a.length ∧
      ∀ i, r[i]? = if i < k then a[i]? else a[i + 1]? := by
  rw [deleteOne, (normalize_iff o a.length k).2 ⟨k, rfl, h⟩]
  have hk := h.1
  refine ⟨_, rfl, ?_, ?_⟩
  · rw [Int.toNat_natCast, List.length_append, List.length_take, List.length_drop]; omega
  · intro i
    rw [Int.toNat_natCast]
    by_cases hi : i < k
    · rw [if_pos hi, List.getElem?_append_left (by rw [List.length_take]; omega),
        List.getElem?_take_of_lt hi]
    · rw [if_neg hi, List.getElem?_append_right (by rw [List.length_take]; omega), List.length_take,
        List.getElem?_drop, show k + 1 + (i - min k a.length) = i + 1 by omega]

example : deleteOne [10, 11, 12] (-2) = .ok [10, 12] := by decide

/-- C98: one index outside is refused. -/
theorem c98_delete_one_refused (a : List α) (o : Int) (h : ¬ ∃ k, Means a.length o k) :
    deleteOne a o = .indexError := by
  cases he : normalizeIndex o a.length with
  | none => rw [deleteOne, he]
  | some i =>
    obtain ⟨k, _, hk⟩ := (normalize_iff o a.length i).1 he
    exact absurd ⟨k, hk⟩ h

example : deleteOne [10, 11, 12] 3 = .indexError := by decide

/-- C98: `delete` with a mask keeps just the elements that are not marked. -/
theorem c98_delete_mask (a : List α) (mask : List Bool) :
    (mask.length = a.length → deleteMask a mask = .ok (keep (fun k => !(mask.getD k false)) a)) ∧
      (mask.length ≠ a.length → deleteMask a mask = .valueError) := by
  constructor
  · intro h
    rw [deleteMask, if_neg (by simpa using h), maskLoop_spec a mask 0 h]
    rfl
  · intro h
    rw [deleteMask, if_pos h]

example : deleteMask [10, 11, 12] [true, false, true] = .ok [11] := by decide

end Codon.NpRearr
