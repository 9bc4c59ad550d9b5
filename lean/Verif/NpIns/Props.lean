import Verif.NpIns.Lemmas

/-!
# C99: `numpy.insert`
-/

namespace Codon.NpIns

open Codon.NpRearr (Out normalizeIndex mapM_some mapM_none)

variable {α : Type}

/-- C99: with values for all the indices, `insert` puts each before the place its index means; those
for the same place stay in order.  Missing: other numbers of values (see the deviations). -/
theorem c99_insert_partial (a : List α) (obj : List Int) (vals : Vals α) (v : Nat → α)
    (h : ∀ o ∈ obj, ∃ k, Before a.length o k)
    (hv : (∃ x, vals = .one x ∧ ∀ i, v i = x) ∨
      ∃ l, vals = .many l ∧ l.length = obj.length ∧ ∀ i, i < obj.length → l[i]? = some (v i)) :
    insertList a obj vals = .ok (inserted a obj v) := by
  have hval : ∀ i, i < obj.length → valueAt vals obj.length i = some (v i) := by
    intro i hi
    rcases hv with ⟨x, rfl, hx⟩ | ⟨l, rfl, hl, hx⟩
    · rw [valueAt, hx]
    · simp only [valueAt, if_pos hl, hx i hi]
  have hbef : ∀ o ∈ obj, ∀ k : Nat, k ≤ a.length → (Before a.length o k ↔
      (if o < 0 then o + (a.length : Int) else o) = (k : Int)) := by
    intro o ho k hk
    obtain ⟨k', h1, h2⟩ := h o ho
    unfold Before
    split <;> omega
  have hrange : ∀ o ∈ obj, 0 ≤ (if o < 0 then o + (a.length : Int) else o) ∧
      (if o < 0 then o + (a.length : Int) else o) ≤ a.length := by
    intro o ho
    obtain ⟨k', h1, h2⟩ := h o ho
    split <;> omega
  have hmem : ∀ q ∈ obj.zipIdx, q.1 ∈ obj ∧ q.2 < obj.length := by
    intro q hq
    refine ⟨List.fst_mem_of_mem_zipIdx hq, ?_⟩
    have := List.snd_lt_of_mem_zipIdx hq
    omega
  rw [insertList, mapM_all _ (fun q => ((if q.1 < 0 then q.1 + (a.length : Int) else q.1), q.2)) _ (by
    intro q hq
    obtain ⟨h1, h2⟩ := hmem q hq
    have h3 := hrange _ h1
    rw [(special_iff q.1 a.length obj.length _).2 ⟨rfl, h3.1, by omega⟩]
    rfl)]
  simp only
  generalize hind : (obj.zipIdx.map fun q => ((if q.1 < 0 then q.1 + (a.length : Int) else q.1), q.2)) = ind
  have hlen : ind.length = obj.length := by rw [← hind, List.length_map, List.length_zipIdx]
  have hlen2 : (ind.mergeSort pairLe).length = obj.length := by rw [List.length_mergeSort, hlen]
  have hS : ∀ s ∈ ind.mergeSort pairLe, ((0 : Nat) : Int) ≤ s.1 ∧ s.1 ≤ a.length ∧
      valueAt vals obj.length s.2 = some (v s.2) := by
    intro s hs
    rw [List.mem_mergeSort, ← hind, List.mem_map] at hs
    obtain ⟨q, hq, rfl⟩ := hs
    obtain ⟨h1, h2⟩ := hmem q hq
    have h3 := hrange _ h1
    exact ⟨by simpa using h3.1, h3.2, hval _ h2⟩
  have hpos := positions_ok a.length obj.length (ind.mergeSort pairLe) 0 (by omega)
    (fun s h => ⟨by simpa using (hS s h).1, (hS s h).2.1⟩)
  have hloop := loop_spec a (valueAt vals obj.length) v (a.length + obj.length) (ind.mergeSort pairLe) 0 0
    (by omega) (by omega) hS (sorted_fst ind)
  have hfin : tailOf a (ind.mergeSort pairLe) v 0 = inserted a obj v := by
    unfold tailOf inserted
    rw [List.range_eq_range']
    apply List.flatMap_congr
    intro k hk
    rw [List.mem_range'_1] at hk
    rw [filter_sorted ind (by
      rw [← hind, List.pairwise_map]
      have : (obj.zipIdx.map (·.2)).Pairwise (· < ·) := by
        rw [List.zipIdx_map_snd]; exact List.pairwise_lt_range'
      exact List.pairwise_map.1 this), ← hind, List.filter_map, List.map_map]
    congr 1
    have : (obj.zipIdx.filter ((fun s : Int × Nat => decide (s.1 = (k : Int))) ∘
        fun q => ((if q.1 < 0 then q.1 + (a.length : Int) else q.1), q.2)))
        = obj.zipIdx.filter fun q => decide (Before a.length q.1 k) := by
      apply List.filter_congr
      intro q hq
      have := hbef q.1 (hmem q hq).1 k (by omega)
      simp only [Function.comp]
      exact decide_eq_decide.2 this.symm
    rw [this]
    rfl
  rw [insertSorted, hlen2]
  rw [show ((0 : Nat) : Int) = 0 from rfl] at hpos
  rw [hpos]
  simp only
  by_cases h0 : obj.length = 0
  · rw [if_pos h0]
    have : obj = [] := by simpa using h0
    subst this
    rw [← hfin]
    have hi : ind = [] := by simpa using hlen
    subst hi
    have := loop_spec a (fun _ => none) v a.length [] 0 0 (by omega) (by simp) (by simp) List.Pairwise.nil
    have hc : ∀ (l : List α) (i : Int), insertLoop (fun _ => none) l.length i [] l = .ok l := by
      intro l
      induction l with
      | nil => intro i; rfl
      | cons x l ih => intro i; rw [List.length_cons, insertLoop]; simp only [ih]
    simp only [shift, List.drop_zero, hc] at this
    simpa using this
  · rw [if_neg h0, ← hfin]
    simpa using hloop

example : inserted [1, 2, 3] [3, 1, -2, 0] (fun i => 10 * (i + 1)) = [40, 1, 20, 30, 2, 3, 10] := by decide
example : insertOne [1, 2, 3] (-1) (.one 9) = .ok [1, 2, 9, 3] := by decide

/-- C99: one index is as a list of one. -/
theorem c99_insert_one (a : List α) (o : Int) (vals : Vals α) : insertOne a o vals = insertList a [o] vals := by
  rw [insertOne, insertList]
  cases h : normalizeSpecial o a.length 1 with
  | none => simp [h]
  | some i => simp [h]

example : insertOne [1, 2, 3] 3 (.many [9]) = .ok [1, 2, 3, 9] := by decide

/-- C99: an index outside is refused. -/
theorem c99_insert_refused (a : List α) (obj : List Int) (vals : Vals α)
    (h : ∃ o ∈ obj, ¬ ∃ k, Before a.length o k) : insertList a obj vals = .indexError := by
  obtain ⟨o, ho, hn⟩ := h
  unfold insertList
  split
  · rfl
  · rename_i ind hm
    obtain ⟨h1, _⟩ := mapM_some _ _ _ hm
    obtain ⟨j, hj⟩ := List.mem_iff_getElem?.1 ho
    have hq := List.mk_mem_zipIdx_iff_getElem?.2 hj
    have hlen : ind.length = obj.length := by
      rw [mapM_length _ _ _ hm, List.length_zipIdx]
    obtain ⟨⟨i, rk⟩, hi⟩ := (mapM_some _ _ _ hm).2 _ hq
    have hmemi := (h1 (i, rk)).2 ⟨_, hq, hi⟩
    cases hs : normalizeSpecial o a.length obj.length with
    | none => simp [hs] at hi
    | some i' =>
      simp only [hs, Option.map_some, Option.some.injEq, Prod.mk.injEq] at hi
      obtain ⟨rfl, rfl⟩ := hi
      obtain ⟨e1, e2, e3⟩ := (special_iff _ _ _ _).1 hs
      have hbig : (a.length : Int) < i' := by
        by_contra hc
        apply hn
        refine ⟨i'.toNat, by omega, ?_⟩
        split at e1 <;> omega
      have := positions_none a.length obj.length (ind.mergeSort pairLe) 0
        (by rw [List.length_mergeSort, hlen]; omega) (sorted_fst ind)
        ⟨_, (List.mem_mergeSort).2 hmemi, hbig⟩
      rw [show ((0 : Nat) : Int) = 0 from rfl] at this
      rw [insertSorted, List.length_mergeSort, hlen, this]

example : insertOne [1, 2, 3] 4 (.one 9) = .indexError := by decide

/-- C99 fails: with one index and several values, NumPy puts all the values there; here only the first
is, and nothing is reported. -/
theorem c99_insert_violation_values_lost : ∃ (a : List Int) (o : Int) (k : Nat) (l : List Int),
    Before a.length o k ∧ insertOne a o (.many l) = .ok [1, 10, 2, 3] ∧
      a.take k ++ l ++ a.drop k = [1, 10, 20, 2, 3] :=
  ⟨[1, 2, 3], 1, 1, [10, 20], by decide, by decide, by decide⟩

/-- C99 fails: if the numbers of indices and values differ, which NumPy refuses unless there is one
value, the first value is put in for every index. -/
theorem c99_insert_violation_mismatch (a : List α) (obj : List Int) (x : α) (l : List α)
    (h : l.length + 1 ≠ obj.length) (ho : ∀ o ∈ obj, ∃ k, Before a.length o k) :
    insertList a obj (.many (x :: l)) = .ok (inserted a obj fun _ => x) := by
  rw [← c99_insert_partial a obj (.one x) (fun _ => x) ho (.inl ⟨x, rfl, fun _ => rfl⟩)]
  unfold insertList
  split
  · rfl
  · rename_i ind hm
    have hl : (ind.mergeSort pairLe).length = obj.length := by
      rw [List.length_mergeSort, mapM_length _ _ _ hm, List.length_zipIdx]
    have : valueAt (.many (x :: l)) obj.length = valueAt (.one x) obj.length := by
      funext r
      simp only [valueAt, List.length_cons, if_neg h]
      rfl
    rw [insertSorted, insertSorted, hl, this]

example : inserted [1, 2, 3] [0, 1] (fun _ => 10) = [10, 1, 10, 2, 3] := by decide

/-- C99 fails: with one index and no values, NumPy changes nothing; here memory outside the empty array
is read. -/
theorem c99_insert_violation_no_values : ∃ (a : List Int) (o : Int) (k : Nat),
    Before a.length o k ∧ insertOne a o (.many []) = .bad :=
  ⟨[1, 2, 3], 1, 1, by decide, by decide⟩

end Codon.NpIns
