import Verif.Sort.TimMerge

/-! The stack of runs, and `_tim_sort`. -/

set_option linter.unusedSectionVars false
set_option linter.unusedSimpArgs false

namespace Codon.Sort

variable {α : Type} {lt : α → α → Bool}

/-- The stack (top first) holds sorted, non-empty, neighbouring runs covering `[b, e)`. -/
def Runs (lt : α → α → Bool) (a : List α) (b : Int) : List (Int × Int) → Int → Prop
  | [], e => e = b
  | c :: rest, e => c.1 + c.2 = e ∧ 1 ≤ c.2 ∧ SortedSeg lt a c.1 e ∧ Runs lt a b rest c.1

theorem Runs.le {a : List α} {b : Int} : ∀ {st : List (Int × Int)} {e : Int}, Runs lt a b st e → b ≤ e := by
  intro st
  induction st with
  | nil => intro e h; unfold Runs at h; omega
  | cons c rest ih =>
    intro e h
    unfold Runs at h
    have := ih h.2.2.2
    omega

theorem Runs.same {a a' : List α} {b : Int} : ∀ {st : List (Int × Int)} {e : Int}, Runs lt a b st e →
    (∀ t, t < e → rd a' t = rd a t) → Runs lt a' b st e := by
  intro st
  induction st with
  | nil => intro e h _; exact h
  | cons c rest ih =>
    intro e h hs
    unfold Runs at h ⊢
    refine ⟨h.1, h.2.1, ?_, ih h.2.2.2 fun t ht => hs t (by omega)⟩
    intro i j x y i1 i2 i3 i4 i5
    rw [hs i (by omega)] at i4
    rw [hs j (by omega)] at i5
    exact h.2.2.1 i j x y i1 i2 i3 i4 i5

/-- Merging the two runs at the top. -/
theorem merge_top (ho : SWO lt) {arr : List α} {b e : Int} (hb : 0 ≤ b) (he : e ≤ arr.length) {x y : Int × Int}
    {rest : List (Int × Int)} (h : Runs lt arr b (y :: x :: rest) e) :
    ∃ a', mergeAt lt arr x y = some a' ∧ Runs lt a' b ((x.1, x.2 + y.2) :: rest) e ∧ Rearr arr a' b e ∧ Stab lt arr a' := by
  unfold Runs at h
  obtain ⟨h1, h2, h3, h4⟩ := h
  unfold Runs at h4
  obtain ⟨h5, h6, h7, h8⟩ := h4
  have hle := h8.le
  obtain ⟨a', q1, q2, q3, q4⟩ := mergeAt_spec ho (arr := arr) (sa := x.1) (la := x.2) (lb := y.2) (by omega) h6 h2 (by omega)
    (by rw [h5]; exact h7) (by rw [h5, h1]; exact h3)
  have e1 : x.1 + x.2 + y.2 = e := by omega
  rw [e1] at q2 q4
  rw [show (x.1 + x.2, y.2) = y by rw [h5]] at q1
  refine ⟨a', q1, ?_, q2.mono (by omega) (by omega), q3⟩
  unfold Runs
  exact ⟨by simp only; omega, by simp only; omega, q4, h8.same fun t ht => q2.out t (Or.inl ht)⟩

/-- Merging the two runs below the top. -/
theorem merge_below (ho : SWO lt) {arr : List α} {b e : Int} (hb : 0 ≤ b) (he : e ≤ arr.length) {x y c : Int × Int}
    {rest : List (Int × Int)} (h : Runs lt arr b (c :: y :: x :: rest) e) :
    ∃ a', mergeAt lt arr x y = some a' ∧ Runs lt a' b (c :: (x.1, x.2 + y.2) :: rest) e ∧ Rearr arr a' b e ∧ Stab lt arr a' := by
  unfold Runs at h
  obtain ⟨h1, h2, h3, h4⟩ := h
  obtain ⟨a', q1, q2, q3, q4⟩ := merge_top ho hb (by omega) h4
  refine ⟨a', q1, ?_, q3.mono (by omega) (by omega), q4⟩
  unfold Runs
  exact ⟨h1, h2, h3.outside q3 (Or.inr (Int.le_refl _)), q2⟩

theorem collapseLoop_spec (ho : SWO lt) (b e : Int) (hb : 0 ≤ b) : ∀ (n : Nat) (arr : List α) (st : List (Int × Int)),
    st.length < n → e ≤ arr.length → Runs lt arr b st e →
    ∃ a' st', collapseLoop lt n arr st = some (a', st') ∧ Runs lt a' b st' e ∧ Rearr arr a' b e ∧ Stab lt arr a' := by
  intro n
  induction n with
  | zero => intro arr st h; omega
  | succ n ih =>
    intro arr st h he hr
    unfold collapseLoop
    match st, h, hr with
    | [], _, hr => exact ⟨arr, _, rfl, hr, Rearr.refl _ _ _, Stab.refl _⟩
    | [_], _, hr => exact ⟨arr, _, rfl, hr, Rearr.refl _ _ _, Stab.refl _⟩
    | [_, _], _, hr => exact ⟨arr, _, rfl, hr, Rearr.refl _ _ _, Stab.refl _⟩
    | c :: y :: x :: rest, h, hr =>
      simp only
      split
      · exact ⟨arr, _, rfl, hr, Rearr.refl _ _ _, Stab.refl _⟩
      · split
        · obtain ⟨a1, q1, q2, q3, q4⟩ := merge_below ho hb he hr
          rw [q1]
          simp only [Option.bind_eq_bind, Option.bind_some]
          obtain ⟨a2, st2, r1, r2, r3, r4⟩ := ih a1 _ (by simp at h ⊢; omega) (by rw [q3.length]; exact he) q2
          exact ⟨a2, st2, r1, r2, q3.trans r3, q4.trans r4⟩
        · obtain ⟨a1, q1, q2, q3, q4⟩ := merge_top ho hb he hr
          rw [q1]
          simp only [Option.bind_eq_bind, Option.bind_some]
          obtain ⟨a2, st2, r1, r2, r3, r4⟩ := ih a1 _ (by simp at h ⊢; omega) (by rw [q3.length]; exact he) q2
          exact ⟨a2, st2, r1, r2, q3.trans r3, q4.trans r4⟩

theorem mergeCollapse_spec (ho : SWO lt) {b e : Int} (hb : 0 ≤ b) {arr : List α} {st : List (Int × Int)}
    (he : e ≤ arr.length) (hr : Runs lt arr b st e) :
    ∃ a' st', mergeCollapse lt arr st = some (a', st') ∧ Runs lt a' b st' e ∧ Rearr arr a' b e ∧ Stab lt arr a' := by
  unfold mergeCollapse
  obtain ⟨a1, st1, q1, q2, q3, q4⟩ := collapseLoop_spec ho b e hb (st.length + 1) arr st (by omega) he hr
  rw [q1]
  simp only [Option.bind_eq_bind, Option.bind_some]
  match st1, q2 with
  | [], q2 => exact ⟨a1, _, rfl, q2, q3, q4⟩
  | [_], q2 => exact ⟨a1, _, rfl, q2, q3, q4⟩
  | _ :: _ :: _ :: _, q2 => exact ⟨a1, _, rfl, q2, q3, q4⟩
  | [y, x], q2 =>
    simp only
    split
    · obtain ⟨a2, r1, r2, r3, r4⟩ := merge_top ho hb (by rw [q3.length]; exact he) q2
      rw [r1]
      exact ⟨a2, _, rfl, r2, q3.trans r3, q4.trans r4⟩
    · exact ⟨a1, _, rfl, q2, q3, q4⟩

theorem finalMerge_spec (ho : SWO lt) (b e : Int) (hb : 0 ≤ b) : ∀ (n : Nat) (arr : List α) (st : List (Int × Int)),
    st.length < n → e ≤ arr.length → Runs lt arr b st e →
    ∃ a', finalMerge lt n arr st = some a' ∧ SortedSeg lt a' b e ∧ Rearr arr a' b e ∧ Stab lt arr a' := by
  intro n
  induction n with
  | zero => intro arr st h; omega
  | succ n ih =>
    intro arr st h he hr
    unfold finalMerge
    match st, h, hr with
    | [], _, hr =>
      unfold Runs at hr
      exact ⟨arr, rfl, SortedSeg.short (by omega), Rearr.refl _ _ _, Stab.refl _⟩
    | [c], _, hr =>
      unfold Runs at hr
      obtain ⟨h1, h2, h3, h4⟩ := hr
      unfold Runs at h4
      exact ⟨arr, rfl, by rw [← h4]; exact h3, Rearr.refl _ _ _, Stab.refl _⟩
    | c :: y :: rest, h, hr =>
      simp only
      obtain ⟨a1, q1, q2, q3, q4⟩ := merge_top ho hb he hr
      rw [q1]
      simp only [Option.bind_eq_bind, Option.bind_some]
      obtain ⟨a2, r1, r2, r3, r4⟩ := ih a1 _ (by simp at h ⊢; omega) (by rw [q3.length]; exact he) q2
      exact ⟨a2, r1, r2, q3.trans r3, q4.trans r4⟩

/-- No two neighbours in `[b, e)` are equivalent. -/
def NoEq (lt : α → α → Bool) (a : List α) (b e : Int) : Prop :=
  ∀ i x y, b ≤ i → i + 1 < e → rd a i = some x → rd a (i + 1) = some y → lt x y = true ∨ lt y x = true

theorem nextRun_spec (ho : SWO lt) {arr : List α} {i e mr : Int} (hi : 0 ≤ i) (hie : i < e) (he : e ≤ arr.length) :
    ∃ a' n, nextRun lt arr i e mr = some (a', n) ∧ 1 ≤ n ∧ i + n ≤ e ∧ Rearr arr a' i (i + n) ∧
      SortedSeg lt a' i (i + n) ∧ (NoEq lt arr i e → Stab lt arr a') := by
  unfold nextRun
  obtain ⟨n, io, q1, q2, q3, q4, q5⟩ := countRun_spec ho hi hie he
  rw [q1]
  simp only [Option.bind_eq_bind, Option.bind_some]
  have key : ∃ a1, (if (!io) = true then reverseSlice (arr.length + 1) arr i (i + n) else some arr) = some a1 ∧
      Rearr arr a1 i (i + n) ∧ SortedSeg lt a1 i (i + n) ∧ (NoEq lt arr i e → Stab lt arr a1) := by
    cases io with
    | true => exact ⟨arr, rfl, Rearr.refl _ _ _, q4 rfl, fun _ => Stab.refl _⟩
    | false =>
      rw [if_pos (by rfl)]
      obtain ⟨a1, r1, r2, r3⟩ := reverseSlice_spec (arr.length + 1) arr i (i + n) hi (by omega) (by omega) (by omega)
      refine ⟨a1, r1, r2, ?_, ?_⟩
      · refine SortedSeg.of_adj ho hi (by rw [r2.length]; omega) ?_
        intro k x y k1 k2 k3 k4
        rw [r3 k k1 (by omega)] at k3
        rw [r3 (k + 1) (by omega) k2] at k4
        refine q5 rfl (i + (i + n) - 1 - (k + 1)) y x (by omega) (by omega) k4 ?_
        rw [← k3]; congr 1; omega
      · intro hne
        refine stab_reverse ho hi (by omega) (by omega) r2 r3 ?_
        intro t x y t1 t2 t3 t4
        rcases hne t x y t1 (by omega) t3 t4 with h | h
        · rw [q5 rfl t x y t1 t2 t3 t4] at h; cases h
        · exact h
  obtain ⟨a1, r1, r2, r3, r4⟩ := key
  rw [r1]
  simp only [Option.bind_some]
  by_cases hn : n < mr
  · rw [if_pos hn]
    have hl : a1.length = arr.length := r2.length
    obtain ⟨a2, s1, s2, s3, s4⟩ := insertionSort_spec ho (a := a1) (b := i) (e := i + min mr (e - i)) hi (by omega) (by omega)
    rw [s1]
    simp only [Option.bind_some, Option.pure_def]
    refine ⟨a2, _, rfl, by omega, by omega, ?_, s4, fun h => (r4 h).trans s3⟩
    exact (r2.mono (Int.le_refl _) (by omega)).trans s2
  · rw [if_neg hn]
    exact ⟨a1, n, rfl, q2, q3, r2, r3, r4⟩

theorem timLoop_spec (ho : SWO lt) (b e mr : Int) (hb : 0 ≤ b) : ∀ (f : Nat) (arr : List α) (i : Int) (st : List (Int × Int)),
    e - i < f → i ≤ e → e ≤ arr.length → Runs lt arr b st i →
    ∃ a' st', timLoop lt e mr f arr i st = some (a', st') ∧ Runs lt a' b st' e ∧ Rearr arr a' b e ∧
      (NoEq lt arr i e → Stab lt arr a') := by
  intro f
  induction f with
  | zero => intro arr i st h1 h2; omega
  | succ f ih =>
    intro arr i st h1 h2 h3 h4
    unfold timLoop
    have hbi := h4.le
    by_cases hc : i < e
    · rw [if_pos hc]
      obtain ⟨a1, n, q1, q2, q3, q4, q5, q6⟩ := nextRun_spec ho (mr := mr) (show 0 ≤ i by omega) hc h3
      rw [q1]
      simp only [Option.bind_eq_bind, Option.bind_some]
      have hr1 : Runs lt a1 b ((i, n) :: st) (i + n) := by
        unfold Runs
        exact ⟨rfl, q2, q5, h4.same fun t ht => q4.out t (Or.inl ht)⟩
      have hl1 : a1.length = arr.length := q4.length
      obtain ⟨a2, st2, r1, r2, r3, r4⟩ := mergeCollapse_spec ho hb (show i + n ≤ a1.length by omega) hr1
      rw [r1]
      simp only [Option.bind_some]
      have hl2 : a2.length = a1.length := r3.length
      obtain ⟨a3, st3, s1, s2, s3, s4⟩ := ih a2 (i + n) st2 (by omega) q3 (by omega) r2
      refine ⟨a3, st3, s1, s2, ?_, ?_⟩
      · exact ((q4.mono (by omega) (by omega)).trans (r3.mono (Int.le_refl _) (by omega))).trans s3
      · intro hne
        refine ((q6 hne).trans r4).trans (s4 ?_)
        intro t x y t1 t2 t3 t4
        rw [r3.out t (Or.inr t1), q4.out t (Or.inr t1)] at t3
        rw [r3.out (t + 1) (Or.inr (by omega)), q4.out (t + 1) (Or.inr (by omega))] at t4
        exact hne t x y (by omega) t2 t3 t4
    · rw [if_neg hc]
      have : i = e := by omega
      subst this
      exact ⟨arr, st, rfl, h4, Rearr.refl _ _ _, fun _ => Stab.refl _⟩

theorem timSort_spec (ho : SWO lt) {arr : List α} {b e : Int} (hb : 0 ≤ b) (hbe : b ≤ e) (he : e ≤ arr.length) :
    ∃ a', timSort lt arr b e = some a' ∧ Rearr arr a' b e ∧ SortedSeg lt a' b e ∧ (NoEq lt arr b e → Stab lt arr a') := by
  unfold timSort
  by_cases h2 : e - b < 2
  · rw [if_pos h2]
    exact ⟨arr, rfl, Rearr.refl _ _ _, SortedSeg.short (by omega), fun _ => Stab.refl _⟩
  · rw [if_neg h2]
    dsimp only
    obtain ⟨a1, st, q1, q2, q3, q4⟩ := timLoop_spec ho b e (minrun (e - b).toNat (e - b).toNat 0 : Nat) hb (arr.length + 1) arr b []
      (by omega) hbe he (by unfold Runs; rfl)
    rw [q1]
    simp only [Option.bind_eq_bind, Option.bind_some]
    obtain ⟨a2, r1, r2, r3, r4⟩ := finalMerge_spec ho b e hb (st.length + 1) a1 st (by omega) (by rw [q3.length]; exact he) q2
    exact ⟨a2, r1, q3.trans r3, r2, fun h => (q4 h).trans r4⟩

end Codon.Sort
