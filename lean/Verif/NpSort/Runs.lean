import Verif.NpSort.Gallop

/-! Finding runs, the stack of runs, and `timsort`. -/

namespace Codon.NpSort
open Codon.Sort
variable {α : Type} {lt : α → α → Bool}

theorem countRun_spec (ho : SWO lt) {a : List α} {l num mr : Int} (hl : 0 ≤ l) (hln : l < num) (hn : num ≤ a.length) :
    ∃ a' n, countRun lt a l num mr = some (a', n) ∧ 1 ≤ n ∧ l + n ≤ num ∧ Rearr a a' l (l + n) ∧ Stab lt a a' ∧ SortedSeg lt a' l (l + n) := by
  unfold countRun
  by_cases h1 : num - l = 1
  · rw [if_pos h1]
    exact ⟨a, 1, rfl, Int.le_refl _, by omega, Rearr.refl _ _ _, Stab.refl _, SortedSeg.short (Int.le_refl _)⟩
  rw [if_neg h1]
  obtain ⟨x, hx⟩ := rd_ex (a := a) (i := l) (by omega) (by omega)
  obtain ⟨y, hy⟩ := rd_ex (a := a) (i := l + 1) (by omega) (by omega)
  simp only [hx, hy, Option.bind_eq_bind, Option.bind_some]
  have key : ∃ a1 n, (if (!lt y x) = true then (runLoop (fun x y => !lt y x) num (a.length + 1) a (l + 2) 2).bind fun n => some (a, n)
      else (runLoop (fun x y => lt y x) num (a.length + 1) a (l + 2) 2).bind fun n => (reverseSlice (a.length + 1) a l (l + n)).bind fun a => some (a, n)) = some (a1, n) ∧
      2 ≤ n ∧ l + n ≤ num ∧ Rearr a a1 l (l + n) ∧ Stab lt a a1 ∧ SortedSeg lt a1 l (l + n) := by
    cases hc : lt y x
    · rw [if_pos (by rfl)]
      obtain ⟨n, q1, q2, q3, q4⟩ := runLoop_spec (fun x y => !lt y x) a num hn (a.length + 1) (l + 2) 2 (by omega) (by omega) (by omega)
      rw [q1, Option.bind_some]
      refine ⟨a, n, rfl, q2, by omega, Rearr.refl _ _ _, Stab.refl _, SortedSeg.of_adj ho hl (by omega) ?_⟩
      intro i u v i1 i2 i3 i4
      by_cases hi : i = l
      · subst hi
        rw [hx] at i3; cases i3
        rw [hy] at i4; cases i4
        exact hc
      · have := q4 (i + 1) u v (by omega) (by omega) (by rw [show i + 1 - 1 = i by omega]; exact i3) i4
        simpa using this
    · rw [if_neg (by simp)]
      obtain ⟨n, q1, q2, q3, q4⟩ := runLoop_spec (fun x y => lt y x) a num hn (a.length + 1) (l + 2) 2 (by omega) (by omega) (by omega)
      rw [q1, Option.bind_some]
      have hd : ∀ i u v, l ≤ i → i + 1 < l + n → rd a i = some u → rd a (i + 1) = some v → lt v u = true := by
        intro i u v i1 i2 i3 i4
        by_cases hi : i = l
        · subst hi
          rw [hx] at i3; cases i3
          rw [hy] at i4; cases i4
          exact hc
        · exact q4 (i + 1) u v (by omega) (by omega) (by rw [show i + 1 - 1 = i by omega]; exact i3) i4
      obtain ⟨a1, r1, r2, r3⟩ := reverseSlice_spec (a.length + 1) a l (l + n) hl (by omega) (by omega) (by omega)
      rw [r1, Option.bind_some]
      refine ⟨a1, n, rfl, q2, by omega, r2, stab_reverse ho hl (by omega) (by omega) r2 r3 hd, ?_⟩
      refine SortedSeg.of_adj ho hl (by rw [r2.length]; omega) ?_
      intro k u v k1 k2 k3 k4
      rw [r3 k k1 (by omega)] at k3
      rw [r3 (k + 1) (by omega) k2] at k4
      exact ho.asymm (hd (l + (l + n) - 1 - (k + 1)) v u (by omega) (by omega) k4 (by rw [← k3]; congr 1; omega))
  obtain ⟨a1, n, q1, q2, q3, q4, q5, q6⟩ := key
  rw [q1]
  simp only [Option.bind_some]
  by_cases hm : n < mr
  · rw [if_pos hm]
    have hsz : ∃ s, (if l + mr < num then mr else num - l) = s ∧ n ≤ s ∧ l + s ≤ num := by
      by_cases c : l + mr < num
      · exact ⟨mr, if_pos c, by omega, by omega⟩
      · exact ⟨num - l, if_neg c, by omega, by omega⟩
    obtain ⟨s, s1, s2, s3⟩ := hsz
    rw [s1]
    have hlen : a1.length = a.length := q4.length
    obtain ⟨a2, t1, t2, t3, t4⟩ := insOuter_spec ho l (l + s) hl (a1.length + 1) a1 (l + n) (by omega) (by omega) (by omega) q6
    rw [t1, Option.bind_some]
    exact ⟨a2, s, rfl, by omega, s3, (q4.mono (Int.le_refl _) (by omega)).trans t2, q5.trans t3, t4⟩
  · rw [if_neg hm]
    exact ⟨a1, n, rfl, by omega, q3, q4, q5, q6⟩

/-- Merging the two runs at the top. -/
theorem merge_top (ho : SWO lt) {arr : List α} {b e : Int} (hb : 0 ≤ b) (he : e ≤ arr.length) {x y : Int × Int}
    {rest : List (Int × Int)} (h : Runs lt arr b (y :: x :: rest) e) :
    ∃ a', mergeAt lt arr x y = some a' ∧ Runs lt a' b ((x.1, x.2 + y.2) :: rest) e ∧ Rearr arr a' b e ∧ Stab lt arr a' := by
  unfold Runs at h
  obtain ⟨h1, h2, h3, h4⟩ := h
  unfold Runs at h4
  obtain ⟨h5, h6, h7, h8⟩ := h4
  have hle := h8.le
  obtain ⟨a', q1, q2, q3, q4⟩ := mergeAt_spec ho (arr := arr) (sa := x.1) (la := x.2) (lb := y.2) (by omega) h6 h2 (by omega)
    (by rw [h5]; exact h7) (by rw [h5, h1]; exact h3)
  have e1 : x.1 + x.2 + y.2 = e := by omega
  rw [e1] at q2 q4
  rw [show (x.1 + x.2, y.2) = y by rw [h5]] at q1
  refine ⟨a', q1, ?_, q2.mono (by omega) (by omega), q3⟩
  unfold Runs
  exact ⟨by simp only; omega, by simp only; omega, q4, h8.same fun t ht => q2.out t (Or.inl ht)⟩

/-- Merging the two runs below the top. -/
theorem merge_below (ho : SWO lt) {arr : List α} {b e : Int} (hb : 0 ≤ b) (he : e ≤ arr.length) {x y c : Int × Int}
    {rest : List (Int × Int)} (h : Runs lt arr b (c :: y :: x :: rest) e) :
    ∃ a', mergeAt lt arr x y = some a' ∧ Runs lt a' b (c :: (x.1, x.2 + y.2) :: rest) e ∧ Rearr arr a' b e ∧ Stab lt arr a' := by
  unfold Runs at h
  obtain ⟨h1, h2, h3, h4⟩ := h
  obtain ⟨a', q1, q2, q3, q4⟩ := merge_top ho hb (by omega) h4
  refine ⟨a', q1, ?_, q3.mono (by omega) (by omega), q4⟩
  unfold Runs
  exact ⟨h1, h2, h3.outside q3 (Or.inr (Int.le_refl _)), q2⟩

/-- Each run is longer than the two above it together. -/
def Fib : List (Int × Int) → Prop
  | c :: b :: a :: rest => b.2 + c.2 < a.2 ∧ Fib (b :: a :: rest)
  | _ => True

theorem Fib.tail : ∀ {st : List (Int × Int)}, Fib st → Fib st.tail
  | [], _ => trivial
  | [_], _ => trivial
  | [_, _], _ => trivial
  | _ :: _ :: _ :: _, h => h.2

theorem Fib.grow {a : List α} {b : Int} : ∀ (n : Nat) (st : List (Int × Int)) (e p : Int), Fib st → Runs lt a b st e → 2 * n + 2 ≤ st.length → 0 ≤ p →
    (∀ r ∈ st.take 2, p ≤ r.2) → b + 2 ^ n * p ≤ e := by
  intro n
  induction n with
  | zero =>
    intro st e p hf hr hl h0 hp
    match st, hl, hr, hp with
    | c :: rest, _, hr, hp =>
      unfold Runs at hr
      have := hr.2.2.2.le
      have := hp c (by simp)
      omega
  | succ n ih =>
    intro st e p hf hr hl h0 hp
    match st, hf, hl, hr, hp with
    | c :: y :: x :: d :: rest, hf, hl, hr, hp =>
      have hc := hp c (by simp)
      have hy := hp y (by simp)
      obtain ⟨f1, f2, f3⟩ := hf
      have hr' : Runs lt a b (x :: d :: rest) y.1 := by
        unfold Runs at hr
        have := hr.2.2.2
        unfold Runs at this
        exact this.2.2.2
      have hle : y.1 ≤ e := by
        unfold Runs at hr
        obtain ⟨h1, h2, h3, h4⟩ := hr
        unfold Runs at h4
        omega
      have := ih (x :: d :: rest) y.1 (2 * p) f3 hr' (by simp at hl ⊢; omega) (by omega) (by
        intro r hr
        simp only [List.take_succ_cons, List.take_zero, List.mem_cons, List.not_mem_nil, or_false] at hr
        rcases hr with rfl | rfl <;> omega)
      have e1 : (2 : Int) ^ (n + 1) * p = 2 ^ n * (2 * p) := by rw [Int.pow_succ, Int.mul_assoc]
      omega

theorem Runs.pos {a : List α} {b : Int} : ∀ {st : List (Int × Int)} {e : Int}, Runs lt a b st e → ∀ r ∈ st, 1 ≤ r.2 := by
  intro st
  induction st with
  | nil => intro e _ r hr; cases hr
  | cons c rest ih =>
    intro e h r hr
    unfold Runs at h
    rcases List.mem_cons.1 hr with rfl | hr
    · exact h.2.1
    · exact ih h.2.2.2 r hr

/-- The stack has room for another run. -/
theorem Fib.room {a : List α} {st : List (Int × Int)} {e : Int} (hf : Fib st) (hr : Runs lt a 0 st e) (he : e < 2 ^ 63) : st.length < stackSize := by
  unfold stackSize
  rcases Nat.lt_or_ge st.length 128 with h | h
  · exact h
  · have := Fib.grow 63 st e 1 hf hr (by omega) (by omega) (fun r hr' => Runs.pos hr r (List.mem_of_mem_take hr'))
    omega

theorem tryCollapse_spec (ho : SWO lt) (b e : Int) (hb : 0 ≤ b) : ∀ (n : Nat) (arr : List α) (st : List (Int × Int)),
    st.length < n → e ≤ arr.length → Runs lt arr b st e → Fib (st.drop 2) →
    ∃ a' st', tryCollapse lt n arr st = some (a', st') ∧ Runs lt a' b st' e ∧ Fib st' ∧ Rearr arr a' b e ∧ Stab lt arr a' := by
  intro n
  induction n with
  | zero => intro arr st h; omega
  | succ n ih =>
    intro arr st h he hr hf
    unfold tryCollapse
    match st, h, hr, hf with
    | [], _, hr, _ => exact ⟨arr, _, rfl, hr, trivial, Rearr.refl _ _ _, Stab.refl _⟩
    | [_], _, hr, _ => exact ⟨arr, _, rfl, hr, trivial, Rearr.refl _ _ _, Stab.refl _⟩
    | c :: y :: rest, h, hr, hf =>
      simp only
      by_cases ht : tooShort y.2 c.2 rest = true
      · rw [if_pos ht]
        match rest, ht, h, hr, hf with
        | [], ht, _, _, _ => simp [tooShort] at ht
        | x :: rest, ht, h, hr, hf =>
          simp only
          have hf' : Fib rest := hf.tail
          by_cases hac : x.2 ≤ c.2
          · rw [if_pos hac]
            obtain ⟨a1, q1, q2, q3, q4⟩ := merge_below ho hb he hr
            rw [q1]
            simp only [Option.bind_eq_bind, Option.bind_some]
            obtain ⟨a2, st2, r1, r2, r3, r4, r5⟩ := ih a1 _ (by simp at h ⊢; omega) (by rw [q3.length]; exact he) q2 hf'
            exact ⟨a2, st2, r1, r2, r3, q3.trans r4, q4.trans r5⟩
          · rw [if_neg hac]
            obtain ⟨a1, q1, q2, q3, q4⟩ := merge_top ho hb he hr
            rw [q1]
            simp only [Option.bind_eq_bind, Option.bind_some]
            obtain ⟨a2, st2, r1, r2, r3, r4, r5⟩ := ih a1 _ (by simp at h ⊢; omega) (by rw [q3.length]; exact he) q2 hf'
            exact ⟨a2, st2, r1, r2, r3, q3.trans r4, q4.trans r5⟩
      · rw [if_neg ht]
        by_cases hbc : y.2 ≤ c.2
        · rw [if_pos hbc]
          obtain ⟨a1, q1, q2, q3, q4⟩ := merge_top ho hb he hr
          rw [q1]
          simp only [Option.bind_eq_bind, Option.bind_some]
          obtain ⟨a2, st2, r1, r2, r3, r4, r5⟩ := ih a1 _ (by simp at h ⊢; omega) (by rw [q3.length]; exact he) q2 (by
            have : Fib rest.tail := Fib.tail (st := rest) hf
            simpa using this)
          exact ⟨a2, st2, r1, r2, r3, q3.trans r4, q4.trans r5⟩
        · rw [if_neg hbc]
          refine ⟨arr, _, rfl, hr, ?_, Rearr.refl _ _ _, Stab.refl _⟩
          match rest, ht, hf with
          | [], _, _ => trivial
          | [x], ht, _ =>
            simp [tooShort] at ht
            exact ⟨ht, trivial⟩
          | x :: d :: rest, ht, hf =>
            simp [tooShort] at ht
            exact ⟨ht.1, by omega, hf⟩

theorem forceCollapse_spec (ho : SWO lt) (b e : Int) (hb : 0 ≤ b) : ∀ (n : Nat) (arr : List α) (st : List (Int × Int)),
    st.length < n → e ≤ arr.length → Runs lt arr b st e →
    ∃ a', forceCollapse lt n arr st = some a' ∧ SortedSeg lt a' b e ∧ Rearr arr a' b e ∧ Stab lt arr a' := by
  intro n
  induction n with
  | zero => intro arr st h; omega
  | succ n ih =>
    intro arr st h he hr
    unfold forceCollapse
    match st, h, hr with
    | [], _, hr =>
      unfold Runs at hr
      exact ⟨arr, rfl, SortedSeg.short (by omega), Rearr.refl _ _ _, Stab.refl _⟩
    | [c], _, hr =>
      unfold Runs at hr
      obtain ⟨h1, h2, h3, h4⟩ := hr
      unfold Runs at h4
      exact ⟨arr, rfl, by rw [← h4]; exact h3, Rearr.refl _ _ _, Stab.refl _⟩
    | [c, y], h, hr =>
      simp only
      obtain ⟨a1, q1, q2, q3, q4⟩ := merge_top ho hb he hr
      unfold Runs at q2
      obtain ⟨h1, h2, h3, h4⟩ := q2
      unfold Runs at h4
      exact ⟨a1, q1, by rw [← h4]; exact h3, q3, q4⟩
    | c :: y :: x :: rest, h, hr =>
      simp only
      by_cases hac : x.2 ≤ c.2
      · rw [if_pos hac]
        obtain ⟨a1, q1, q2, q3, q4⟩ := merge_below ho hb he hr
        rw [q1]
        simp only [Option.bind_eq_bind, Option.bind_some]
        obtain ⟨a2, r1, r2, r3, r4⟩ := ih a1 _ (by simp at h ⊢; omega) (by rw [q3.length]; exact he) q2
        exact ⟨a2, r1, r2, q3.trans r3, q4.trans r4⟩
      · rw [if_neg hac]
        obtain ⟨a1, q1, q2, q3, q4⟩ := merge_top ho hb he hr
        rw [q1]
        simp only [Option.bind_eq_bind, Option.bind_some]
        obtain ⟨a2, r1, r2, r3, r4⟩ := ih a1 _ (by simp at h ⊢; omega) (by rw [q3.length]; exact he) q2
        exact ⟨a2, r1, r2, q3.trans r3, q4.trans r4⟩

theorem timLoop_spec (ho : SWO lt) (num mr : Int) (hbig : num < 2 ^ 63) : ∀ (f : Nat) (arr : List α) (l : Int) (st : List (Int × Int)),
    num - l < f → l ≤ num → num ≤ arr.length → Runs lt arr 0 st l → Fib st →
    ∃ a' st', timLoop lt num mr f arr l st = some (a', st') ∧ Runs lt a' 0 st' num ∧ Rearr arr a' 0 num ∧ Stab lt arr a' := by
  intro f
  induction f with
  | zero => intro arr l st h1 h2; omega
  | succ f ih =>
    intro arr l st h1 h2 h3 h4 h5
    unfold timLoop
    have hbi := h4.le
    by_cases hc : l < num
    · rw [if_pos hc]
      obtain ⟨a1, n, q1, q2, q3, q4, q5, q6⟩ := countRun_spec ho (mr := mr) hbi hc h3
      rw [q1]
      simp only [Option.bind_eq_bind, Option.bind_some]
      rw [if_pos (h5.room h4 (by omega))]
      have hr1 : Runs lt a1 0 ((l, n) :: st) (l + n) := by
        unfold Runs
        exact ⟨rfl, q2, q6, h4.same fun t ht => q4.out t (Or.inl ht)⟩
      have hl1 : a1.length = arr.length := q4.length
      obtain ⟨a2, st2, r1, r2, r3, r4, r5⟩ := tryCollapse_spec ho 0 (l + n) (Int.le_refl _) (st.length + 2) a1 ((l, n) :: st) (by simp) (by omega) hr1 (by
        have := h5.tail
        simpa using this)
      rw [r1]
      simp only [Option.bind_some]
      have hl2 : a2.length = a1.length := r4.length
      obtain ⟨a3, st3, s1, s2, s3, s4⟩ := ih a2 (l + n) st2 (by omega) q3 (by omega) r2 r3
      refine ⟨a3, st3, s1, s2, ?_, (q5.trans r5).trans s4⟩
      exact ((q4.mono (by omega) (by omega)).trans (r4.mono (Int.le_refl _) (by omega))).trans s3
    · rw [if_neg hc]
      have : l = num := by omega
      subst this
      exact ⟨arr, st, rfl, h4, Rearr.refl _ _ _, Stab.refl _⟩

theorem timsort_spec (ho : SWO lt) (a : List α) (hbig : a.length < 2 ^ 63) :
    ∃ a', timsort lt a = some a' ∧ a'.Perm a ∧ Sorted lt a' ∧ Stab lt a a' := by
  unfold timsort
  obtain ⟨a1, st, q1, q2, q3, q4⟩ := timLoop_spec ho a.length (minRun a.length a.length 0 : Nat) (by exact_mod_cast hbig) (a.length + 1) a 0 [] (by omega) (by omega) (by omega) (by unfold Runs; rfl) trivial
  rw [q1]
  simp only [Option.bind_eq_bind, Option.bind_some]
  obtain ⟨a2, r1, r2, r3, r4⟩ := forceCollapse_spec ho 0 a.length (Int.le_refl _) (st.length + 1) a1 st (by omega) (by rw [q3.length]; omega) q2
  have hr := q3.trans r3
  refine ⟨a2, r1, hr.perm, ?_, q4.trans r4⟩
  refine sorted_of_seg ?_
  rw [hr.length]
  exact r2
end Codon.NpSort
