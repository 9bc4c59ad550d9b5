import Verif.Sort.Insertion
import Verif.Sort.Heap

/-! `_tim_sort` -/

set_option linter.unusedSectionVars false
set_option linter.unusedSimpArgs false

namespace Codon.Sort

variable {α : Type} {lt : α → α → Bool}

/-! ### Runs -/

theorem runLoop_spec (go : α → α → Bool) (a : List α) (e : Int) (he : e ≤ a.length) : ∀ (f : Nat) (i n : Int),
    1 ≤ i → i ≤ e → e - i < f →
    ∃ n', runLoop go e f a i n = some n' ∧ n ≤ n' ∧ i + (n' - n) ≤ e ∧
      ∀ k x y, i ≤ k → k < i + (n' - n) → rd a (k - 1) = some x → rd a k = some y → go x y = true := by
  intro f
  induction f with
  | zero => intro i n h1 h2 h3; omega
  | succ f ih =>
    intro i n h1 h2 h3
    unfold runLoop
    by_cases hi : i < e
    · rw [if_pos hi]
      obtain ⟨x, hx⟩ := rd_ex (a := a) (i := i - 1) (by omega) (by omega)
      obtain ⟨y, hy⟩ := rd_ex (a := a) (i := i) (by omega) (by omega)
      rw [hx, hy]
      simp only [Option.bind_eq_bind, Option.bind_some]
      cases hg : go x y
      · rw [if_neg (by simp)]
        exact ⟨n, rfl, Int.le_refl _, by omega, fun k x y k1 k2 => by omega⟩
      · rw [if_pos rfl]
        obtain ⟨n', q1, q2, q3, q4⟩ := ih (i + 1) (n + 1) (by omega) (by omega) (by omega)
        refine ⟨n', q1, by omega, by omega, ?_⟩
        intro k u v k1 k2 k3 k4
        by_cases hk : k = i
        · subst hk
          rw [hx] at k3; cases k3
          rw [hy] at k4; cases k4
          exact hg
        · exact q4 k u v (by omega) (by omega) k3 k4
    · rw [if_neg hi]
      exact ⟨n, rfl, Int.le_refl _, by omega, fun k x y k1 k2 => by omega⟩

/-- What `_count_run` finds: a non-descending run, or a non-ascending one. -/
theorem countRun_spec (ho : SWO lt) {a : List α} {b e : Int} (hb : 0 ≤ b) (hbe : b < e) (he : e ≤ a.length) :
    ∃ n io, countRun lt a b e = some (n, io) ∧ 1 ≤ n ∧ b + n ≤ e ∧ (io = true → SortedSeg lt a b (b + n)) ∧
      (io = false → ∀ i x y, b ≤ i → i + 1 < b + n → rd a i = some x → rd a (i + 1) = some y → lt x y = false) := by
  unfold countRun
  by_cases h1 : e - b = 1
  · rw [if_pos h1]
    exact ⟨1, true, rfl, Int.le_refl _, by omega, fun _ => SortedSeg.short (Int.le_refl _), by simp⟩
  · rw [if_neg h1]
    obtain ⟨x, hx⟩ := rd_ex (a := a) (i := b) (by omega) (by omega)
    obtain ⟨y, hy⟩ := rd_ex (a := a) (i := b + 1) (by omega) (by omega)
    rw [hx, hy]
    simp only [Option.bind_eq_bind, Option.bind_some, Option.pure_def]
    cases hl : lt x y
    · rw [if_pos (by rfl)]
      obtain ⟨n, q1, q2, q3, q4⟩ := runLoop_spec (fun x y => !lt x y) a e he (a.length + 1) (b + 2) 2 (by omega) (by omega) (by omega)
      rw [q1, Option.bind_some]
      refine ⟨n, false, rfl, by omega, by omega, by simp, ?_⟩
      intro _ i u v i1 i2 i3 i4
      by_cases hi : i = b
      · subst hi
        rw [hx] at i3; cases i3
        rw [hy] at i4; cases i4
        exact hl
      · have := q4 (i + 1) u v (by omega) (by omega) (by rw [show i + 1 - 1 = i by omega]; exact i3) i4
        simpa using this
    · rw [if_neg (by simp)]
      obtain ⟨n, q1, q2, q3, q4⟩ := runLoop_spec (fun x y => lt x y) a e he (a.length + 1) (b + 2) 2 (by omega) (by omega) (by omega)
      rw [q1, Option.bind_some]
      refine ⟨n, true, rfl, by omega, by omega, ?_, by simp⟩
      intro _
      refine SortedSeg.of_adj ho hb (by omega) ?_
      intro i u v i1 i2 i3 i4
      by_cases hi : i = b
      · subst hi
        rw [hx] at i3; cases i3
        rw [hy] at i4; cases i4
        exact ho.asymm hl
      · exact ho.asymm (q4 (i + 1) u v (by omega) (by omega) (by rw [show i + 1 - 1 = i by omega]; exact i3) i4)

theorem reverseSlice_spec : ∀ (n : Nat) (a : List α) (b e : Int), 0 ≤ b → b ≤ e → e ≤ a.length → e - b < n →
    ∃ a', reverseSlice n a b e = some a' ∧ Rearr a a' b e ∧
      ∀ k, b ≤ k → k < e → rd a' k = rd a (b + e - 1 - k) := by
  intro n
  induction n using Nat.strongRecOn with
  | ind n ih =>
    intro a b e h1 h2 h3 h4
    cases n with
    | zero => omega
    | succ n =>
      unfold reverseSlice
      by_cases hs : e - b < 2
      · rw [if_pos hs]
        refine ⟨a, rfl, Rearr.refl _ _ _, ?_⟩
        intro k k1 k2
        congr 1; omega
      · rw [if_neg hs]
        obtain ⟨a1, s1, s2, s3⟩ := swap_rearr (a := a) (i := b) (j := e - 1) (b := b) (e := e) h1 h3 (by omega) (by omega)
        rw [s1]
        simp only [Option.bind_eq_bind, Option.bind_some]
        obtain ⟨a2, q1, q2, q3⟩ := ih n (by omega) a1 (b + 1) (e - 1) (by omega) (by omega) (by rw [s2.length]; omega) (by omega)
        refine ⟨a2, q1, s2.trans (q2.mono (by omega) (by omega)), ?_⟩
        intro k k1 k2
        by_cases c1 : k = b
        · subst c1
          rw [q2.out k (by omega), s3 k, if_neg (by omega), if_pos rfl]
          congr 1; omega
        · by_cases c2 : k = e - 1
          · subst c2
            rw [q2.out _ (by omega), s3, if_pos rfl]
            congr 1; omega
          · rw [q3 k (by omega) (by omega), s3, if_neg (by omega), if_neg (by omega)]
            congr 1; omega

/-- Reversing a run that is strictly descending keeps equal keys in order (there are none). -/
theorem stab_reverse (ho : SWO lt) {a a' : List α} {b e : Int} (hb : 0 ≤ b) (hbe : b ≤ e) (he : e ≤ a.length)
    (hr : Rearr a a' b e) (hk : ∀ k, b ≤ k → k < e → rd a' k = rd a (b + e - 1 - k))
    (hd : ∀ i x y, b ≤ i → i + 1 < e → rd a i = some x → rd a (i + 1) = some y → lt y x = true) :
    Stab lt a a' := by
  have e1 := seg_eq hb hbe he
  have hl' : e ≤ a'.length := by rw [hr.length]; exact he
  have e2 := seg_eq (a := a') hb hbe hl'
  have hrev : seg a' b e = (seg a b e).reverse := by
    have l1 := seg_length hb hbe he
    have l2 := seg_length hb hbe hl'
    apply List.ext_getElem?
    intro n
    by_cases hn : b + n < e
    · rw [seg_getElem? hb n hn, hk _ (by omega) hn, List.getElem?_reverse (by omega)]
      rw [seg_getElem? hb _ (by omega)]
      congr 1; omega
    · rw [List.getElem?_eq_none (by omega), List.getElem?_eq_none (by simp; omega)]
  -- strictly descending
  have hpw : (seg a b e).Pairwise fun x y => lt y x = true := by
    rw [List.pairwise_iff_getElem]
    have l1 := seg_length hb hbe he
    have key : ∀ (m i j : Nat) (x y : α), j = i + 1 + m → b + j < e → rd a (b + i) = some x → rd a (b + j) = some y →
        lt y x = true := by
      intro m
      induction m with
      | zero =>
        intro i j x y h1 h2 h3 h4
        exact hd (b + i) x y (by omega) (by omega) h3 (by rw [← h4]; congr 1; omega)
      | succ m ih =>
        intro i j x y h1 h2 h3 h4
        obtain ⟨z, hz⟩ := rd_ex (a := a) (i := b + (j - 1 : Nat)) (by omega) (by omega)
        have s1 := ih i (j - 1) x z (by omega) (by omega) h3 hz
        have s2 := hd (b + (j - 1 : Nat)) z y (by omega) (by omega) hz (by rw [← h4]; congr 1; omega)
        exact ho.trans s2 s1
    intro i j hi hj hij
    refine key (j - i - 1) i j _ _ (by omega) (by omega) ?_ ?_
    · rw [← seg_getElem? (e := e) hb i (by omega)]; exact List.getElem?_eq_getElem hi
    · rw [← seg_getElem? (e := e) hb j (by omega)]; exact List.getElem?_eq_getElem hj
  intro z
  rw [e2, hr.take, hr.drop, hrev]
  conv => rhs; rw [e1]
  simp only [List.filter_append, List.filter_reverse]
  congr 2
  have hp2 := hpw.filter (keq lt z)
  generalize hw : (seg a b e).filter (keq lt z) = w at hp2
  have hall : ∀ x ∈ w, keq lt z x = true := by
    intro x hx; rw [← hw] at hx; exact (List.mem_filter.mp hx).2
  match w, hp2, hall with
  | [], _, _ => rfl
  | [_], _, _ => rfl
  | x :: y :: t, hp2, hall =>
    exfalso
    have h1 := (List.pairwise_cons.mp hp2).1 y (by simp)
    have h2 := keq_iff.mp (hall x (by simp))
    have h3 := keq_iff.mp (hall y (by simp))
    have := ho.negTrans h3.2 h2.1
    rw [h1] at this; cases this

/-! ### Galloping -/

theorem gallopLeft_spec (c : α → Bool) (a : List α) (a0 hint mx : Int) (h0 : 0 ≤ a0)
    (hl : a0 + hint < a.length) (hmx : mx = hint + 1) : ∀ (n : Nat) (ofs last : Int),
    0 ≤ last → last < ofs → last < mx → mx - ofs < n ∧ 0 < n →
    (∀ x, rd a (a0 + hint - last) = some x → c x = true) →
    ∃ ofs' last', gallopLeft c a (a0 + hint) mx n ofs last = some (ofs', last') ∧ 0 ≤ last' ∧ last' < ofs' ∧ last' < mx ∧
      (∀ x, rd a (a0 + hint - last') = some x → c x = true) ∧
      (ofs' < mx → ∀ x, rd a (a0 + hint - ofs') = some x → c x = false) := by
  intro n
  induction n with
  | zero => intro ofs last h1 h2 h3 h4; omega
  | succ n ih =>
    intro ofs last h1 h2 h3 h4 h5
    unfold gallopLeft
    by_cases ho : ofs < mx
    · rw [if_pos ho]
      obtain ⟨x, hx⟩ := rd_ex (a := a) (i := a0 + hint - ofs) (by omega) (by omega)
      rw [hx]
      simp only [Option.bind_eq_bind, Option.bind_some]
      cases hc : c x
      · rw [if_neg (by simp)]
        exact ⟨ofs, last, rfl, h1, h2, h3, h5, fun _ y hy => by rw [hx] at hy; cases hy; exact hc⟩
      · rw [if_pos rfl]
        exact ih (2 * ofs + 1) ofs (by omega) (by omega) ho (by omega) (fun y hy => by rw [hx] at hy; cases hy; exact hc)
    · rw [if_neg ho]
      exact ⟨ofs, last, rfl, h1, h2, h3, h5, fun h => absurd h ho⟩

theorem gallopRight_spec (c : α → Bool) (a : List α) (a0 hint mx : Int) (h0 : 0 ≤ a0 + hint)
    (hl : a0 + hint + mx ≤ a.length) : ∀ (n : Nat) (ofs last : Int),
    0 ≤ last → last < ofs → last < mx → mx - ofs < n ∧ 0 < n →
    (∀ x, rd a (a0 + hint + last) = some x → c x = false) →
    ∃ ofs' last', gallopRight c a (a0 + hint) mx n ofs last = some (ofs', last') ∧ 0 ≤ last' ∧ last' < ofs' ∧ last' < mx ∧
      (∀ x, rd a (a0 + hint + last') = some x → c x = false) ∧
      (ofs' < mx → ∀ x, rd a (a0 + hint + ofs') = some x → c x = true) := by
  intro n
  induction n with
  | zero => intro ofs last h1 h2 h3 h4; omega
  | succ n ih =>
    intro ofs last h1 h2 h3 h4 h5
    unfold gallopRight
    by_cases ho : ofs < mx
    · rw [if_pos ho]
      obtain ⟨x, hx⟩ := rd_ex (a := a) (i := a0 + hint + ofs) (by omega) (by omega)
      rw [hx]
      simp only [Option.bind_eq_bind, Option.bind_some]
      cases hc : c x
      · rw [if_neg (by simp)]
        exact ih (2 * ofs + 1) ofs (by omega) (by omega) ho (by omega) (fun y hy => by rw [hx] at hy; cases hy; exact hc)
      · rw [if_pos rfl]
        exact ⟨ofs, last, rfl, h1, h2, h3, h5, fun _ y hy => by rw [hx] at hy; cases hy; exact hc⟩
    · rw [if_neg ho]
      exact ⟨ofs, last, rfl, h1, h2, h3, h5, fun h => absurd h ho⟩

/-- `c` changes once, from false to true, along the segment. -/
def Mono (c : α → Bool) (a : List α) (b e : Int) : Prop :=
  ∀ i j x y, b ≤ i → i ≤ j → j < e → rd a i = some x → rd a j = some y → c x = true → c y = true

theorem gallopSearch_spec (c : α → Bool) (a : List α) (a0 n0 : Int) (h0 : 0 ≤ a0) (hl : a0 + n0 ≤ a.length)
    (hm : Mono c a a0 (a0 + n0)) : ∀ (n : Nat) (lo hi : Int), 0 ≤ lo → lo ≤ hi → hi ≤ n0 → hi - lo < n →
    AllSeg (fun x => c x = false) a a0 (a0 + lo) → AllSeg (fun x => c x = true) a (a0 + hi) (a0 + n0) →
    ∃ r, gallopSearch c a a0 n lo hi = some r ∧ 0 ≤ r ∧ r ≤ n0 ∧ AllSeg (fun x => c x = false) a a0 (a0 + r) ∧
      AllSeg (fun x => c x = true) a (a0 + r) (a0 + n0) := by
  intro n
  induction n with
  | zero => intro lo hi h1 h2 h3 h4; omega
  | succ n ih =>
    intro lo hi h1 h2 h3 h4 h5 h6
    unfold gallopSearch
    by_cases hlt : lo < hi
    · rw [if_pos hlt]
      have hd : Int.tdiv (hi - lo) 2 = (hi - lo) / 2 := Int.tdiv_eq_ediv_of_nonneg (by omega)
      dsimp only
      rw [hd]
      generalize hmm : lo + (hi - lo) / 2 = m
      obtain ⟨x, hx⟩ := rd_ex (a := a) (i := a0 + m) (by omega) (by omega)
      rw [hx]
      simp only [Option.bind_eq_bind, Option.bind_some]
      cases hc : c x
      · rw [if_neg (by simp)]
        refine ih (m + 1) hi (by omega) (by omega) h3 (by omega) ?_ h6
        intro i y i1 i2 i3
        cases hy : c y
        · rfl
        · have := hm i (a0 + m) y x i1 (by omega) (by omega) i3 hx hy
          rw [hc] at this; cases this
      · rw [if_pos rfl]
        refine ih lo m h1 (by omega) (by omega) (by omega) h5 ?_
        intro i y i1 i2 i3
        exact hm (a0 + m) i x y (by omega) i1 i2 hx i3 hc
    · rw [if_neg hlt]
      have : lo = hi := by omega
      subst this
      exact ⟨lo, rfl, h1, h3, h5, h6⟩

/-- `_gallop` finds where the comparison changes. -/
theorem gallop_spec (arr : List α) (A B : Int × Int) (hint : Int) (left : Bool) (key : α)
    (h0 : 0 ≤ A.1) (hl : A.1 + A.2 ≤ arr.length) (hh : 0 ≤ hint ∧ hint < A.2)
    (hk : (if left then rd arr (B.1 + B.2 - 1) else rd arr B.1) = some key)
    (hm : Mono (modComp lt left key) arr A.1 (A.1 + A.2)) :
    ∃ r, gallop lt arr A B hint left = some r ∧ 0 ≤ r ∧ r ≤ A.2 ∧
      AllSeg (fun x => modComp lt left key x = false) arr A.1 (A.1 + r) ∧
      AllSeg (fun x => modComp lt left key x = true) arr (A.1 + r) (A.1 + A.2) := by
  unfold gallop
  obtain ⟨z, hz⟩ := rd_ex (a := arr) (i := 0) (Int.le_refl _) (by omega)
  rw [hz]
  simp only [Option.bind_eq_bind, Option.bind_some]
  rw [hk, Option.bind_some]
  obtain ⟨x, hx⟩ := rd_ex (a := arr) (i := A.1 + hint) (by omega) (by omega)
  rw [hx, Option.bind_some]
  generalize hc : modComp lt left key = c at *
  cases hcx : c x
  · rw [if_neg (by simp)]
    obtain ⟨ofs, last, q1, q2, q3, q4, q5, q6⟩ := gallopRight_spec c arr A.1 hint (A.2 - hint) (by omega) (by omega)
      (arr.length + 1) 1 0 (Int.le_refl _) (by omega) (by omega) (by omega)
      (fun y hy => by rw [show A.1 + hint + 0 = A.1 + hint by omega, hx] at hy; cases hy; exact hcx)
    rw [q1]
    simp only [Option.bind_some]
    generalize ho2 : (if ofs > A.2 - hint then A.2 - hint else ofs) = o2
    have ho3 : last < o2 ∧ o2 ≤ A.2 - hint ∧ (o2 < A.2 - hint → o2 = ofs) := by
      split at ho2 <;> omega
    refine gallopSearch_spec c arr A.1 A.2 h0 hl hm (arr.length + 1) (last + hint + 1) (o2 + hint) (by omega) (by omega)
      (by omega) (by omega) ?_ ?_
    · intro i y i1 i2 i3
      obtain ⟨u, hu⟩ := rd_ex (a := arr) (i := A.1 + hint + last) (by omega) (by omega)
      cases hy : c y
      · rfl
      · have := hm i (A.1 + hint + last) y u i1 (by omega) (by omega) i3 hu hy
        rw [q5 u hu] at this; cases this
    · intro i y i1 i2 i3
      have e1 := ho3.2.2 (by omega)
      subst e1
      obtain ⟨u, hu⟩ := rd_ex (a := arr) (i := A.1 + hint + o2) (by omega) (by omega)
      exact hm (A.1 + hint + o2) i u y (by omega) (by omega) i2 hu i3 (q6 (by omega) u hu)
  · rw [if_pos rfl]
    obtain ⟨ofs, last, q1, q2, q3, q4, q5, q6⟩ := gallopLeft_spec c arr A.1 hint (hint + 1) h0 (by omega) rfl
      (arr.length + 1) 1 0 (Int.le_refl _) (by omega) (by omega) (by omega)
      (fun y hy => by rw [show A.1 + hint - 0 = A.1 + hint by omega, hx] at hy; cases hy; exact hcx)
    rw [q1]
    simp only [Option.bind_some]
    generalize ho2 : (if ofs > hint + 1 then hint + 1 else ofs) = o2
    have ho3 : last < o2 ∧ o2 ≤ hint + 1 ∧ (o2 < hint + 1 → o2 = ofs) := by
      split at ho2 <;> omega
    refine gallopSearch_spec c arr A.1 A.2 h0 hl hm (arr.length + 1) (hint - o2 + 1) (hint - last) (by omega) (by omega)
      (by omega) (by omega) ?_ ?_
    · intro i y i1 i2 i3
      have e1 := ho3.2.2 (by omega)
      subst e1
      obtain ⟨u, hu⟩ := rd_ex (a := arr) (i := A.1 + hint - o2) (by omega) (by omega)
      cases hy : c y
      · rfl
      · have := hm i (A.1 + hint - o2) y u i1 (by omega) (by omega) i3 hu hy
        rw [q6 (by omega) u hu] at this; cases this
    · intro i y i1 i2 i3
      obtain ⟨u, hu⟩ := rd_ex (a := arr) (i := A.1 + hint - last) (by omega) (by omega)
      exact hm (A.1 + hint - last) i u y (by omega) (by omega) i2 hu i3 (q5 u hu)

theorem mono_of_sorted (ho : SWO lt) {a : List α} {b e : Int} (hs : SortedSeg lt a b e) (left : Bool) (key : α) :
    Mono (modComp lt left key) a b e := by
  intro i j x y h1 h2 h3 h4 h5 h6
  by_cases hij : i = j
  · subst hij; rw [h4] at h5; cases h5; exact h6
  · have hyx := hs i j x y h1 (by omega) h3 h4 h5
    unfold modComp at *
    cases left
    · simp only [Bool.false_eq_true, if_false] at h6 ⊢
      exact ho.lt_of_lt_of_le h6 hyx
    · simp only [if_true, Bool.not_eq_true'] at h6 ⊢
      exact ho.negTrans hyx h6

end Codon.Sort
