import Verif.Sort.Base

/-! Insertion: `_insertion_sort`, the small case of `_qsort` and `_partial_insertion_sort` all move
one element left past greater ones. -/

set_option linter.unusedSectionVars false
set_option linter.unusedSimpArgs false

namespace Codon.Sort

variable {α : Type} {lt : α → α → Bool}

/-- Everything in order, except that the element at `h` may be less than elements before it. -/
def Almost (lt : α → α → Bool) (v : List α) (b e h : Int) : Prop :=
  ∀ p q x y, b ≤ p → p < q → q < e → q ≠ h → rd v p = some x → rd v q = some y → lt y x = false

theorem Almost.start {v : List α} {b i : Int} (h : SortedSeg lt v b i) : Almost lt v b (i + 1) i := by
  intro p q x y h1 h2 h3 h4 h5 h6
  exact h p q x y h1 h2 (by omega) h5 h6

theorem Almost.step (ho : SWO lt) {v v' : List α} {b e j : Int} {x y : α} (h : Almost lt v b e (j + 1))
    (hbj : b ≤ j) (hje : j + 1 < e) (hy : rd v j = some y) (hx : rd v (j + 1) = some x)
    (hlt : lt x y = true)
    (hv : ∀ k, rd v' k = if k = j then rd v (j + 1) else if k = j + 1 then rd v j else rd v k) :
    Almost lt v' b e j := by
  intro p q z w h1 h2 h3 h4 h5 h6
  rw [hv p] at h5
  rw [hv q, if_neg h4] at h6
  by_cases cq : q = j + 1
  · rw [if_pos cq, hy] at h6
    cases h6
    by_cases cp : p = j
    · rw [if_pos cp, hx] at h5; cases h5
      exact ho.asymm hlt
    · rw [if_neg cp, if_neg (by omega)] at h5
      exact h p j z y h1 (by omega) (by omega) (by omega) h5 hy
  · rw [if_neg cq] at h6
    by_cases cp : p = j
    · rw [if_pos cp] at h5
      exact h (j + 1) q z w (by omega) (by omega) h3 cq h5 h6
    · rw [if_neg cp] at h5
      by_cases cp2 : p = j + 1
      · rw [if_pos cp2] at h5
        exact h j q z w hbj (by omega) h3 cq h5 h6
      · rw [if_neg cp2] at h5
        exact h p q z w h1 h2 h3 cq h5 h6

theorem Almost.done_first {v : List α} {b e : Int} (h : Almost lt v b e b) : SortedSeg lt v b e := by
  intro p q x y h1 h2 h3 h4 h5
  exact h p q x y h1 h2 h3 (by omega) h4 h5

theorem Almost.done (ho : SWO lt) {v : List α} {b e j : Int} {x y : α} (h : Almost lt v b e (j + 1))
    (hje : j + 1 < e) (hy : rd v j = some y) (hx : rd v (j + 1) = some x) (hlt : lt x y = false) :
    SortedSeg lt v b e := by
  intro p q z w h1 h2 h3 h4 h5
  by_cases cq : q = j + 1
  · subst cq
    rw [hx] at h5; cases h5
    by_cases cp : p = j
    · subst cp; rw [hy] at h4; cases h4; exact hlt
    · exact ho.negTrans hlt (h p j z y h1 (by omega) (by omega) (by omega) h4 hy)
  · exact h p q z w h1 h2 h3 cq h4 h5

/-- What an insertion of the element at `i` achieves. -/
structure Inserted (lt : α → α → Bool) (v v' : List α) (b e : Int) : Prop where
  rearr : Rearr v v' b e
  stab : Stab lt v v'
  sorted : SortedSeg lt v' b e

theorem Inserted.of_step (ho : SWO lt) {v v' v'' : List α} {b e j : Int} {x y : α}
    (hbj : b ≤ j) (hje : j + 1 < e) (hy : rd v j = some y) (hx : rd v (j + 1) = some x)
    (hlt : lt x y = true) (hp : v'.Perm v)
    (hv : ∀ k, rd v' k = if k = j then rd v (j + 1) else if k = j + 1 then rd v j else rd v k)
    (h : Inserted lt v' v'' b e) : Inserted lt v v'' b e :=
  ⟨Rearr.trans ⟨hp, fun k hk => by rw [hv k, if_neg (by omega), if_neg (by omega)]⟩ h.rearr,
   Stab.trans (Stab.swap ho hy hx hlt hv) h.stab, h.sorted⟩

/-- Moving the hole is swapping in the array with the element put into the hole. -/
theorem hole_swap {a : List α} {j : Int} {x y : α} (h0 : 0 ≤ j) (h1 : j + 1 < a.length)
    (hy : rd a j = some y) :
    (((a.set (j + 1).toNat y).set j.toNat x).Perm (a.set (j + 1).toNat x)) ∧
    ∀ k, rd ((a.set (j + 1).toNat y).set j.toNat x) k =
      if k = j then rd (a.set (j + 1).toNat x) (j + 1)
      else if k = j + 1 then rd (a.set (j + 1).toNat x) j else rd (a.set (j + 1).toNat x) k := by
  have hv : ∀ k, rd ((a.set (j + 1).toNat y).set j.toNat x) k =
      if k = j then rd (a.set (j + 1).toNat x) (j + 1)
      else if k = j + 1 then rd (a.set (j + 1).toNat x) j else rd (a.set (j + 1).toNat x) k := by
    intro k
    rw [rd_set h0 (by simp; omega), rd_set (by omega) h1, rd_set (by omega) h1, rd_set (by omega) h1,
      rd_set (by omega) h1, if_pos rfl, if_neg (show ¬ j = j + 1 by omega)]
    by_cases c1 : k = j
    · rw [if_pos c1, if_pos c1]
    · rw [if_neg c1, if_neg c1]
      by_cases c2 : k = j + 1
      · rw [if_pos c2, if_pos c2, hy]
      · rw [if_neg c2, if_neg c2, if_neg c2]
  refine ⟨?_, hv⟩
  obtain ⟨a', -, e2, -, e4⟩ := swap_ok (a := a.set (j + 1).toNat x) (i := j) (j := j + 1) h0
    (by simp; omega) (by omega) (by simp; omega)
  have : (a.set (j + 1).toNat y).set j.toNat x = a' := by
    apply list_ext_rd
    intro k
    rw [hv k, e4 k]
    by_cases c1 : k = j
    · rw [if_pos c1, if_neg (by omega), if_pos c1]
    · rw [if_neg c1]
      by_cases c2 : k = j + 1
      · rw [if_pos c2, if_pos c2]
      · rw [if_neg c2, if_neg c2, if_neg c1]
  rw [this]; exact e2

theorem insInner_spec (ho : SWO lt) (x : α) (b e : Int) (hb : 0 ≤ b) : ∀ (n : Nat) (a : List α) (j : Int),
    b - 1 ≤ j → j + 1 < e → e ≤ a.length → j + 1 - b < n →
    Almost lt (a.set (j + 1).toNat x) b e (j + 1) →
    ∃ a' j', insInner lt x b n a j = some (a', j') ∧ b - 1 ≤ j' ∧ j' ≤ j ∧ a'.length = a.length ∧
      Inserted lt (a.set (j + 1).toNat x) (a'.set (j' + 1).toNat x) b e := by
  intro n
  induction n with
  | zero => intro a j h1 h2 h3 h4; omega
  | succ n ih =>
    intro a j h1 h2 h3 h4 h5
    unfold insInner
    have hx : rd (a.set (j + 1).toNat x) (j + 1) = some x := by
      rw [rd_set (by omega) (by omega), if_pos rfl]
    by_cases hj : j ≥ b
    · rw [if_pos hj]
      obtain ⟨y, hy⟩ := rd_ex (a := a) (i := j) (by omega) (by omega)
      have hy' : rd (a.set (j + 1).toNat x) j = some y := by
        rw [rd_set (by omega) (by omega), if_neg (by omega), hy]
      rw [hy]
      simp only [Option.bind_eq_bind, Option.bind_some]
      cases hl : lt x y
      · rw [if_neg (by simp)]
        exact ⟨a, j, rfl, h1, Int.le_refl _, rfl, Rearr.refl _ _ _, Stab.refl _, h5.done ho h2 hy' hx hl⟩
      · rw [if_pos rfl, wr_ok (by omega) (by omega), Option.bind_some]
        obtain ⟨s1, s2⟩ := hole_swap (x := x) (show 0 ≤ j by omega) (by omega) hy
        have e1 : j - 1 + 1 = j := by omega
        obtain ⟨a', j', q1, q2, q3, q4, q5⟩ := ih (a.set (j + 1).toNat y) (j - 1) (by omega) (by omega)
          (by simpa using h3) (by omega) (by
            rw [e1]
            exact h5.step ho hj h2 hy' hx hl s2)
        rw [e1] at q5
        exact ⟨a', j', q1, q2, by omega, by simpa using q4, q5.of_step ho hj h2 hy' hx hl s1 s2⟩
    · rw [if_neg hj]
      have : j + 1 = b := by omega
      refine ⟨a, j, rfl, h1, Int.le_refl _, rfl, Rearr.refl _ _ _, Stab.refl _, ?_⟩
      rw [this] at h5 ⊢
      exact h5.done_first

theorem set_self {a : List α} {i : Int} {x : α} (h : rd a i = some x) : a.set i.toNat x = a := by
  rw [rd_some_iff] at h
  obtain ⟨h1, h2⟩ := List.getElem?_eq_some_iff.mp h.2
  rw [← h2, List.set_getElem_self]

theorem insOuter_spec (ho : SWO lt) (b e : Int) (hb : 0 ≤ b) : ∀ (n : Nat) (a : List α) (i : Int),
    b < i → e ≤ a.length → e - i < n ∧ 0 < n → SortedSeg lt a b i →
    ∃ a', insOuter lt b e n a i = some a' ∧ Rearr a a' b e ∧ Stab lt a a' ∧ SortedSeg lt a' b e := by
  intro n
  induction n with
  | zero =>
    intro a i h1 h2 h3 h4
    omega
  | succ n ih =>
    intro a i h1 h2 h3 h4
    unfold insOuter
    by_cases hi : i < e
    · rw [if_pos hi]
      obtain ⟨x, hx⟩ := rd_ex (a := a) (i := i) (by omega) (by omega)
      rw [hx]
      simp only [Option.bind_eq_bind, Option.bind_some]
      have e1 : i - 1 + 1 = i := by omega
      obtain ⟨a', j', q1, q2, q3, q4, q5⟩ := insInner_spec ho x b (i + 1) hb (a.length + 1) a (i - 1) (by omega)
        (by omega) (by omega) (by omega) (by rw [e1, set_self hx]; exact Almost.start h4)
      rw [e1, set_self hx] at q5
      rw [q1]
      simp only [Option.bind_some]
      rw [wr_ok (by omega) (by omega), Option.bind_some]
      obtain ⟨a'', r1, r2, r3, r4⟩ := ih (a'.set (j' + 1).toNat x) (i + 1) (by omega)
        (by simp; omega) (by omega) q5.sorted
      exact ⟨a'', r1, (q5.rearr.mono (Int.le_refl _) (by omega)).trans r2, q5.stab.trans r3, r4⟩
    · rw [if_neg hi]
      refine ⟨a, rfl, Rearr.refl _ _ _, Stab.refl _, ?_⟩
      intro p q x y g1 g2 g3 g4 g5
      exact h4 p q x y g1 g2 (by omega) g4 g5

/-- `_insertion_sort` puts the segment in order, keeping equal keys in their order. -/
theorem insertionSort_spec (ho : SWO lt) {a : List α} {b e : Int} (hb : 0 ≤ b) (hbe : b ≤ e)
    (he : e ≤ a.length) :
    ∃ a', insertionSort lt a b e = some a' ∧ Rearr a a' b e ∧ Stab lt a a' ∧ SortedSeg lt a' b e := by
  unfold insertionSort
  exact insOuter_spec ho b e hb (a.length + 1) a (b + 1) (by omega) he (by omega)
    (SortedSeg.short (Int.le_refl _))

/-! ### qsort's small case -/

theorem qInner_spec (ho : SWO lt) (b e : Int) (hb : 0 ≤ b) : ∀ (n : Nat) (a : List α) (j : Int),
    b ≤ j → j < e → e ≤ a.length → j - b < n → Almost lt a b e j →
    ∃ a', qInner lt b n a j = some a' ∧ Inserted lt a a' b e := by
  intro n
  induction n with
  | zero => intro a j h1 h2 h3 h4; omega
  | succ n ih =>
    intro a j h1 h2 h3 h4 h5
    unfold qInner
    by_cases hj : j > b
    · rw [if_pos hj]
      obtain ⟨y, hy⟩ := rd_ex (a := a) (i := j - 1) (by omega) (by omega)
      obtain ⟨x, hx⟩ := rd_ex (a := a) (i := j) (by omega) (by omega)
      rw [hy, hx]
      simp only [Option.bind_eq_bind, Option.bind_some]
      rw [not_le_iff ho]
      have e1 : j - 1 + 1 = j := by omega
      cases hl : lt x y
      · rw [if_neg (by simp)]
        refine ⟨a, rfl, Rearr.refl _ _ _, Stab.refl _, ?_⟩
        rw [← e1] at h5
        exact h5.done ho (by omega) hy (by rw [e1]; exact hx) hl
      · rw [if_pos rfl]
        obtain ⟨a', s1, s2, s3, s4⟩ := swap_ok (a := a) (i := j) (j := j - 1) (by omega) (by omega) (by omega) (by omega)
        rw [s1, Option.bind_some]
        have s4' : ∀ k, rd a' k = if k = j - 1 then rd a (j - 1 + 1) else if k = j - 1 + 1 then rd a (j - 1) else rd a k := by
          rw [e1]; exact s4
        rw [← e1] at hx h5
        obtain ⟨a'', q1, q2⟩ := ih a' (j - 1) (by omega) (by omega) (by omega) (by omega)
          (h5.step ho (by omega) (by omega) hy hx hl s4')
        exact ⟨a'', q1, q2.of_step ho (by omega) (by omega) hy hx hl s2 s4'⟩
    · rw [if_neg hj]
      have : j = b := by omega
      subst this
      exact ⟨a, rfl, Rearr.refl _ _ _, Stab.refl _, h5.done_first⟩

theorem qSmall_spec (ho : SWO lt) (b c : Int) (hb : 0 ≤ b) : ∀ (n : Nat) (a : List α) (i : Int),
    b < i → b + c ≤ a.length → b + c - i < n ∧ 0 < n → SortedSeg lt a b i →
    ∃ a', qSmall lt b c n a i = some a' ∧ Rearr a a' b (b + c) ∧ SortedSeg lt a' b (b + c) := by
  intro n
  induction n with
  | zero => intro a i h1 h2 h3 h4; omega
  | succ n ih =>
    intro a i h1 h2 h3 h4
    unfold qSmall
    by_cases hi : i < b + c
    · rw [if_pos hi]
      obtain ⟨a', q1, q2⟩ := qInner_spec ho b (i + 1) hb (a.length + 1) a i (by omega) (by omega) (by omega)
        (by omega) (Almost.start h4)
      rw [q1]
      simp only [Option.bind_eq_bind, Option.bind_some]
      obtain ⟨a'', r1, r2, r3⟩ := ih a' (i + 1) (by omega) (by rw [q2.rearr.length]; exact h2) (by omega) q2.sorted
      exact ⟨a'', r1, (q2.rearr.mono (Int.le_refl _) (by omega)).trans r2, r3⟩
    · rw [if_neg hi]
      refine ⟨a, rfl, Rearr.refl _ _ _, ?_⟩
      intro p q x y g1 g2 g3 g4 g5
      exact h4 p q x y g1 g2 (by omega) g4 g5

/-! ### pdqsort's partial insertion sort -/

theorem sift_spec (ho : SWO lt) (x : α) (b e : Int) (hb : 0 ≤ b) : ∀ (n : Nat) (a : List α) (s : Int) (y : α),
    b < s → s < e → e ≤ a.length → s - b < n + 1 → rd a (s - 1) = some y → lt x y = true →
    Almost lt (a.set s.toNat x) b e s →
    ∃ a' s', sift lt x b (n + 1) a s = some (a', s') ∧ b ≤ s' ∧ s' < s ∧ a'.length = a.length ∧
      Inserted lt (a.set s.toNat x) (a'.set s'.toNat x) b e := by
  intro n
  induction n with
  | zero => intro a s y h1 h2 h3 h4; omega
  | succ n ih =>
    intro a s y h1 h2 h3 h4 hy hl h5
    have e1 : s - 1 + 1 = s := by omega
    rw [sift, hy]
    simp only [Option.bind_eq_bind, Option.bind_some]
    rw [wr_ok (by omega) (by omega), Option.bind_some]
    obtain ⟨s1, s2⟩ := hole_swap (x := x) (show 0 ≤ s - 1 by omega) (by omega) hy
    rw [e1] at s1 s2
    have hx : rd (a.set s.toNat x) (s - 1 + 1) = some x := by
      rw [e1, rd_set (by omega) (by omega), if_pos rfl]
    have hy' : rd (a.set s.toNat x) (s - 1) = some y := by
      rw [rd_set (by omega) (by omega), if_neg (by omega), hy]
    have s2' : ∀ k, rd ((a.set s.toNat y).set (s - 1).toNat x) k = if k = s - 1 then rd (a.set s.toNat x) (s - 1 + 1)
        else if k = s - 1 + 1 then rd (a.set s.toNat x) (s - 1) else rd (a.set s.toNat x) k := by
      rw [e1]; exact s2
    have hal : Almost lt ((a.set s.toNat y).set (s - 1).toNat x) b e (s - 1) :=
      Almost.step ho (by rw [e1]; exact h5) (by omega) (by omega) hy' hx hl s2'
    by_cases hs : s - 1 = b
    · rw [if_pos hs]
      refine ⟨_, s - 1, rfl, by omega, by omega, by simp, ?_⟩
      refine Inserted.of_step ho (by omega) (by omega) hy' hx hl s1 s2' ⟨Rearr.refl _ _ _, Stab.refl _, ?_⟩
      rw [hs] at hal ⊢
      exact hal.done_first
    · rw [if_neg hs]
      have hr : ∀ k, k ≠ s → rd (a.set s.toNat y) k = rd a k := by
        intro k hk; rw [rd_set (by omega) (by omega), if_neg hk]
      obtain ⟨z, hz⟩ := rd_ex (a := a) (i := s - 1 - 1) (by omega) (by omega)
      rw [hr _ (by omega), hz, Option.bind_some]
      cases hl2 : lt x z
      · rw [if_pos (by rfl)]
        refine ⟨_, s - 1, rfl, by omega, by omega, by simp, ?_⟩
        refine Inserted.of_step ho (by omega) (by omega) hy' hx hl s1 s2' ⟨Rearr.refl _ _ _, Stab.refl _, ?_⟩
        have e2 : s - 1 - 1 + 1 = s - 1 := by omega
        have hal2 : Almost lt ((a.set s.toNat y).set (s - 1).toNat x) b e (s - 1 - 1 + 1) := by
          rw [e2]; exact hal
        refine hal2.done ho (y := z) (x := x) (by omega) ?_ ?_ hl2
        · rw [rd_set (by omega) (by simp; omega), if_neg (by omega), hr _ (by omega), hz]
        · rw [e2, rd_set (by omega) (by simp; omega), if_pos rfl]
      · rw [if_neg (by simp)]
        obtain ⟨a', s', q1, q2, q3, q4, q5⟩ := ih (a.set s.toNat y) (s - 1) z (by omega) (by omega)
          (by simp; omega) (by omega) (by rw [hr _ (by omega), hz]) hl2 hal
        exact ⟨a', s', q1, q2, by omega, by simpa using q4,
          q5.of_step ho (by omega) (by omega) hy' hx hl s1 s2'⟩

theorem pisLoop_spec (ho : SWO lt) (b e : Int) (hb : 0 ≤ b) : ∀ (n : Nat) (a : List α) (lim cur : Int),
    b < cur → cur ≤ e → e ≤ a.length → e - cur < n → SortedSeg lt a b cur →
    ∃ a' ok, pisLoop lt b e n a lim cur = some (a', ok) ∧ Rearr a a' b e ∧
      (ok = true → SortedSeg lt a' b e) := by
  intro n
  induction n with
  | zero => intro a lim cur h1 h2 h3 h4; omega
  | succ n ih =>
    intro a lim cur h1 h2 h3 h4 h5
    unfold pisLoop
    by_cases hc : cur ≠ e
    · rw [if_pos hc]
      by_cases hl : lim > 8
      · rw [if_pos hl]
        exact ⟨a, false, rfl, Rearr.refl _ _ _, by simp⟩
      · rw [if_neg hl]
        obtain ⟨x, hx⟩ := rd_ex (a := a) (i := cur) (by omega) (by omega)
        obtain ⟨y, hy⟩ := rd_ex (a := a) (i := cur - 1) (by omega) (by omega)
        rw [hx, hy]
        simp only [Option.bind_eq_bind, Option.bind_some]
        cases hlt : lt x y
        · rw [if_neg (by simp)]
          refine ih a lim (cur + 1) (by omega) (by omega) h3 (by omega) ?_
          have e1 : cur - 1 + 1 = cur := by omega
          have := Almost.start h5
          rw [← e1] at this hx
          have := this.done ho (by omega) hy hx hlt
          rwa [e1] at this
        · rw [if_pos rfl]
          obtain ⟨a', s', q1, q2, q3, q4, q5⟩ := sift_spec ho x b (cur + 1) hb a.length a cur y h1 (by omega) (by omega)
            (by omega) hy hlt (by rw [set_self hx]; exact Almost.start h5)
          rw [set_self hx] at q5
          rw [q1]
          simp only [Option.bind_some]
          rw [wr_ok (by omega) (by omega), Option.bind_some]
          obtain ⟨a'', ok, r1, r2, r3⟩ := ih (a'.set s'.toNat x) (lim + (cur - s')) (cur + 1) (by omega)
            (by omega) (by simp; omega) (by omega) q5.sorted
          exact ⟨a'', ok, r1, (q5.rearr.mono (Int.le_refl _) (by omega)).trans r2, r3⟩
    · rw [if_neg hc]
      have : cur = e := by omega
      subst this
      exact ⟨a, true, rfl, Rearr.refl _ _ _, fun _ => h5⟩

theorem partialInsertionSort_spec (ho : SWO lt) {a : List α} {b e : Int} (hb : 0 ≤ b) (hbe : b ≤ e)
    (he : e ≤ a.length) :
    ∃ a' ok, partialInsertionSort lt a b e = some (a', ok) ∧ Rearr a a' b e ∧
      (ok = true → SortedSeg lt a' b e) := by
  unfold partialInsertionSort
  by_cases h : b = e
  · rw [if_pos h]
    exact ⟨a, true, rfl, Rearr.refl _ _ _, fun _ => SortedSeg.short (by omega)⟩
  · rw [if_neg h]
    exact pisLoop_spec ho b e hb (a.length + 1) a 0 (b + 1) (by omega) (by omega) he (by omega)
      (SortedSeg.short (Int.le_refl _))

end Codon.Sort
