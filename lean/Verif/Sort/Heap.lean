import Verif.Sort.Base

/-! `_heap_sort` -/

set_option linter.unusedSectionVars false
set_option linter.unusedSimpArgs false

namespace Codon.Sort

variable {α : Type} {lt : α → α → Bool}

/-- Parents from `s` on are not less than their children below `e`, except perhaps at `h`. -/
def HeapBut (lt : α → α → Bool) (a : List α) (s e h : Int) : Prop :=
  ∀ p c x y, s ≤ p → p ≠ h → (c = 2 * p + 1 ∨ c = 2 * p + 2) → c < e → rd a p = some x → rd a c = some y →
    lt x y = false

def Heap (lt : α → α → Bool) (a : List α) (s e : Int) : Prop :=
  ∀ p c x y, s ≤ p → (c = 2 * p + 1 ∨ c = 2 * p + 2) → c < e → rd a p = some x → rd a c = some y →
    lt x y = false

theorem heapRoot_spec (ho : SWO lt) {a : List α} {h e : Int} (h0 : 0 ≤ h) (he : e ≤ a.length) :
    ∃ r, heapRoot lt a h e = some r ∧ (r = h ∨ (r = 2 * h + 1 ∨ r = 2 * h + 2) ∧ r < e) ∧
      (∀ c x y, (c = h ∨ c = 2 * h + 1 ∨ c = 2 * h + 2) → c < e → rd a r = some x → rd a c = some y →
        lt x y = false) ∧
      (r ≠ h → ∀ x y, rd a h = some x → rd a r = some y → lt x y = true) := by
  unfold heapRoot
  by_cases c1 : 2 * h + 1 < e
  · obtain ⟨x, hx⟩ := rd_ex (a := a) (i := h) (by omega) (by omega)
    obtain ⟨y, hy⟩ := rd_ex (a := a) (i := 2 * h + 1) (by omega) (by omega)
    simp only [c1, if_true, hx, hy, Option.bind_eq_bind, Option.bind_some, Option.pure_def]
    by_cases c2 : 2 * h + 2 < e
    · obtain ⟨z, hz⟩ := rd_ex (a := a) (i := 2 * h + 2) (by omega) (by omega)
      simp only [c2, if_true]
      cases l1 : lt x y
      · simp only [Bool.false_eq_true, if_false, hx, hz, Option.bind_some]
        cases l2 : lt x z
        · simp only [Bool.false_eq_true, if_false]
          refine ⟨h, rfl, Or.inl rfl, ?_, by simp⟩
          intro c u v hc hce hu hv
          rw [hx] at hu; cases hu
          rcases hc with rfl | rfl | rfl
          · rw [hx] at hv; cases hv; exact ho.irrefl _
          · rw [hy] at hv; cases hv; exact l1
          · rw [hz] at hv; cases hv; exact l2
        · simp only [if_true]
          refine ⟨2 * h + 2, rfl, Or.inr ⟨Or.inr rfl, c2⟩, ?_, ?_⟩
          · intro c u v hc hce hu hv
            rw [hz] at hu; cases hu
            rcases hc with rfl | rfl | rfl
            · rw [hx] at hv; cases hv; exact ho.asymm l2
            · rw [hy] at hv; cases hv; exact ho.negTrans (ho.asymm l2) l1
            · rw [hz] at hv; cases hv; exact ho.irrefl _
          · intro _ u v hu hv
            cases hu
            rw [hz] at hv; cases hv
            exact l2
      · simp only [if_true, hy, hz, Option.bind_some]
        cases l2 : lt y z
        · simp only [Bool.false_eq_true, if_false]
          refine ⟨2 * h + 1, rfl, Or.inr ⟨Or.inl rfl, c1⟩, ?_, ?_⟩
          · intro c u v hc hce hu hv
            rw [hy] at hu; cases hu
            rcases hc with rfl | rfl | rfl
            · rw [hx] at hv; cases hv; exact ho.asymm l1
            · rw [hy] at hv; cases hv; exact ho.irrefl _
            · rw [hz] at hv; cases hv; exact l2
          · intro _ u v hu hv
            cases hu
            rw [hy] at hv; cases hv
            exact l1
        · simp only [if_true]
          refine ⟨2 * h + 2, rfl, Or.inr ⟨Or.inr rfl, c2⟩, ?_, ?_⟩
          · intro c u v hc hce hu hv
            rw [hz] at hu; cases hu
            rcases hc with rfl | rfl | rfl
            · rw [hx] at hv; cases hv; exact ho.asymm (ho.trans l1 l2)
            · rw [hy] at hv; cases hv; exact ho.asymm l2
            · rw [hz] at hv; cases hv; exact ho.irrefl _
          · intro _ u v hu hv
            cases hu
            rw [hz] at hv; cases hv
            exact ho.trans l1 l2
    · simp only [c2, if_false]
      cases l1 : lt x y
      · simp only [Bool.false_eq_true, if_false]
        refine ⟨h, rfl, Or.inl rfl, ?_, by simp⟩
        intro c u v hc hce hu hv
        rw [hx] at hu; cases hu
        rcases hc with rfl | rfl | rfl
        · rw [hx] at hv; cases hv; exact ho.irrefl _
        · rw [hy] at hv; cases hv; exact l1
        · omega
      · simp only [if_true]
        refine ⟨2 * h + 1, rfl, Or.inr ⟨Or.inl rfl, c1⟩, ?_, ?_⟩
        · intro c u v hc hce hu hv
          rw [hy] at hu; cases hu
          rcases hc with rfl | rfl | rfl
          · rw [hx] at hv; cases hv; exact ho.asymm l1
          · rw [hy] at hv; cases hv; exact ho.irrefl _
          · omega
        · intro _ u v hu hv
          cases hu
          rw [hy] at hv; cases hv
          exact l1
  · simp only [c1, if_false, Option.bind_eq_bind, Option.bind_some, Option.pure_def]
    rw [if_neg (by omega)]
    refine ⟨h, rfl, Or.inl rfl, ?_, by simp⟩
    intro c u v hc hce hu hv
    rcases hc with rfl | rfl | rfl
    · rw [hu] at hv; cases hv; exact ho.irrefl _
    · omega
    · omega

theorem heapify_spec (ho : SWO lt) (s e : Int) (hs : 0 ≤ s) : ∀ (n : Nat) (a : List α) (h : Int),
    s ≤ h → e ≤ a.length → e - h < n ∧ 0 < n → HeapBut lt a s e h →
    (∀ g c x y, s ≤ g → (h = 2 * g + 1 ∨ h = 2 * g + 2) → (c = 2 * h + 1 ∨ c = 2 * h + 2) → c < e →
      rd a g = some x → rd a c = some y → lt x y = false) →
    ∃ a', heapify lt e n a h = some a' ∧ Rearr a a' s e ∧ Heap lt a' s e := by
  intro n
  induction n with
  | zero => intro a h h1 h2 h3; omega
  | succ n ih =>
    intro a h h1 h2 h3 h4 h5
    unfold heapify
    obtain ⟨r, r1, r2, r3, r4⟩ := heapRoot_spec ho (a := a) (h := h) (e := e) (by omega) h2
    rw [r1]
    simp only [Option.bind_eq_bind, Option.bind_some]
    by_cases hr : r ≠ h
    · rw [if_pos hr]
      have hre : r < e := by omega
      obtain ⟨a', s1, s2, s3⟩ := swap_rearr (a := a) (i := h) (j := r) hs h2 (by omega) (by omega)
      rw [s1, Option.bind_some]
      obtain ⟨ah, hah⟩ := rd_ex (a := a) (i := h) (by omega) (by omega)
      obtain ⟨ar, har⟩ := rd_ex (a := a) (i := r) (by omega) (by omega)
      obtain ⟨a'', q1, q2, q3⟩ := ih a' r (by omega) (by rw [s2.length]; exact h2) (by omega) (by
        intro p c x y g1 g2 g3 g4 g5 g6
        rw [s3 p, if_neg g2] at g5
        rw [s3 c] at g6
        by_cases cp : p = h
        · subst cp
          rw [if_pos rfl] at g5
          by_cases cc : c = r
          · rw [if_pos cc] at g6
            exact ho.asymm (r4 hr _ _ g6 g5)
          · rw [if_neg cc, if_neg (by omega)] at g6
            exact r3 c x y (Or.inr g3) g4 g5 g6
        · rw [if_neg cp] at g5
          by_cases cc : c = r
          · omega
          · rw [if_neg cc] at g6
            by_cases cc2 : c = h
            · rw [if_pos cc2] at g6
              exact h5 p r x y g1 (by omega) (by omega) hre g5 g6
            · rw [if_neg cc2] at g6
              exact h4 p c x y g1 cp g3 g4 g5 g6) (by
        intro g c x y g1 g2 g3 g4 g5 g6
        have : g = h := by omega
        subst this
        rw [s3 g, if_neg (by omega), if_pos rfl] at g5
        rw [s3 c, if_neg (by omega), if_neg (by omega)] at g6
        exact h4 r c x y (by omega) hr g3 g4 g5 g6)
      exact ⟨a'', q1, s2.trans q2, q3⟩
    · rw [if_neg hr]
      refine ⟨a, rfl, Rearr.refl _ _ _, ?_⟩
      have : r = h := by omega
      subst this
      intro p c x y g1 g2 g3 g4 g5
      by_cases cp : p = r
      · subst cp
        exact r3 c x y (Or.inr g2) g3 g4 g5
      · exact h4 p c x y g1 cp g2 g3 g4 g5

theorem heapBuild_spec (ho : SWO lt) (e : Int) : ∀ (n : Nat) (a : List α) (i : Int),
    e ≤ a.length → i + 1 < n ∧ 0 < n → -1 ≤ i → Heap lt a (i + 1) e →
    ∃ a', heapBuild lt e n a i = some a' ∧ Rearr a a' 0 e ∧ Heap lt a' 0 e := by
  intro n
  induction n with
  | zero => intro a i h1 h2; omega
  | succ n ih =>
    intro a i h1 h2 h3 h4
    unfold heapBuild
    by_cases hi : i ≥ 0
    · rw [if_pos hi]
      obtain ⟨a', q1, q2, q3⟩ := heapify_spec ho i e hi (a.length + 1) a i (Int.le_refl _) h1 (by omega)
        (fun p c x y g1 g2 g3 g4 g5 g6 => h4 p c x y (by omega) g3 g4 g5 g6)
        (fun g c x y g1 g2 => by omega)
      rw [q1]
      simp only [Option.bind_eq_bind, Option.bind_some]
      obtain ⟨a'', r1, r2, r3⟩ := ih a' (i - 1) (by rw [q2.length]; exact h1) (by omega) (by omega)
        (by rw [show i - 1 + 1 = i by omega]; exact q3)
      exact ⟨a'', r1, (q2.mono (by omega) (Int.le_refl _)).trans r2, r3⟩
    · rw [if_neg hi]
      have : i + 1 = 0 := by omega
      rw [this] at h4
      exact ⟨a, rfl, Rearr.refl _ _ _, h4⟩

theorem heap_root (ho : SWO lt) {a : List α} {e : Int} (he : e ≤ a.length) (hh : Heap lt a 0 e) {x : α}
    (hx : rd a 0 = some x) : ∀ (n : Nat) (i : Int) (y : α), i = n → i < e → rd a i = some y → lt x y = false := by
  intro n
  induction n using Nat.strongRecOn with
  | ind n ih =>
    intro i y hi hie hy
    by_cases h0 : i = 0
    · subst h0; rw [hx] at hy; cases hy; exact ho.irrefl _
    · have hp : (((n - 1) / 2 : Nat) : Int) < e := by omega
      obtain ⟨z, hz⟩ := rd_ex (a := a) (i := (((n - 1) / 2 : Nat) : Int)) (by omega) (by omega)
      have s1 := ih ((n - 1) / 2) (by omega) _ z rfl hp hz
      have s2 := hh _ i z y (by omega) (by omega) hie hz hy
      exact ho.negTrans s1 s2

theorem heapExtract_spec (ho : SWO lt) : ∀ (n : Nat) (a : List α) (i : Int),
    i < a.length → -1 ≤ i → i + 1 < n → Heap lt a 0 (i + 1) →
    (∀ p q x y, p < q → i < q → rd a p = some x → rd a q = some y → lt y x = false) →
    ∃ a', heapExtract lt n a i = some a' ∧ a'.Perm a ∧ SortedSeg lt a' 0 a.length := by
  intro n
  induction n with
  | zero => intro a i h1 h2 h3; omega
  | succ n ih =>
    intro a i h1 h2 h3 h4 h5
    unfold heapExtract
    by_cases hi : i ≥ 0
    · rw [if_pos hi]
      obtain ⟨a', s1, s2, s3⟩ := swap_rearr (a := a) (i := i) (j := 0) (b := 0) (e := i + 1) (by omega) (by omega) (by omega) (by omega)
      rw [s1]
      simp only [Option.bind_eq_bind, Option.bind_some]
      have s3i : rd a' i = rd a 0 := by
        rw [s3 i]
        split
        · rename_i h; rw [h]
        · rw [if_pos rfl]
      obtain ⟨a'', q1, q2, q3⟩ := heapify_spec ho 0 i (Int.le_refl _) (a'.length + 1) a' 0 (Int.le_refl _)
        (by rw [s2.length]; omega) (by rw [s2.length]; omega)
        (by
          intro p c x y g1 g2 g3 g4 g5 g6
          rw [s3 p, if_neg g2, if_neg (by omega)] at g5
          rw [s3 c, if_neg (by omega), if_neg (by omega)] at g6
          exact h4 p c x y g1 g3 (by omega) g5 g6)
        (fun g c x y g1 g2 => by omega)
      rw [q1]
      simp only [Option.bind_some]
      obtain ⟨x0, hx0⟩ := rd_ex (a := a) (i := 0) (by omega) (by omega)
      have hlen : a''.length = a.length := by rw [q2.length, s2.length]
      have hle0 : AllSeg (fun x => lt x0 x = false) a'' 0 i := by
        have : AllSeg (fun x => lt x0 x = false) a 0 (i + 1) := by
          intro k x g1 g2 g3
          exact heap_root ho (e := i + 1) (by omega) h4 hx0 k.toNat k x (by omega) g2 g3
        have := this.rearr s2 (Int.le_refl _) (by omega) (by omega)
        have := this.sub (b' := 0) (e' := i) (Int.le_refl _) (by omega)
        exact this.rearr q2 (Int.le_refl _) hi (by rw [s2.length]; omega)
      obtain ⟨a3, r1, r2, r3⟩ := ih a'' (i - 1) (by omega) (by omega) (by omega)
        (by rw [show i - 1 + 1 = i by omega]; exact q3) (by
          intro p q x y g1 g2 g3 g4
          by_cases cq : q = i
          · subst cq
            rw [q2.out q (by omega), s3i, hx0] at g4; cases g4
            exact hle0 p x (rd_lt g3).1 g1 g3
          · have hq : rd a q = some y := by
              rw [q2.out q (by omega), s2.out q (by omega)] at g4; exact g4
            by_cases cp : p < i + 1
            · have : AllSeg (fun x => lt y x = false) a 0 (i + 1) := by
                intro k z k1 k2 k3
                exact h5 k q z y (by omega) (by omega) k3 hq
              have := this.rearr s2 (Int.le_refl _) (by omega) (by omega)
              have := this.rearr' q2 (Int.le_refl _) hi (by rw [s2.length]; omega) (Int.le_refl _) (by omega)
              exact this p x (rd_lt g3).1 cp g3
            · rw [q2.out p (by omega), s2.out p (by omega)] at g3
              exact h5 p q x y g1 (by omega) g3 hq)
      refine ⟨a3, r1, r2.trans (q2.perm.trans s2.perm), ?_⟩
      rw [hlen] at r3
      exact r3
    · rw [if_neg hi]
      refine ⟨a, rfl, List.Perm.refl _, ?_⟩
      intro p q x y g1 g2 g3 g4 g5
      exact h5 p q x y g2 (by omega) g4 g5

theorem heapSortSlice_spec (ho : SWO lt) (a : List α) :
    ∃ a', heapSortSlice lt a = some a' ∧ a'.Perm a ∧ SortedSeg lt a' 0 a.length := by
  unfold heapSortSlice
  have hd : Int.tdiv (a.length : Int) 2 = ((a.length / 2 : Nat) : Int) := by
    rw [Int.tdiv_eq_ediv_of_nonneg (by omega)]; omega
  dsimp only
  rw [hd]
  obtain ⟨a', q1, q2, q3⟩ := heapBuild_spec ho a.length (a.length + 1) a (((a.length / 2 : Nat) : Int) - 1)
    (Int.le_refl _) (by omega) (by omega) (by
      intro p c x y g1 g2 g3 g4 g5
      omega)
  rw [q1]
  simp only [Option.bind_eq_bind, Option.bind_some]
  obtain ⟨a'', r1, r2, r3⟩ := heapExtract_spec ho (a'.length + 1) a' ((a.length : Int) - 1) (by rw [q2.length]; omega)
    (by omega) (by rw [q2.length]; omega) (by rw [show (a.length : Int) - 1 + 1 = a.length by omega]; exact q3)
    (by
      intro p q x y g1 g2 g3 g4
      have := (rd_lt g4).2
      rw [q2.length] at this
      omega)
  rw [q2.length] at r1 r3
  rw [q2.length]
  exact ⟨a'', r1, r2.trans q2.perm, r3⟩

/-- A list with a segment replaced. -/
theorem replace_seg {a s : List α} {b e : Int} (hb : 0 ≤ b) (hbe : b ≤ e) (he : e ≤ a.length)
    (hp : s.Perm (seg a b e)) :
    Rearr a (a.take b.toNat ++ s ++ a.drop e.toNat) b e ∧
    ∀ n : Nat, b + n < e → rd (a.take b.toNat ++ s ++ a.drop e.toNat) (b + n) = s[n]? := by
  have hl : (s.length : Int) = e - b := by rw [hp.length_eq]; exact seg_length hb hbe he
  have htl : (a.take b.toNat).length = b.toNat := by simp; omega
  refine ⟨⟨?_, ?_⟩, ?_⟩
  · conv => rhs; rw [seg_eq hb hbe he]
    rw [List.append_assoc]
    exact (hp.append_right _).append_left _
  · intro i hi
    by_cases h0 : 0 ≤ i
    · unfold rd
      rw [if_pos h0, if_pos h0]
      rcases hi with hi | hi
      · rw [List.append_assoc, List.getElem?_append_left (by omega), List.getElem?_take, if_pos (by omega)]
      · rw [List.getElem?_append_right (by simp; omega), List.getElem?_drop]
        congr 1
        simp; omega
    · rw [rd_none (by omega), rd_none (by omega)]
  · intro n hn
    unfold rd
    rw [if_pos (by omega), List.append_assoc, List.getElem?_append_right (by omega),
      List.getElem?_append_left (by omega), htl]
    congr 1; omega

/-- `_heap_sort` puts the segment in order. -/
theorem heapSort_spec (ho : SWO lt) {a : List α} {b e : Int} (hb : 0 ≤ b) (hbe : b ≤ e) (he : e ≤ a.length) :
    ∃ a', heapSort lt a b e = some a' ∧ Rearr a a' b e ∧ SortedSeg lt a' b e := by
  unfold heapSort
  by_cases h : e - b < 2
  · rw [if_pos h]
    exact ⟨a, rfl, Rearr.refl _ _ _, SortedSeg.short (by omega)⟩
  · rw [if_neg h, if_pos ⟨hb, he⟩]
    have hs : (a.drop b.toNat).take (e - b).toNat = seg a b e := by
      unfold seg
      rw [List.drop_take]
      congr 1; omega
    rw [hs]
    obtain ⟨s, q1, q2, q3⟩ := heapSortSlice_spec ho (seg a b e)
    rw [q1]
    simp only [Option.bind_eq_bind, Option.bind_some, Option.pure_def]
    obtain ⟨w1, w2⟩ := replace_seg hb hbe he q2
    refine ⟨_, rfl, w1, ?_⟩
    rw [seg_length hb hbe he] at q3
    intro i j x y g1 g2 g3 g4 g5
    have e1 := w2 (i - b).toNat (by omega)
    have e2 := w2 (j - b).toNat (by omega)
    rw [show b + ((i - b).toNat : Int) = i by omega, g4] at e1
    rw [show b + ((j - b).toNat : Int) = j by omega, g5] at e2
    exact q3 (i - b).toNat (j - b).toNat x y (by omega) (by omega) (by omega) (by rw [rd_nat]; exact e1.symm)
      (by rw [rd_nat]; exact e2.symm)

end Codon.Sort
