import Verif.Sort.Insertion

/-! `_qsort` -/

set_option linter.unusedSectionVars false
set_option linter.unusedSimpArgs false

namespace Codon.Sort

variable {α : Type} {lt : α → α → Bool}

/-- `_med3` answers one of the three indices, and not the middle one when that element is below both
others. -/
theorem med3_spec (ho : SWO lt) {d : List α} {a b c : Int} {x y z : α} (hx : rd d a = some x) (hy : rd d b = some y)
    (hz : rd d c = some z) :
    ∃ r, med3 lt a b c d = some r ∧ (r = a ∨ r = b ∨ r = c) ∧
      (lt y x = true → lt y z = true → r = a ∨ r = c) := by
  unfold med3
  rw [hx, hy, hz]
  simp only [Option.bind_eq_bind, Option.bind_some, Option.pure_def, le_iff ho, Bool.not_not]
  split
  · rename_i h
    refine ⟨_, rfl, ?_, ?_⟩
    · split
      · exact Or.inr (Or.inl rfl)
      · split
        · exact Or.inr (Or.inr rfl)
        · exact Or.inl rfl
    · intro h1; rw [ho.asymm h] at h1; cases h1
  · refine ⟨_, rfl, ?_, ?_⟩
    · split
      · exact Or.inr (Or.inl rfl)
      · split
        · exact Or.inr (Or.inr rfl)
        · exact Or.inl rfl
    · intro _ h2
      rw [if_neg (by rw [ho.asymm h2]; simp)]
      split
      · exact Or.inr rfl
      · exact Or.inl rfl

/-- Everything before the segment is strictly below everything in it. -/
def Below (lt : α → α → Bool) (a : List α) (b e : Int) : Prop :=
  ∀ p q x y, p < b → b ≤ q → q < e → rd a p = some x → rd a q = some y → lt x y = true

theorem qPivot_spec (ho : SWO lt) {a : List α} {b n : Int} (hb : 0 ≤ b) (hn : 7 < n) (he : b + n ≤ a.length)
    (hbl : Below lt a b (b + n)) : ∃ r, qPivot lt a b n = some r ∧ b ≤ r ∧ r < b + n := by
  unfold qPivot
  have hd2 : Int.tdiv n 2 = n / 2 := Int.tdiv_eq_ediv_of_nonneg (by omega)
  have hd8 : Int.tdiv n 8 = n / 8 := Int.tdiv_eq_ediv_of_nonneg (by omega)
  dsimp only
  rw [hd2, hd8]
  have fin : ∀ lo mid hi, b ≤ lo → lo < b + n → 0 ≤ mid → mid < b + n → b ≤ hi → hi < b + n →
      ∃ r, med3 lt lo mid hi a = some r ∧ b ≤ r ∧ r < b + n := by
    intro lo mid hi h1 h2 h3 h4 h5 h6
    obtain ⟨x, hx⟩ := rd_ex (a := a) (i := lo) (by omega) (by omega)
    obtain ⟨y, hy⟩ := rd_ex (a := a) (i := mid) (by omega) (by omega)
    obtain ⟨z, hz⟩ := rd_ex (a := a) (i := hi) (by omega) (by omega)
    obtain ⟨r, r1, r2, r3⟩ := med3_spec ho hx hy hz
    refine ⟨r, r1, ?_⟩
    by_cases hm : mid < b
    · have := r3 (hbl mid lo y x hm h1 h2 hy hx) (hbl mid hi y z hm h5 h6 hy hz)
      omega
    · omega
  by_cases hc : n > 40
  · rw [if_pos hc]
    obtain ⟨x1, hx1⟩ := rd_ex (a := a) (i := b) (by omega) (by omega)
    obtain ⟨x2, hx2⟩ := rd_ex (a := a) (i := b + n / 8) (by omega) (by omega)
    obtain ⟨x3, hx3⟩ := rd_ex (a := a) (i := b + 2 * (n / 8)) (by omega) (by omega)
    obtain ⟨lo, l1, l2, -⟩ := med3_spec ho hx1 hx2 hx3
    obtain ⟨y1, hy1⟩ := rd_ex (a := a) (i := n / 2 - n / 8) (by omega) (by omega)
    obtain ⟨y2, hy2⟩ := rd_ex (a := a) (i := n / 2) (by omega) (by omega)
    obtain ⟨y3, hy3⟩ := rd_ex (a := a) (i := n / 2 + n / 8) (by omega) (by omega)
    obtain ⟨mid, m1, m2, -⟩ := med3_spec ho hy1 hy2 hy3
    obtain ⟨z1, hz1⟩ := rd_ex (a := a) (i := b + n - 1 - 2 * (n / 8)) (by omega) (by omega)
    obtain ⟨z2, hz2⟩ := rd_ex (a := a) (i := b + n - 1 - n / 8) (by omega) (by omega)
    obtain ⟨z3, hz3⟩ := rd_ex (a := a) (i := b + n - 1) (by omega) (by omega)
    obtain ⟨hi, i1, i2, -⟩ := med3_spec ho hz1 hz2 hz3
    rw [l1, m1, i1]
    simp only [Option.bind_eq_bind, Option.bind_some]
    exact fin lo mid hi (by omega) (by omega) (by omega) (by omega) (by omega) (by omega)
  · rw [if_neg hc]
    exact fin b (n / 2) (b + n - 1) (by omega) (by omega) (by omega) (by omega) (by omega) (by omega)

theorem vecswap_spec : ∀ (n : Nat) (i j : Int) (a : List α), 0 ≤ i → i + n ≤ j → j + n ≤ a.length →
    ∃ a', vecswap n i j a = some a' ∧ a'.Perm a ∧
      ∀ k, rd a' k = if i ≤ k ∧ k < i + n then rd a (k - i + j)
        else if j ≤ k ∧ k < j + n then rd a (k - j + i) else rd a k := by
  intro n
  induction n with
  | zero =>
    intro i j a h1 h2 h3
    refine ⟨a, rfl, List.Perm.refl _, ?_⟩
    intro k
    rw [if_neg (by omega), if_neg (by omega)]
  | succ n ih =>
    intro i j a h1 h2 h3
    unfold vecswap
    obtain ⟨a', s1, s2, s3, s4⟩ := swap_ok (a := a) (i := i) (j := j) (by omega) (by omega) (by omega) (by omega)
    rw [s1]
    simp only [Option.bind_eq_bind, Option.bind_some]
    obtain ⟨a'', q1, q2, q3⟩ := ih (i + 1) (j + 1) a' (by omega) (by omega) (by omega)
    refine ⟨a'', q1, q2.trans s2, ?_⟩
    intro k
    rw [q3 k, s4, s4, s4]
    by_cases c1 : k = i
    · subst c1
      rw [if_neg (by omega), if_neg (by omega), if_neg (by omega), if_pos rfl, if_pos (by omega)]
      congr 1; omega
    · by_cases c2 : i + 1 ≤ k ∧ k < i + 1 + n
      · rw [if_pos c2, if_neg (by omega), if_neg (by omega), if_pos (by omega)]
        congr 1; omega
      · rw [if_neg c2]
        by_cases c3 : k = j
        · subst c3
          rw [if_neg (by omega), if_pos rfl, if_neg (by omega), if_pos (by omega)]
          congr 1; omega
        · by_cases c4 : j + 1 ≤ k ∧ k < j + 1 + n
          · rw [if_pos c4, if_neg (by omega), if_neg (by omega), if_neg (by omega), if_pos (by omega)]
            congr 1; omega
          · rw [if_neg c4, if_neg c3, if_neg c1, if_neg (by omega), if_neg (by omega)]

def EqP (lt : α → α → Bool) (p x : α) : Prop := lt x p = false ∧ lt p x = false

/-- The state of the partition loop: `== < ??? > ==`. -/
structure QInv (lt : α → α → Bool) (a : List α) (f hi : Int) (p : α) (ia b c d : Int) : Prop where
  r1 : f ≤ ia
  r2 : ia ≤ b
  r3 : b ≤ c + 1
  r4 : c ≤ d
  r5 : d < hi
  piv : rd a f = some p
  s1 : AllSeg (EqP lt p) a f ia
  s2 : AllSeg (fun x => lt x p = true) a ia b
  s3 : AllSeg (fun x => lt p x = true) a (c + 1) (d + 1)
  s4 : AllSeg (EqP lt p) a (d + 1) hi

theorem qUp_spec (ho : SWO lt) (f hi : Int) (p : α) (c d : Int) (hf : 0 ≤ f) : ∀ (n : Nat) (a : List α) (ia b : Int),
    hi ≤ a.length → c + 1 - b < n ∧ 0 < n → (ia = f → b = f) → QInv lt a f hi p ia b c d →
    ∃ a' ia' b', qUp lt f n a ia b c = some (a', ia', b') ∧ Rearr a a' f hi ∧ QInv lt a' f hi p ia' b' c d ∧
      b ≤ b' ∧ ia ≤ ia' ∧ (b ≤ c → ia = f → f < ia') ∧ (b' ≤ c → ∀ x, rd a' b' = some x → lt p x = true) := by
  intro n
  induction n with
  | zero => intro a ia b h1 h2; omega
  | succ n ih =>
    intro a ia b h1 h2 h3 h4
    unfold qUp
    have R1 := h4.r1
    have R2 := h4.r2
    have R3 := h4.r3
    have R4 := h4.r4
    have R5 := h4.r5
    by_cases hbc : b ≤ c
    · rw [if_pos hbc, h4.piv]
      obtain ⟨x, hx⟩ := rd_ex (a := a) (i := b) (by omega) (by omega)
      rw [hx]
      simp only [Option.bind_eq_bind, Option.bind_some, le_iff ho]
      cases l1 : lt p x
      · simp only [Bool.not_false, if_true]
        cases l2 : keq lt x p
        · -- strictly less
          simp only [Bool.false_eq_true, if_false]
          have l3 : lt x p = true := by
            unfold keq at l2; rw [l1] at l2
            cases h : lt x p
            · rw [h] at l2; cases l2
            · rfl
          have hne : ia ≠ f := by
            intro h
            have := h3 h
            rw [this, h4.piv] at hx; cases hx
            rw [ho.irrefl] at l3; cases l3
          obtain ⟨a', ia', b', q1, q2, q3, q4, q5, q6, q7⟩ := ih a ia (b + 1) h1 (by omega) (fun h => absurd h hne)
            ⟨R1, by omega, by omega, R4, R5, h4.piv, h4.s1, by
              intro k y k1 k2 k3
              by_cases hk : k = b
              · subst hk; rw [hx] at k3; cases k3; exact l3
              · exact h4.s2 k y k1 (by omega) k3, h4.s3, h4.s4⟩
          exact ⟨a', ia', b', q1, q2, q3, by omega, q5, fun _ h => absurd h hne, q7⟩
        · -- equal
          simp only [if_true]
          rw [keq_iff] at l2
          obtain ⟨a1, s1, s2, s3⟩ := swap_rearr (a := a) (i := ia) (j := b) (b := f) (e := hi) hf h1 (by omega) (by omega)
          rw [s1, Option.bind_some]
          have hpv : rd a1 f = some p := by
            rw [s3 f]
            by_cases c1 : f = b
            · have : ia = f := by omega
              rw [if_pos c1, this, h4.piv]
            · rw [if_neg c1]
              by_cases c2 : f = ia
              · exact absurd (h3 c2.symm) (Ne.symm c1)
              · rw [if_neg c2, h4.piv]
          obtain ⟨a', ia', b', q1, q2, q3, q4, q5, q6, q7⟩ := ih a1 (ia + 1) (b + 1) (by rw [s2.length]; exact h1)
            (by omega) (by omega)
            ⟨by omega, by omega, by omega, R4, R5, hpv, by
              intro k y k1 k2 k3
              rw [s3 k] at k3
              by_cases c1 : k = b
              · rw [if_pos c1] at k3
                have : ia = b := by omega
                rw [this, hx] at k3; cases k3; exact l2
              · rw [if_neg c1] at k3
                by_cases c2 : k = ia
                · rw [if_pos c2, hx] at k3; cases k3; exact l2
                · rw [if_neg c2] at k3
                  exact h4.s1 k y k1 (by omega) k3, by
              intro k y k1 k2 k3
              rw [s3 k] at k3
              by_cases c1 : k = b
              · rw [if_pos c1] at k3
                exact h4.s2 ia y (by omega) (by omega) k3
              · rw [if_neg c1, if_neg (by omega)] at k3
                exact h4.s2 k y (by omega) (by omega) k3, by
              intro k y k1 k2 k3
              rw [s3 k, if_neg (by omega), if_neg (by omega)] at k3
              exact h4.s3 k y k1 k2 k3, by
              intro k y k1 k2 k3
              rw [s3 k, if_neg (by omega), if_neg (by omega)] at k3
              exact h4.s4 k y k1 k2 k3⟩
          exact ⟨a', ia', b', q1, s2.trans q2, q3, by omega, by omega, by omega, q7⟩
      · simp only [Bool.not_true, Bool.false_eq_true, if_false]
        refine ⟨a, ia, b, rfl, Rearr.refl _ _ _, h4, Int.le_refl _, Int.le_refl _, ?_, ?_⟩
        · intro _ h
          have := h3 h
          rw [this, h4.piv] at hx; cases hx
          rw [ho.irrefl] at l1; cases l1
        · intro _ y hy
          rw [hx] at hy; cases hy; exact l1
    · rw [if_neg hbc]
      exact ⟨a, ia, b, rfl, Rearr.refl _ _ _, h4, Int.le_refl _, Int.le_refl _, fun h => absurd h hbc,
        fun h => absurd h hbc⟩

theorem qDown_spec (ho : SWO lt) (f hi : Int) (p : α) (ia b : Int) (hf : 0 ≤ f) : ∀ (n : Nat) (a : List α) (c d : Int),
    hi ≤ a.length → c + 1 - b < n ∧ 0 < n → f < ia → QInv lt a f hi p ia b c d →
    ∃ a' c' d', qDown lt f n a b c d = some (a', c', d') ∧ Rearr a a' f hi ∧ QInv lt a' f hi p ia b c' d' ∧
      c' ≤ c ∧ (b ≤ c' → ∀ x, rd a' c' = some x → lt x p = true) ∧
      (b ≤ c' → rd a' b = rd a b ∨ c' < c) ∧
      ((∀ x, rd a b = some x → lt p x = true) → b ≤ c' → ∀ x, rd a' b = some x → lt p x = true) := by
  intro n
  induction n with
  | zero => intro a c d h1 h2; omega
  | succ n ih =>
    intro a c d h1 h2 h3 h4
    unfold qDown
    have R1 := h4.r1
    have R2 := h4.r2
    have R3 := h4.r3
    have R4 := h4.r4
    have R5 := h4.r5
    by_cases hbc : c ≥ b
    · rw [if_pos hbc, h4.piv]
      obtain ⟨x, hx⟩ := rd_ex (a := a) (i := c) (by omega) (by omega)
      rw [hx]
      simp only [Option.bind_eq_bind, Option.bind_some]
      cases l1 : lt x p
      · simp only [Bool.not_false, if_true]
        cases l2 : keq lt x p
        · -- strictly greater
          simp only [Bool.false_eq_true, if_false]
          have l3 : lt p x = true := by
            unfold keq at l2; rw [l1] at l2
            cases h : lt p x
            · rw [h] at l2; cases l2
            · rfl
          obtain ⟨a', c', d', q1, q2, q3, q4, q5, q6, q7⟩ := ih a (c - 1) d h1 (by omega) h3
            ⟨R1, R2, by omega, by omega, R5, h4.piv, h4.s1, h4.s2, by
              intro k y k1 k2 k3
              by_cases hk : k = c
              · subst hk; rw [hx] at k3; cases k3; exact l3
              · exact h4.s3 k y (by omega) (by omega) k3, h4.s4⟩
          exact ⟨a', c', d', q1, q2, q3, by omega, q5, fun _ => Or.inr (by omega), q7⟩
        · -- equal
          simp only [if_true]
          rw [keq_iff] at l2
          obtain ⟨a1, s1, s2, s3⟩ := swap_rearr (a := a) (i := c) (j := d) (b := f) (e := hi) hf h1 (by omega) (by omega)
          rw [s1, Option.bind_some]
          have hpv : rd a1 f = some p := by
            rw [s3 f, if_neg (by omega), if_neg (by omega), h4.piv]
          obtain ⟨a', c', d', q1, q2, q3, q4, q5, q6, q7⟩ := ih a1 (c - 1) (d - 1) (by rw [s2.length]; exact h1)
            (by omega) h3
            ⟨R1, R2, by omega, by omega, by omega, hpv, by
              intro k y k1 k2 k3
              rw [s3 k, if_neg (by omega), if_neg (by omega)] at k3
              exact h4.s1 k y k1 k2 k3, by
              intro k y k1 k2 k3
              rw [s3 k, if_neg (by omega), if_neg (by omega)] at k3
              exact h4.s2 k y k1 k2 k3, by
              intro k y k1 k2 k3
              rw [s3 k] at k3
              by_cases c1 : k = d
              · omega
              · rw [if_neg c1] at k3
                by_cases c2 : k = c
                · rw [if_pos c2] at k3
                  exact h4.s3 d y (by omega) (by omega) k3
                · rw [if_neg c2] at k3
                  exact h4.s3 k y (by omega) (by omega) k3, by
              intro k y k1 k2 k3
              rw [s3 k] at k3
              by_cases c1 : k = d
              · rw [if_pos c1, hx] at k3; cases k3; exact l2
              · rw [if_neg c1, if_neg (by omega)] at k3
                exact h4.s4 k y (by omega) (by omega) k3⟩
          refine ⟨a', c', d', q1, s2.trans q2, q3, by omega, q5, fun _ => Or.inr (by omega), ?_⟩
          intro hb hbc' y hy
          refine q7 ?_ hbc' y hy
          intro z hz
          rw [s3 b, if_neg (by omega), if_neg (by omega)] at hz
          exact hb z hz
      · simp only [Bool.not_true, Bool.false_eq_true, if_false]
        refine ⟨a, c, d, rfl, Rearr.refl _ _ _, h4, Int.le_refl _, ?_, fun _ => Or.inl rfl, fun h _ => h⟩
        intro _ y hy
        rw [hx] at hy; cases hy; exact l1
    · rw [if_neg hbc]
      exact ⟨a, c, d, rfl, Rearr.refl _ _ _, h4, Int.le_refl _, by omega, fun _ => Or.inl rfl, fun h _ => h⟩

theorem qPart_spec (ho : SWO lt) (f hi : Int) (p : α) (hf : 0 ≤ f) : ∀ (n : Nat) (a : List α) (ia b c d : Int),
    hi ≤ a.length → c + 1 - b < n ∧ 0 < n → (ia = f → b = f ∧ b ≤ c) → QInv lt a f hi p ia b c d →
    ∃ a' ia' b' c' d', qPart lt f n a ia b c d = some (a', ia', b', c', d') ∧ Rearr a a' f hi ∧
      QInv lt a' f hi p ia' b' c' d' ∧ f < ia' ∧ b' = c' + 1 := by
  intro n
  induction n with
  | zero => intro a ia b c d h1 h2; omega
  | succ n ih =>
    intro a ia b c d h1 h2 h3 h4
    unfold qPart
    have R3 := h4.r3
    have R1 := h4.r1
    have R2 := h4.r2
    have R4 := h4.r4
    have R5 := h4.r5
    obtain ⟨a1, ia1, b1, u1, u2, u3, u4, u5, u6, u7⟩ := qUp_spec ho f hi p c d hf (a.length + 1) a ia b h1
      (by omega) (fun h => (h3 h).1) h4
    rw [u1]
    simp only [Option.bind_eq_bind, Option.bind_some]
    have hia : f < ia1 := by
      by_cases h : ia = f
      · exact u6 (h3 h).2 h
      · omega
    have R1' := u3.r3
    have R2' := u3.r2
    obtain ⟨a2, c2, d2, v1, v2, v3, v4, v5, v6, v7⟩ := qDown_spec ho f hi p ia1 b1 hf (a1.length + 1) a1 c d
      (by rw [u2.length]; exact h1) (by rw [u2.length]; omega) hia u3
    rw [v1]
    simp only [Option.bind_some]
    have R3' := v3.r3
    have R4' := v3.r4
    have R5' := v3.r5
    by_cases hbc : b1 > c2
    · rw [if_pos hbc]
      exact ⟨a2, ia1, b1, c2, d2, rfl, u2.trans v2, v3, hia, by omega⟩
    · rw [if_neg hbc]
      have hl2 : hi ≤ a2.length := by rw [v2.length, u2.length]; exact h1
      obtain ⟨x, hx⟩ := rd_ex (a := a2) (i := b1) (by omega) (by omega)
      obtain ⟨y, hy⟩ := rd_ex (a := a2) (i := c2) (by omega) (by omega)
      have lx : lt p x = true := v7 (u7 (by omega)) (by omega) x hx
      have ly : lt y p = true := v5 (by omega) y hy
      have hne : b1 ≠ c2 := by
        intro h; rw [h, hy] at hx; cases hx
        rw [ho.asymm lx] at ly; cases ly
      obtain ⟨a3, s1, s2, s3⟩ := swap_rearr (a := a2) (i := b1) (j := c2) (b := f) (e := hi) hf hl2 (by omega) (by omega)
      rw [s1, Option.bind_some]
      obtain ⟨a4, ia4, b4, c4, d4, w1, w2, w3, w4, w5⟩ := ih a3 ia1 (b1 + 1) (c2 - 1) d2 (by rw [s2.length]; exact hl2)
        (by omega) (by omega)
        ⟨v3.r1, by omega, by omega, by omega, R5',
          by rw [s3 f, if_neg (by omega), if_neg (by omega), v3.piv], by
          intro k z k1 k2 k3
          rw [s3 k, if_neg (by omega), if_neg (by omega)] at k3
          exact v3.s1 k z k1 k2 k3, by
          intro k z k1 k2 k3
          rw [s3 k, if_neg (by omega)] at k3
          by_cases c1 : k = b1
          · rw [if_pos c1, hy] at k3; cases k3; exact ly
          · rw [if_neg c1] at k3
            exact v3.s2 k z k1 (by omega) k3, by
          intro k z k1 k2 k3
          rw [s3 k] at k3
          by_cases c1 : k = c2
          · rw [if_pos c1, hx] at k3; cases k3; exact lx
          · rw [if_neg c1, if_neg (by omega)] at k3
            exact v3.s3 k z (by omega) k2 k3, by
          intro k z k1 k2 k3
          rw [s3 k, if_neg (by omega), if_neg (by omega)] at k3
          exact v3.s4 k z k1 k2 k3⟩
      exact ⟨a4, ia4, b4, c4, d4, w1, (u2.trans v2).trans (s2.trans w2), w3, w4, w5⟩

theorem SortedSeg.of_eq (ho : SWO lt) {a : List α} {b e : Int} {p : α} (h : AllSeg (EqP lt p) a b e) :
    SortedSeg lt a b e := by
  intro i j x y h1 h2 h3 h4 h5
  exact ho.negTrans (h j y (by omega) h3 h5).1 (h i x h1 (by omega) h4).2

theorem Below.sub {a : List α} {b e b' e' : Int} (h : Below lt a b e) (hb : b ≤ b') (he : e' ≤ e)
    (h2 : ∀ p q x y, b ≤ p → p < b' → b' ≤ q → q < e' → rd a p = some x → rd a q = some y → lt x y = true) :
    Below lt a b' e' := by
  intro p q x y h3 h4 h5 h6 h7
  by_cases c : p < b
  · exact h p q x y c (by omega) (by omega) h6 h7
  · exact h2 p q x y (by omega) h3 h4 h5 h6 h7

theorem Below.rearr {a a' : List α} {b e : Int} (h : Below lt a b e) (hr : Rearr a a' b e) (hb : 0 ≤ b)
    (hbe : b ≤ e) (he : e ≤ a.length) : Below lt a' b e := by
  intro p q x y h1 h2 h3 h4 h5
  rw [hr.out p (by omega)] at h4
  have : AllSeg (fun y => lt x y = true) a b e := fun i z i1 i2 i3 => h p i x z h1 i1 i2 h4 i3
  exact this.rearr hr hb hbe he q y h2 h3 h5

theorem qsort_spec (ho : SWO lt) : ∀ (n : Nat) (a : List α) (f c : Int),
    0 ≤ f → 0 ≤ c → f + c ≤ a.length → c < n → Below lt a f (f + c) →
    ∃ a', qsort lt n a f c = some a' ∧ Rearr a a' f (f + c) ∧ SortedSeg lt a' f (f + c) := by
  intro n
  induction n with
  | zero => intro a f c h1 h2 h3 h4; omega
  | succ n ih =>
    intro a f c h1 h2 h3 h4 h5
    unfold qsort
    by_cases hc : c ≤ 7
    · rw [if_pos hc]
      exact qSmall_spec ho f c h1 (a.length + 1) a (f + 1) (by omega) h3 (by omega) (SortedSeg.short (Int.le_refl _))
    · rw [if_neg hc]
      obtain ⟨mid, m1, m2, m3⟩ := qPivot_spec ho h1 (by omega) h3 h5
      rw [m1]
      simp only [Option.bind_eq_bind, Option.bind_some]
      obtain ⟨a1, s1, s2, s3⟩ := swap_rearr (a := a) (i := f) (j := mid) (b := f) (e := f + c) h1 h3 (by omega) (by omega)
      rw [s1, Option.bind_some]
      obtain ⟨p, hp⟩ := rd_ex (a := a1) (i := f) h1 (by rw [s2.length]; omega)
      obtain ⟨a2, ia, b, cc, d, u1, u2, u3, u4, u5⟩ := qPart_spec ho f (f + c) p h1 (a1.length + 1) a1 f f (f + c - 1) (f + c - 1)
        (by rw [s2.length]; exact h3) (by rw [s2.length]; omega) (by omega)
        ⟨Int.le_refl _, Int.le_refl _, by omega, Int.le_refl _, by omega, hp,
          fun k y k1 k2 => by omega, fun k y k1 k2 => by omega, fun k y k1 k2 => by omega,
          fun k y k1 k2 => by omega⟩
      rw [u1]
      simp only [Option.bind_some]
      have R1 := u3.r1
      have R2 := u3.r2
      have R3 := u3.r3
      have R4 := u3.r4
      have R5 := u3.r5
      have hl2 : a2.length = a.length := by rw [u2.length, s2.length]
      -- first exchange of blocks
      generalize hsp1 : min (ia - f) (b - ia) = sp1
      obtain ⟨a3, v1, v2, v3⟩ := vecswap_spec sp1.toNat f (b - sp1) a2 h1 (by omega) (by omega)
      rw [v1, Option.bind_some]
      generalize hsp2 : min (d - cc) (f + c - d - 1) = sp2
      have hl3 : a3.length = a.length := by rw [v2.length_eq, hl2]
      obtain ⟨a4, w1, w2, w3⟩ := vecswap_spec sp2.toNat b (f + c - sp2) a3 (by omega) (by omega) (by omega)
      rw [w1, Option.bind_some]
      have hl4 : a4.length = a.length := by rw [w2.length_eq, hl3]
      have hR4 : Rearr a2 a4 f (f + c) := by
        refine ⟨w2.trans v2, ?_⟩
        intro k hk
        rw [w3 k, if_neg (by omega), if_neg (by omega), v3 k, if_neg (by omega), if_neg (by omega)]
      -- the four blocks
      have B1 : AllSeg (fun x => lt x p = true) a4 f (f + (b - ia)) := by
        intro k x k1 k2 k3
        rw [w3 k, if_neg (by omega), if_neg (by omega), v3 k] at k3
        split at k3
        · exact u3.s2 _ x (by omega) (by omega) k3
        · rw [if_neg (by omega)] at k3
          exact u3.s2 _ x (by omega) (by omega) k3
      have B2 : AllSeg (EqP lt p) a4 (f + (b - ia)) (f + c - (d - cc)) := by
        intro k x k1 k2 k3
        rw [w3 k] at k3
        split at k3
        · rw [v3, if_neg (by omega), if_neg (by omega)] at k3
          exact u3.s4 _ x (by omega) (by omega) k3
        · split at k3
          · omega
          · rw [v3] at k3
            split at k3
            · omega
            · split at k3
              · exact u3.s1 _ x (by omega) (by omega) k3
              · by_cases hkb : k < b
                · exact u3.s1 _ x (by omega) (by omega) k3
                · exact u3.s4 _ x (by omega) (by omega) k3
      have B3 : AllSeg (fun x => lt p x = true) a4 (f + c - (d - cc)) (f + c) := by
        intro k x k1 k2 k3
        rw [w3 k] at k3
        split at k3
        · omega
        · split at k3
          · rw [v3, if_neg (by omega), if_neg (by omega)] at k3
            exact u3.s3 _ x (by omega) (by omega) k3
          · rw [v3, if_neg (by omega), if_neg (by omega)] at k3
            exact u3.s3 _ x (by omega) (by omega) k3
      have hR : Rearr a a4 f (f + c) := (s2.trans u2).trans hR4
      have hB4 : Below lt a4 f (f + c) := h5.rearr hR h1 (by omega) h3
      -- first call
      have call1 : ∃ a5, (if b - ia > 1 then qsort lt n a4 f (b - ia) else some a4) = some a5 ∧
          Rearr a4 a5 f (f + (b - ia)) ∧ SortedSeg lt a5 f (f + (b - ia)) := by
        by_cases hs : b - ia > 1
        · rw [if_pos hs]
          exact ih a4 f (b - ia) h1 (by omega) (by omega) (by omega)
            (hB4.sub (Int.le_refl _) (by omega) (fun p q x y i1 i2 => by omega))
        · rw [if_neg hs]
          exact ⟨a4, rfl, Rearr.refl _ _ _, SortedSeg.short (by omega)⟩
      obtain ⟨a5, x1, x2, x3⟩ := call1
      rw [x1, Option.bind_some]
      have hl5 : a5.length = a.length := by rw [x2.length, hl4]
      have C1 := B1.rearr x2 h1 (by omega) (by omega)
      have C2 := B2.outside x2 (Or.inr (Int.le_refl _))
      have C3 := B3.outside x2 (Or.inr (by omega))
      have x2' := x2.mono (b' := f) (e' := f + c) (Int.le_refl _) (by omega)
      have hB5 : Below lt a5 f (f + c) := hB4.rearr x2' h1 (by omega) (by omega)
      have call2 : ∃ a6, (if d - cc > 1 then qsort lt n a5 (f + c - (d - cc)) (d - cc) else some a5) = some a6 ∧
          Rearr a5 a6 (f + c - (d - cc)) (f + c) ∧ SortedSeg lt a6 (f + c - (d - cc)) (f + c) := by
        by_cases hs : d - cc > 1
        · rw [if_pos hs]
          have e1 : f + c - (d - cc) + (d - cc) = f + c := by omega
          have := ih a5 (f + c - (d - cc)) (d - cc) (by omega) (by omega) (by omega) (by omega) (by
            rw [e1]
            refine hB5.sub (by omega) (Int.le_refl _) ?_
            intro i j x y i1 i2 i3 i4 i5 i6
            have hy := C3 j y i3 i4 i6
            have hx : lt p x = false := by
              by_cases hi : i < f + (b - ia)
              · exact ho.asymm (C1 i x i1 hi i5)
              · exact (C2 i x (by omega) i2 i5).2
            exact ho.lt_of_le_of_lt hx hy)
          rw [e1] at this
          exact this
        · rw [if_neg hs]
          exact ⟨a5, rfl, Rearr.refl _ _ _, SortedSeg.short (by omega)⟩
      obtain ⟨a6, y1, y2, y3⟩ := call2
      refine ⟨a6, y1, hR.trans (x2'.trans (y2.mono (by omega) (Int.le_refl _))), ?_⟩
      have D1 := C1.outside y2 (Or.inl (by omega))
      have D2 := C2.outside y2 (Or.inl (Int.le_refl _))
      have D3 := C3.rearr y2 (by omega) (by omega) (by omega)
      have S1 := x3.outside y2 (Or.inl (by omega))
      have S2 := SortedSeg.of_eq ho D2
      have G1 : SortedSeg lt a6 f (f + c - (d - cc)) :=
        SortedSeg.glue ho p S1 S2 (D1.imp fun x h => ho.asymm h) (D2.imp fun x h => h.1)
      refine SortedSeg.glue ho p G1 y3 ?_ (D3.imp fun x h => ho.asymm h)
      intro k x k1 k2 k3
      by_cases hk : k < f + (b - ia)
      · exact ho.asymm (D1 k x k1 hk k3)
      · exact (D2 k x (by omega) k2 k3).2

theorem qsortArray_spec (ho : SWO lt) (a : List α) :
    ∃ a', qsortArray lt a = some a' ∧ a'.Perm a ∧ SortedSeg lt a' 0 a.length := by
  unfold qsortArray
  obtain ⟨a', q1, q2, q3⟩ := qsort_spec ho (a.length + 1) a 0 a.length (Int.le_refl _) (by omega) (by omega) (by omega)
    (fun p q x y h1 h2 h3 h4 => by have := (rd_lt h4).1; omega)
  refine ⟨a', q1, q2.perm, ?_⟩
  simpa using q3

end Codon.Sort
