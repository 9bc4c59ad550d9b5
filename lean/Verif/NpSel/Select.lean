import Verif.NpSel.Pivot
/-! Correctness of the main loop of `_introselect`. -/
namespace Codon.NpSel
open Codon.Sort

variable {α : Type} {lt : α → α → Bool}

theorem Placed.rearr {a a' : List α} {b e l h k : Int} (hc : Placed lt a b e k) (hr : Rearr a a' l h) (h0 : 0 ≤ b) (hbl : b ≤ l) (hlh : l ≤ h) (hhe : h ≤ e) (hlen : e ≤ a.length)
    (hk : k < l ∨ h ≤ k) : Placed lt a' b e k :=
  ⟨hc.1.rearr hr h0 hbl hlh hhe hlen (by omega), hc.2.rearr hr h0 hbl hlh hhe hlen (by omega)⟩

/-- The pivots that are known: in ascending order, all above `kth` and `high`, and in their places. -/
def StackOk (lt : α → α → Bool) (a : List α) (b e kth high : Int) (piv : Option (List Int)) : Prop :=
  ∀ st, piv = some st → st.length ≤ maxPivots ∧ st.Pairwise (· ≤ ·) ∧ ∀ p ∈ st, kth < p ∧ high < p ∧ p < e ∧ Placed lt a b e p

theorem StackOk.rearr {a a' : List α} {b e kth low high : Int} {piv : Option (List Int)} (h : StackOk lt a b e kth high piv) (hr : Rearr a a' low (high + 1)) (h0 : 0 ≤ b) (hbl : b ≤ low)
    (hlh : low ≤ high + 1) (hhe : high + 1 ≤ e) (hlen : e ≤ a.length) : StackOk lt a' b e kth high piv := by
  intro st hs
  obtain ⟨h1, h2, h3⟩ := h st hs
  exact ⟨h1, h2, fun p hp => ⟨(h3 p hp).1, (h3 p hp).2.1, (h3 p hp).2.2.1, (h3 p hp).2.2.2.rearr hr h0 hbl hlh hhe hlen (Or.inr (by have := (h3 p hp).2.1; omega))⟩⟩

theorem StackOk.store {a : List α} {b e kth high hh : Int} {piv : Option (List Int)} (h : StackOk lt a b e kth high piv) (h1 : hh ≤ high) (h2 : high < e) (hp : Placed lt a b e hh) :
    StackOk lt a b e kth (if hh ≥ kth then hh - 1 else high) (if hh ≠ kth then storePivot hh kth piv else piv) := by
  intro st hs
  by_cases c : hh = kth
  · rw [if_neg (by simpa using c)] at hs
    obtain ⟨g1, g2, g3⟩ := h st hs
    refine ⟨g1, g2, fun p hp => ?_⟩
    have := g3 p hp
    rw [if_pos (by omega)]
    exact ⟨this.1, by omega, this.2.2⟩
  · rw [if_pos c] at hs
    cases piv with
    | none => simp [storePivot] at hs
    | some st0 =>
      obtain ⟨g1, g2, g3⟩ := h st0 rfl
      simp only [storePivot] at hs
      rw [if_neg (by omega)] at hs
      by_cases d : hh ≥ kth ∧ st0.length < maxPivots
      · rw [if_pos d] at hs
        cases hs
        rw [if_pos d.1]
        refine ⟨by have := d.2; simp only [List.length_cons]; omega, List.pairwise_cons.2 ⟨fun p hp => by have := g3 p hp; omega, g2⟩, ?_⟩
        intro p hp'
        rcases List.mem_cons.1 hp' with e1 | e1
        · rw [e1]; exact ⟨by omega, by omega, by omega, hp⟩
        · have := g3 p e1
          exact ⟨this.1, by omega, this.2.2⟩
      · rw [if_neg d] at hs
        cases hs
        refine ⟨g1, g2, fun p hp => ?_⟩
        have := g3 p hp
        refine ⟨this.1, ?_, this.2.2⟩
        by_cases q : hh ≥ kth
        · rw [if_pos q]; omega
        · rw [if_neg q]; omega

/-- What is known about the array, the bounds and the pivots at the beginning of each turn. -/
structure Inv (lt : α → α → Bool) (a : List α) (b e kth low high : Int) (piv : Option (List Int)) : Prop where
  len : e ≤ a.length
  bl : b ≤ low
  he : high < e
  cl : Cut lt a b e low
  ch : Cut lt a b e (high + 1)
  st : StackOk lt a b e kth high piv
  k : (low ≤ kth ∧ kth ≤ high) ∨ (Placed lt a b e kth ∧ kth < low)

/-- One turn: the part is split around a pivot. -/
theorem split_ok (ho : SWO lt) {isel : List α → Int → Nat → Int → Option (List α)} {bound : Nat} (hs : IselOk isel bound) {a : List α} {low high depth : Int} (h0 : 0 ≤ low)
    (hlh : low + 1 < high) (hlen : high < a.length) (hb : high - low ≤ bound) :
    ∃ a1 l1 r1 p a2 ll hh a3, choose lt isel a low high depth = some (a1, l1, r1) ∧ rd a1 low = some p ∧ unguarded lt p (a1.length + 1) a1 l1 r1 = some (a2, ll, hh) ∧
      swap a2 low hh = some a3 ∧ Rearr a a3 low (high + 1) ∧ low ≤ hh ∧ hh < ll ∧ low < ll ∧ ll ≤ high ∧ ∀ m, hh ≤ m → m ≤ ll → Cut lt a3 low (high + 1) m := by
  obtain ⟨a1, l1, r1, p, c1, c2, c3, c4, c5, c6, c7, c8, c9, c10⟩ := choose_ok ho hs (depth := depth) h0 hlh hlen hb
  have e1 := c2.length
  obtain ⟨a2, ll, hh, u1, u2, u3, u4, u5, u6, u7, u8, x, u9, u10⟩ :=
    unguarded_ok ho h0 (a1.length + 1) a1 l1 r1 (by omega) c3 c4 c5 c6 c7 (by omega) c8 c9 c10
  have e2 := u2.length
  obtain ⟨a3, s1, s2, s3⟩ := swap_rearr (a := a2) (b := low) (e := high + 1) (i := low) (j := hh) h0 (by omega) (by omega) (by omega)
  have hp2 : rd a2 low = some p := by rw [u2.out low (by omega)]; exact c3
  refine ⟨a1, l1, r1, p, a2, ll, hh, a3, c1, c3, u1, s1, (c2.trans (u2.mono (by omega) (by omega))).trans s2, u3, u4, u5, u6, ?_⟩
  have hA : ∀ i z, low ≤ i → i < ll → rd a3 i = some z → lt p z = false := by
    intro i z i1 i2 i3
    rw [s3 i] at i3
    by_cases d1 : i = hh
    · rw [if_pos d1, hp2] at i3
      cases i3
      exact ho.irrefl _
    · rw [if_neg d1] at i3
      by_cases d2 : i = low
      · rw [if_pos d2, u9] at i3
        cases i3
        exact u10
      · rw [if_neg d2] at i3
        exact u7 i z (by omega) i2 i3
  have hB : ∀ i z, hh ≤ i → i < high + 1 → rd a3 i = some z → lt z p = false := by
    intro i z i1 i2 i3
    rw [s3 i] at i3
    by_cases d1 : i = hh
    · rw [if_pos d1, hp2] at i3
      cases i3
      exact ho.irrefl _
    · rw [if_neg d1, if_neg (by omega)] at i3
      exact u8 i z (by omega) i2 i3
  intro m m1 m2 i j x y i1 i2 i3 i4 i5 i6
  exact ho.negTrans (hB j y (by omega) i4 i6) (hA i x i1 (by omega) i5)

theorem selLoop_ok (ho : SWO lt) {isel : List α → Int → Nat → Int → Option (List α)} {bound : Nat} (hs : IselOk isel bound) {b e kth : Int} (h0 : 0 ≤ b) (n : Nat) :
    ∀ (a : List α) (low high depth : Int) (piv : Option (List Int)), Inv lt a b e kth low high piv → high - low ≤ bound → high - low < n → 0 < n →
    ∃ a' low' high' piv', selLoop lt isel kth n a low high depth piv = some (a', low', high', piv') ∧ Inv lt a' b e kth low' high' piv' ∧ low ≤ low' ∧ high' ≤ high ∧ high' ≤ low' + 1 ∧
      (∀ l h, l ≤ low → high + 1 ≤ h → Rearr a a' l h) ∧ (piv' = none → piv = none) := by
  induction n with
  | zero => intro a low high depth piv _ _ _ h; omega
  | succ n ih =>
    intro a low high depth piv hi hb hf _
    unfold selLoop
    by_cases c : low + 1 < high
    · rw [if_pos c]
      have := hi.bl
      have := hi.he
      have := hi.len
      obtain ⟨a1, l1, r1, p, a2, ll, hh, a3, c1, c2, c3, c4, c5, c6, c7, c8, c9, c10⟩ := split_ok ho hs (a := a) (depth := depth) (by omega) c (by omega) hb
      have e3 := c5.length
      simp only [c1, c2, c3, c4, Option.bind_eq_bind, Option.bind_some]
      have k1 : Cut lt a3 b e low := hi.cl.rearr c5 h0 (by omega) (by omega) (by omega) (by omega) (by omega)
      have k2 : Cut lt a3 b e (high + 1) := hi.ch.rearr c5 h0 (by omega) (by omega) (by omega) (by omega) (by omega)
      have k3 : ∀ m, hh ≤ m → m ≤ ll → Cut lt a3 b e m := fun m m1 m2 => k1.compose k2 (by omega) (by omega) (c10 m m1 m2)
      have k4 : StackOk lt a3 b e kth high piv := hi.st.rearr c5 h0 (by omega) (by omega) (by omega) (by omega)
      have k5 := k4.store (hh := hh) (by omega) (by omega) ⟨k3 hh (by omega) (by omega), k3 (hh + 1) (by omega) (by omega)⟩
      have inv : Inv lt a3 b e kth (if hh ≤ kth then ll else low) (if hh ≥ kth then hh - 1 else high) (if hh ≠ kth then storePivot hh kth piv else piv) := by
        have hk := hi.k
        by_cases d1 : hh = kth
        · have g1 : hh ≤ kth := by omega
          have g2 : hh ≥ kth := by omega
          rw [if_pos g2] at k5 ⊢
          rw [if_pos g1]
          refine ⟨by omega, by omega, by omega, k3 ll (by omega) (by omega), ?_, k5, Or.inr ⟨⟨?_, ?_⟩, by omega⟩⟩
          · have := k3 hh (by omega) (by omega)
            simpa using this
          · rw [← d1]; exact k3 hh (by omega) (by omega)
          · rw [← d1]; exact k3 (hh + 1) (by omega) (by omega)
        · by_cases d2 : hh < kth
          · have g1 : hh ≤ kth := by omega
            have g2 : ¬ hh ≥ kth := by omega
            rw [if_neg g2] at k5 ⊢
            rw [if_pos g1]
            refine ⟨by omega, by omega, by omega, k3 ll (by omega) (by omega), k2, k5, ?_⟩
            by_cases d3 : kth < ll
            · exact Or.inr ⟨⟨k3 kth (by omega) (by omega), k3 (kth + 1) (by omega) (by omega)⟩, d3⟩
            · left
              rcases hk with hk | hk <;> omega
          · have g1 : ¬ hh ≤ kth := by omega
            have g2 : hh ≥ kth := by omega
            rw [if_pos g2] at k5 ⊢
            rw [if_neg g1]
            refine ⟨by omega, by omega, by omega, k1, ?_, k5, ?_⟩
            · have := k3 hh (by omega) (by omega)
              simpa using this
            · rcases hk with hk | hk
              · left; omega
              · right
                exact ⟨hk.1.rearr c5 h0 (by omega) (by omega) (by omega) (by omega) (Or.inl hk.2), hk.2⟩
      have hle : low ≤ (if hh ≤ kth then ll else low) ∧ (if hh ≥ kth then hh - 1 else high) ≤ high ∧
          (if hh ≥ kth then hh - 1 else high) - (if hh ≤ kth then ll else low) < high - low := by
        by_cases d1 : hh ≤ kth <;> by_cases d2 : hh ≥ kth <;> simp only [d1, d2, if_true, if_false] <;> omega
      have hpn : (if hh ≠ kth then storePivot hh kth piv else piv) = none → piv = none := by
        intro h
        cases piv with
        | none => rfl
        | some st =>
          by_cases d : hh ≠ kth
          · rw [if_pos d] at h
            simp only [storePivot] at h
            split at h <;> try split at h
            all_goals cases h
          · rw [if_neg d] at h
            cases h
      generalize (if hh ≠ kth then storePivot hh kth piv else piv) = piv1 at *
      generalize (if hh ≤ kth then ll else low) = low1 at *
      generalize (if hh ≥ kth then hh - 1 else high) = high1 at *
      obtain ⟨a', low', high', piv', q1, q2, q3, q4, q5, q6, q7⟩ := ih a3 low1 high1 (depth - 1) piv1 inv (by omega) (by omega) (by omega)
      exact ⟨a', low', high', piv', q1, q2, by omega, by omega, q5, fun l h l1 l2 => (c5.mono l1 l2).trans (q6 l h (by omega) (by omega)), fun h => hpn (q7 h)⟩
    · rw [if_neg c]
      exact ⟨a, low, high, piv, rfl, hi, by omega, by omega, by omega, fun l h _ _ => Rearr.refl _ _ _, id⟩

end Codon.NpSel
