import Verif.NpSort.Merge

/-! The galloping searches and `_merge_at`. -/

namespace Codon.NpSort
open Codon.Sort
variable {α : Type} {lt : α → α → Bool}

/-- A search between `l` (not `c`, or -1) and `r` (`c`, or the end). -/
theorem grSearch_spec (key : α) (a : List α) (a0 n0 : Int) (h0 : 0 ≤ a0) (hl : a0 + n0 ≤ a.length) (hm : Mono (lt key) a a0 (a0 + n0)) : ∀ (n : Nat) (l r : Int), -1 ≤ l → l < r → r ≤ n0 → r - l ≤ n →
    AllSeg (fun x => lt key x = false) a a0 (a0 + l + 1) → AllSeg (fun x => lt key x = true) a (a0 + r) (a0 + n0) →
    ∃ k, grSearch lt a a0 key n l r = some k ∧ 0 ≤ k ∧ k ≤ n0 ∧ AllSeg (fun x => lt key x = false) a a0 (a0 + k) ∧ AllSeg (fun x => lt key x = true) a (a0 + k) (a0 + n0) := by
  intro n
  induction n with
  | zero => intro l r h1 h2 h3 h4; omega
  | succ n ih =>
    intro l r h1 h2 h3 h4 h5 h6
    unfold grSearch
    by_cases hlt : l + 1 < r
    · rw [if_pos hlt]
      dsimp only
      generalize hmm : l + (r - l) / 2 = m
      obtain ⟨x, hx⟩ := rd_ex (a := a) (i := a0 + m) (by omega) (by omega)
      rw [hx]
      simp only [Option.bind_eq_bind, Option.bind_some]
      cases hc : lt key x
      · rw [if_neg (by simp)]
        refine ih m r (by omega) (by omega) h3 (by omega) ?_ h6
        intro i y i1 i2 i3
        cases hy : lt key y
        · rfl
        · have := hm i (a0 + m) y x i1 (by omega) (by omega) i3 hx hy
          rw [hc] at this; cases this
      · rw [if_pos rfl]
        refine ih l m h1 (by omega) (by omega) (by omega) h5 ?_
        intro i y i1 i2 i3
        exact hm (a0 + m) i x y (by omega) i1 i2 hx i3 hc
    · rw [if_neg hlt]
      have : r = l + 1 := by omega
      subst this
      exact ⟨l + 1, rfl, by omega, h3, by rw [← Int.add_assoc]; exact h5, h6⟩

theorem glSearch_spec (key : α) (a : List α) (a0 n0 : Int) (h0 : 0 ≤ a0) (hl : a0 + n0 ≤ a.length) (hm : Mono (fun x => !lt x key) a a0 (a0 + n0)) : ∀ (n : Nat) (l r : Int), -1 ≤ l → l < r → r ≤ n0 → r - l ≤ n →
    AllSeg (fun x => lt x key = true) a a0 (a0 + l + 1) → AllSeg (fun x => lt x key = false) a (a0 + r) (a0 + n0) →
    ∃ k, glSearch lt a a0 key n l r = some k ∧ 0 ≤ k ∧ k ≤ n0 ∧ AllSeg (fun x => lt x key = true) a a0 (a0 + k) ∧ AllSeg (fun x => lt x key = false) a (a0 + k) (a0 + n0) := by
  intro n
  induction n with
  | zero => intro l r h1 h2 h3 h4; omega
  | succ n ih =>
    intro l r h1 h2 h3 h4 h5 h6
    unfold glSearch
    by_cases hlt : l + 1 < r
    · rw [if_pos hlt]
      dsimp only
      generalize hmm : l + (r - l) / 2 = m
      obtain ⟨x, hx⟩ := rd_ex (a := a) (i := a0 + m) (by omega) (by omega)
      rw [hx]
      simp only [Option.bind_eq_bind, Option.bind_some]
      cases hc : lt x key
      · rw [if_neg (by simp)]
        refine ih l m h1 (by omega) (by omega) (by omega) h5 ?_
        intro i y i1 i2 i3
        have := hm (a0 + m) i x y (by omega) i1 i2 hx i3 (by simp [hc])
        simpa using this
      · rw [if_pos rfl]
        refine ih m r (by omega) (by omega) h3 (by omega) ?_ h6
        intro i y i1 i2 i3
        cases hy : lt y key
        · have := hm i (a0 + m) y x i1 (by omega) (by omega) i3 hx (by simp [hy])
          simp [hc] at this
        · rfl
    · rw [if_neg hlt]
      have : r = l + 1 := by omega
      subst this
      exact ⟨l + 1, rfl, by omega, h3, by rw [← Int.add_assoc]; exact h5, h6⟩

theorem grLoop_spec (key : α) (a : List α) (a0 n0 : Int) (h0 : 0 ≤ a0) (hl : a0 + n0 ≤ a.length) : ∀ (n : Nat) (l r : Int), 0 ≤ l → l < r → l < n0 → n0 - r < n ∧ 0 < n →
    (∀ x, rd a (a0 + l) = some x → lt key x = false) →
    ∃ l' r', grLoop lt a a0 n0 key n l r = some (l', r') ∧ 0 ≤ l' ∧ l' < r' ∧ r' ≤ n0 ∧ (∀ x, rd a (a0 + l') = some x → lt key x = false) ∧ (r' < n0 → ∀ x, rd a (a0 + r') = some x → lt key x = true) := by
  intro n
  induction n with
  | zero => intro l r h1 h2 h3 h4; omega
  | succ n ih =>
    intro l r h1 h2 h3 h4 h5
    unfold grLoop
    by_cases hlt : n0 ≤ r
    · rw [if_pos hlt]
      exact ⟨l, n0, rfl, h1, h3, Int.le_refl _, h5, fun h => by omega⟩
    · rw [if_neg hlt]
      obtain ⟨x, hx⟩ := rd_ex (a := a) (i := a0 + r) (by omega) (by omega)
      rw [hx]
      simp only [Option.bind_eq_bind, Option.bind_some]
      cases hc : lt key x
      · rw [if_neg (by simp)]
        exact ih r (2 * r + 1) (by omega) (by omega) (by omega) (by omega) (fun y hy => by rw [hx] at hy; cases hy; exact hc)
      · rw [if_pos rfl]
        exact ⟨l, r, rfl, h1, h2, by omega, h5, fun _ y hy => by rw [hx] at hy; cases hy; exact hc⟩

theorem glLoop_spec (key : α) (a : List α) (a0 n0 : Int) (h0 : 0 ≤ a0) (hl : a0 + n0 ≤ a.length) : ∀ (n : Nat) (l r : Int), 0 ≤ l → l < r → l < n0 → n0 - r < n ∧ 0 < n →
    (∀ x, rd a (a0 + (n0 - l - 1)) = some x → lt x key = false) →
    ∃ l' r', glLoop lt a a0 n0 key n l r = some (l', r') ∧ 0 ≤ l' ∧ l' < r' ∧ r' ≤ n0 ∧ (∀ x, rd a (a0 + (n0 - l' - 1)) = some x → lt x key = false) ∧ (r' < n0 → ∀ x, rd a (a0 + (n0 - r' - 1)) = some x → lt x key = true) := by
  intro n
  induction n with
  | zero => intro l r h1 h2 h3 h4; omega
  | succ n ih =>
    intro l r h1 h2 h3 h4 h5
    unfold glLoop
    by_cases hlt : n0 ≤ r
    · rw [if_pos hlt]
      exact ⟨l, n0, rfl, h1, h3, Int.le_refl _, h5, fun h => by omega⟩
    · rw [if_neg hlt]
      obtain ⟨x, hx⟩ := rd_ex (a := a) (i := a0 + (n0 - r - 1)) (by omega) (by omega)
      rw [hx]
      simp only [Option.bind_eq_bind, Option.bind_some]
      cases hc : lt x key
      · rw [if_neg (by simp)]
        exact ih r (2 * r + 1) (by omega) (by omega) (by omega) (by omega) (fun y hy => by rw [hx] at hy; cases hy; exact hc)
      · rw [if_pos rfl]
        exact ⟨l, r, rfl, h1, h2, by omega, h5, fun _ y hy => by rw [hx] at hy; cases hy; exact hc⟩

/-- `_gallop_right`: the number of elements that are not above the key. -/
theorem gallopR_spec (ho : SWO lt) (key : α) {a : List α} {a0 n0 : Int} (h0 : 0 ≤ a0) (h1 : 1 ≤ n0) (hl : a0 + n0 ≤ a.length) (hs : SortedSeg lt a a0 (a0 + n0)) :
    ∃ k, gallopR lt a a0 n0 key = some k ∧ 0 ≤ k ∧ k ≤ n0 ∧ AllSeg (fun x => lt key x = false) a a0 (a0 + k) ∧ AllSeg (fun x => lt key x = true) a (a0 + k) (a0 + n0) := by
  have hm : Mono (lt key) a a0 (a0 + n0) := mono_of_sorted ho hs false key
  unfold gallopR
  obtain ⟨x, hx⟩ := rd_ex (a := a) (i := a0) h0 (by omega)
  rw [hx]
  simp only [Option.bind_eq_bind, Option.bind_some]
  cases hc : lt key x
  · rw [if_neg (by simp)]
    obtain ⟨l, r, q1, q2, q3, q4, q5, q6⟩ := grLoop_spec (lt := lt) key a a0 n0 h0 hl (a.length + 1) 0 1 (by omega) (by omega) (by omega) (by omega)
      (fun y hy => by rw [Int.add_zero, hx] at hy; cases hy; exact hc)
    rw [q1]
    simp only [Option.bind_some]
    refine grSearch_spec key a a0 n0 h0 hl hm (a.length + 1) l r (by omega) q3 q4 (by omega) ?_ ?_
    · intro i y i1 i2 i3
      obtain ⟨z, hz⟩ := rd_ex (a := a) (i := a0 + l) (by omega) (by omega)
      cases hy : lt key y
      · rfl
      · have := hm i (a0 + l) y z i1 (by omega) (by omega) i3 hz hy
        rw [q5 z hz] at this; cases this
    · intro i y i1 i2 i3
      obtain ⟨z, hz⟩ := rd_ex (a := a) (i := a0 + r) (by omega) (by omega)
      exact hm (a0 + r) i z y (by omega) i1 i2 hz i3 (q6 (by omega) z hz)
  · rw [if_pos rfl]
    refine ⟨0, rfl, Int.le_refl _, by omega, fun i y i1 i2 => by omega, ?_⟩
    intro i y i1 i2 i3
    exact hm a0 i x y (Int.le_refl _) (by omega) i2 hx i3 hc

/-- `_gallop_left`: the number of elements below the key. -/
theorem gallopL_spec (ho : SWO lt) (key : α) {a : List α} {a0 n0 : Int} (h0 : 0 ≤ a0) (h1 : 1 ≤ n0) (hl : a0 + n0 ≤ a.length) (hs : SortedSeg lt a a0 (a0 + n0)) :
    ∃ k, gallopL lt a a0 n0 key = some k ∧ 0 ≤ k ∧ k ≤ n0 ∧ AllSeg (fun x => lt x key = true) a a0 (a0 + k) ∧ AllSeg (fun x => lt x key = false) a (a0 + k) (a0 + n0) := by
  have hm : Mono (fun x => !lt x key) a a0 (a0 + n0) := mono_of_sorted ho hs true key
  unfold gallopL
  obtain ⟨x, hx⟩ := rd_ex (a := a) (i := a0 + (n0 - 1)) (by omega) (by omega)
  rw [hx]
  simp only [Option.bind_eq_bind, Option.bind_some]
  cases hc : lt x key
  · rw [if_neg (by simp)]
    obtain ⟨l, r, q1, q2, q3, q4, q5, q6⟩ := glLoop_spec (lt := lt) key a a0 n0 h0 hl (a.length + 1) 0 1 (by omega) (by omega) (by omega) (by omega)
      (fun y hy => by rw [Int.sub_zero, hx] at hy; cases hy; exact hc)
    rw [q1]
    simp only [Option.bind_some]
    refine glSearch_spec key a a0 n0 h0 hl hm (a.length + 1) (n0 - r - 1) (n0 - l - 1) (by omega) (by omega) (by omega) (by omega) ?_ ?_
    · intro i y i1 i2 i3
      obtain ⟨z, hz⟩ := rd_ex (a := a) (i := a0 + (n0 - r - 1)) (by omega) (by omega)
      cases hy : lt y key
      · have := hm i (a0 + (n0 - r - 1)) y z i1 (by omega) (by omega) i3 hz (by simp [hy])
        simp [q6 (by omega) z hz] at this
      · rfl
    · intro i y i1 i2 i3
      obtain ⟨z, hz⟩ := rd_ex (a := a) (i := a0 + (n0 - l - 1)) (by omega) (by omega)
      have := hm (a0 + (n0 - l - 1)) i z y (by omega) i1 i2 hz i3 (by simp [q5 z hz])
      simpa using this
  · rw [if_pos rfl]
    refine ⟨n0, rfl, by omega, Int.le_refl _, ?_, fun i y i1 i2 => by omega⟩
    intro i y i1 i2 i3
    cases hy : lt y key
    · have := hm i (a0 + (n0 - 1)) y x i1 (by omega) (by omega) i3 hx (by simp [hy])
      simp [hc] at this
    · rfl

/-- Either way of merging two neighbouring runs, the ends of which overlap, is the stable merge. -/
theorem mergeBoth_spec (ho : SWO lt) {arr : List α} {sa la lb : Int} (h0 : 0 ≤ sa) (h1 : 0 < la) (h2 : 0 < lb)
    (hl : sa + la + lb ≤ arr.length) (hs1 : SortedSeg lt arr sa (sa + la)) (hs2 : SortedSeg lt arr (sa + la) (sa + la + lb))
    {b0 al : α} (hb0 : rd arr (sa + la) = some b0) (hal : rd arr (sa + la - 1) = some al)
    (hA : AllSeg (fun x => lt b0 x = true) arr sa (sa + la)) (hB : AllSeg (fun y => lt y al = true) arr (sa + la) (sa + la + lb)) (left : Bool) :
    ∃ a', (if left then mergeLeft lt arr sa la (sa + la) lb else mergeRight lt arr sa la (sa + la) lb) = some a' ∧ Rearr arr a' sa (sa + la + lb) ∧ Stab lt arr a' ∧ SortedSeg lt a' sa (sa + la + lb) := by
  generalize hca : seg arr sa (sa + la) = ca
  generalize hcb : seg arr (sa + la) (sa + la + lb) = cb
  have lca : (ca.length : Int) = la := by rw [← hca, seg_length h0 (by omega) (by omega)]; omega
  have lcb : (cb.length : Int) = lb := by rw [← hcb, seg_length (by omega) (by omega) (by omega)]; omega
  have sca : Sorted lt ca := by rw [← hca]; exact sorted_seg_list h0 (by omega) (by omega) hs1
  have scb : Sorted lt cb := by rw [← hcb]; exact sorted_seg_list (by omega) (by omega) (by omega) hs2
  have gb0 : cb[0]? = some b0 := by
    rw [← hcb, seg_getElem? (by omega) 0 (by omega)]
    rw [← hb0]; congr 1; omega
  have gal : ca[ca.length - 1]? = some al := by
    rw [← hca, seg_getElem? h0 _ (by rw [hca]; omega), ← hal]; congr 1; rw [hca]; omega
  have gA : ∀ x ∈ ca, lt b0 x = true := by rw [← hca]; exact (allSeg_iff h0).mp hA
  have gB : ∀ y ∈ cb, lt y al = true := by rw [← hcb]; exact (allSeg_iff (by omega)).mp hB
  have hseg : seg arr sa (sa + la + lb) = ca ++ cb := by
    rw [seg_append h0 (m := sa + la) (by omega) (by omega) (by omega), hca, hcb]
  have harr : arr = arr.take sa.toNat ++ (ca ++ (cb ++ arr.drop (sa + la + lb).toNat)) := by
    have := seg_eq h0 (show sa ≤ sa + la + lb by omega) hl
    rw [hseg] at this
    simpa using this
  have hlt : ((arr.take sa.toNat).length : Int) = sa := by rw [List.length_take]; omega
  have hres : (if left then mergeLeft lt arr sa la (sa + la) lb else mergeRight lt arr sa la (sa + la) lb) = some (arr.take sa.toNat ++ (smerge lt ca cb ++ arr.drop (sa + la + lb).toNat)) := by
    cases left with
    | true =>
      rw [if_pos rfl]
      cases ca with
      | nil => simp at lca; omega
      | cons x ca =>
        cases cb with
        | nil => simp at lcb; omega
        | cons y cb =>
          have hy : y = b0 := by simpa using gb0
          conv => lhs; rw [harr]
          exact mergeLeft_spec _ _ x y ca cb (by rw [hy]; exact gA x (by simp)) sa la _ lb hlt.symm (by simp at lca; omega) rfl (by simp at lcb; omega)
    | false =>
      rw [if_neg (by simp)]
      rcases List.eq_nil_or_concat ca with rfl | ⟨ca, x, rfl⟩
      · simp at lca; omega
      rcases List.eq_nil_or_concat cb with rfl | ⟨cb, y, rfl⟩
      · simp at lcb; omega
      simp only [List.concat_eq_append] at *
      have hx : x = al := by simpa using gal
      conv => lhs; rw [harr]
      exact mergeRight_spec ho _ _ x y ca cb (by rw [hx]; exact gB y (by simp)) sca scb sa la _ lb hlt.symm (by simp at lca; omega) rfl (by simp at lcb; omega)
  have hperm : (smerge lt ca cb).Perm (seg arr sa (sa + la + lb)) := by rw [hseg]; exact smerge_perm ca cb
  obtain ⟨w1, w2⟩ := replace_seg h0 (show sa ≤ sa + la + lb by omega) (by omega) hperm
  have hTl : (smerge lt ca cb).length = ca.length + cb.length := by
    rw [(smerge_perm ca cb).length_eq, List.length_append]
  refine ⟨_, hres, by rw [← List.append_assoc]; exact w1, ?_, ?_⟩
  · intro z
    conv => rhs; rw [harr]
    simp only [List.filter_append]
    rw [smerge_filter ho z ca cb sca, List.append_assoc]
  · have hsT := smerge_sorted ho sca scb
    intro p q x y p1 p2 p3 p4 p5
    obtain ⟨m, hm⟩ := Int.eq_ofNat_of_zero_le (show 0 ≤ p - sa by omega)
    obtain ⟨m', hm'⟩ := Int.eq_ofNat_of_zero_le (show 0 ≤ q - sa by omega)
    have e1 := w2 m (by omega)
    have e2 := w2 m' (by omega)
    rw [← List.append_assoc, show p = sa + m by omega, e1] at p4
    rw [← List.append_assoc, show q = sa + m' by omega, e2] at p5
    exact seg_of_sorted hsT 0 (la + lb) m m' x y (by omega) (by omega) (by omega) (by rw [rd_nat]; exact p4) (by rw [rd_nat]; exact p5)

/-- `_merge_at`: two neighbouring runs become one. -/
theorem mergeAt_spec (ho : SWO lt) {arr : List α} {sa la lb : Int} (h0 : 0 ≤ sa) (h1 : 1 ≤ la) (h2 : 1 ≤ lb)
    (hl : sa + la + lb ≤ arr.length) (hs1 : SortedSeg lt arr sa (sa + la)) (hs2 : SortedSeg lt arr (sa + la) (sa + la + lb)) :
    ∃ a', mergeAt lt arr (sa, la) (sa + la, lb) = some a' ∧ Rearr arr a' sa (sa + la + lb) ∧ Stab lt arr a' ∧
      SortedSeg lt a' sa (sa + la + lb) := by
  unfold mergeAt
  obtain ⟨b0, hb0⟩ := rd_ex (a := arr) (i := sa + la) (by omega) (by omega)
  obtain ⟨al, hal⟩ := rd_ex (a := arr) (i := sa + la - 1) (by omega) (by omega)
  obtain ⟨k, q1, q2, q3, q4', q5'⟩ := gallopR_spec ho b0 h0 h1 (show sa + la ≤ arr.length by omega) hs1
  simp only [hb0, Option.bind_eq_bind, Option.bind_some]
  rw [q1]
  simp only [Option.bind_some]
  have hBge : AllSeg (fun x => lt x b0 = false) arr (sa + la) (sa + la + lb) := by
    intro i x i1 i2 i3
    by_cases c : i = sa + la
    · subst c; rw [hb0] at i3; cases i3; exact ho.irrefl _
    · exact hs2 (sa + la) i b0 x (Int.le_refl _) (by omega) i2 hb0 i3
  have hAle : AllSeg (fun x => lt al x = false) arr sa (sa + la) := by
    intro i x i1 i2 i3
    by_cases c : i = sa + la - 1
    · subst c; rw [hal] at i3; cases i3; exact ho.irrefl _
    · exact hs1 i (sa + la - 1) x al i1 (by omega) (by omega) i3 hal
  by_cases hk : la = k
  · rw [if_pos hk]
    subst hk
    exact ⟨arr, rfl, Rearr.refl _ _ _, Stab.refl _, SortedSeg.glue ho b0 hs1 hs2 q4' hBge⟩
  · rw [if_neg hk]
    obtain ⟨m, r1, r2, r3, r4', r5'⟩ := gallopL_spec ho al (show 0 ≤ sa + la by omega) h2 (by omega) hs2
    simp only [hal, Option.bind_some]
    rw [r1]
    simp only [Option.bind_some]
    have hbal : lt b0 al = true := q5' (sa + la - 1) al (by omega) (by omega) hal
    have hm : m ≠ 0 := by
      intro h
      subst h
      have := r5' (sa + la) b0 (by omega) (by omega) hb0
      simp only at this
      rw [hbal] at this; cases this
    obtain ⟨a', w1, w2, w3, w4⟩ := mergeBoth_spec ho (arr := arr) (sa := sa + k) (la := la - k) (lb := m) (by omega) (by omega) (by omega)
      (by omega)
      (fun i j x y i1 i2 i3 => hs1 i j x y (by omega) i2 (by omega))
      (fun i j x y i1 i2 i3 => hs2 i j x y (by omega) i2 (by omega))
      (b0 := b0) (al := al) (by rw [show sa + k + (la - k) = sa + la by omega]; exact hb0)
      (by rw [show sa + k + (la - k) - 1 = sa + la - 1 by omega]; exact hal)
      (by rw [show sa + k + (la - k) = sa + la by omega]; exact q5')
      (by rw [show sa + k + (la - k) = sa + la by omega]; exact r4') (decide (¬ m < la - k))
    have e1 : sa + k + (la - k) = sa + la := by omega
    rw [e1] at w1 w2 w4
    have w1' : (if m < la - k then mergeRight lt arr (sa + k) (la - k) (sa + la) m else mergeLeft lt arr (sa + k) (la - k) (sa + la) m) = some a' := by
      rw [← w1]
      by_cases c : m < la - k <;> simp [c]
    refine ⟨a', w1', w2.mono (by omega) (by omega), w3, ?_⟩
    have hmlo : AllSeg (fun x => lt x b0 = false) arr (sa + k) (sa + la + m) := by
      intro i x i1 i2 i3
      by_cases c : i < sa + la
      · exact ho.asymm (q5' i x i1 c i3)
      · exact hBge i x (by omega) (by omega) i3
    have hmhi : AllSeg (fun x => lt al x = false) arr (sa + k) (sa + la + m) := by
      intro i x i1 i2 i3
      by_cases c : i < sa + la
      · exact hAle i x (by omega) c i3
      · exact ho.asymm (r4' i x (by omega) (by omega) i3)
    have hmlo' := hmlo.rearr w2 (by omega) (by omega) (by omega)
    have hmhi' := hmhi.rearr w2 (by omega) (by omega) (by omega)
    have S1 : SortedSeg lt arr sa (sa + k) := fun i j x y i1 i2 i3 => hs1 i j x y i1 i2 (by omega)
    have S3 : SortedSeg lt arr (sa + la + m) (sa + la + lb) := fun i j x y i1 i2 i3 => hs2 i j x y (by omega) i2 i3
    have S1' := S1.outside w2 (Or.inl (Int.le_refl _))
    have S3' := S3.outside w2 (Or.inr (Int.le_refl _))
    have G1 : SortedSeg lt a' sa (sa + la + m) :=
      SortedSeg.glue ho b0 S1' w4 (q4'.outside w2 (Or.inl (Int.le_refl _))) hmlo'
    refine SortedSeg.glue ho al G1 S3' ?_ (r5'.outside w2 (Or.inr (Int.le_refl _)))
    intro i x i1 i2 i3
    by_cases c : i < sa + k
    · rw [w2.out i (by omega)] at i3
      exact hAle i x i1 (by omega) i3
    · exact hmhi' i x (by omega) i2 i3
end Codon.NpSort
