import Verif.NpSel.Cut
/-! # The choice of the pivot -/
namespace Codon.NpSel
open Codon.Sort

variable {α : Type} {lt : α → α → Bool}

/-- `if _less(v[i], v[j]): swap(i, j)` -/
theorem cswap_ok (ho : SWO lt) {a : List α} {i j b e : Int} {x y : α} (h0 : 0 ≤ b) (he : e ≤ a.length) (hi : b ≤ i ∧ i < e) (hj : b ≤ j ∧ j < e) (hij : i ≠ j)
    (hx : rd a i = some x) (hy : rd a j = some y) :
    ∃ a' u v, (if lt x y = true then swap a i j else some a) = some a' ∧ Rearr a a' b e ∧ rd a' i = some u ∧ rd a' j = some v ∧ lt u v = false ∧
      ((u = x ∧ v = y) ∨ (u = y ∧ v = x ∧ lt x y = true)) ∧ ∀ k, k ≠ i → k ≠ j → rd a' k = rd a k := by
  cases h : lt x y with
  | false => exact ⟨a, x, y, rfl, Rearr.refl _ _ _, hx, hy, h, Or.inl ⟨rfl, rfl⟩, fun _ _ _ => rfl⟩
  | true =>
    obtain ⟨a', s1, s2, s3⟩ := swap_rearr h0 he hi hj
    refine ⟨a', y, x, by simpa using s1, s2, ?_, ?_, ho.asymm h, Or.inr ⟨rfl, rfl, rfl⟩, ?_⟩
    · rw [s3 i, if_neg hij, if_pos rfl, hy]
    · rw [s3 j, if_pos rfl, hx]
    · intro k k1 k2
      rw [s3 k, if_neg k2, if_neg k1]

/-- The median of three goes to `low`, the smallest to `low + 1`. -/
theorem median3_ok (ho : SWO lt) {a : List α} {low high mid : Int} (h0 : 0 ≤ low) (hlm : low < mid) (hmh : mid < high) (hlen : high < a.length) :
    ∃ a' p l h, median3Swap lt a low mid high = some a' ∧ Rearr a a' low (high + 1) ∧ rd a' low = some p ∧ rd a' (low + 1) = some l ∧ rd a' high = some h ∧
      lt p l = false ∧ lt h p = false := by
  obtain ⟨x, hx⟩ := rd_ex (a := a) (i := low) (by omega) (by omega)
  obtain ⟨y, hy⟩ := rd_ex (a := a) (i := mid) (by omega) (by omega)
  obtain ⟨z, hz⟩ := rd_ex (a := a) (i := high) (by omega) (by omega)
  obtain ⟨a1, z1, y1, c1, r1, c2, c3, c4, _, c6⟩ := cswap_ok ho (a := a) (i := high) (j := mid) (b := low) (e := high + 1) h0 (by omega) (by omega) (by omega) (by omega) hz hy
  have l1 := r1.length
  have hx1 : rd a1 low = some x := by rw [c6 low (by omega) (by omega)]; exact hx
  obtain ⟨a2, z2, x2, d1, r2, d2, d3, d4, d5, d6⟩ := cswap_ok ho (a := a1) (i := high) (j := low) (b := low) (e := high + 1) h0 (by omega) (by omega) (by omega) (by omega) c2 hx1
  have l2 := r2.length
  have hy2 : rd a2 mid = some y1 := by rw [d6 mid (by omega) (by omega)]; exact c3
  have hzy : lt z2 y1 = false := by
    rcases d5 with ⟨rfl, rfl⟩ | ⟨rfl, rfl, h⟩
    · exact c4
    · exact ho.negTrans (ho.asymm h) c4
  obtain ⟨a3, x3, y3, e1, r3, e2, e3, e4, e5, e6⟩ := cswap_ok ho (a := a2) (i := low) (j := mid) (b := low) (e := high + 1) h0 (by omega) (by omega) (by omega) (by omega) d3 hy2
  have l3 := r3.length
  have hz3 : rd a3 high = some z2 := by rw [e6 high (by omega) (by omega)]; exact d2
  have hzx : lt z2 x3 = false := by
    rcases e5 with ⟨rfl, rfl⟩ | ⟨rfl, rfl, h⟩
    · exact d4
    · exact hzy
  obtain ⟨a4, s1, s2, s3⟩ := swap_rearr (a := a3) (i := mid) (j := low + 1) (b := low) (e := high + 1) h0 (by omega) (by omega) (by omega)
  refine ⟨a4, x3, y3, z2, ?_, ((r1.trans r2).trans r3).trans s2, ?_, ?_, ?_, e4, hzx⟩
  · simp only [median3Swap, hz, hy, hx1, c2, d3, hy2, Option.bind_eq_bind, Option.bind_some, c1, d1, e1]
    exact s1
  · rw [s3 low, if_neg (by omega), if_neg (by omega)]; exact e2
  · rw [s3 (low + 1), if_pos rfl]; exact e3
  · rw [s3 high, if_neg (by omega), if_neg (by omega)]; exact hz3

/-! ### Counting -/

theorem seg_append {a : List α} {b m e : Int} (hb : 0 ≤ b) (h1 : b ≤ m) (h2 : m ≤ e) : seg a b e = seg a b m ++ seg a m e := by
  unfold seg
  have e1 : a.take e.toNat = a.take m.toNat ++ (a.take e.toNat).drop m.toNat := by
    have := (List.take_append_drop m.toNat (a.take e.toNat)).symm
    rw [List.take_take, Nat.min_eq_left (by omega)] at this
    exact this
  by_cases hl : m.toNat ≤ a.length
  · conv => lhs; rw [e1]
    rw [List.drop_append_of_le_length]
    simp
    omega
  · have e2 : a.take m.toNat = a := List.take_of_length_le (by omega)
    have e3 : a.take e.toNat = a := List.take_of_length_le (by omega)
    have e4 : a.drop m.toNat = [] := List.drop_eq_nil_of_le (by omega)
    rw [e2, e3, e4, List.append_nil]

theorem count_pos {a : List α} {b e i : Int} {x : α} {P : α → Bool} (hb : 0 ≤ b) (h1 : b ≤ i) (h2 : i < e) (hx : rd a i = some x) (hp : P x = true) : 1 ≤ (seg a b e).countP P :=
  List.countP_pos_iff.2 ⟨x, (mem_seg hb x).2 ⟨i, h1, h2, hx⟩, hp⟩

theorem count_two {a : List α} {b e i j : Int} {x y : α} {P : α → Bool} (hb : 0 ≤ b) (h1 : b ≤ i) (hij : i < j) (h2 : j < e) (hx : rd a i = some x) (hy : rd a j = some y)
    (hp : P x = true) (hq : P y = true) : 2 ≤ (seg a b e).countP P := by
  rw [seg_append hb (m := j) (by omega) (by omega), List.countP_append]
  have := count_pos (e := j) hb h1 hij hx hp
  have := count_pos (b := j) (by omega) (Int.le_refl j) h2 hy hq
  omega

theorem count_other {a : List α} {b e p : Int} {P : α → Bool} (hb : 0 ≤ b) (h1 : b ≤ p) (h2 : p < e) (he : e ≤ a.length) (h : 2 ≤ (seg a b e).countP P) :
    ∃ q y, b ≤ q ∧ q < e ∧ q ≠ p ∧ rd a q = some y ∧ P y = true := by
  rw [seg_append hb (m := p) (by omega) (by omega), seg_append (b := p) (m := p + 1) (by omega) (by omega) (by omega), List.countP_append, List.countP_append] at h
  have hm : (seg a p (p + 1)).countP P ≤ 1 := by
    have h3 := List.countP_le_length (p := P) (l := seg a p (p + 1))
    have := seg_length (a := a) (b := p) (e := p + 1) (by omega) (by omega) (by omega)
    omega
  by_cases c : 1 ≤ (seg a b p).countP P
  · obtain ⟨y, y1, y2⟩ := List.countP_pos_iff.1 c
    obtain ⟨q, q1, q2, q3⟩ := (mem_seg hb y).1 y1
    exact ⟨q, y, q1, by omega, by omega, q3, y2⟩
  · have c2 : 0 < (seg a (p + 1) e).countP P := by omega
    obtain ⟨y, y1, y2⟩ := List.countP_pos_iff.1 c2
    obtain ⟨q, q1, q2, q3⟩ := (mem_seg (by omega) y).1 y1
    exact ⟨q, y, by omega, q2, by omega, q3, y2⟩

/-! ### The median of medians -/

theorem median5_ok (ho : SWO lt) {a : List α} {b : Int} (h0 : 0 ≤ b) (hlen : b + 5 ≤ a.length) :
    ∃ a' m, median5 lt a b = some (a', m) ∧ Rearr a a' b (b + 5) ∧ 0 ≤ m ∧ m < 5 ∧
      ∃ j x y, 0 ≤ j ∧ j < 5 ∧ j ≠ m ∧ rd a' (b + m) = some x ∧ rd a' (b + j) = some y ∧ lt y x = false := by
  obtain ⟨v0, h00⟩ := rd_ex (a := a) (i := b) (by omega) (by omega)
  obtain ⟨v1, h01⟩ := rd_ex (a := a) (i := b + 1) (by omega) (by omega)
  obtain ⟨a1, _, _, c1, r1, _⟩ := cswap_ok ho (a := a) (i := b + 1) (j := b) (b := b) (e := b + 5) h0 (by omega) (by omega) (by omega) (by omega) h01 h00
  have l1 := r1.length
  obtain ⟨w3, h13⟩ := rd_ex (a := a1) (i := b + 3) (by omega) (by omega)
  obtain ⟨w4, h14⟩ := rd_ex (a := a1) (i := b + 4) (by omega) (by omega)
  obtain ⟨a2, _, _, c2, r2, _⟩ := cswap_ok ho (a := a1) (i := b + 4) (j := b + 3) (b := b) (e := b + 5) h0 (by omega) (by omega) (by omega) (by omega) h14 h13
  have l2 := r2.length
  obtain ⟨x3, h23⟩ := rd_ex (a := a2) (i := b + 3) (by omega) (by omega)
  obtain ⟨x0, h20⟩ := rd_ex (a := a2) (i := b) (by omega) (by omega)
  obtain ⟨a3, _, _, c3, r3, _⟩ := cswap_ok ho (a := a2) (i := b + 3) (j := b) (b := b) (e := b + 5) h0 (by omega) (by omega) (by omega) (by omega) h23 h20
  have l3 := r3.length
  obtain ⟨y4, h34⟩ := rd_ex (a := a3) (i := b + 4) (by omega) (by omega)
  obtain ⟨y1, h31⟩ := rd_ex (a := a3) (i := b + 1) (by omega) (by omega)
  obtain ⟨a4, _, _, c4, r4, _⟩ := cswap_ok ho (a := a3) (i := b + 4) (j := b + 1) (b := b) (e := b + 5) h0 (by omega) (by omega) (by omega) (by omega) h34 h31
  have l4 := r4.length
  obtain ⟨z2, h42⟩ := rd_ex (a := a4) (i := b + 2) (by omega) (by omega)
  obtain ⟨z1, h41⟩ := rd_ex (a := a4) (i := b + 1) (by omega) (by omega)
  obtain ⟨a5, u2, u1, c5, r5, e2, e1, e3, _⟩ := cswap_ok ho (a := a4) (i := b + 2) (j := b + 1) (b := b) (e := b + 5) h0 (by omega) (by omega) (by omega) (by omega) h42 h41
  have l5 := r5.length
  obtain ⟨u3, h53⟩ := rd_ex (a := a5) (i := b + 3) (by omega) (by omega)
  have hr : Rearr a a5 b (b + 5) := (((r1.trans r2).trans r3).trans r4).trans r5
  have hrun : median5 lt a b = if lt u3 u2 = true then (if lt u3 u1 = true then some (a5, 1) else some (a5, 3)) else some (a5, 2) := by
    simp only [median5, h00, h01, h13, h14, h23, h20, h34, h31, h42, h41, Option.bind_eq_bind, Option.bind_some, c1, c2, c3, c4, c5, h53, e2, e1]
  rw [hrun]
  cases q1 : lt u3 u2 with
  | true =>
    cases q2 : lt u3 u1 with
    | true => exact ⟨a5, 1, by simp, hr, by omega, by omega, 2, u1, u2, by omega, by omega, by omega, e1, e2, e3⟩
    | false => exact ⟨a5, 3, by simp, hr, by omega, by omega, 2, u3, u2, by omega, by omega, by omega, h53, e2, ho.asymm q1⟩
  | false => exact ⟨a5, 2, by simp, hr, by omega, by omega, 3, u2, u3, by omega, by omega, by omega, e2, h53, q1⟩

/-- At least two elements of `S` are not smaller than `x`. -/
def Two (lt : α → α → Bool) (S : List α) (x : α) : Prop := 2 ≤ S.countP fun z => !lt z x

theorem Two.perm {S T : List α} (h : S.Perm T) {x : α} (hs : Two lt S x) : Two lt T x := by
  unfold Two at *
  rw [← h.countP_eq]
  exact hs

theorem mom5Loop_ok (ho : SWO lt) {b e : Int} (h0 : 0 ≤ b) (n : Nat) : ∀ (a : List α) (i sub : Int) (S : List α), e ≤ a.length → b ≤ i → i ≤ sub → sub + 5 * n ≤ e →
    (seg a b e).Perm S → AllSeg (Two lt S) a b i →
    ∃ a', mom5Loop lt n a i sub = some a' ∧ Rearr a a' b e ∧ AllSeg (Two lt S) a' b (i + n) := by
  induction n with
  | zero => intro a i sub S _ _ _ _ _ h; exact ⟨a, rfl, Rearr.refl _ _ _, by simpa using h⟩
  | succ n ih =>
    intro a i sub S hlen hi his hsub hS hT
    obtain ⟨a1, m, r1, r2, r3, r4, j, x, y, j1, j2, j3, hx, hy, hxy⟩ := median5_ok ho (a := a) (b := sub) (by omega) (by omega)
    have r2' : Rearr a a1 b e := r2.mono (by omega) (by omega)
    have l1 := r2.length
    have hS1 : (seg a1 b e).Perm S := (r2'.seg_perm h0 (by omega) hlen).trans hS
    have hx2 : Two lt S x := by
      refine Two.perm hS1 ?_
      unfold Two
      by_cases c : m < j
      · exact count_two h0 (by omega) (by omega : sub + m < sub + j) (by omega) hx hy (by simp [ho.irrefl]) (by simp [hxy])
      · exact count_two h0 (by omega) (by omega : sub + j < sub + m) (by omega) hy hx (by simp [hxy]) (by simp [ho.irrefl])
    obtain ⟨a2, s1, s2, s3⟩ := swap_rearr (a := a1) (i := sub + m) (j := i) (b := b) (e := e) h0 (by omega) (by omega) (by omega)
    have l2 := s2.length
    have hS2 : (seg a2 b e).Perm S := (s2.seg_perm h0 (by omega) (by omega)).trans hS1
    obtain ⟨a3, t1, t2, t3⟩ := ih a2 (i + 1) (sub + 5) S (by omega) (by omega) (by omega) (by omega) hS2 (by
      intro q z q1 q2 q3
      rw [s3 q] at q3
      by_cases c : q = i
      · rw [if_pos c, hx] at q3
        cases q3
        exact hx2
      · rw [if_neg c, if_neg (by omega), r2.out q (by omega)] at q3
        exact hT q z q1 (by omega) q3)
    refine ⟨a3, ?_, (r2'.trans s2).trans t2, ?_⟩
    · simp only [mom5Loop, r1, Option.bind_eq_bind, Option.bind_some, s1]
      exact t1
    · have : i + ((n + 1 : Nat) : Int) = i + 1 + n := by omega
      rw [this]
      exact t3

/-- What is assumed of the recursive call: it changes only the order of the elements of its part. -/
def IselOk (isel : List α → Int → Nat → Int → Option (List α)) (bound : Nat) : Prop :=
  ∀ (a : List α) (b : Int) (n : Nat) (k : Int), n < bound → 0 ≤ b → b ≤ k → k < b + n → b + n ≤ a.length → ∃ a', isel a b n k = some a' ∧ Rearr a a' b (b + n)

theorem mom5_ok (ho : SWO lt) {isel : List α → Int → Nat → Int → Option (List α)} {bound : Nat} (hs : IselOk isel bound) {a : List α} {b : Int} {num : Nat} (h0 : 0 ≤ b) (h5 : 5 ≤ num)
    (hlen : b + num ≤ a.length) (hb : num ≤ bound) :
    ∃ a' m x, mom5 lt isel a b num = some (a', m) ∧ Rearr a a' b (b + num) ∧ b ≤ m ∧ m < b + num ∧ rd a' m = some x ∧ Two lt (seg a' b (b + num)) x := by
  obtain ⟨a1, r1, r2, r3⟩ := mom5Loop_ok ho (b := b) (e := b + num) h0 (num / 5) a b b (seg a b (b + num)) hlen (Int.le_refl _) (Int.le_refl _) (by omega) (List.Perm.refl _)
    (by intro q z q1 q2; omega)
  have l1 := r2.length
  have key : ∃ a2, (if num / 5 > 2 then isel a1 b (num / 5) (b + ((num / 5) / 2 : Nat)) else some a1) = some a2 ∧ Rearr a1 a2 b (b + (num / 5 : Nat)) := by
    by_cases c : num / 5 > 2
    · rw [if_pos c]
      exact hs a1 b (num / 5) (b + ((num / 5) / 2 : Nat)) (by omega) h0 (by omega) (by omega) (by omega)
    · rw [if_neg c]
      exact ⟨a1, rfl, Rearr.refl _ _ _⟩
  obtain ⟨a2, e1, e2⟩ := key
  have l2 := e2.length
  have hr : Rearr a a2 b (b + num) := r2.trans (e2.mono (Int.le_refl _) (by omega))
  obtain ⟨x, hx⟩ := rd_ex (a := a2) (i := b + ((num / 5) / 2 : Nat)) (by omega) (by omega)
  have hall : AllSeg (Two lt (seg a b (b + num))) a2 b (b + (num / 5 : Nat)) := r3.rearr e2 h0 (by omega) (by omega)
  have hx2 := hall _ x (by omega) (by omega) hx
  refine ⟨a2, b + ((num / 5) / 2 : Nat), x, ?_, hr, by omega, by omega, hx, Two.perm (hr.seg_perm h0 (by omega) hlen).symm hx2⟩
  simp only [mom5, r1, Option.bind_eq_bind, Option.bind_some, e1]

/-- After the choice of the pivot, the partition can start. -/
theorem choose_ok (ho : SWO lt) {isel : List α → Int → Nat → Int → Option (List α)} {bound : Nat} (hs : IselOk isel bound) {a : List α} {low high depth : Int} (h0 : 0 ≤ low)
    (hlh : low + 1 < high) (hlen : high < a.length) (hb : high - low ≤ bound) :
    ∃ a' ll hh p, choose lt isel a low high depth = some (a', ll, hh) ∧ Rearr a a' low (high + 1) ∧ rd a' low = some p ∧ low ≤ ll ∧ ll ≤ hh ∧ hh ≤ high + 1 ∧ low < hh ∧
      AllSeg (fun z => lt p z = false) a' (low + 1) (ll + 1) ∧ AllSeg (fun z => lt z p = false) a' hh (high + 1) ∧
      ∃ g w, ll < g ∧ g ≤ high ∧ (hh = high + 1 → g < high) ∧ rd a' g = some w ∧ lt w p = false := by
  unfold choose
  by_cases c : depth > 0 ∨ high - (low + 1) < 5
  · rw [if_pos c]
    obtain ⟨a', p, l, h, r1, r2, r3, r4, r5, r6, r7⟩ := median3_ok ho (a := a) (low := low) (high := high) (mid := low + (high - low) / 2) h0 (by omega) (by omega) hlen
    refine ⟨a', low + 1, high, p, ?_, r2, r3, by omega, by omega, by omega, by omega, ?_, ?_, high, h, by omega, by omega, by omega, r5, r7⟩
    · rw [r1]; rfl
    · intro q z q1 q2 q3
      have : q = low + 1 := by omega
      subst this
      rw [r4] at q3
      cases q3
      exact r6
    · intro q z q1 q2 q3
      have : q = high := by omega
      subst this
      rw [r5] at q3
      cases q3
      exact r7
  · rw [if_neg c]
    have en : ((high - (low + 1)).toNat : Int) = high - (low + 1) := by omega
    obtain ⟨a1, m, x, r1, r2, r3, r4, r5, r6⟩ := mom5_ok ho hs (a := a) (b := low + 1) (num := (high - (low + 1)).toNat) (by omega) (by omega) (by omega) (by omega)
    have eb : low + 1 + ((high - (low + 1)).toNat : Int) = high := by omega
    rw [eb] at r2 r4 r6
    have l1 := r2.length
    obtain ⟨q, y, q1, q2, q3, q4, q5⟩ := count_other (a := a1) (b := low + 1) (e := high) (p := m) (by omega) r3 r4 (by omega) r6
    obtain ⟨a2, s1, s2, s3⟩ := swap_rearr (a := a1) (i := m) (j := low) (b := low) (e := high + 1) h0 (by omega) (by omega) (by omega)
    refine ⟨a2, low, high + 1, x, ?_, (r2.mono (by omega) (by omega)).trans s2, ?_, by omega, by omega, by omega, by omega, ?_, ?_, q, y, by omega, by omega, fun _ => by omega, ?_, by simpa using q5⟩
    · rw [r1]
      simp only [Option.bind_eq_bind, Option.bind_some, s1]
    · rw [s3 low, if_pos rfl, r5]
    · intro k z k1 k2; omega
    · intro k z k1 k2; omega
    · rw [s3 q, if_neg (by omega), if_neg q3]; exact q4

end Codon.NpSel
