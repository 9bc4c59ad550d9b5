import Verif.NpSel.Model
import Verif.Sort.Base
/-! # Cuts: what selection is about, and the simple loops -/
namespace Codon.NpSel
open Codon.Sort

variable {α : Type} {lt : α → α → Bool}

/-- In `[b, e)`, nothing before `m` is greater than anything from `m` on. -/
def Cut (lt : α → α → Bool) (a : List α) (b e m : Int) : Prop :=
  ∀ i j x y, b ≤ i → i < m → m ≤ j → j < e → rd a i = some x → rd a j = some y → lt y x = false

theorem Cut.low {a : List α} {b e m : Int} (h : m ≤ b) : Cut lt a b e m := by
  intro i j x y h1 h2; omega

theorem Cut.high {a : List α} {b e m : Int} (h : e ≤ m) : Cut lt a b e m := by
  intro i j x y h1 h2 h3 h4; omega

/-- A cut of a part between two cuts is a cut. -/
theorem Cut.compose {a : List α} {b e l h m : Int} (h1 : Cut lt a b e l) (h2 : Cut lt a b e h) (hl : l ≤ m) (hh : m ≤ h) (hm : Cut lt a l h m) : Cut lt a b e m := by
  intro i j x y q1 q2 q3 q4 q5 q6
  by_cases c1 : i < l
  · exact h1 i j x y q1 c1 (by omega) q4 q5 q6
  · by_cases c2 : h ≤ j
    · exact h2 i j x y q1 (by omega) c2 q4 q5 q6
    · exact hm i j x y (by omega) q2 q3 (by omega) q5 q6

/-- Elements that change places within `[l, h)` do not disturb a cut outside. -/
theorem Cut.rearr {a a' : List α} {b e l h m : Int} (hc : Cut lt a b e m) (hr : Rearr a a' l h) (h0 : 0 ≤ b) (hbl : b ≤ l) (hlh : l ≤ h) (hhe : h ≤ e) (hlen : e ≤ a.length)
    (hm : m ≤ l ∨ h ≤ m) : Cut lt a' b e m := by
  intro i j x y q1 q2 q3 q4 q5 q6
  rcases hm with hm | hm
  · have e1 : rd a i = some x := by rw [← hr.out i (by omega)]; exact q5
    have hp : AllSeg (fun z => lt z x = false) a m e := fun k z k1 k2 k3 => hc i k x z q1 q2 k1 k2 e1 k3
    exact hp.rearr' hr (by omega) hlh (by omega) hm hhe j y q3 q4 q6
  · have e1 : rd a j = some y := by rw [← hr.out j (by omega)]; exact q6
    have hp : AllSeg (fun z => lt y z = false) a b m := fun k z k1 k2 k3 => hc k j z y k1 k2 q3 q4 k3 e1
    exact hp.rearr' hr (by omega) hlh (by omega) hbl hm i x q1 q2 q5

/-- The element at `k` is where it would be if `[b, e)` were sorted. -/
def Placed (lt : α → α → Bool) (a : List α) (b e k : Int) : Prop := Cut lt a b e k ∧ Cut lt a b e (k + 1)

/-! ### Selection of the smallest elements -/

theorem minLoop_ok (ho : SWO lt) {a : List α} (i : Int) (n : Nat) : ∀ (k mi : Int) (mv : α), 0 ≤ i → i ≤ mi → mi < k → k + n ≤ a.length → rd a mi = some mv →
    AllSeg (fun z => lt z mv = false) a i k →
    ∃ m v, minLoop lt n a k mi mv = some m ∧ i ≤ m ∧ m < k + n ∧ rd a m = some v ∧ AllSeg (fun z => lt z v = false) a i (k + n) := by
  induction n with
  | zero =>
    intro k mi mv h0 h1 h2 h3 h4 h5
    refine ⟨mi, mv, rfl, h1, by simpa using h2, h4, ?_⟩
    simpa using h5
  | succ n ih =>
    intro k mi mv h0 h1 h2 h3 h4 h5
    obtain ⟨x, hx⟩ := rd_ex (a := a) (i := k) (by omega) (by omega)
    have ek : k + ((n + 1 : Nat) : Int) = k + 1 + n := by omega
    simp only [minLoop, hx, Option.bind_eq_bind, Option.bind_some]
    cases hl : lt x mv with
    | true =>
      obtain ⟨m, v, r1, r2, r3, r4, r5⟩ := ih (k + 1) k x h0 (by omega) (by omega) (by omega) hx (by
        intro q z q1 q2 q3
        by_cases c : q = k
        · subst c
          rw [hx] at q3
          cases q3
          exact ho.irrefl x
        · have := h5 q z q1 (by omega) q3
          exact ho.negTrans this (ho.asymm hl))
      refine ⟨m, v, by simpa using r1, r2, by omega, r4, by rw [ek]; exact r5⟩
    | false =>
      obtain ⟨m, v, r1, r2, r3, r4, r5⟩ := ih (k + 1) mi mv h0 h1 (by omega) (by omega) h4 (by
        intro q z q1 q2 q3
        by_cases c : q = k
        · subst c
          rw [hx] at q3
          cases q3
          exact hl
        · exact h5 q z q1 (by omega) q3)
      refine ⟨m, v, by simpa using r1, r2, by omega, r4, by rw [ek]; exact r5⟩

theorem dumbSelect_ok (ho : SWO lt) {low high : Int} (h0 : 0 ≤ low) (n : Nat) : ∀ (a : List α) (i : Int), low ≤ i → i + n ≤ high + 1 → high < a.length →
    (∀ m, low ≤ m → m ≤ i → Cut lt a low (high + 1) m) →
    ∃ a', dumbSelect lt high n a i = some a' ∧ Rearr a a' low (high + 1) ∧ ∀ m, low ≤ m → m ≤ i + n → Cut lt a' low (high + 1) m := by
  induction n with
  | zero => intro a i _ _ _ h; exact ⟨a, rfl, Rearr.refl _ _ _, by simpa using h⟩
  | succ n ih =>
    intro a i hi hn hlen hc
    obtain ⟨x, hx⟩ := rd_ex (a := a) (i := i) (by omega) (by omega)
    obtain ⟨mi, v, r1, r2, r3, r4, r5⟩ := minLoop_ok ho (a := a) i (high - i).toNat (i + 1) i x (by omega) (by omega) (by omega) (by omega) hx (by
      intro q z q1 q2 q3
      have : q = i := by omega
      subst this
      rw [hx] at q3
      cases q3
      exact ho.irrefl x)
    have ee : i + 1 + ((high - i).toNat : Int) = high + 1 := by omega
    rw [ee] at r3 r5
    obtain ⟨a1, s1, s2, s3⟩ := swap_rearr (a := a) (i := i) (j := mi) (b := i) (e := high + 1) (by omega) (by omega) (by omega) (by omega)
    have hlen1 : high < a1.length := by rw [s2.length]; exact hlen
    have hi1 : rd a1 i = some v := by
      rw [s3 i]
      by_cases c : i = mi
      · rw [if_pos c, c]; exact r4
      · rw [if_neg c, if_pos rfl]; exact r4
    have hmin : AllSeg (fun z => lt z v = false) a1 i (high + 1) := r5.rearr s2 (by omega) (by omega) (by omega)
    have hcut : ∀ m, low ≤ m → m ≤ i + 1 → Cut lt a1 low (high + 1) m := by
      intro m m1 m2
      by_cases c : m ≤ i
      · exact (hc m m1 c).rearr s2 h0 hi (by omega) (Int.le_refl _) (by omega) (Or.inl c)
      · have : m = i + 1 := by omega
        subst this
        have hci := (hc i hi (Int.le_refl _)).rearr s2 h0 hi (by omega) (Int.le_refl _) (by omega) (Or.inl (Int.le_refl _))
        intro p q y z p1 p2 p3 p4 p5 p6
        by_cases c2 : p = i
        · subst c2
          rw [hi1] at p5
          cases p5
          exact hmin q z (by omega) p4 p6
        · exact hci p q y z p1 (by omega) (by omega) p4 p5 p6
    obtain ⟨a2, t1, t2, t3⟩ := ih a1 (i + 1) (by omega) (by omega) hlen1 hcut
    refine ⟨a2, ?_, (s2.mono hi (Int.le_refl _)).trans t2, fun m m1 m2 => t3 m m1 (by omega)⟩
    simp only [dumbSelect, hx, Option.bind_eq_bind, Option.bind_some, r1, s1]
    exact t1

/-! ### Selection of the largest element -/

theorem maxLoop_ok (ho : SWO lt) {a : List α} (i : Int) (n : Nat) : ∀ (k mi : Int) (mv : α), 0 ≤ i → i ≤ mi → mi < k → k + n ≤ a.length → rd a mi = some mv →
    AllSeg (fun z => lt mv z = false) a i k →
    ∃ m v, maxLoop lt n a k mi mv = some m ∧ i ≤ m ∧ m < k + n ∧ rd a m = some v ∧ AllSeg (fun z => lt v z = false) a i (k + n) := by
  induction n with
  | zero =>
    intro k mi mv h0 h1 h2 h3 h4 h5
    refine ⟨mi, mv, rfl, h1, by simpa using h2, h4, ?_⟩
    simpa using h5
  | succ n ih =>
    intro k mi mv h0 h1 h2 h3 h4 h5
    obtain ⟨x, hx⟩ := rd_ex (a := a) (i := k) (by omega) (by omega)
    have ek : k + ((n + 1 : Nat) : Int) = k + 1 + n := by omega
    simp only [maxLoop, hx, Option.bind_eq_bind, Option.bind_some]
    cases hl : lt x mv with
    | false =>
      obtain ⟨m, v, r1, r2, r3, r4, r5⟩ := ih (k + 1) k x h0 (by omega) (by omega) (by omega) hx (by
        intro q z q1 q2 q3
        by_cases c : q = k
        · subst c
          rw [hx] at q3
          cases q3
          exact ho.irrefl x
        · exact ho.negTrans hl (h5 q z q1 (by omega) q3))
      refine ⟨m, v, by simpa using r1, r2, by omega, r4, by rw [ek]; exact r5⟩
    | true =>
      obtain ⟨m, v, r1, r2, r3, r4, r5⟩ := ih (k + 1) mi mv h0 h1 (by omega) (by omega) h4 (by
        intro q z q1 q2 q3
        by_cases c : q = k
        · subst c
          rw [hx] at q3
          cases q3
          exact ho.asymm hl
        · exact h5 q z q1 (by omega) q3)
      refine ⟨m, v, by simpa using r1, r2, by omega, r4, by rw [ek]; exact r5⟩

/-! ### The partition -/

theorem scanUp_ok {pivot : α} {a : List α} (g : Int) (hg : g < a.length) {w : α} (hw : rd a g = some w) (hwp : lt w pivot = false) (n : Nat) : ∀ ll : Int, 0 ≤ ll + 1 → ll < g → g - ll ≤ n →
    ∃ l x, scanUp lt pivot n a ll = some l ∧ ll < l ∧ l ≤ g ∧ rd a l = some x ∧ lt x pivot = false ∧ AllSeg (fun z => lt z pivot = true) a (ll + 1) l := by
  induction n with
  | zero => intro ll h0 h1 h2; omega
  | succ n ih =>
    intro ll h0 h1 h2
    obtain ⟨x, hx⟩ := rd_ex (a := a) (i := ll + 1) (by omega) (by omega)
    simp only [scanUp, hx, Option.bind_eq_bind, Option.bind_some]
    cases hl : lt x pivot with
    | false =>
      refine ⟨ll + 1, x, by simp, by omega, by omega, hx, hl, ?_⟩
      intro q z q1 q2; omega
    | true =>
      have hne : ll + 1 ≠ g := by
        intro he
        rw [he, hw] at hx
        cases hx
        rw [hwp] at hl
        cases hl
      obtain ⟨l, y, r1, r2, r3, r4, r5, r6⟩ := ih (ll + 1) (by omega) (by omega) (by omega)
      refine ⟨l, y, by simpa using r1, by omega, r3, r4, r5, ?_⟩
      intro q z q1 q2 q3
      by_cases c : q = ll + 1
      · subst c
        rw [hx] at q3
        cases q3
        exact hl
      · exact r6 q z (by omega) q2 q3

theorem scanDown_ok {pivot : α} {a : List α} (g : Int) (h0 : 0 ≤ g) {w : α} (hw : rd a g = some w) (hwp : lt pivot w = false) (n : Nat) : ∀ hh : Int, hh ≤ a.length → g < hh → hh - g ≤ n →
    ∃ l x, scanDown lt pivot n a hh = some l ∧ g ≤ l ∧ l < hh ∧ rd a l = some x ∧ lt pivot x = false ∧ AllSeg (fun z => lt pivot z = true) a (l + 1) hh := by
  induction n with
  | zero => intro hh _ h1 h2; omega
  | succ n ih =>
    intro hh hlen h1 h2
    obtain ⟨x, hx⟩ := rd_ex (a := a) (i := hh - 1) (by omega) (by omega)
    simp only [scanDown, hx, Option.bind_eq_bind, Option.bind_some]
    cases hl : lt pivot x with
    | false =>
      refine ⟨hh - 1, x, by simp, by omega, by omega, hx, hl, ?_⟩
      intro q z q1 q2; omega
    | true =>
      have hne : hh - 1 ≠ g := by
        intro he
        rw [he, hw] at hx
        cases hx
        rw [hwp] at hl
        cases hl
      obtain ⟨l, y, r1, r2, r3, r4, r5, r6⟩ := ih (hh - 1) (by omega) (by omega) (by omega)
      refine ⟨l, y, by simpa using r1, r2, by omega, r4, r5, ?_⟩
      intro q z q1 q2 q3
      by_cases c : q = hh - 1
      · subst c
        rw [hx] at q3
        cases q3
        exact hl
      · exact r6 q z q1 (by omega) q3

/-- What the partition has done when it ends: the elements before `ll` are not greater than the pivot, those after `hh` are not smaller. -/
theorem unguarded_ok (ho : SWO lt) {pivot : α} {low high : Int} (h0 : 0 ≤ low) (n : Nat) : ∀ (a : List α) (ll hh : Int), high < a.length → rd a low = some pivot → low ≤ ll → ll ≤ hh →
    hh ≤ high + 1 → low < hh → hh - ll + 1 ≤ n →
    AllSeg (fun z => lt pivot z = false) a (low + 1) (ll + 1) → AllSeg (fun z => lt z pivot = false) a hh (high + 1) →
    (∃ g w, ll < g ∧ g ≤ high ∧ (hh = high + 1 → g < high) ∧ rd a g = some w ∧ lt w pivot = false) →
    ∃ a' l h, unguarded lt pivot n a ll hh = some (a', l, h) ∧ Rearr a a' (low + 1) (high + 1) ∧ low ≤ h ∧ h < l ∧ low < l ∧ l ≤ high ∧
      AllSeg (fun z => lt pivot z = false) a' (low + 1) l ∧ AllSeg (fun z => lt z pivot = false) a' (h + 1) (high + 1) ∧ (∃ x, rd a' h = some x ∧ lt pivot x = false) := by
  induction n with
  | zero => intro a ll hh _ _ _ h1 _ _ h2; omega
  | succ n ih =>
    intro a ll hh hlen hp h1 h2 h3 h4 hn hA hB hG
    obtain ⟨g, w, g1, g2, g3, g4, g5⟩ := hG
    obtain ⟨l, x, u1, u2, u3, u4, u5, u6⟩ := scanUp_ok g (by omega) g4 g5 (a.length + 1) ll (by omega) g1 (by omega)
    obtain ⟨h, y, d1, d2, d3, d4, d5, d6⟩ := scanDown_ok (lt := lt) (pivot := pivot) low h0 hp (ho.irrefl pivot) (a.length + 1) hh (by omega) h4 (by omega)
    simp only [unguarded, u1, d1, Option.bind_eq_bind, Option.bind_some]
    have hA' : AllSeg (fun z => lt pivot z = false) a (low + 1) l := by
      intro q z q1 q2 q3
      by_cases c : q < ll + 1
      · exact hA q z q1 c q3
      · exact ho.asymm (u6 q z (by omega) q2 q3)
    have hB' : AllSeg (fun z => lt z pivot = false) a (h + 1) (high + 1) := by
      intro q z q1 q2 q3
      by_cases c : q < hh
      · exact ho.asymm (d6 q z q1 c q3)
      · exact hB q z (by omega) q2 q3
    by_cases c : h < l
    · rw [if_pos c]
      exact ⟨a, l, h, rfl, Rearr.refl _ _ _, d2, c, by omega, by omega, hA', hB', y, d4, d5⟩
    · rw [if_neg c]
      obtain ⟨a1, s1, s2, s3⟩ := swap_rearr (a := a) (i := l) (j := h) (b := low + 1) (e := high + 1) (by omega) (by omega) (by omega) (by omega)
      have hl1 : rd a1 l = some y := by
        rw [s3 l]
        by_cases e : l = h
        · rw [if_pos e, e]; exact d4
        · rw [if_neg e, if_pos rfl]; exact d4
      have hh1 : rd a1 h = some x := by rw [s3 h, if_pos rfl]; exact u4
      have hoth : ∀ q, q ≠ l → q ≠ h → rd a1 q = rd a q := fun q q1 q2 => by rw [s3 q, if_neg q2, if_neg q1]
      have hA1 : AllSeg (fun z => lt pivot z = false) a1 (low + 1) (l + 1) := by
        intro q z q1 q2 q3
        by_cases e : q = l
        · subst e
          rw [hl1] at q3
          cases q3
          exact d5
        · rw [hoth q e (by omega)] at q3
          exact hA' q z q1 (by omega) q3
      have hB1 : AllSeg (fun z => lt z pivot = false) a1 h (high + 1) := by
        intro q z q1 q2 q3
        by_cases e : q = h
        · subst e
          rw [hh1] at q3
          cases q3
          exact u5
        · rw [hoth q (by omega) e] at q3
          exact hB' q z (by omega) q2 q3
      have hlen1 : high < a1.length := by rw [s2.length]; exact hlen
      have hG1 : ∃ g w, l < g ∧ g ≤ high ∧ (h = high + 1 → g < high) ∧ rd a1 g = some w ∧ lt w pivot = false := by
        by_cases e : h < high
        · obtain ⟨w', hw'⟩ := rd_ex (a := a1) (i := h + 1) (by omega) (by omega)
          exact ⟨h + 1, w', by omega, by omega, fun q => by omega, hw', hB1 (h + 1) w' (by omega) (by omega) hw'⟩
        · exact ⟨h, x, by omega, by omega, fun q => by omega, hh1, u5⟩
      obtain ⟨a2, l2, k2, t1, t2, t3⟩ := ih a1 l h hlen1 (by rw [hoth low (by omega) (by omega)]; exact hp) (by omega) (by omega) (by omega) (by omega) (by omega) hA1 hB1 hG1
      rw [s1, Option.bind_some, t1]
      exact ⟨a2, l2, k2, rfl, s2.trans t2, t3⟩

end Codon.NpSel
