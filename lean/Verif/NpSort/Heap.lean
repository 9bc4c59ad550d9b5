import Verif.NpSort.Model
import Verif.Sort.Base

/-! `heapsort`. -/

namespace Codon.NpSort
open Codon.Sort
variable {α : Type} {lt : α → α → Bool}

/-- No child (positions from 1) is above its parent, for parents from `l` on, other than `i`. -/
def HeapBut (lt : α → α → Bool) (a : List α) (l n i : Int) : Prop :=
  (∀ k x y, k ≤ n → l ≤ k / 2 → k / 2 ≠ i → rd a (k / 2 - 1) = some x → rd a (k - 1) = some y → lt x y = false) ∧
  (l ≤ i / 2 → ∀ k x y, k ≤ n → k / 2 = i → rd a (i / 2 - 1) = some x → rd a (k - 1) = some y → lt x y = false)

def HeapFrom (lt : α → α → Bool) (a : List α) (l n : Int) : Prop :=
  ∀ k x y, k ≤ n → l ≤ k / 2 → rd a (k / 2 - 1) = some x → rd a (k - 1) = some y → lt x y = false

/-- The choice of the larger child. -/
theorem child_spec (ho : SWO lt) (a L : List α) (n i j : Int) (hn : n ≤ a.length) (h1 : 1 ≤ i) (hj : j = 2 * i) (hjn : j ≤ n) (hs : ∀ t, t ≠ i - 1 → rd L t = rd a t) :
    ∃ j', (if j < n then (rd a (j - 1)).bind fun x => (rd a j).bind fun y => some (if lt x y then j + 1 else j) else some j) = some j' ∧ j' / 2 = i ∧ j' ≤ n ∧ j ≤ j' ∧
      ∀ k x y, k ≤ n → k / 2 = i → rd L (k - 1) = some y → rd L (j' - 1) = some x → lt x y = false := by
  by_cases c : j < n
  · rw [if_pos c]
    obtain ⟨x, hx⟩ := rd_ex (a := a) (i := j - 1) (by omega) (by omega)
    obtain ⟨y, hy⟩ := rd_ex (a := a) (i := j) (by omega) (by omega)
    rw [hx, hy]
    simp only [Option.bind_some]
    have gx : rd L (j - 1) = some x := by rw [hs (j - 1) (by omega), hx]
    have gy : rd L j = some y := by rw [hs j (by omega), hy]
    have alt : ∀ k, k / 2 = i → k = j ∨ k = j + 1 := by intro k hk; omega
    cases hl : lt x y
    · refine ⟨j, rfl, by omega, by omega, Int.le_refl _, ?_⟩
      intro k u v k1 k2 k3 k4
      rcases alt k k2 with rfl | rfl
      · rw [k3] at k4; cases k4; exact ho.irrefl _
      · rw [gx] at k4; cases k4
        rw [show j + 1 - 1 = j by omega, gy] at k3; cases k3
        exact hl
    · refine ⟨j + 1, rfl, by omega, by omega, by omega, ?_⟩
      intro k u v k1 k2 k3 k4
      rw [show j + 1 - 1 = j by omega, gy] at k4; cases k4
      rcases alt k k2 with rfl | rfl
      · rw [gx] at k3; cases k3; exact ho.asymm hl
      · rw [show j + 1 - 1 = j by omega, gy] at k3; cases k3; exact ho.irrefl _
  · rw [if_neg c]
    refine ⟨j, rfl, by omega, hjn, Int.le_refl _, ?_⟩
    intro k u v k1 k2 k3 k4
    have : k = j := by omega
    subst this
    rw [k3] at k4; cases k4; exact ho.irrefl _

/-- `L` is the array with `tmp` in the hole. -/
theorem siftLoop_spec (ho : SWO lt) (l n : Int) (hl : 1 ≤ l) (tmp : α) : ∀ (f : Nat) (a L : List α) (i : Int), n ≤ a.length → l ≤ i → i ≤ n → n - i < f → L = a.set (i - 1).toNat tmp → HeapBut lt L l n i →
    ∃ a' i' L', siftLoop lt n tmp f a i (2 * i) = some (a', i') ∧ wr a' (i' - 1) tmp = some L' ∧ Rearr L L' 0 n ∧ HeapFrom lt L' l n := by
  intro f
  induction f with
  | zero => intro a L i h1 h2 h3 h4; omega
  | succ f ih =>
    intro a L i h1 h2 h3 h4 hL hH
    have hLl : L.length = a.length := by rw [hL]; simp
    have hLi : ∀ t, rd L t = if t = i - 1 then some tmp else rd a t := by
      intro t; rw [hL, rd_set (by omega) (by omega)]
    have hsame : ∀ t, t ≠ i - 1 → rd L t = rd a t := fun t ht => by rw [hLi, if_neg ht]
    have hw : wr a (i - 1) tmp = some L := by rw [hL, wr_ok (by omega) (by omega)]
    unfold siftLoop
    by_cases hj : 2 * i ≤ n
    · rw [if_pos hj]
      obtain ⟨j', q1, q2, q3, q4, q5⟩ := child_spec ho a L n i (2 * i) h1 (by omega) rfl hj hsame
      simp only [Option.bind_eq_bind]
      rw [q1]
      simp only [Option.bind_some]
      obtain ⟨x, hx⟩ := rd_ex (a := a) (i := j' - 1) (by omega) (by omega)
      have hxL : rd L (j' - 1) = some x := by rw [hsame _ (by omega), hx]
      rw [hx]
      simp only [Option.bind_some]
      cases hc : lt tmp x
      · rw [if_neg (by simp)]
        refine ⟨a, i, L, rfl, hw, Rearr.refl _ _ _, ?_⟩
        intro k u v k1 k2 k3 k4
        by_cases hk : k / 2 = i
        · rw [hk, hLi, if_pos rfl] at k3; cases k3
          exact ho.negTrans hc (q5 k x v k1 hk k4 hxL)
        · exact hH.1 k u v k1 k2 hk k3 k4
      · rw [if_pos rfl, wr_ok (by omega) (by omega)]
        simp only [Option.bind_some]
        rw [show j' + j' = 2 * j' by omega]
        obtain ⟨L1, w1, w2, w3⟩ := swap_rearr (a := L) (i := i - 1) (j := j' - 1) (b := 0) (e := n) (by omega) (by omega) (by omega) (by omega)
        have hL1 : L1 = (a.set (i - 1).toNat x).set (j' - 1).toNat tmp := by
          apply list_ext_rd
          intro t
          rw [rd_set (by omega) (by simp; omega), rd_set (by omega) (by omega), w3 t, hxL, hLi (i - 1), if_pos rfl]
          by_cases c1 : t = j' - 1
          · rw [if_pos c1, if_pos c1]
          · rw [if_neg c1, if_neg c1]
            by_cases c2 : t = i - 1
            · rw [if_pos c2, if_pos c2]
            · rw [if_neg c2, if_neg c2, hsame t c2]
        have hH1 : HeapBut lt L1 l n j' := by
          constructor
          · intro k u v k1 k2 k3 k4 k5
            rw [w3] at k4 k5
            rw [if_neg (by omega)] at k4
            by_cases c1 : k / 2 = i
            · rw [if_pos (by omega), hxL] at k4
              cases k4
              by_cases c2 : k = j'
              · rw [if_pos (by omega), hLi, if_pos rfl] at k5; cases k5
                exact ho.asymm hc
              · rw [if_neg (by omega), if_neg (by omega)] at k5
                exact q5 k _ v k1 c1 k5 hxL
            · rw [if_neg (by omega)] at k4
              rw [if_neg (by intro h; have : k = j' := by omega
                             subst this; exact c1 q2)] at k5
              by_cases c2 : k = i
              · rw [if_pos (by omega), hxL] at k5
                cases k5
                subst c2
                exact hH.2 k2 j' u _ q3 q2 k4 hxL
              · rw [if_neg (by omega)] at k5
                exact hH.1 k u v k1 k2 c1 k4 k5
          · intro g k u v k1 k2 k3 k4
            rw [q2] at k3
            rw [w3, if_neg (by omega), if_pos rfl, hxL] at k3; cases k3
            rw [w3, if_neg (by omega), if_neg (by omega)] at k4
            exact hH.1 k _ v k1 (by omega) (by omega) (by rw [k2]; exact hxL) k4
        obtain ⟨a', i', L', r1, r2, r3, r4⟩ := ih (a.set (i - 1).toNat x) L1 j' (by simp; omega) (by omega) q3 (by omega) hL1 hH1
        exact ⟨a', i', L', r1, r2, w2.trans r3, r4⟩
    · rw [if_neg hj]
      refine ⟨a, i, L, rfl, hw, Rearr.refl _ _ _, ?_⟩
      intro k u v k1 k2 k3 k4
      exact hH.1 k u v k1 k2 (by omega) k3 k4

theorem heapBuild_spec (ho : SWO lt) (n : Int) : ∀ (f : Nat) (a : List α) (l : Int), n ≤ a.length → 0 ≤ l → l ≤ n → l < f → HeapFrom lt a (l + 1) n →
    ∃ a', heapBuild lt n f a l = some a' ∧ Rearr a a' 0 n ∧ HeapFrom lt a' 1 n := by
  intro f
  induction f with
  | zero => intro a l h1 h2 h3 h4; omega
  | succ f ih =>
    intro a l h1 h2 h3 h4 h5
    unfold heapBuild
    by_cases hc : 0 < l
    · rw [if_pos hc]
      obtain ⟨x, hx⟩ := rd_ex (a := a) (i := l - 1) (by omega) (by omega)
      rw [hx]
      simp only [Option.bind_eq_bind, Option.bind_some]
      have hself : a = a.set (l - 1).toNat x := by
        apply list_ext_rd
        intro t
        rw [rd_set (by omega) (by omega)]
        by_cases c : t = l - 1
        · rw [if_pos c, c, hx]
        · rw [if_neg c]
      obtain ⟨a1, i, L, q1, q2, q3, q4⟩ := siftLoop_spec ho l n (by omega) x (a.length + 1) a a l h1 (Int.le_refl _) h3 (by omega) hself
        ⟨fun k u v k1 k2 k3 => h5 k u v k1 (by omega), fun h => by omega⟩
      rw [q1]
      simp only [Option.bind_some]
      rw [q2]
      simp only [Option.bind_some]
      have hlen : L.length = a.length := q3.length
      obtain ⟨a2, r1, r2, r3⟩ := ih L (l - 1) (by omega) (by omega) (by omega) (by omega) (by rw [show l - 1 + 1 = l by omega]; exact q4)
      exact ⟨a2, r1, q3.trans r2, r3⟩
    · rw [if_neg hc]
      have : l = 0 := by omega
      subst this
      exact ⟨a, rfl, Rearr.refl _ _ _, h5⟩

theorem heap_top (ho : SWO lt) {a : List α} {n : Int} (hn : n ≤ a.length) (h : HeapFrom lt a 1 n) {x : α} (hx : rd a 0 = some x) : AllSeg (fun y => lt x y = false) a 0 n := by
  have key : ∀ (m : Nat) (k : Int), k.toNat ≤ m → 1 ≤ k → k ≤ n → ∀ y, rd a (k - 1) = some y → lt x y = false := by
    intro m
    induction m with
    | zero => intro k h1 h2; omega
    | succ m ih =>
      intro k h1 h2 h3 y hy
      by_cases c : k = 1
      · subst c
        rw [show (1 : Int) - 1 = 0 by omega, hx] at hy; cases hy
        exact ho.irrefl _
      · obtain ⟨z, hz⟩ := rd_ex (a := a) (i := k / 2 - 1) (by omega) (by omega)
        exact ho.negTrans (ih (k / 2) (by omega) (by omega) (by omega) z hz) (h k z y h3 (by omega) hz hy)
  intro i y i1 i2 i3
  exact key (i + 1).toNat (i + 1) (Nat.le_refl _) (by omega) (by omega) y (by rw [show i + 1 - 1 = i by omega]; exact i3)

theorem heapTake_spec (ho : SWO lt) : ∀ (f : Nat) (a : List α) (n : Int), n ≤ a.length → 0 ≤ n → n < f → HeapFrom lt a 1 n → SortedSeg lt a n a.length →
    (∀ q y, n ≤ q → rd a q = some y → AllSeg (fun x => lt y x = false) a 0 n) →
    ∃ a', heapTake lt f a n = some a' ∧ Rearr a a' 0 n ∧ SortedSeg lt a' 0 a.length := by
  intro f
  induction f with
  | zero => intro a n h1 h2 h3; omega
  | succ f ih =>
    intro a n h1 h2 h3 hH hS hA
    unfold heapTake
    by_cases hc : 1 < n
    · rw [if_pos hc]
      obtain ⟨t, ht⟩ := rd_ex (a := a) (i := n - 1) (by omega) (by omega)
      obtain ⟨x, hx⟩ := rd_ex (a := a) (i := 0) (by omega) (by omega)
      rw [ht, hx]
      simp only [Option.bind_eq_bind, Option.bind_some]
      rw [wr_ok (by omega) (by omega)]
      simp only [Option.bind_some]
      have htop := heap_top ho h1 hH hx
      obtain ⟨L, w1, w2, w3⟩ := swap_rearr (a := a) (i := 0) (j := n - 1) (b := 0) (e := n) (by omega) (by omega) (by omega) (by omega)
      have hLl : L.length = a.length := w2.length
      have hL : L = (a.set (n - 1).toNat x).set ((1 : Int) - 1).toNat t := by
        apply list_ext_rd
        intro k
        rw [rd_set (by omega) (by simp; omega), rd_set (by omega) (by omega), w3 k, hx, ht, show (1 : Int) - 1 = 0 by omega]
        by_cases c1 : k = n - 1
        · rw [if_pos c1, if_neg (by omega), if_pos c1]
        · rw [if_neg c1]
          by_cases c2 : k = 0
          · rw [if_pos c2, if_pos c2]
          · rw [if_neg c2, if_neg c2, if_neg c1]
      have hB : HeapBut lt L 1 (n - 1) 1 := by
        refine ⟨?_, fun h => by omega⟩
        intro k u v k1 k2 k3 k4 k5
        rw [w3, if_neg (by omega), if_neg (by omega)] at k4 k5
        exact hH k u v (by omega) k2 k4 k5
      obtain ⟨a1, i, L', q1, q2, q3, q4⟩ := siftLoop_spec ho 1 (n - 1) (by omega) t ((a.set (n - 1).toNat x).length + 1) (a.set (n - 1).toNat x) L 1 (by simp; omega) (by omega) (by omega) (by simp; omega) hL hB
      rw [show (2 : Int) * 1 = 2 by omega] at q1
      rw [q1]
      simp only [Option.bind_some]
      rw [q2]
      simp only [Option.bind_some]
      have hl2 : L'.length = a.length := by rw [q3.length, hLl]
      have hlast : rd L' (n - 1) = some x := by rw [q3.out _ (Or.inr (Int.le_refl _)), w3, if_pos rfl, hx]
      have hrest : ∀ k, n ≤ k → rd L' k = rd a k := by
        intro k hk
        rw [q3.out _ (Or.inr (by omega)), w2.out _ (Or.inr hk)]
      have hwhole : Rearr a L' 0 n := w2.trans (q3.mono (Int.le_refl _) (by omega))
      have hlow : AllSeg (fun y => lt x y = false) L' 0 n := htop.rearr hwhole (Int.le_refl _) (by omega) h1
      obtain ⟨a2, r1, r2, r3⟩ := ih L' (n - 1) (by omega) (by omega) (by omega) q4 (by
          intro p q u v p1 p2 p3 p4 p5
          rw [hl2] at p3
          by_cases c : p = n - 1
          · subst c
            rw [hlast] at p4; cases p4
            rw [hrest q (by omega)] at p5
            exact hA q v (by omega) p5 0 _ (Int.le_refl _) (by omega) hx
          · rw [hrest p (by omega)] at p4
            rw [hrest q (by omega)] at p5
            exact hS p q u v (by omega) p2 p3 p4 p5) (by
          intro q y q1' q2' k z k1 k2 k3
          by_cases c : q = n - 1
          · subst c
            rw [hlast] at q2'; cases q2'
            exact hlow k z k1 (by omega) k3
          · rw [hrest q (by omega)] at q2'
            exact ((hA q y (by omega) q2').rearr hwhole (Int.le_refl _) (by omega) h1) k z k1 (by omega) k3)
      refine ⟨a2, r1, hwhole.trans (r2.mono (Int.le_refl _) (by omega)), ?_⟩
      rw [← hl2]
      exact r3
    · rw [if_neg hc]
      refine ⟨a, rfl, Rearr.refl _ _ _, ?_⟩
      intro p q u v p1 p2 p3 p4 p5
      by_cases c : p < n
      · have : p = 0 := by omega
        subst this
        exact hA q v (by omega) p5 0 u (Int.le_refl _) (by omega) p4
      · exact hS p q u v (by omega) p2 p3 p4 p5

theorem heapsort_spec (ho : SWO lt) (a : List α) : ∃ b, heapsort lt a = some b ∧ b.Perm a ∧ Sorted lt b := by
  unfold heapsort
  obtain ⟨a1, q1, q2, q3⟩ := heapBuild_spec ho a.length (a.length + 1) a (a.length / 2) (Int.le_refl _) (by omega) (by omega) (by omega) (fun k u v k1 k2 => by omega)
  rw [q1]
  simp only [Option.bind_eq_bind, Option.bind_some]
  have hl := q2.length
  obtain ⟨a2, r1, r2, r3⟩ := heapTake_spec ho (a1.length + 1) a1 a1.length (Int.le_refl _) (by omega) (by omega) (by rw [hl]; exact q3) (SortedSeg.short (by omega)) (by
    intro q y h1 h2
    have := rd_lt h2
    omega)
  refine ⟨a2, r1, r2.perm.trans q2.perm, sorted_of_seg ?_⟩
  rw [r2.length]
  exact r3
end Codon.NpSort
