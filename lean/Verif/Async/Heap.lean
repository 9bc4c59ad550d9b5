import Verif.Async.Model
import Mathlib.Order.Basic
/-!
The timers of the event loop form a heap.
-/
namespace Codon.Async
universe u v
variable {W : Type u} {K : Type v} [LinearOrder K]

/-- No timer is due before its parent. -/
def IsHeap (a : List (K × Nat)) : Prop :=
  ∀ j x y, 0 < j → a[j]? = some y → a[(j - 1) / 2]? = some x → x.1 ≤ y.1

theorem IsHeap.root {a : List (K × Nat)} (h : IsHeap a) {r : K × Nat} (hr : a[0]? = some r) : ∀ (j : Nat) (y : K × Nat), a[j]? = some y → r.1 ≤ y.1 := by
  intro j
  induction j using Nat.strongRecOn with
  | ind j ih =>
    intro y hy
    by_cases h0 : j = 0
    · subst h0
      rw [hr] at hy
      cases hy
      exact le_refl _
    · have hlt : (j - 1) / 2 < a.length := by
        have := (List.getElem?_eq_some_iff.mp hy).1
        omega
      have hx : a[(j - 1) / 2]? = some a[(j - 1) / 2] := List.getElem?_eq_getElem hlt
      exact le_trans (ih ((j - 1) / 2) (by omega) _ hx) (h j _ _ (by omega) hy hx)

theorem swap_perm {a : List (K × Nat)} {p q : Nat} {x y : K × Nat} (hx : a[p]? = some x) (hy : a[q]? = some y) :
    ((a.set p y).set q x).Perm a := by
  obtain ⟨hp, rfl⟩ := List.getElem?_eq_some_iff.mp hx
  obtain ⟨hq, rfl⟩ := List.getElem?_eq_some_iff.mp hy
  exact List.set_set_perm hp hq

theorem siftUp_ok (i : Nat) : ∀ (a : List (K × Nat)), i < a.length →
    (∀ j x y, 0 < j → j ≠ i → a[j]? = some y → a[(j - 1) / 2]? = some x → x.1 ≤ y.1) →
    (∀ j x y, 0 < i → 0 < j → (j - 1) / 2 = i → a[j]? = some y → a[(i - 1) / 2]? = some x → x.1 ≤ y.1) →
    ∃ b, siftUp a i = some b ∧ b.Perm a ∧ IsHeap b := by
  induction i using Nat.strongRecOn with
  | ind i ih =>
    intro a hi h1 h2
    by_cases h0 : i = 0
    · subst h0
      refine ⟨a, by rw [siftUp]; simp, List.Perm.refl _, fun j x y hj hy hx => h1 j x y hj (by omega) hy hx⟩
    · have hp : (i - 1) / 2 < a.length := by omega
      have hx := List.getElem?_eq_getElem hp
      have hy := List.getElem?_eq_getElem hi
      generalize a[(i - 1) / 2] = x at hx
      generalize a[i] = y at hy
      rw [siftUp]
      simp only [dif_neg h0, hx, hy]
      by_cases hle : x.1 ≤ y.1
      · rw [if_pos hle]
        refine ⟨a, rfl, List.Perm.refl _, fun j x' y' hj hy' hx' => ?_⟩
        by_cases hji : j = i
        · subst hji
          rw [hy] at hy'
          rw [hx] at hx'
          cases hy'; cases hx'
          exact hle
        · exact h1 j x' y' hj hji hy' hx'
      · rw [if_neg hle]
        have hlt : y.1 ≤ x.1 := le_of_lt (not_le.mp hle)
        have hgp : 0 < (i - 1) / 2 → ∃ z, a[((i - 1) / 2 - 1) / 2]? = some z := fun _ =>
          ⟨a[((i - 1) / 2 - 1) / 2]'(by omega), List.getElem?_eq_getElem (by omega)⟩
        obtain ⟨b, hb1, hb2, hb3⟩ := ih ((i - 1) / 2) (by omega) ((a.set ((i - 1) / 2) y).set i x) (by simp; omega) (by
          intro j u w hj hjp hw hu
          simp only [List.getElem?_set, List.length_set] at hw hu
          have e1 := h1 j
          have e2 := h2 j
          by_cases hji : i = j
          · subst hji
            rw [if_pos rfl, if_pos hi] at hw
            cases hw
            rw [if_neg (by omega), if_pos rfl, if_pos hp] at hu
            cases hu
            exact hlt
          · rw [if_neg hji, if_neg (by omega)] at hw
            by_cases hc : (j - 1) / 2 = i
            · rw [if_pos hc.symm, if_pos hi] at hu
              cases hu
              exact e2 x w (by omega) hj hc hw hx
            · rw [if_neg (fun e => hc e.symm)] at hu
              by_cases hs : (i - 1) / 2 = (j - 1) / 2
              · rw [if_pos hs, if_pos (by omega)] at hu
                cases hu
                exact le_trans hlt (e1 x w hj (by omega) hw (hs ▸ hx))
              · rw [if_neg hs] at hu
                exact e1 u w hj (by omega) hw hu) (by
          intro j u w hi0 hj hjp hw hu
          simp only [List.getElem?_set, List.length_set] at hw hu
          rw [if_neg (by omega), if_neg (by omega)] at hu
          have e3 := h1 ((i - 1) / 2) u x hi0 (by omega) hx hu
          by_cases hji : i = j
          · subst hji
            rw [if_pos rfl, if_pos hi] at hw
            cases hw
            exact e3
          · rw [if_neg hji, if_neg (by omega)] at hw
            exact le_trans e3 (h1 j x w hj (fun e => hji e.symm) hw (hjp ▸ hx)))
        exact ⟨b, hb1, hb2.trans (swap_perm hx hy), hb3⟩

theorem push_ok {heap : List (K × Nat)} {cap : Nat} (h : IsHeap heap) (hc : heap.length ≤ cap) (hc0 : 0 < cap) (t : K × Nat) :
    ∃ b cap', timersPush heap cap t = some (b, cap') ∧ b.Perm (heap ++ [t]) ∧ IsHeap b ∧ b.length ≤ cap' ∧ 0 < cap' := by
  obtain ⟨b, hb1, hb2, hb3⟩ := siftUp_ok heap.length (heap ++ [t]) (by simp) (by
    intro j x y hj hne hy hx
    have hlt : j < heap.length := by
      have := (List.getElem?_eq_some_iff.mp hy).1
      simp at this
      omega
    rw [List.getElem?_append_left hlt] at hy
    rw [List.getElem?_append_left (by omega)] at hx
    exact h j x y hj hy hx) (by
    intro j x y _ hj hje hy hx
    have := (List.getElem?_eq_some_iff.mp hy).1
    simp at this
    omega)
  have hl := hb2.length_eq
  simp only [List.length_append, List.length_cons, List.length_nil] at hl
  by_cases he : heap.length = cap
  · refine ⟨b, cap * 2, ?_, hb2, hb3, by omega, by omega⟩
    simp only [timersPush, if_pos he, hb1]
    rw [if_pos (by omega)]
  · refine ⟨b, cap, ?_, hb2, hb3, by omega, hc0⟩
    simp only [timersPush, if_neg he, hb1]
    rw [if_pos (by omega)]

theorem smallest_ok {a : List (K × Nat)} {i : Nat} {x : K × Nat} (hx : a[i]? = some x) : ∃ j y, smallest a i = some j ∧ a[j]? = some y ∧
    (j = i ∨ (j = 2 * i + 1 ∨ j = 2 * i + 2) ∧ y.1 < x.1) ∧ ∀ c z, (c = 2 * i + 1 ∨ c = 2 * i + 2) → a[c]? = some z → y.1 ≤ z.1 := by
  simp only [smallest, hx]
  cases hl : a[2 * i + 1]? with
  | none =>
    refine ⟨i, x, rfl, hx, Or.inl rfl, ?_⟩
    intro c z hc hz
    have := List.getElem?_eq_none_iff.mp hl
    have := (List.getElem?_eq_some_iff.mp hz).1
    omega
  | some l =>
    simp only
    cases hr : a[2 * i + 2]? with
    | none =>
      by_cases h1 : l.1 < x.1
      · refine ⟨2 * i + 1, l, by simp [h1], hl, Or.inr ⟨Or.inl rfl, h1⟩, ?_⟩
        rintro c z (rfl | rfl) hz
        · rw [hl] at hz; cases hz; exact le_refl _
        · rw [hr] at hz; cases hz
      · refine ⟨i, x, by simp [h1], hx, Or.inl rfl, ?_⟩
        rintro c z (rfl | rfl) hz
        · rw [hl] at hz; cases hz; exact not_lt.mp h1
        · rw [hr] at hz; cases hz
    | some r =>
      by_cases h1 : l.1 < x.1
      · by_cases h2 : r.1 < l.1
        · refine ⟨2 * i + 2, r, by simp [h1, h2], hr, Or.inr ⟨Or.inr rfl, lt_trans h2 h1⟩, ?_⟩
          rintro c z (rfl | rfl) hz
          · rw [hl] at hz; cases hz; exact le_of_lt h2
          · rw [hr] at hz; cases hz; exact le_refl _
        · refine ⟨2 * i + 1, l, by simp [h1, h2], hl, Or.inr ⟨Or.inl rfl, h1⟩, ?_⟩
          rintro c z (rfl | rfl) hz
          · rw [hl] at hz; cases hz; exact le_refl _
          · rw [hr] at hz; cases hz; exact not_lt.mp h2
      · by_cases h2 : r.1 < x.1
        · refine ⟨2 * i + 2, r, by simp [h1, h2], hr, Or.inr ⟨Or.inr rfl, h2⟩, ?_⟩
          rintro c z (rfl | rfl) hz
          · rw [hl] at hz; cases hz; exact le_trans (le_of_lt h2) (not_lt.mp h1)
          · rw [hr] at hz; cases hz; exact le_refl _
        · refine ⟨i, x, by simp [h1, h2], hx, Or.inl rfl, ?_⟩
          rintro c z (rfl | rfl) hz
          · rw [hl] at hz; cases hz; exact not_lt.mp h1
          · rw [hr] at hz; cases hz; exact not_lt.mp h2

theorem siftDown_ok (n : Nat) : ∀ (a : List (K × Nat)) (i : Nat), a.length - i = n → i < a.length →
    (∀ j x y, 0 < j → (j - 1) / 2 ≠ i → a[j]? = some y → a[(j - 1) / 2]? = some x → x.1 ≤ y.1) →
    (∀ j x y, 0 < i → 0 < j → (j - 1) / 2 = i → a[j]? = some y → a[(i - 1) / 2]? = some x → x.1 ≤ y.1) →
    ∃ b, siftDown a i = some b ∧ b.Perm a ∧ IsHeap b := by
  induction n using Nat.strongRecOn with
  | ind n ih =>
    intro a i hn hi h1 h2
    have hx := List.getElem?_eq_getElem hi
    generalize a[i] = x at hx
    obtain ⟨j, y, hs, hy, hj, hmin⟩ := smallest_ok hx
    rw [siftDown]
    simp only [hs]
    rcases hj with rfl | ⟨hj, hlt⟩
    · rw [if_neg (by omega)]
      rw [hx] at hy
      cases hy
      refine ⟨a, rfl, List.Perm.refl _, fun c u w hc hw hu => ?_⟩
      by_cases hp : (c - 1) / 2 = j
      · rw [hp, hx] at hu
        cases hu
        exact hmin c w (by omega) hw
      · exact h1 c u w hc hp hw hu
    · have hjl := (List.getElem?_eq_some_iff.mp hy).1
      rw [if_pos ⟨by omega, hjl⟩]
      simp only [hx, hy]
      obtain ⟨b, hb1, hb2, hb3⟩ := ih (a.length - j) (by omega) ((a.set i y).set j x) j (by simp) (by simpa using hjl) (by
        intro c u w hc hcj hw hu
        simp only [List.getElem?_set, List.length_set] at hw hu
        rw [if_neg (fun e => hcj e.symm)] at hu
        by_cases hci : (c - 1) / 2 = i
        · rw [if_pos hci.symm, if_pos (by omega)] at hu
          cases hu
          by_cases hjc : j = c
          · subst hjc
            rw [if_pos rfl, if_pos hjl] at hw
            cases hw
            exact le_of_lt hlt
          · rw [if_neg hjc, if_neg (by omega)] at hw
            exact hmin c w (by omega) hw
        · rw [if_neg (fun e => hci e.symm)] at hu
          rw [if_neg (fun e => by subst e; exact hci (by omega))] at hw
          by_cases hic : i = c
          · subst hic
            rw [if_pos rfl, if_pos hi] at hw
            cases hw
            exact h2 j u y hc (by omega) (by omega) hy hu
          · rw [if_neg hic] at hw
            exact h1 c u w hc hci hw hu) (by
        intro c u w hj0 hc hcj hw hu
        simp only [List.getElem?_set, List.length_set] at hw hu
        rw [if_neg (by omega), if_pos (by omega), if_pos hi] at hu
        cases hu
        rw [if_neg (by omega), if_neg (by omega)] at hw
        exact h1 c y w hc (by omega) hw (hcj ▸ hy))
      exact ⟨b, hb1, hb2.trans (swap_perm hx hy), hb3⟩

theorem pop_ok {out : K × Nat} {rest : List (K × Nat)} (h : IsHeap (out :: rest)) : ∃ b, timersPop (out :: rest) = some (out, b) ∧
    b.Perm rest ∧ IsHeap b := by
  rcases List.eq_nil_or_concat rest with rfl | ⟨r, l, rfl⟩
  · exact ⟨[], rfl, List.Perm.refl _, fun j x y _ hy _ => by simp at hy⟩
  · obtain ⟨b, hb1, hb2, hb3⟩ := siftDown_ok (l :: r).length (l :: r) 0 rfl (by simp) (by
      intro j x y hj hne hy hx
      have hlt := (List.getElem?_eq_some_iff.mp hy).1
      simp only [List.length_cons] at hlt
      refine h j x y hj ?_ ?_
      · cases j with
        | zero => omega
        | succ j =>
          simp only [List.getElem?_cons_succ, List.concat_eq_append] at hy ⊢
          rw [List.getElem?_append_left (by omega)]
          exact hy
      · generalize (j - 1) / 2 = p at hne hx
        cases p with
        | zero => omega
        | succ p =>
          simp only [List.getElem?_cons_succ, List.concat_eq_append] at hx ⊢
          rw [List.getElem?_append_left (List.getElem?_eq_some_iff.mp hx).1]
          exact hx) (by
      intro j x y h0
      omega)
    refine ⟨b, ?_, ?_, hb3⟩
    · simp only [timersPop, List.concat_eq_append, List.getLast?_append, List.getLast?_singleton, Option.some_or, List.dropLast_concat, hb1]
    · refine hb2.trans ?_
      rw [List.concat_eq_append]
      exact (List.perm_append_singleton l r).symm

end Codon.Async
