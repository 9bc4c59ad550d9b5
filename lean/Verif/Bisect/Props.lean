import Verif.Bisect.Model
import Verif.ListM.Lemmas
import Verif.Base.Order

/-! # Property theorems for `bisect` (C28) -/

namespace Codon.Bisect

open ListM.Spec

section
variable {T S : Type}

/-- `r` is the place in `a[lo:hi]` before which all elements satisfy `p` and from which on none
does. -/
def Splits (a : List T) (p : T → Bool) (lo hi r : Nat) : Prop :=
  lo ≤ r ∧ r ≤ max lo hi ∧ (∀ i v, lo ≤ i → i < r → a[i]? = some v → p v = true) ∧
  (∀ i v, r ≤ i → i < hi → a[i]? = some v → p v = false)

theorem item_nat {a : List T} {m : Nat} (h : m < a.length) : item a (m : Int) = .ok a[m] := by
  have : pos a.length (m : Int) = some m := by
    unfold pos
    simp only
    rw [show (if (m : Int) < 0 then (m : Int) + a.length else m) = m from if_neg (by omega), if_pos (by omega)]
    simp
  unfold item
  simp only [this, List.getElem?_eq_getElem h]

/-- The common search: where `p` stops being true. -/
theorem search_spec {a : List T} {p : T → Bool} (loop : Int → Int → Nat → R Int)
    (hstep : ∀ (lo hi : Int) n, lo < hi → loop lo hi (n + 1) = (do
      if p (← item a ((lo + hi).tdiv 2)) then loop ((lo + hi).tdiv 2 + 1) hi n
      else loop lo ((lo + hi).tdiv 2) n))
    (hend : ∀ (lo hi : Int) n, ¬ lo < hi → loop lo hi (n + 1) = .ok lo)
    (lo0 hi0 : Nat)
    (hmono : ∀ i j v w, lo0 ≤ i → i < j → j < hi0 → a[i]? = some v → a[j]? = some w → p w = true →
      p v = true) (hlen : hi0 ≤ a.length) :
    ∀ (n lo hi : Nat), hi - lo < n → lo0 ≤ lo → hi ≤ max lo hi0 → lo ≤ max lo0 hi0 →
      (∀ i v, lo0 ≤ i → i < lo → a[i]? = some v → p v = true) →
      (∀ i v, hi ≤ i → i < hi0 → a[i]? = some v → p v = false) → lo ≤ max lo0 hi →
      ∃ r : Nat, loop lo hi n = .ok r ∧ Splits a p lo0 hi0 r := by
  intro n
  induction n with
  | zero => intro lo hi h; omega
  | succ n ih =>
    intro lo hi hn h1 h2 h3 h4 h5 h6
    by_cases hlt : (lo : Int) < hi
    · rw [hstep _ _ _ hlt]
      have hm : ((lo : Int) + hi).tdiv 2 = ((lo + hi) / 2 : Nat) := by
        rw [Int.tdiv_eq_ediv_of_nonneg (by omega)]; omega
      rw [hm]
      generalize hmid : (lo + hi) / 2 = m
      have hm1 : lo ≤ m := by omega
      have hm2 : m < hi := by omega
      have hml : m < a.length := by omega
      have hget := List.getElem?_eq_getElem hml
      rw [item_nat hml]
      simp only [Out.bind_ok]
      by_cases hp : p a[m] = true
      · rw [if_pos hp]
        have := ih (m + 1) hi (by omega) (by omega) (by omega) (by omega) (by
          intro i v hi1 hi2 hv
          by_cases him : i < m
          · exact hmono i m v a[m] hi1 him (by omega) hv hget hp
          · have : i = m := by omega
            subst this
            rw [hget] at hv; cases hv; exact hp) h5 (by omega)
        simpa using this
      · rw [if_neg hp]
        refine ih lo m (by omega) h1 (by omega) h3 h4 ?_ (by omega)
        intro i v hi1 hi2 hv
        by_cases him : m < i
        · by_contra hc
          have := hmono m i a[m] v (by omega) him hi2 hget hv (by simpa using hc)
          exact hp this
        · have : i = m := by omega
          subst this
          rw [hget] at hv; cases hv; simpa using hp
    · rw [hend _ _ _ hlt]
      exact ⟨lo, rfl, h1, h3, h4, fun i v hi1 hi2 hv => h5 i v (by omega) hi2 hv⟩

/-- `bisect_left` on a window of a list in which the elements `< x` come first: the insertion point
is the one that separates them from the rest. -/
theorem c28_bisect_left_splits (ltTS : T → S → Bool) (a : List T) (x : S) (lo : Nat) (hi : Option Nat)
    (hh : hi.getD a.length ≤ a.length)
    (hmono : ∀ i j v w, lo ≤ i → i < j → j < hi.getD a.length → a[i]? = some v → a[j]? = some w →
      ltTS w x = true → ltTS v x = true) :
    ∃ r : Nat, bisectLeft ltTS a x lo (hi.map fun n : Nat => (n : Int)) = .ok r ∧
      Splits a (fun v => ltTS v x) lo (hi.getD a.length) r := by
  have he : (hi.map fun n : Nat => (n : Int)).getD (a.length : Int) = (hi.getD a.length : Nat) := by
    cases hi <;> rfl
  unfold bisectLeft
  rw [if_neg (by omega), he]
  refine search_spec (p := fun v => ltTS v x) (fun l h n => leftLoop ltTS a x l h n) ?_ ?_ lo
    (hi.getD a.length) hmono hh _ lo (hi.getD a.length) (by omega) (Nat.le_refl _) (by omega) (by omega)
    (fun i v h1 h2 => by omega) (fun i v h1 h2 => by omega) (by omega)
  · intro l h n hl; simp only [leftLoop]; rw [if_pos hl]
  · intro l h n hl; simp only [leftLoop]; rw [if_neg hl]

/-- `bisect_right` likewise separates the elements `≤ x` (those with `not x < v`) from the rest. -/
theorem c28_bisect_right_splits (ltST : S → T → Bool) (a : List T) (x : S) (lo : Nat) (hi : Option Nat)
    (hh : hi.getD a.length ≤ a.length)
    (hmono : ∀ i j v w, lo ≤ i → i < j → j < hi.getD a.length → a[i]? = some v → a[j]? = some w →
      ltST x w = false → ltST x v = false) :
    ∃ r : Nat, bisectRight ltST a x lo (hi.map fun n : Nat => (n : Int)) = .ok r ∧
      Splits a (fun v => !ltST x v) lo (hi.getD a.length) r := by
  have he : (hi.map fun n : Nat => (n : Int)).getD (a.length : Int) = (hi.getD a.length : Nat) := by
    cases hi <;> rfl
  unfold bisectRight
  rw [if_neg (by omega), he]
  refine search_spec (p := fun v => !ltST x v) (fun l h n => rightLoop ltST a x l h n) ?_ ?_ lo
    (hi.getD a.length) (fun i j v w h1 h2 h3 h4 h5 h6 => by
      simpa using hmono i j v w h1 h2 h3 h4 h5 (by simpa using h6)) hh _ lo (hi.getD a.length) (by omega)
    (Nat.le_refl _) (by omega) (by omega)
    (fun i v h1 h2 => by omega) (fun i v h1 h2 => by omega) (by omega)
  · intro l h n hl
    simp only [rightLoop]
    rw [if_pos hl]
    congr 1
    funext v
    cases ltST x v <;> rfl
  · intro l h n hl; simp only [rightLoop]; rw [if_neg hl]

/-- The splitting place is determined. -/
theorem c28_split_unique {a : List T} {p : T → Bool} {lo hi r r' : Nat} (hh : hi ≤ a.length)
    (h : Splits a p lo hi r) (h' : Splits a p lo hi r') : r = r' := by
  obtain ⟨a1, a2, a3, a4⟩ := h
  obtain ⟨b1, b2, b3, b4⟩ := h'
  rcases Nat.lt_trichotomy r r' with hl | hl | hl
  · have hr : r < a.length := by omega
    have e1 := b3 r a[r] a1 hl (List.getElem?_eq_getElem hr)
    have e2 := a4 r a[r] (Nat.le_refl _) (by omega) (List.getElem?_eq_getElem hr)
    rw [e1] at e2; cases e2
  · exact hl
  · have hr : r' < a.length := by omega
    have e1 := a3 r' a[r'] b1 hl (List.getElem?_eq_getElem hr)
    have e2 := b4 r' a[r'] (Nat.le_refl _) (by omega) (List.getElem?_eq_getElem hr)
    rw [e1] at e2; cases e2

/-- A negative `lo` is rejected. -/
theorem c28_negative_lo (ltTS : T → S → Bool) (ltST : S → T → Bool) (a : List T) (x : S) (lo : Int)
    (hi : Option Int) (h : lo < 0) :
    bisectLeft ltTS a x lo hi = .exc .valueError ∧ bisectRight ltST a x lo hi = .exc .valueError := by
  simp [bisectLeft, bisectRight, h]

theorem sorted_get {lt : T → T → Bool} {a : List T} (hs : Sorted lt a) {i j : Nat} {v w : T}
    (hij : i < j) (hv : a[i]? = some v) (hw : a[j]? = some w) : lt w v = false := by
  obtain ⟨h1, rfl⟩ := List.getElem?_eq_some_iff.mp hv
  obtain ⟨h2, rfl⟩ := List.getElem?_eq_some_iff.mp hw
  exact List.pairwise_iff_getElem.mp hs i j h1 h2 hij

theorem insertAt_nat {a : List T} {r : Nat} (h : r ≤ a.length) (x : T) :
    insertAt a (r : Int) x = a.take r ++ x :: a.drop r := by
  have : insPos a.length (r : Int) = r := by
    unfold insPos SliceSpec.clamp SliceSpec.rel
    split <;> omega
  unfold insertAt
  rw [this]

theorem sorted_insert {lt : T → T → Bool} {a : List T} {x : T} (hs : Sorted lt a)
    {r : Nat} (h1 : ∀ i v, i < r → a[i]? = some v → lt x v = false)
    (h2 : ∀ i v, r ≤ i → i < a.length → a[i]? = some v → lt v x = false) :
    Sorted lt (a.take r ++ x :: a.drop r) := by
  unfold Sorted
  rw [List.pairwise_append, List.pairwise_cons]
  refine ⟨hs.sublist (List.take_sublist _ _), ⟨?_, hs.sublist (List.drop_sublist _ _)⟩, ?_⟩
  · intro v hv
    obtain ⟨i, hi, rfl⟩ := List.getElem_of_mem hv
    rw [List.getElem_drop]
    simp only [List.length_drop] at hi
    exact h2 (r + i) _ (by omega) (by omega) (List.getElem?_eq_getElem (by omega))
  · intro v hv w hw
    obtain ⟨i, hi, rfl⟩ := List.getElem_of_mem hv
    rw [List.getElem_take]
    simp only [List.length_take] at hi
    rcases List.mem_cons.mp hw with rfl | hw
    · exact h1 i _ (by omega) (List.getElem?_eq_getElem (by omega))
    · obtain ⟨j, hj, rfl⟩ := List.getElem_of_mem hw
      rw [List.getElem_drop]
      simp only [List.length_drop] at hj
      exact sorted_get hs (by omega : i < r + j) (List.getElem?_eq_getElem (by omega))
        (List.getElem?_eq_getElem (by omega))

theorem perm_insert (a : List T) (r : Nat) (x : T) : (a.take r ++ x :: a.drop r).Perm (x :: a) := by
  have := List.perm_middle (a := x) (l₁ := a.take r) (l₂ := a.drop r)
  rwa [List.take_append_drop] at this

/-- `insort_left` inserts `x` before the elements that are not less than it, and the list stays
sorted. -/
theorem c28_insort_left (lt : T → T → Bool) (ho : SWO lt) (a : List T) (x : T) (hs : Sorted lt a) :
    ∃ b c, a = b ++ c ∧ insortLeft lt a x 0 none = .ok (b ++ x :: c) ∧ Sorted lt (b ++ x :: c) ∧
      (∀ v ∈ b, lt v x = true) ∧ (∀ v ∈ c, lt v x = false) := by
  obtain ⟨r, e1, -, e2, e3, e4⟩ := c28_bisect_left_splits lt a x 0 none (Nat.le_refl _)
    (fun i j v w _ hij _ hv hw hwx => ho.lt_of_le_of_lt (sorted_get hs hij hv hw) hwx)
  simp only [Option.getD_none] at e2 e4
  have hr : r ≤ a.length := by omega
  refine ⟨a.take r, a.drop r, (List.take_append_drop _ _).symm, ?_, ?_, ?_, ?_⟩
  · unfold insortLeft
    rw [show (0 : Int) = ((0 : Nat) : Int) from rfl]
    simp only [Option.map_none] at e1
    rw [e1]
    simp only [Out.bind_ok, Out.pure_eq]
    rw [insertAt_nat hr]
  · exact sorted_insert hs (fun i v hi hv => ho.asymm (e3 i v (by omega) hi hv)) e4
  · intro v hv
    obtain ⟨i, hi, rfl⟩ := List.getElem_of_mem hv
    rw [List.getElem_take]
    simp only [List.length_take] at hi
    exact e3 i _ (by omega) (by omega) (List.getElem?_eq_getElem (by omega))
  · intro v hv
    obtain ⟨i, hi, rfl⟩ := List.getElem_of_mem hv
    rw [List.getElem_drop]
    simp only [List.length_drop] at hi
    exact e4 (r + i) _ (by omega) (by omega) (List.getElem?_eq_getElem (by omega))

/-- `insort_right` inserts `x` after the elements that are not greater than it, and the list stays
sorted. -/
theorem c28_insort_right (lt : T → T → Bool) (ho : SWO lt) (a : List T) (x : T) (hs : Sorted lt a) :
    ∃ b c, a = b ++ c ∧ insortRight lt a x 0 none = .ok (b ++ x :: c) ∧ Sorted lt (b ++ x :: c) ∧
      (∀ v ∈ b, lt x v = false) ∧ (∀ v ∈ c, lt x v = true) := by
  obtain ⟨r, e1, -, e2, e3, e4⟩ := c28_bisect_right_splits lt a x 0 none (Nat.le_refl _)
    (fun i j v w _ hij _ hv hw hwx => ho.negTrans hwx (sorted_get hs hij hv hw))
  simp only [Option.getD_none, Bool.not_eq_true', Bool.not_eq_false'] at e2 e3 e4
  have hr : r ≤ a.length := by omega
  refine ⟨a.take r, a.drop r, (List.take_append_drop _ _).symm, ?_, ?_, ?_, ?_⟩
  · unfold insortRight
    rw [show (0 : Int) = ((0 : Nat) : Int) from rfl]
    simp only [Option.map_none] at e1
    rw [e1]
    simp only [Out.bind_ok, Out.pure_eq]
    by_cases hra : (r : Int) = a.length
    · rw [if_pos hra]
      have : r = a.length := by omega
      subst this
      simp
    · rw [if_neg hra, insertAt_nat hr]
  · exact sorted_insert hs (fun i v hi hv => e3 i v (by omega) hi hv)
      (fun i v h1 h2 hv => ho.asymm (e4 i v h1 h2 hv))
  · intro v hv
    obtain ⟨i, hi, rfl⟩ := List.getElem_of_mem hv
    rw [List.getElem_take]
    simp only [List.length_take] at hi
    exact e3 i _ (by omega) (by omega) (List.getElem?_eq_getElem (by omega))
  · intro v hv
    obtain ⟨i, hi, rfl⟩ := List.getElem_of_mem hv
    rw [List.getElem_drop]
    simp only [List.length_drop] at hi
    exact e4 (r + i) _ (by omega) (by omega) (List.getElem?_eq_getElem (by omega))

/-- With any window, a call that returns has added exactly `x`. -/
theorem c28_insort_adds_one (lt : T → T → Bool) (a b : List T) (x : T) (lo : Int) (hi : Option Int) :
    (insortLeft lt a x lo hi = .ok b → b.Perm (x :: a)) ∧
    (insortRight lt a x lo hi = .ok b → b.Perm (x :: a)) := by
  constructor
  · unfold insortLeft
    cases bisectLeft lt a x lo hi with
    | ok r =>
      simp only [Out.bind_ok, Out.pure_eq, Out.ok.injEq]
      rintro rfl
      exact perm_insert _ _ _
    | exc e => simp
    | ub => simp
  · unfold insortRight
    cases bisectRight lt a x lo hi with
    | ok r =>
      simp only [Out.bind_ok, Out.pure_eq]
      split
      · rintro h; cases h
        exact List.perm_append_comm
      · rintro h; cases h
        exact perm_insert _ _ _
    | exc e => simp
    | ub => simp

end

/-! ### Cases -/

example : Sorted (fun a b : Nat => decide (a < b)) [1, 3, 3, 5] := by unfold Sorted; decide
example : bisectLeft (fun a b : Nat => decide (a < b)) [1, 3, 3, 5] 3 0 none = .ok 1 := by decide
example : bisectRight (fun a b : Nat => decide (a < b)) [1, 3, 3, 5] 3 0 none = .ok 3 := by decide
example : bisectRight (fun a b : Nat => decide (a < b)) [1, 3, 3, 5] 3 1 (some 2) = .ok 2 := by decide
example : bisectLeft (fun a b : Nat => decide (a < b)) [1, 3] 9 0 (some 9) = .exc .indexError := by decide
example : insortRight (fun a b : Nat × Nat => decide (a.1 < b.1)) [(1, 0), (3, 0), (5, 0)] (3, 1) 0 none =
    .ok [(1, 0), (3, 0), (3, 1), (5, 0)] := by decide

end Codon.Bisect
