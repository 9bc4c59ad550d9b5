import Verif.Sort.Model
import Mathlib.Data.List.Perm.Basic
import Mathlib.Tactic.Common

/-! Vocabulary for reasoning about array segments. -/

set_option linter.unusedSectionVars false
set_option linter.unusedSimpArgs false

namespace Codon.Sort

variable {α : Type} {lt : α → α → Bool}

theorem rd_some_iff {a : List α} {i : Int} {x : α} : rd a i = some x ↔ 0 ≤ i ∧ a[i.toNat]? = some x := by
  unfold rd; split
  · simp_all
  · constructor
    · intro h; cases h
    · intro h; omega

theorem rd_lt {a : List α} {i : Int} {x : α} (h : rd a i = some x) : 0 ≤ i ∧ i < a.length := by
  rw [rd_some_iff] at h
  have := (List.getElem?_eq_some_iff.mp h.2).1
  omega

theorem rd_ex {a : List α} {i : Int} (h0 : 0 ≤ i) (h1 : i < a.length) : ∃ x, rd a i = some x := by
  have : i.toNat < a.length := by omega
  exact ⟨a[i.toNat], by rw [rd_some_iff]; exact ⟨h0, List.getElem?_eq_getElem this⟩⟩

theorem rd_nat {a : List α} {n : Nat} : rd a (n : Int) = a[n]? := by
  unfold rd; simp

theorem rd_none {a : List α} {i : Int} (h : i < 0 ∨ a.length ≤ i) : rd a i = none := by
  unfold rd; split
  · rw [List.getElem?_eq_none]; omega
  · rfl

theorem wr_ok {a : List α} {i : Int} {x : α} (h0 : 0 ≤ i) (h1 : i < a.length) :
    wr a i x = some (a.set i.toNat x) := by
  unfold wr; rw [if_pos]; omega

theorem rd_set {a : List α} {i j : Int} {x : α} (h0 : 0 ≤ i) (h1 : i < a.length) :
    rd (a.set i.toNat x) j = if j = i then some x else rd a j := by
  unfold rd
  by_cases hj : 0 ≤ j
  · rw [if_pos hj, if_pos hj, List.getElem?_set]
    by_cases hij : j = i
    · subst hij; rw [if_pos rfl, if_pos rfl, if_pos (by omega)]
    · rw [if_neg (by omega), if_neg hij]
  · rw [if_neg hj, if_neg hj, if_neg (by omega)]

theorem list_ext_rd {a b : List α} (h : ∀ i : Int, rd a i = rd b i) : a = b := by
  apply List.ext_getElem?
  intro n
  have := h n
  rwa [rd_nat, rd_nat] at this

/-- The effect of exchanging two elements. -/
theorem swap_ok {a : List α} {i j : Int} (hi0 : 0 ≤ i) (hi : i < a.length) (hj0 : 0 ≤ j) (hj : j < a.length) :
    ∃ a', swap a i j = some a' ∧ a'.Perm a ∧ a'.length = a.length ∧
      ∀ k, rd a' k = if k = j then rd a i else if k = i then rd a j else rd a k := by
  obtain ⟨x, hx⟩ := rd_ex hi0 hi
  obtain ⟨y, hy⟩ := rd_ex hj0 hj
  refine ⟨(a.set i.toNat y).set j.toNat x, ?_, ?_, by simp, ?_⟩
  · unfold swap
    rw [hy, hx]
    simp only [Option.bind_eq_bind, Option.bind_some]
    rw [wr_ok hi0 hi, Option.bind_some, wr_ok hj0 (by simpa using hj)]
  · have := List.set_set_perm (as := a) (i := i.toNat) (j := j.toNat) (by omega) (by omega)
    rw [rd_some_iff] at hx hy
    have e1 := (List.getElem?_eq_some_iff.mp hx.2).2
    have e2 := (List.getElem?_eq_some_iff.mp hy.2).2
    rwa [e1, e2] at this
  · intro k
    rw [rd_set hj0 (by simpa using hj), rd_set hi0 hi]
    split
    · rw [hx]
    · split
      · rw [hy]
      · rfl

/-- The elements of the segment `[b, e)` satisfy `P`. -/
def AllSeg (P : α → Prop) (a : List α) (b e : Int) : Prop :=
  ∀ i x, b ≤ i → i < e → rd a i = some x → P x

/-- The segment `[b, e)` is in ascending order. -/
def SortedSeg (lt : α → α → Bool) (a : List α) (b e : Int) : Prop :=
  ∀ i j x y, b ≤ i → i < j → j < e → rd a i = some x → rd a j = some y → lt y x = false

/-- `a'` is `a` with the elements of `[b, e)` in another order. -/
structure Rearr (a a' : List α) (b e : Int) : Prop where
  perm : a'.Perm a
  out : ∀ i, (i < b ∨ e ≤ i) → rd a' i = rd a i

theorem Rearr.refl (a : List α) (b e : Int) : Rearr a a b e := ⟨List.Perm.refl _, fun _ _ => rfl⟩

theorem Rearr.trans {a a' a'' : List α} {b e : Int} (h1 : Rearr a a' b e) (h2 : Rearr a' a'' b e) :
    Rearr a a'' b e :=
  ⟨h2.perm.trans h1.perm, fun i hi => (h2.out i hi).trans (h1.out i hi)⟩

theorem Rearr.mono {a a' : List α} {b e b' e' : Int} (h : Rearr a a' b e) (hb : b' ≤ b) (he : e ≤ e') :
    Rearr a a' b' e' := ⟨h.perm, fun i hi => h.out i (by omega)⟩

theorem Rearr.length {a a' : List α} {b e : Int} (h : Rearr a a' b e) : a'.length = a.length :=
  h.perm.length_eq

theorem Rearr.of_swap {a a' : List α} {b e i j : Int} (hp : a'.Perm a)
    (h : ∀ k, rd a' k = if k = j then rd a i else if k = i then rd a j else rd a k)
    (hi : b ≤ i ∧ i < e) (hj : b ≤ j ∧ j < e) : Rearr a a' b e :=
  ⟨hp, fun k hk => by rw [h k, if_neg (by omega), if_neg (by omega)]⟩

/-- Swap as a rearrangement. -/
theorem swap_rearr {a : List α} {i j b e : Int} (hb : 0 ≤ b) (he : e ≤ a.length)
    (hi : b ≤ i ∧ i < e) (hj : b ≤ j ∧ j < e) :
    ∃ a', swap a i j = some a' ∧ Rearr a a' b e ∧
      ∀ k, rd a' k = if k = j then rd a i else if k = i then rd a j else rd a k := by
  obtain ⟨a', e1, e2, e3, e4⟩ := swap_ok (a := a) (i := i) (j := j) (by omega) (by omega) (by omega) (by omega)
  exact ⟨a', e1, Rearr.of_swap e2 e4 hi hj, e4⟩

def seg (a : List α) (b e : Int) : List α := (a.take e.toNat).drop b.toNat

theorem seg_eq {a : List α} {b e : Int} (hb : 0 ≤ b) (hbe : b ≤ e) (_he : e ≤ a.length) :
    a = a.take b.toNat ++ (seg a b e ++ a.drop e.toNat) := by
  have h1 : a = a.take e.toNat ++ a.drop e.toNat := (List.take_append_drop _ _).symm
  have h2 : a.take e.toNat = (a.take e.toNat).take b.toNat ++ (a.take e.toNat).drop b.toNat :=
    (List.take_append_drop _ _).symm
  rw [List.take_take, Nat.min_eq_left (by omega)] at h2
  rw [← List.append_assoc]
  unfold seg
  rw [← h2, ← h1]

theorem seg_getElem? {a : List α} {b e : Int} (hb : 0 ≤ b) (n : Nat) (hn : b + n < e) :
    (seg a b e)[n]? = rd a (b + n) := by
  unfold seg rd
  rw [List.getElem?_drop, List.getElem?_take, if_pos (by omega), if_pos (by omega)]
  congr 1; omega

theorem seg_length {a : List α} {b e : Int} (hb : 0 ≤ b) (hbe : b ≤ e) (he : e ≤ a.length) :
    ((seg a b e).length : Int) = e - b := by
  unfold seg; simp; omega

theorem mem_seg {a : List α} {b e : Int} (hb : 0 ≤ b) (x : α) :
    x ∈ seg a b e ↔ ∃ i, b ≤ i ∧ i < e ∧ rd a i = some x := by
  constructor
  · intro h
    obtain ⟨n, hn⟩ := List.mem_iff_getElem?.mp h
    have hl : n < (seg a b e).length := (List.getElem?_eq_some_iff.mp hn).1
    have : b + n < e := by
      unfold seg at hl; simp at hl; omega
    rw [seg_getElem? hb n this] at hn
    exact ⟨b + n, by omega, this, hn⟩
  · rintro ⟨i, h1, h2, h3⟩
    apply List.mem_iff_getElem?.mpr
    refine ⟨(i - b).toNat, ?_⟩
    rw [seg_getElem? hb _ (by omega)]
    rw [← h3]; congr 1; omega

theorem allSeg_iff {a : List α} {b e : Int} {P : α → Prop} (hb : 0 ≤ b) :
    AllSeg P a b e ↔ ∀ x ∈ seg a b e, P x := by
  constructor
  · intro h x hx
    obtain ⟨i, h1, h2, h3⟩ := (mem_seg hb x).mp hx
    exact h i x h1 h2 h3
  · intro h i x h1 h2 h3
    exact h x ((mem_seg hb x).mpr ⟨i, h1, h2, h3⟩)

theorem Rearr.take {a a' : List α} {b e : Int} (h : Rearr a a' b e) :
    a'.take b.toNat = a.take b.toNat := by
  apply List.ext_getElem?
  intro n
  rw [List.getElem?_take, List.getElem?_take]
  split
  · have := h.out n (by omega)
    rwa [rd_nat, rd_nat] at this
  · rfl

theorem Rearr.drop {a a' : List α} {b e : Int} (h : Rearr a a' b e) :
    a'.drop e.toNat = a.drop e.toNat := by
  apply List.ext_getElem?
  intro n
  rw [List.getElem?_drop, List.getElem?_drop]
  have := h.out (e.toNat + n : Nat) (by omega)
  rwa [rd_nat, rd_nat] at this

theorem Rearr.seg_perm {a a' : List α} {b e : Int} (h : Rearr a a' b e) (hb : 0 ≤ b) (hbe : b ≤ e)
    (he : e ≤ a.length) : (seg a' b e).Perm (seg a b e) := by
  have h1 := seg_eq hb hbe he
  have h2 := seg_eq (a := a') hb hbe (by rw [h.length]; exact he)
  have h3 := h.perm
  rw [h1, h2, h.take, h.drop] at h3
  exact (List.perm_append_right_iff _).mp ((List.perm_append_left_iff _).mp h3)

theorem AllSeg.rearr {P : α → Prop} {a a' : List α} {b e : Int} (hp : AllSeg P a b e) (h : Rearr a a' b e)
    (hb : 0 ≤ b) (hbe : b ≤ e) (he : e ≤ a.length) : AllSeg P a' b e := by
  rw [allSeg_iff hb] at *
  intro x hx
  exact hp x ((h.seg_perm hb hbe he).mem_iff.mp hx)

theorem AllSeg.outside {P : α → Prop} {a a' : List α} {b e b' e' : Int} (hp : AllSeg P a b' e')
    (h : Rearr a a' b e) (hd : e' ≤ b ∨ e ≤ b') : AllSeg P a' b' e' := by
  intro i x h1 h2 h3
  rw [h.out i (by omega)] at h3
  exact hp i x h1 h2 h3

/-- A rearrangement of part of a segment. -/
theorem AllSeg.rearr' {P : α → Prop} {a a' : List α} {b e b' e' : Int} (hp : AllSeg P a b' e')
    (h : Rearr a a' b e) (hb : 0 ≤ b) (hbe : b ≤ e) (he : e ≤ a.length) (hb' : b' ≤ b) (he' : e ≤ e') :
    AllSeg P a' b' e' := by
  intro i x h1 h2 h3
  by_cases hi : b ≤ i ∧ i < e
  · have : AllSeg P a b e := fun i x h1 h2 h3 => hp i x (by omega) (by omega) h3
    exact this.rearr h hb hbe he i x hi.1 hi.2 h3
  · rw [h.out i (by omega)] at h3
    exact hp i x h1 h2 h3

theorem AllSeg.sub {P : α → Prop} {a : List α} {b e b' e' : Int} (hp : AllSeg P a b e)
    (hb : b ≤ b') (he : e' ≤ e) : AllSeg P a b' e' :=
  fun i x h1 h2 h3 => hp i x (by omega) (by omega) h3

theorem AllSeg.imp {P Q : α → Prop} {a : List α} {b e : Int} (hp : AllSeg P a b e)
    (h : ∀ x, P x → Q x) : AllSeg Q a b e :=
  fun i x h1 h2 h3 => h x (hp i x h1 h2 h3)

theorem SortedSeg.outside {a a' : List α} {b e b' e' : Int} (hs : SortedSeg lt a b' e')
    (h : Rearr a a' b e) (hd : e' ≤ b ∨ e ≤ b') : SortedSeg lt a' b' e' := by
  intro i j x y h1 h2 h3 h4 h5
  rw [h.out i (by omega)] at h4
  rw [h.out j (by omega)] at h5
  exact hs i j x y h1 h2 h3 h4 h5

theorem SortedSeg.short {a : List α} {b e : Int} (h : e ≤ b + 1) : SortedSeg lt a b e := by
  intro i j x y h1 h2 h3; omega

/-- Two sorted segments around a bound. -/
theorem SortedSeg.glue (ho : SWO lt) {a : List α} {b m e : Int} (p : α)
    (h1 : SortedSeg lt a b m) (h2 : SortedSeg lt a m e)
    (h3 : AllSeg (fun x => lt p x = false) a b m) (h4 : AllSeg (fun x => lt x p = false) a m e) :
    SortedSeg lt a b e := by
  intro i j x y hi hij hj hx hy
  by_cases c1 : j < m
  · exact h1 i j x y hi hij c1 hx hy
  · by_cases c2 : m ≤ i
    · exact h2 i j x y c2 hij hj hx hy
    · exact ho.negTrans (h4 j y (by omega) hj hy) (h3 i x hi (by omega) hx)

/-- Sorted from 0 to the end: the list is sorted. -/
theorem sorted_of_seg {a : List α} (h : SortedSeg lt a 0 a.length) : Sorted lt a := by
  unfold Sorted
  rw [List.pairwise_iff_getElem]
  intro i j hi hj hij
  exact h i j _ _ (by omega) (by omega) (by omega) (by rw [rd_nat]; exact List.getElem?_eq_getElem hi)
    (by rw [rd_nat]; exact List.getElem?_eq_getElem hj)

theorem seg_of_sorted {a : List α} (h : Sorted lt a) (b e : Int) : SortedSeg lt a b e := by
  intro i j x y h1 h2 h3 hx hy
  rw [rd_some_iff] at hx hy
  unfold Sorted at h
  rw [List.pairwise_iff_getElem] at h
  obtain ⟨p1, q1⟩ := List.getElem?_eq_some_iff.mp hx.2
  obtain ⟨p2, q2⟩ := List.getElem?_eq_some_iff.mp hy.2
  have := h i.toNat j.toNat p1 p2 (by omega)
  rwa [q1, q2] at this

/-- Ordered by neighbours. -/
theorem SortedSeg.of_adj (ho : SWO lt) {a : List α} {b e : Int} (hb : 0 ≤ b) (he : e ≤ a.length)
    (h : ∀ i x y, b ≤ i → i + 1 < e → rd a i = some x → rd a (i + 1) = some y → lt y x = false) :
    SortedSeg lt a b e := by
  have key : ∀ (n : Nat) (i j : Int) (x y : α), j = i + 1 + n → b ≤ i → j < e → rd a i = some x →
      rd a j = some y → lt y x = false := by
    intro n
    induction n with
    | zero =>
      intro i j x y e1 h1 h2 h3 h4
      have : j = i + 1 := by omega
      subst this
      exact h i x y h1 h2 h3 h4
    | succ n ih =>
      intro i j x y e1 h1 h2 h3 h4
      obtain ⟨z, hz⟩ := rd_ex (a := a) (i := j - 1) (by omega) (by omega)
      have s1 := ih i (j - 1) x z (by push_cast at e1 ⊢; omega) h1 (by omega) h3 hz
      have s2 := h (j - 1) z y (by omega) (by omega) hz (by rwa [show j - 1 + 1 = j by omega])
      exact ho.negTrans s2 s1
  intro i j x y h1 h2 h3 h4 h5
  exact key (j - i - 1).toNat i j x y (by omega) h1 h3 h4 h5

theorem keq_iff {x y : α} : keq lt x y = true ↔ lt x y = false ∧ lt y x = false := by
  unfold keq; simp

/-- `not (x < y or x == y)` is `y < x`. -/
theorem not_le_iff (ho : SWO lt) (x y : α) : (!(lt x y || keq lt x y)) = lt y x := by
  unfold keq
  cases h1 : lt x y
  · cases h2 : lt y x <;> rfl
  · rw [ho.asymm h1]; rfl

/-- `x < y or x == y` is `not y < x`. -/
theorem le_iff (ho : SWO lt) (x y : α) : (lt x y || keq lt x y) = !lt y x := by
  have := not_le_iff ho x y
  rw [← this, Bool.not_not]

/-! ### Stability -/

/-- Elements with equal keys are in the same order in both lists. -/
def Stab (lt : α → α → Bool) (a a' : List α) : Prop := ∀ z, a'.filter (keq lt z) = a.filter (keq lt z)

theorem Stab.refl (a : List α) : Stab lt a a := fun _ => rfl
theorem Stab.trans {a a' a'' : List α} (h1 : Stab lt a a') (h2 : Stab lt a' a'') : Stab lt a a'' :=
  fun z => (h2 z).trans (h1 z)

/-- Exchanging two neighbours with different keys. -/
theorem Stab.swap_adj (ho : SWO lt) {p s : List α} {x y : α} (h : lt x y = true) :
    Stab lt (p ++ y :: x :: s) (p ++ x :: y :: s) := by
  intro z
  simp only [List.filter_append, List.filter_cons]
  cases h1 : keq lt z x <;> cases h2 : keq lt z y <;> simp
  rw [keq_iff] at h1 h2
  have := ho.negTrans h1.2 h2.1
  rw [h] at this; cases this

theorem split_two {a : List α} {j : Int} {x y : α} (hy : rd a j = some y) (hx : rd a (j + 1) = some x) :
    a = a.take j.toNat ++ y :: x :: a.drop (j.toNat + 2) := by
  have h0 := (rd_lt hy).1
  have h1 := (rd_lt hx).2
  rw [rd_some_iff] at hy hx
  have e1 := (List.getElem?_eq_some_iff.mp hy.2)
  have e2 := (List.getElem?_eq_some_iff.mp hx.2)
  obtain ⟨_, e1⟩ := e1
  obtain ⟨_, e2⟩ := e2
  have hj : (j + 1).toNat = j.toNat + 1 := by omega
  have l1 : j.toNat < a.length := by omega
  have l2 : j.toNat + 1 < a.length := by omega
  have d1 := List.drop_eq_getElem_cons l1
  have d2 := List.drop_eq_getElem_cons l2
  have e2' : a[j.toNat + 1] = x := by rw [← e2]; congr 1; omega
  rw [e1] at d1
  rw [e2'] at d2
  rw [d2] at d1
  calc a = a.take j.toNat ++ a.drop j.toNat := (List.take_append_drop _ _).symm
    _ = _ := by rw [d1]

/-- Exchanging the neighbours `j`, `j + 1` when the right key is less. -/
theorem Stab.swap (ho : SWO lt) {a a' : List α} {j : Int} {x y : α} (hy : rd a j = some y)
    (hx : rd a (j + 1) = some x) (hlt : lt x y = true)
    (h : ∀ k, rd a' k = if k = j then rd a (j + 1) else if k = j + 1 then rd a j else rd a k) :
    Stab lt a a' := by
  have e1 := split_two hy hx
  have h0 := (rd_lt hy).1
  have hl := (rd_lt hx).2
  have e2 : a' = a.take j.toNat ++ x :: y :: a.drop (j.toNat + 2) := by
    apply list_ext_rd
    intro k
    rw [h k]
    by_cases hk : 0 ≤ k
    · obtain ⟨n, rfl⟩ := Int.eq_ofNat_of_zero_le hk
      have lt1 : (a.take j.toNat).length = j.toNat := by simp; omega
      rw [rd_nat (a := a.take j.toNat ++ x :: y :: a.drop (j.toNat + 2))]
      by_cases c1 : (n : Int) < j
      · rw [if_neg (by omega), if_neg (by omega), rd_nat, List.getElem?_append_left (by omega),
          List.getElem?_take, if_pos (by omega)]
      · rw [List.getElem?_append_right (by omega), lt1]
        by_cases c2 : (n : Int) = j
        · rw [if_pos c2, hx, show n - j.toNat = 0 by omega]; rfl
        · rw [if_neg c2]
          by_cases c3 : (n : Int) = j + 1
          · rw [if_pos c3, hy, show n - j.toNat = 1 by omega]; rfl
          · rw [if_neg c3, show n - j.toNat = (n - j.toNat - 2) + 2 by omega]
            rw [rd_nat]
            simp only [List.getElem?_cons_succ, List.getElem?_drop]
            congr 1; omega
    · rw [if_neg (by omega), if_neg (by omega), rd_none (by omega), rd_none (by omega)]
  rw [e2]
  conv => arg 2; rw [e1]
  exact Stab.swap_adj ho hlt

end Codon.Sort
