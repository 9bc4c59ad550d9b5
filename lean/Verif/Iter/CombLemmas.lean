import Verif.Iter.CombModel
import Mathlib.Data.List.Lex
import Mathlib.Tactic.Common

/-! Lexicographic enumeration in general. -/

set_option linter.unusedSectionVars false
set_option linter.unusedSimpArgs false

namespace Codon.Iter

variable {α β σ : Type}

/-! ### Enumeration by successors -/

theorem filter_lt_of {l : List (List Nat)} {x y : List Nat} (hxy : x < y) (hy : y ∈ l) :
    (l.filter (fun z => decide (y < z))).length < (l.filter (fun z => decide (x < z))).length := by
  have hle : ∀ l : List (List Nat), (l.filter (fun z => decide (y < z))).length ≤ (l.filter (fun z => decide (x < z))).length := by
    intro l
    induction l with
    | nil => simp
    | cons a l ih =>
      rw [List.filter_cons, List.filter_cons]
      by_cases h : y < a
      · have h2 : x < a := lt_trans hxy h
        simp [h, h2, ih]
      · by_cases h2 : x < a <;> simp [h, h2] <;> omega
  induction l with
  | nil => cases hy
  | cons a l ih =>
    rw [List.filter_cons, List.filter_cons]
    rcases List.mem_cons.mp hy with rfl | hy
    · have := hle l
      simp only [lt_irrefl, decide_false, hxy, decide_true, if_true, List.length_cons]
      simp only [Bool.false_eq_true, if_false]
      omega
    · have := ih hy
      by_cases h : y < a
      · have h2 : x < a := lt_trans hxy h
        simp [h, h2, this]
      · by_cases h2 : x < a <;> simp [h, h2] <;> omega

/-- A generator whose steps are exact successors in lexicographic order enumerates everything from its state on. -/
theorem collect_from {step : σ → Option (Option σ)} {Inv : σ → Prop} {P : List Nat → Prop} {idx : σ → List Nat}
    (all : List (List Nat)) (hall : ∀ z, P z → z ∈ all) (hP : ∀ s, Inv s → P (idx s))
    (hstep : ∀ s, Inv s → (step s = some none ∧ ∀ z, P z → ¬ idx s < z) ∨
      ∃ s', step s = some (some s') ∧ Inv s' ∧ idx s < idx s' ∧ ∀ z, P z → idx s < z → ¬ z < idx s') :
    ∀ (m : Nat) (s : σ), Inv s → (all.filter (fun z => decide (idx s < z))).length < m → ∀ fuel, m ≤ fuel →
      ∃ ss, collect step fuel s = some ss ∧ (∀ t ∈ ss, Inv t) ∧ (ss.map idx).Pairwise (· < ·) ∧
        ∀ z, z ∈ ss.map idx ↔ P z ∧ ¬ z < idx s := by
  intro m
  induction m with
  | zero => intro s _ h; omega
  | succ m ih =>
    intro s hs hm fuel hf
    obtain ⟨fuel, rfl⟩ : ∃ f, fuel = f + 1 := ⟨fuel - 1, by omega⟩
    unfold collect
    rcases hstep s hs with ⟨h1, h2⟩ | ⟨s', h1, h2, h3, h4⟩
    · rw [h1]
      refine ⟨[s], rfl, by simpa using hs, by simp, fun z => ?_⟩
      simp only [List.map_cons, List.map_nil, List.mem_singleton]
      constructor
      · rintro rfl; exact ⟨hP s hs, lt_irrefl _⟩
      · rintro ⟨hz, hlt⟩
        rcases lt_trichotomy z (idx s) with h | h | h
        · exact absurd h hlt
        · exact h
        · exact absurd h (h2 z hz)
    · rw [h1]
      have hlt := filter_lt_of h3 (hall _ (hP s' h2))
      obtain ⟨ss, g1, g2, g3, g4⟩ := ih s' h2 (by omega) fuel (by omega)
      refine ⟨s :: ss, by simp [g1], ?_, ?_, ?_⟩
      · intro t ht
        rcases List.mem_cons.mp ht with rfl | ht
        · exact hs
        · exact g2 t ht
      · rw [List.map_cons, List.pairwise_cons]
        refine ⟨fun z hz => ?_, g3⟩
        have := (g4 z).mp hz
        exact lt_of_lt_of_le h3 (not_lt.mp this.2)
      · intro z
        rw [List.map_cons, List.mem_cons, g4]
        constructor
        · rintro (rfl | ⟨hz, hn⟩)
          · exact ⟨hP s hs, lt_irrefl _⟩
          · exact ⟨hz, fun h => hn (lt_trans h h3)⟩
        · rintro ⟨hz, hn⟩
          rcases lt_trichotomy z (idx s) with h | h | h
          · exact absurd h hn
          · exact .inl h
          · exact .inr ⟨hz, h4 z hz h⟩

/-- All lists of a length with entries below a bound. -/
def digitLists (n : Nat) : Nat → List (List Nat)
  | 0 => [[]]
  | r + 1 => (List.range n).flatMap fun d : Nat => (digitLists n r).map (d :: ·)

theorem mem_digitLists (n : Nat) : ∀ (r : Nat) (z : List Nat), z.length = r → (∀ d ∈ z, d < n) → z ∈ digitLists n r := by
  intro r
  induction r with
  | zero => intro z h _; simp [digitLists, List.length_eq_zero_iff.mp h]
  | succ r ih =>
    intro z h hd
    cases z with
    | nil => simp at h
    | cons d z =>
      simp only [digitLists, List.mem_flatMap, List.mem_range, List.mem_map]
      exact ⟨d, hd d (by simp), z, ih z (by simpa using h) (fun e he => hd e (by simp [he])), rfl⟩

theorem enumerate {step : σ → Option (Option σ)} {Inv : σ → Prop} {P : List Nat → Prop} {idx : σ → List Nat} (n r : Nat)
    (hall : ∀ z, P z → z.length = r ∧ ∀ d ∈ z, d < n) (hP : ∀ s, Inv s → P (idx s))
    (hstep : ∀ s, Inv s → (step s = some none ∧ ∀ z, P z → ¬ idx s < z) ∨
      ∃ s', step s = some (some s') ∧ Inv s' ∧ idx s < idx s' ∧ ∀ z, P z → idx s < z → ¬ z < idx s')
    (s0 : σ) (h0 : Inv s0) (hmin : ∀ z, P z → ¬ z < idx s0) :
    ∃ N, ∀ fuel, N ≤ fuel → ∃ ss, collect step fuel s0 = some ss ∧ (∀ t ∈ ss, Inv t) ∧ (ss.map idx).Pairwise (· < ·) ∧
      ∀ z, z ∈ ss.map idx ↔ P z := by
  refine ⟨((digitLists n r).filter (fun z => decide (idx s0 < z))).length + 1, fun fuel hf => ?_⟩
  obtain ⟨ss, h1, h2, h3, h4⟩ := collect_from (digitLists n r) (fun z hz => mem_digitLists n r z (hall z hz).1 (hall z hz).2) hP hstep
    _ s0 h0 (Nat.lt_succ_self _) fuel hf
  exact ⟨ss, h1, h2, h3, fun z => by rw [h4]; exact ⟨fun h => h.1, fun h => ⟨h, hmin z h⟩⟩⟩

/-! ### Lexicographic order, pointwise -/

theorem lt_iff_point {x y : List Nat} (h : x.length = y.length) :
    x < y ↔ ∃ (i : Nat) (a b : Nat), x.take i = y.take i ∧ x[i]? = some a ∧ y[i]? = some b ∧ a < b := by
  rw [List.lt_iff_exists]
  constructor
  · rintro (⟨_, h2⟩ | ⟨i, h1, h2, h3, h4⟩)
    · omega
    · refine ⟨i, x[i], y[i], ?_, List.getElem?_eq_getElem h1, List.getElem?_eq_getElem h2, h4⟩
      apply List.ext_getElem
      · simp; omega
      · intro j hj1 hj2
        simp only [List.length_take] at hj1
        simp only [List.getElem_take]
        exact h3 j (by omega)
  · rintro ⟨i, a, b, h1, h2, h3, h4⟩
    obtain ⟨g1, g2⟩ := List.getElem?_eq_some_iff.mp h2
    obtain ⟨g3, g4⟩ := List.getElem?_eq_some_iff.mp h3
    refine .inr ⟨i, g1, g3, fun j hj => ?_, by omega⟩
    have : (x.take i)[j]? = (y.take i)[j]? := by rw [h1]
    rw [List.getElem?_take_of_lt hj, List.getElem?_take_of_lt hj, List.getElem?_eq_getElem (by omega), List.getElem?_eq_getElem (by omega)] at this
    simpa using this

theorem take_get {x y : List Nat} {i j : Nat} (h : x.take i = y.take i) (hj : j < i) : x[j]? = y[j]? := by
  have : (x.take i)[j]? = (y.take i)[j]? := by rw [h]
  rwa [List.getElem?_take_of_lt hj, List.getElem?_take_of_lt hj] at this

theorem take_le {x y : List Nat} {i j : Nat} (h : x.take i = y.take i) (hj : j ≤ i) : x.take j = y.take j := by
  have : (x.take i).take j = (y.take i).take j := by rw [h]
  rwa [List.take_take, List.take_take, Nat.min_eq_left hj] at this

theorem take_ext {x y : List Nat} {i : Nat} (h : ∀ j, j < i → x[j]? = y[j]?) : x.take i = y.take i := by
  apply List.ext_getElem?
  intro j
  rw [List.getElem?_take, List.getElem?_take]
  split
  · exact h j (by assumption)
  · rfl

/-! ### Selections described by successive choices -/

variable {allowed : List Nat → Nat → Prop}

/-- Every entry is allowed after the ones before it. -/
def Valid (allowed : List Nat → Nat → Prop) (r : Nat) (x : List Nat) : Prop :=
  x.length = r ∧ ∀ i d, x[i]? = some d → allowed (x.take i) d

theorem valid_first {r : Nat} {x z : List Nat} (hx : x.length = r) (hz : Valid allowed r z)
    (hmin : ∀ i d, x[i]? = some d → ∀ e, allowed (x.take i) e → d ≤ e) : ¬ z < x := by
  intro h
  rw [lt_iff_point (by rw [hz.1, hx])] at h
  obtain ⟨i, a, b, h1, h2, h3, h4⟩ := h
  have := hmin i b h3 a (by rw [← h1]; exact hz.2 i a h2)
  omega

theorem valid_last {r : Nat} {x z : List Nat} (hx : x.length = r) (hz : Valid allowed r z)
    (hmax : ∀ i d, x[i]? = some d → ∀ e, allowed (x.take i) e → e ≤ d) : ¬ x < z := by
  intro h
  rw [lt_iff_point (by rw [hz.1, hx])] at h
  obtain ⟨i, a, b, h1, h2, h3, h4⟩ := h
  have := hmax i a h2 b (by rw [h1]; exact hz.2 i b h3)
  omega

theorem valid_next {r i a b : Nat} {x y : List Nat} (hx : x.length = r) (hy : y.length = r) (hpre : x.take i = y.take i)
    (hxi : x[i]? = some a) (hyi : y[i]? = some b) (hab : a < b) (hnext : ∀ e, allowed (x.take i) e → a < e → b ≤ e)
    (hmax : ∀ j d, i < j → x[j]? = some d → ∀ e, allowed (x.take j) e → e ≤ d)
    (hmin : ∀ j d, i < j → y[j]? = some d → ∀ e, allowed (y.take j) e → d ≤ e) :
    x < y ∧ ∀ z, Valid allowed r z → x < z → ¬ z < y := by
  refine ⟨(lt_iff_point (by omega)).mpr ⟨i, a, b, hpre, hxi, hyi, hab⟩, ?_⟩
  intro z hz hxz hzy
  rw [lt_iff_point (by rw [hz.1, hx])] at hxz
  rw [lt_iff_point (by rw [hz.1, hy])] at hzy
  obtain ⟨p, c, d, h1, h2, h3, h4⟩ := hxz
  obtain ⟨q, e, f, g1, g2, g3, g4⟩ := hzy
  have hd := hz.2 p d h3
  have he := hz.2 q e g2
  rw [← h1] at hd
  rw [g1] at he
  have hpi : p ≤ i := by
    by_contra hc
    have := hmax p c (by omega) h2 d hd
    omega
  -- compare the position where `z` falls below `y`
  rcases Nat.lt_trichotomy q p with hq | hq | hq
  · have e1 := take_get h1 hq
    have e2 := take_get hpre (j := q) (by omega)
    rw [← e2, e1, g2] at g3
    simp only [Option.some.injEq] at g3
    omega
  · subst hq
    rw [h3] at g2
    simp only [Option.some.injEq] at g2
    subst g2
    rcases Nat.lt_or_ge q i with hqi | hqi
    · have e2 := take_get hpre hqi
      rw [← e2, h2] at g3
      simp only [Option.some.injEq] at g3
      omega
    · have : q = i := by omega
      subst this
      rw [hxi] at h2
      rw [hyi] at g3
      simp only [Option.some.injEq] at h2 g3
      have := hnext d hd (by omega)
      omega
  · have e1 := take_get g1 hq
    rw [h3] at e1
    rcases Nat.lt_or_ge p i with hpi' | hpi'
    · have e2 := take_get hpre hpi'
      rw [← e2, h2] at e1
      simp only [Option.some.injEq] at e1
      omega
    · have : p = i := by omega
      subst this
      have := hmin q f hq g3 e he
      omega

/-! ### Array operations, pointwise -/

theorem setAt_ok {a : List α} {i : Nat} {v : α} (h : i < a.length) : setAt a i v = some (a.set i v) := if_pos h

theorem get_set {a : List α} {i j : Nat} {v : α} (h : i < a.length) : (a.set i v)[j]? = if j = i then some v else a[j]? := by
  rw [List.getElem?_set]
  by_cases hj : i = j
  · subst hj; simp [h]
  · rw [if_neg hj, if_neg (fun e => hj e.symm)]

theorem gather_eq {pool : List α} : ∀ {is : List Nat}, (∀ d ∈ is, d < pool.length) →
    ∃ res, gather pool is = some res ∧ res.map some = is.map (fun d => pool[d]?) := by
  intro is
  induction is with
  | nil => intro _; exact ⟨[], rfl, rfl⟩
  | cons i is ih =>
    intro h
    obtain ⟨res, h1, h2⟩ := ih (fun d hd => h d (by simp [hd]))
    have hi := h i (by simp)
    refine ⟨pool[i] :: res, ?_, ?_⟩
    · simp only [gather]
      rw [h1, List.getElem?_eq_getElem hi]
    · simp [h2, List.getElem?_eq_getElem hi]

/-- `res` shows the elements at the indices. -/
def Shows (pool : List α) (is : List Nat) (res : List α) : Prop := res.map some = is.map (fun d => pool[d]?)

theorem shows_iff {pool : List α} {is : List Nat} {res : List α} : Shows pool is res ↔
    res.length = is.length ∧ ∀ j d : Nat, is[j]? = some d → ∃ x, pool[d]? = some x ∧ res[j]? = some x := by
  unfold Shows
  constructor
  · intro h
    have hl : res.length = is.length := by have := congrArg List.length h; simpa using this
    refine ⟨hl, fun j d hj => ?_⟩
    have := congrArg (·[j]?) h
    simp only [List.getElem?_map, hj, Option.map_some] at this
    cases hr : res[j]? with
    | none => rw [hr] at this; simp at this
    | some x => rw [hr] at this; exact ⟨x, by simpa using this.symm, rfl⟩
  · rintro ⟨hl, h⟩
    apply List.ext_getElem?
    intro j
    simp only [List.getElem?_map]
    cases hj : is[j]? with
    | none =>
      have : res[j]? = none := by
        rw [List.getElem?_eq_none_iff] at hj ⊢
        omega
      rw [this]; rfl
    | some d =>
      obtain ⟨x, h1, h2⟩ := h j d hj
      rw [h2]; simp [h1]

theorem copyUp_ok {pool : List α} {indices : List Nat} : ∀ (cnt i : Nat) (res : List α), i + cnt ≤ res.length → i + cnt ≤ indices.length →
    (∀ j d : Nat, indices[j]? = some d → d < pool.length) →
    ∃ res', copyUp pool indices cnt i res = some res' ∧ res'.length = res.length ∧
      ∀ j, res'[j]? = if i ≤ j ∧ j < i + cnt then (indices[j]?).bind (fun d => pool[d]?) else res[j]? := by
  intro cnt
  induction cnt with
  | zero =>
    intro i res _ _ _
    refine ⟨res, rfl, rfl, fun j => ?_⟩
    rw [if_neg (by omega)]
  | succ cnt ih =>
    intro i res h1 h2 hd
    unfold copyUp
    have hi : i < indices.length := by omega
    rw [List.getElem?_eq_getElem hi]
    have hp := hd i _ (List.getElem?_eq_getElem hi)
    dsimp only
    rw [List.getElem?_eq_getElem hp]
    dsimp only
    rw [setAt_ok (by omega)]
    dsimp only
    obtain ⟨res', g1, g2, g3⟩ := ih (i + 1) (res.set i pool[indices[i]]) (by simp; omega) (by omega) hd
    refine ⟨res', g1, by rw [g2]; simp, fun j => ?_⟩
    rw [g3, get_set (by omega)]
    by_cases hj : j = i
    · subst hj
      rw [if_neg (by omega), if_pos rfl, if_pos (by omega), List.getElem?_eq_getElem hi, Option.bind_some, List.getElem?_eq_getElem hp]
    · by_cases hj2 : i + 1 ≤ j ∧ j < i + 1 + cnt
      · rw [if_pos hj2, if_pos (by omega)]
      · rw [if_neg hj2, if_neg hj, if_neg (by omega)]

theorem fillUp_ok {v : β} : ∀ (cnt i : Nat) (a : List β), i + cnt ≤ a.length →
    ∃ a', fillUp v cnt i a = some a' ∧ a'.length = a.length ∧
      ∀ j : Nat, a'[j]? = if i ≤ j ∧ j < i + cnt then some v else a[j]? := by
  intro cnt
  induction cnt with
  | zero =>
    intro i a _
    refine ⟨a, rfl, rfl, fun j => ?_⟩
    rw [if_neg (by omega)]
  | succ cnt ih =>
    intro i a h1
    unfold fillUp
    rw [setAt_ok (by omega)]
    dsimp only
    obtain ⟨a', g1, g2, g3⟩ := ih (i + 1) (a.set i v) (by simp; omega)
    refine ⟨a', g1, by rw [g2]; simp, fun j => ?_⟩
    rw [g3, get_set (by omega)]
    by_cases hj : j = i
    · subst hj
      rw [if_neg (by omega), if_pos rfl, if_pos (by omega)]
    · by_cases hj2 : i + 1 ≤ j ∧ j < i + 1 + cnt
      · rw [if_pos hj2, if_pos (by omega)]
      · rw [if_neg hj2, if_neg hj, if_neg (by omega)]

theorem chainUp_ok : ∀ (cnt j : Nat) (a : List Nat) (d : Nat), 0 < j → j + cnt ≤ a.length → a[j - 1]? = some d →
    ∃ a', chainUp cnt j a = some a' ∧ a'.length = a.length ∧
      ∀ k : Nat, a'[k]? = if j ≤ k ∧ k < j + cnt then some (d + (k + 1 - j)) else a[k]? := by
  intro cnt
  induction cnt with
  | zero =>
    intro j a d _ _ _
    refine ⟨a, rfl, rfl, fun k => ?_⟩
    rw [if_neg (by omega)]
  | succ cnt ih =>
    intro j a d h0 h1 hd
    unfold chainUp
    rw [hd]
    dsimp only
    rw [setAt_ok (by omega)]
    dsimp only
    obtain ⟨a', g1, g2, g3⟩ := ih (j + 1) (a.set j (d + 1)) (d + 1) (by omega) (by simp; omega)
      (by rw [get_set (by omega), if_pos (by omega)])
    refine ⟨a', g1, by rw [g2]; simp, fun k => ?_⟩
    rw [g3, get_set (by omega)]
    by_cases hk : k = j
    · subst hk
      rw [if_neg (by omega), if_pos rfl, if_pos (by omega)]
      congr 1
      omega
    · by_cases hk2 : j + 1 ≤ k ∧ k < j + 1 + cnt
      · rw [if_pos hk2, if_pos (by omega)]
        congr 1
        omega
      · rw [if_neg hk2, if_neg hk, if_neg (by omega)]

theorem shiftUp_ok : ∀ (cnt j : Nat) (a : List Nat), j + cnt < a.length →
    ∃ a', shiftUp cnt j a = some a' ∧ a'.length = a.length ∧
      ∀ k : Nat, a'[k]? = if j ≤ k ∧ k < j + cnt then a[k + 1]? else a[k]? := by
  intro cnt
  induction cnt with
  | zero =>
    intro j a _
    refine ⟨a, rfl, rfl, fun k => ?_⟩
    rw [if_neg (by omega)]
  | succ cnt ih =>
    intro j a h1
    unfold shiftUp
    rw [List.getElem?_eq_getElem (by omega)]
    dsimp only
    rw [setAt_ok (by omega)]
    dsimp only
    obtain ⟨a', g1, g2, g3⟩ := ih (j + 1) (a.set j a[j + 1]) (by simp; omega)
    refine ⟨a', g1, by rw [g2]; simp, fun k => ?_⟩
    rw [g3]
    by_cases hk : k = j
    · subst hk
      rw [if_neg (by omega), get_set (by omega), if_pos rfl, if_pos (by omega), List.getElem?_eq_getElem (by omega)]
    · by_cases hk2 : j + 1 ≤ k ∧ k < j + 1 + cnt
      · rw [if_pos hk2, if_pos (by omega), get_set (by omega), if_neg (by omega)]
      · rw [if_neg hk2, if_neg (by omega), get_set (by omega), if_neg hk]

theorem findDown_ok {lim : Nat → Nat} {a : List Nat} : ∀ (i : Nat), i ≤ a.length →
    (findDown lim i a = some none ∧ ∀ j, j < i → a[j]? = some (lim j)) ∨
    ∃ k d, k < i ∧ findDown lim i a = some (some k) ∧ a[k]? = some d ∧ d ≠ lim k ∧ ∀ j, k < j → j < i → a[j]? = some (lim j) := by
  intro i
  induction i with
  | zero => intro _; exact .inl ⟨rfl, fun j hj => by omega⟩
  | succ i ih =>
    intro h
    unfold findDown
    rw [List.getElem?_eq_getElem (by omega)]
    dsimp only
    by_cases hd : a[i] = lim i
    · rw [if_pos hd]
      rcases ih (by omega) with ⟨h1, h2⟩ | ⟨k, d, h0, h1, h2, h3, h4⟩
      · refine .inl ⟨h1, fun j hj => ?_⟩
        by_cases hj2 : j = i
        · subst hj2; rw [List.getElem?_eq_getElem (by omega), hd]
        · exact h2 j (by omega)
      · refine .inr ⟨k, d, by omega, h1, h2, h3, fun j hj1 hj2 => ?_⟩
        by_cases hj3 : j = i
        · subst hj3; rw [List.getElem?_eq_getElem (by omega), hd]
        · exact h4 j hj1 (by omega)
    · rw [if_neg hd]
      exact .inr ⟨i, a[i], by omega, rfl, List.getElem?_eq_getElem (by omega), hd, fun j h1 h2 => by omega⟩

end Codon.Iter
