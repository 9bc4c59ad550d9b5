import Verif.Iter.CombLemmas

/-! # C39: the combinatoric generators -/

set_option linter.unusedSectionVars false
set_option linter.unusedSimpArgs false

namespace Codon.Iter

variable {α β σ : Type}

/-! ### Specification -/

/-- `out` lists, in lexicographic order of the index lists and without repetition, the selections of all index lists with
property `P`; `sel` gives the elements at an index list. -/
def Enumerates (sel : List Nat → List (Option α)) (P : List Nat → Prop) (out : List (List α)) : Prop :=
  ∃ zs : List (List Nat), zs.Pairwise (· < ·) ∧ (∀ z, z ∈ zs ↔ P z) ∧ out.map (·.map some) = zs.map sel

/-- The elements of one pool at an index list. -/
def select (pool : List α) (z : List Nat) : List (Option α) := z.map (fun d => pool[d]?)

/-- Index lists of combinations: strictly increasing positions. -/
def IsComb (n r : Nat) (z : List Nat) : Prop := z.length = r ∧ z.Pairwise (· < ·) ∧ ∀ d ∈ z, d < n

/-- Index lists of combinations with replacement. -/
def IsCombWR (n r : Nat) (z : List Nat) : Prop := z.length = r ∧ z.Pairwise (· ≤ ·) ∧ ∀ d ∈ z, d < n

/-- Index lists of permutations. -/
def IsPerm (n r : Nat) (z : List Nat) : Prop := z.length = r ∧ z.Nodup ∧ ∀ d ∈ z, d < n

/-- Index lists of the product. -/
def IsChoice (pools : List (List α)) (z : List Nat) : Prop :=
  z.length = pools.length ∧ ∀ i d : Nat, z[i]? = some d → ∃ pool, pools[i]? = some pool ∧ d < pool.length

/-! ### combinations -/

section comb
variable {pool : List α} {r : Nat}

def combAllowed (n r : Nat) (p : List Nat) (d : Nat) : Prop := (∀ e ∈ p, e < d) ∧ d + r ≤ n + p.length

theorem pairwise_get {R : Nat → Nat → Prop} {z : List Nat} : z.Pairwise R ↔
    ∀ i j a b : Nat, i < j → z[i]? = some a → z[j]? = some b → R a b := by
  rw [List.pairwise_iff_getElem]
  constructor
  · intro h i j a b hij ha hb
    obtain ⟨h1, h2⟩ := List.getElem?_eq_some_iff.mp ha
    obtain ⟨h3, h4⟩ := List.getElem?_eq_some_iff.mp hb
    have := h i j h1 h3 hij
    rwa [h2, h4] at this
  · intro h i j hi hj hij
    exact h i j _ _ hij (List.getElem?_eq_getElem hi) (List.getElem?_eq_getElem hj)

theorem mem_take_get {z : List Nat} {i e : Nat} : e ∈ z.take i ↔ ∃ j : Nat, j < i ∧ z[j]? = some e := by
  rw [List.mem_iff_getElem?]
  constructor
  · rintro ⟨j, hj⟩
    rw [List.getElem?_take] at hj
    split at hj
    · exact ⟨j, by assumption, hj⟩
    · cases hj
  · rintro ⟨j, h1, h2⟩
    exact ⟨j, by rw [List.getElem?_take, if_pos h1]; exact h2⟩

theorem get_lt {z : List α} {i : Nat} {d : α} (h : z[i]? = some d) : i < z.length := (List.getElem?_eq_some_iff.mp h).1

theorem isComb_gap {n : Nat} {z : List Nat} (h : IsComb n r z) : ∀ (k i d e : Nat), z[i]? = some d → z[i + k]? = some e → d + k ≤ e := by
  intro k
  induction k with
  | zero =>
    intro i d e h1 h2
    rw [Nat.add_zero, h1] at h2
    simp only [Option.some.injEq] at h2
    omega
  | succ k ih =>
    intro i d e h1 h2
    have hlt := get_lt h2
    have h3 : z[i + k]? = some z[i + k] := List.getElem?_eq_getElem (by omega)
    have := ih i d _ h1 h3
    have := pairwise_get.mp h.2.1 (i + k) (i + (k + 1)) _ _ (by omega) h3 h2
    omega

theorem isComb_valid {n : Nat} (hr : r ≤ n) {z : List Nat} : IsComb n r z ↔ Valid (combAllowed n r) r z := by
  constructor
  · intro h
    refine ⟨h.1, fun i d hi => ⟨fun e he => ?_, ?_⟩⟩
    · obtain ⟨j, h1, h2⟩ := mem_take_get.mp he
      exact pairwise_get.mp h.2.1 j i e d h1 h2 hi
    · have hlt := get_lt hi
      have h3 : z[i + (r - 1 - i)]? = some (z[i + (r - 1 - i)]'(by have := h.1; omega)) := List.getElem?_eq_getElem _
      have := isComb_gap h _ _ _ _ hi h3
      have := h.2.2 _ (List.mem_of_getElem? h3)
      rw [List.length_take]
      have := h.1
      omega
  · intro h
    refine ⟨h.1, pairwise_get.mpr fun i j a b hij ha hb => ?_, fun d hd => ?_⟩
    · exact (h.2 j b hb).1 a (mem_take_get.mpr ⟨i, hij, ha⟩)
    · obtain ⟨i, hi⟩ := List.mem_iff_getElem?.mp hd
      have := (h.2 i d hi).2
      have := get_lt hi
      rw [List.length_take] at *
      have := h.1
      omega

theorem comb_step (hr : r ≤ pool.length) (s : List Nat × List α) (hs : IsComb pool.length r s.1) (hsh : Shows pool s.1 s.2) :
    (combNext pool r s = some none ∧ ∀ z, IsComb pool.length r z → ¬ s.1 < z) ∨
    ∃ s', combNext pool r s = some (some s') ∧ (IsComb pool.length r s'.1 ∧ Shows pool s'.1 s'.2) ∧ s.1 < s'.1 ∧
      ∀ z, IsComb pool.length r z → s.1 < z → ¬ z < s'.1 := by
  obtain ⟨x, res⟩ := s
  dsimp only at hs hsh ⊢
  have hlen : x.length = r := hs.1
  have hv := (isComb_valid hr).mp hs
  obtain ⟨hshl, hshg⟩ := shows_iff.mp hsh
  unfold combNext
  dsimp only
  rcases findDown_ok (lim := fun i => i + pool.length - r) (a := x) r (by omega) with ⟨h1, h2⟩ | ⟨i, d, h0, h1, h2, h3, h4⟩
  · left
    rw [h1]
    refine ⟨rfl, fun z hz => valid_last hlen ((isComb_valid hr).mp hz) ?_⟩
    intro i d hi e he
    have hlt := get_lt hi
    have := h2 i (by omega)
    rw [hi] at this
    simp only [Option.some.injEq] at this
    have := he.2
    rw [List.length_take] at this
    omega
  · right
    have hd := (hv.2 i d h2).2
    rw [List.length_take] at hd
    have hdlim : d < i + pool.length - r := by omega
    rw [h1]
    dsimp only
    rw [h2]
    dsimp only
    rw [setAt_ok (by omega)]
    dsimp only
    obtain ⟨y, g1, g2, g3⟩ := chainUp_ok (r - (i + 1)) (i + 1) (x.set i (d + 1)) (d + 1) (by omega) (by simp; omega)
      (by rw [get_set (by omega), if_pos (by omega)])
    rw [g1]
    dsimp only
    rw [List.length_set] at g2
    have hy : ∀ k : Nat, y[k]? = if i ≤ k ∧ k < r then some (d + 1 + (k - i)) else x[k]? := by
      intro k
      rw [g3, get_set (by omega)]
      by_cases hk : k = i
      · subst hk
        rw [if_neg (by omega), if_pos rfl, if_pos (by omega)]
        simp
      · by_cases hk2 : i + 1 ≤ k ∧ k < i + 1 + (r - (i + 1))
        · rw [if_pos hk2, if_pos (by omega)]
          congr 1
          omega
        · rw [if_neg hk2, if_neg hk, if_neg (by omega)]
    have hyc : IsComb pool.length r y := by
      refine ⟨by omega, pairwise_get.mpr fun j k a b hjk ha hb => ?_, fun e he => ?_⟩
      · have hkl := get_lt hb
        rw [hy] at ha hb
        by_cases hj : i ≤ j
        · rw [if_pos (by omega)] at ha hb
          simp only [Option.some.injEq] at ha hb
          omega
        · rw [if_neg (by omega)] at ha
          by_cases hk : i ≤ k
          · rw [if_pos (by omega)] at hb
            simp only [Option.some.injEq] at hb
            have := pairwise_get.mp hs.2.1 j i a d (by omega) ha h2
            omega
          · rw [if_neg (by omega)] at hb
            exact pairwise_get.mp hs.2.1 j k a b hjk ha hb
      · obtain ⟨k, hk⟩ := List.mem_iff_getElem?.mp he
        have hkl := get_lt hk
        rw [hy] at hk
        by_cases hj : i ≤ k
        · rw [if_pos (by omega)] at hk
          simp only [Option.some.injEq] at hk
          omega
        · rw [if_neg (by omega)] at hk
          exact hs.2.2 e (List.mem_of_getElem? hk)
    obtain ⟨res', r1, r2, r3⟩ := copyUp_ok (pool := pool) (indices := y) (r - i) i res (by omega) (by omega)
      (fun j e he => hyc.2.2 e (List.mem_of_getElem? he))
    rw [r1]
    refine ⟨(y, res'), rfl, ⟨hyc, ?_⟩, ?_⟩
    · rw [shows_iff]
      dsimp only
      refine ⟨by omega, fun j e he => ?_⟩
      have hjl := get_lt he
      have hel := hyc.2.2 e (List.mem_of_getElem? he)
      refine ⟨pool[e], List.getElem?_eq_getElem hel, ?_⟩
      rw [r3]
      by_cases hj : i ≤ j
      · rw [if_pos (by omega), he, Option.bind_some, List.getElem?_eq_getElem hel]
      · rw [if_neg (by omega)]
        rw [hy, if_neg (by omega)] at he
        obtain ⟨w, w1, w2⟩ := hshg j e he
        rw [w2, ← w1, List.getElem?_eq_getElem hel]
    · have hpre : x.take i = y.take i := take_ext fun j hj => by rw [hy, if_neg (by omega)]
      have hyi : y[i]? = some (d + 1) := by rw [hy, if_pos (by omega)]; simp
      have := valid_next (allowed := combAllowed pool.length r) (r := r) hlen (by omega : y.length = r) hpre h2 hyi (by omega)
        (fun e _ he => by omega)
        (fun j e hj he f hf => by
          have hjl := get_lt he
          have h5 := h4 j hj (by omega)
          rw [he] at h5
          simp only [Option.some.injEq] at h5
          have := hf.2
          rw [List.length_take] at this
          omega)
        (fun j e hj he f hf => by
          have hjl := get_lt he
          have h6 : y[j - 1]? = some (d + 1 + (j - 1 - i)) := by rw [hy, if_pos (by omega)]
          rw [hy, if_pos (by omega)] at he
          simp only [Option.some.injEq] at he
          have := hf.1 _ (mem_take_get.mpr ⟨j - 1, by omega, h6⟩)
          omega)
      exact ⟨this.1, fun z hz => this.2 z ((isComb_valid hr).mp hz)⟩

end comb

/-- **C39, combinations.** -/
theorem c39_combinations (pool : List α) (r : Nat) :
    ∃ N, ∀ fuel, N ≤ fuel → ∃ out, combinations fuel pool r = .ok out ∧ Enumerates (select pool) (IsComb pool.length r) out := by
  by_cases hr : r ≤ pool.length
  · have hrange : IsComb pool.length r (List.range r) := by
      refine ⟨by simp, List.pairwise_lt_range, fun d hd => ?_⟩
      have := List.mem_range.mp hd
      omega
    obtain ⟨res, hg, hsh⟩ := gather_eq (pool := pool) (is := List.range r) hrange.2.2
    obtain ⟨N, hN⟩ := enumerate (step := combNext pool r) (Inv := fun s => IsComb pool.length r s.1 ∧ Shows pool s.1 s.2)
      (P := IsComb pool.length r) (idx := (·.1)) pool.length r (fun z hz => ⟨hz.1, hz.2.2⟩) (fun s hs => hs.1)
      (fun s hs => comb_step hr s hs.1 hs.2) (List.range r, res) ⟨hrange, hsh⟩
      (fun z hz => valid_first (by simp) ((isComb_valid hr).mp hz) (fun i d hi e he => by
        have hil := get_lt hi
        rw [List.getElem?_eq_getElem hil] at hi
        simp only [List.getElem_range, Option.some.injEq] at hi
        subst hi
        by_cases h0 : i = 0
        · omega
        · have := he.1 (i - 1) (by
            rw [mem_take_get]
            refine ⟨i - 1, by omega, ?_⟩
            rw [List.length_range] at hil
            rw [List.getElem?_range (by omega)])
          omega))
    refine ⟨N, fun fuel hf => ?_⟩
    obtain ⟨ss, h1, h2, h3, h4⟩ := hN fuel hf
    refine ⟨ss.map (·.2), ?_, ss.map (·.1), h3, h4, ?_⟩
    · unfold combinations
      rw [if_neg (by omega), if_neg (by omega), Int.toNat_natCast, hg]
      dsimp only
      rw [h1]
    · rw [List.map_map, List.map_map]
      exact List.map_congr_left fun s hs => (h2 s hs).2
  · refine ⟨0, fun fuel _ => ⟨[], ?_, [], by simp, fun z => ?_, rfl⟩⟩
    · unfold combinations
      rw [if_neg (by omega), if_pos (by omega)]
    · constructor
      · intro h; cases h
      · intro h
        exfalso
        have hl := h.1
        -- `r` strictly increasing numbers below `n` need `r ≤ n`
        have h0 : z[0]? = some (z[0]'(by omega)) := List.getElem?_eq_getElem _
        have h9 : z[0 + (r - 1)]? = some (z[0 + (r - 1)]'(by omega)) := List.getElem?_eq_getElem _
        have := isComb_gap h (r - 1) 0 _ _ h0 h9
        have := h.2.2 _ (List.mem_of_getElem? h9)
        omega

/-- Combinations of a negative number of elements are refused. -/
theorem c39_combinations_negative (fuel : Nat) (pool : List α) (r : Int) (h : r < 0) :
    combinations fuel pool r = .exc "ValueError" := by
  unfold combinations; rw [if_pos h]

example : combinations 10 "abcd".toList 3 =
    .ok ["abc".toList, "abd".toList, "acd".toList, "bcd".toList] := by decide +kernel

/-! ### combinations_with_replacement -/

section cwr
variable {pool : List α} {r : Nat}

def cwrAllowed (n : Nat) (p : List Nat) (d : Nat) : Prop := (∀ e ∈ p, e ≤ d) ∧ d < n

theorem isCombWR_valid {n : Nat} {z : List Nat} : IsCombWR n r z ↔ Valid (cwrAllowed n) r z := by
  constructor
  · intro h
    refine ⟨h.1, fun i d hi => ⟨fun e he => ?_, h.2.2 d (List.mem_of_getElem? hi)⟩⟩
    obtain ⟨j, h1, h2⟩ := mem_take_get.mp he
    exact pairwise_get.mp h.2.1 j i e d h1 h2 hi
  · intro h
    refine ⟨h.1, pairwise_get.mpr fun i j a b hij ha hb => ?_, fun d hd => ?_⟩
    · exact (h.2 j b hb).1 a (mem_take_get.mpr ⟨i, hij, ha⟩)
    · obtain ⟨i, hi⟩ := List.mem_iff_getElem?.mp hd
      exact (h.2 i d hi).2

theorem cwr_step (s : List Nat × List α) (hs : IsCombWR pool.length r s.1) (hsh : Shows pool s.1 s.2) :
    (cwrNext pool r s = some none ∧ ∀ z, IsCombWR pool.length r z → ¬ s.1 < z) ∨
    ∃ s', cwrNext pool r s = some (some s') ∧ (IsCombWR pool.length r s'.1 ∧ Shows pool s'.1 s'.2) ∧ s.1 < s'.1 ∧
      ∀ z, IsCombWR pool.length r z → s.1 < z → ¬ z < s'.1 := by
  obtain ⟨x, res⟩ := s
  dsimp only at hs hsh ⊢
  have hlen : x.length = r := hs.1
  obtain ⟨hshl, hshg⟩ := shows_iff.mp hsh
  unfold cwrNext
  dsimp only
  rcases findDown_ok (lim := fun _ => pool.length - 1) (a := x) r (by omega) with ⟨h1, h2⟩ | ⟨i, d, h0, h1, h2, h3, h4⟩
  · left
    rw [h1]
    refine ⟨rfl, fun z hz => valid_last hlen (isCombWR_valid.mp hz) ?_⟩
    intro i d hi e he
    have hlt := get_lt hi
    have := h2 i (by omega)
    rw [hi] at this
    simp only [Option.some.injEq] at this
    have := he.2
    omega
  · right
    have hdn := hs.2.2 d (List.mem_of_getElem? h2)
    have hd : d + 1 < pool.length := by omega
    rw [h1]
    dsimp only
    rw [h2]
    dsimp only
    rw [List.getElem?_eq_getElem hd]
    dsimp only
    obtain ⟨y, g1, g2, g3⟩ := fillUp_ok (v := d + 1) (r - i) i x (by omega)
    obtain ⟨res', r1, r2, r3⟩ := fillUp_ok (v := pool[d + 1]) (r - i) i res (by omega)
    rw [g1, r1]
    have hyc : IsCombWR pool.length r y := by
      refine ⟨by omega, pairwise_get.mpr fun j k a b hjk ha hb => ?_, fun e he => ?_⟩
      · have hkl := get_lt hb
        rw [g3] at ha hb
        by_cases hj : i ≤ j
        · rw [if_pos (by omega)] at ha hb
          simp only [Option.some.injEq] at ha hb
          omega
        · rw [if_neg (by omega)] at ha
          by_cases hk : i ≤ k
          · rw [if_pos (by omega)] at hb
            simp only [Option.some.injEq] at hb
            have := pairwise_get.mp hs.2.1 j i a d (by omega) ha h2
            omega
          · rw [if_neg (by omega)] at hb
            exact pairwise_get.mp hs.2.1 j k a b hjk ha hb
      · obtain ⟨k, hk⟩ := List.mem_iff_getElem?.mp he
        have hkl := get_lt hk
        rw [g3] at hk
        by_cases hj : i ≤ k
        · rw [if_pos (by omega)] at hk
          simp only [Option.some.injEq] at hk
          omega
        · rw [if_neg (by omega)] at hk
          exact hs.2.2 e (List.mem_of_getElem? hk)
    refine ⟨(y, res'), rfl, ⟨hyc, ?_⟩, ?_⟩
    · rw [shows_iff]
      dsimp only
      refine ⟨by omega, fun j e he => ?_⟩
      have hjl := get_lt he
      rw [g3] at he
      rw [r3]
      by_cases hj : i ≤ j
      · rw [if_pos (by omega)] at he ⊢
        simp only [Option.some.injEq] at he
        subst he
        exact ⟨_, List.getElem?_eq_getElem hd, rfl⟩
      · rw [if_neg (by omega)] at he ⊢
        exact hshg j e he
    · have hpre : x.take i = y.take i := take_ext fun j hj => by rw [g3, if_neg (by omega)]
      have hyi : y[i]? = some (d + 1) := by rw [g3, if_pos (by omega)]
      have := valid_next (allowed := cwrAllowed pool.length) (r := r) hlen (by omega : y.length = r) hpre h2 hyi (by omega)
        (fun e _ he => by omega)
        (fun j e hj he f hf => by
          have hjl := get_lt he
          have h5 := h4 j hj (by omega)
          rw [he] at h5
          simp only [Option.some.injEq] at h5
          have := hf.2
          omega)
        (fun j e hj he f hf => by
          have hjl := get_lt he
          rw [g3, if_pos (by omega)] at he
          simp only [Option.some.injEq] at he
          have := hf.1 _ (mem_take_get.mpr ⟨i, by omega, hyi⟩)
          omega)
      exact ⟨this.1, fun z hz => this.2 z (isCombWR_valid.mp hz)⟩

end cwr

/-- **C39, combinations with replacement.** -/
theorem c39_combinations_with_replacement (pool : List α) (r : Nat) :
    ∃ N, ∀ fuel, N ≤ fuel → ∃ out, combinationsWR fuel pool r = .ok out ∧ Enumerates (select pool) (IsCombWR pool.length r) out := by
  cases pool with
  | nil =>
    refine ⟨0, fun fuel _ => ?_⟩
    unfold combinationsWR
    rw [if_neg (by omega)]
    by_cases hr : r = 0
    · subst hr
      refine ⟨[[]], rfl, [[]], by simp, fun z => ?_, rfl⟩
      simp only [List.mem_singleton]
      constructor
      · rintro rfl; exact ⟨rfl, List.Pairwise.nil, by simp⟩
      · intro h; exact List.length_eq_zero_iff.mp h.1
    · refine ⟨[], by simp [hr], [], by simp, fun z => ?_, rfl⟩
      constructor
      · intro h; cases h
      · intro h
        exfalso
        cases z with
        | nil => exact hr h.1.symm
        | cons d z => have := h.2.2 d (by simp); simp at this
  | cons x pool =>
    have hrep : IsCombWR (x :: pool).length r (List.replicate r 0) := by
      refine ⟨by simp, pairwise_get.mpr fun i j a b _ ha hb => ?_, fun d hd => ?_⟩
      · have h1 := List.mem_of_getElem? ha
        have h2 := List.mem_of_getElem? hb
        rw [List.mem_replicate] at h1 h2
        omega
      · rw [List.mem_replicate] at hd
        simp [hd.2]
    have hsh : Shows (x :: pool) (List.replicate r 0) (List.replicate r x) := by
      unfold Shows
      simp
    obtain ⟨N, hN⟩ := enumerate (step := cwrNext (x :: pool) r) (Inv := fun s => IsCombWR (x :: pool).length r s.1 ∧ Shows (x :: pool) s.1 s.2)
      (P := IsCombWR (x :: pool).length r) (idx := (·.1)) (x :: pool).length r (fun z hz => ⟨hz.1, hz.2.2⟩) (fun s hs => hs.1)
      (fun s hs => cwr_step s hs.1 hs.2) (List.replicate r 0, List.replicate r x) ⟨hrep, hsh⟩
      (fun z hz => valid_first (by simp) (isCombWR_valid.mp hz) (fun i d hi e _ => by
        have := List.mem_of_getElem? hi
        rw [List.mem_replicate] at this
        omega))
    refine ⟨N, fun fuel hf => ?_⟩
    obtain ⟨ss, h1, h2, h3, h4⟩ := hN fuel hf
    refine ⟨ss.map (·.2), ?_, ss.map (·.1), h3, h4, ?_⟩
    · unfold combinationsWR
      rw [if_neg (by omega)]
      dsimp only
      rw [Int.toNat_natCast, h1]
    · rw [List.map_map, List.map_map]
      exact List.map_congr_left fun s hs => (h2 s hs).2

example : combinationsWR 10 "ab".toList 3 = .ok ["aaa".toList, "aab".toList, "abb".toList, "bbb".toList] := by decide +kernel

/-! ### product -/

section product
variable {pools : List (List α)}

def choiceAllowed (pools : List (List α)) (p : List Nat) (d : Nat) : Prop := ∃ pool, pools[p.length]? = some pool ∧ d < pool.length

theorem isChoice_valid {z : List Nat} : IsChoice pools z ↔ Valid (choiceAllowed pools) pools.length z := by
  constructor
  · intro h
    refine ⟨h.1, fun i d hi => ?_⟩
    have := get_lt hi
    unfold choiceAllowed
    rw [List.length_take, Nat.min_eq_left (by omega)]
    exact h.2 i d hi
  · intro h
    refine ⟨h.1, fun i d hi => ?_⟩
    have := get_lt hi
    have h2 := h.2 i d hi
    unfold choiceAllowed at h2
    rwa [List.length_take, Nat.min_eq_left (by omega)] at h2

/-- The elements of several pools at an index list. -/
def selects (pools : List (List α)) (z : List Nat) : List (Option α) := List.zipWith (fun p d => p[d]?) pools z

theorem selects_iff {z : List Nat} {res : List α} (hz : z.length = pools.length) : res.map some = selects pools z ↔
    res.length = pools.length ∧ ∀ (j d : Nat) (p : List α), z[j]? = some d → pools[j]? = some p → ∃ x, p[d]? = some x ∧ res[j]? = some x := by
  unfold selects
  constructor
  · intro h
    have hl : res.length = pools.length := by have := congrArg List.length h; simp at this; omega
    refine ⟨hl, fun j d p hj hp => ?_⟩
    have := congrArg (·[j]?) h
    simp only [List.getElem?_map, List.getElem?_zipWith, hj, hp] at this
    cases hr : res[j]? with
    | none => rw [hr] at this; simp at this
    | some x => rw [hr] at this; exact ⟨x, by simpa using this.symm, rfl⟩
  · rintro ⟨hl, h⟩
    apply List.ext_getElem?
    intro j
    simp only [List.getElem?_map, List.getElem?_zipWith]
    by_cases hj : j < pools.length
    · obtain ⟨x, h1, h2⟩ := h j _ _ (List.getElem?_eq_getElem (by omega)) (List.getElem?_eq_getElem hj)
      rw [h2, List.getElem?_eq_getElem hj, List.getElem?_eq_getElem (by omega : j < z.length)]
      simp [h1]
    · rw [List.getElem?_eq_none (by omega : res.length ≤ j), List.getElem?_eq_none (by omega : pools.length ≤ j)]
      rfl

/-- Only the indices matter for where the loop goes. -/
theorem productNext_ok (hne : ∀ p ∈ pools, p ≠ []) : ∀ (k : Nat) (x : List Nat) (res : List α), k ≤ pools.length →
    IsChoice pools x → res.map some = selects pools x →
    (productNext pools k x res = some none ∧ productNextS pools k x = some none ∧
      ∀ j d p, j < k → x[j]? = some d → pools[j]? = some p → d + 1 = p.length) ∨
    ∃ i d p y res', i < k ∧ productNext pools k x res = some (some (y, res')) ∧ productNextS pools k x = some (some y) ∧
      x[i]? = some d ∧ pools[i]? = some p ∧ d + 1 < p.length ∧ IsChoice pools y ∧ res'.map some = selects pools y ∧
      (∀ (j e : Nat) (q : List α), i < j → j < k → x[j]? = some e → pools[j]? = some q → e + 1 = q.length) ∧
      ∀ j : Nat, y[j]? = if j = i then some (d + 1) else if i < j ∧ j < k then some 0 else x[j]? := by
  intro k
  induction k with
  | zero => intro x res _ _ _; exact .inl ⟨rfl, rfl, fun j d p hj => by omega⟩
  | succ i ih =>
    intro x res hk hx hres
    have hxl := hx.1
    obtain ⟨hrl, hrg⟩ := (selects_iff hxl).mp hres
    have hpi : pools[i]? = some pools[i] := List.getElem?_eq_getElem (by omega)
    have hxi : x[i]? = some (x[i]'(by omega)) := List.getElem?_eq_getElem _
    obtain ⟨q, hq1, hq2⟩ := hx.2 i _ hxi
    rw [hpi] at hq1
    simp only [Option.some.injEq] at hq1
    subst hq1
    unfold productNext productNextS
    rw [hpi, hxi]
    dsimp only
    rw [setAt_ok (by omega)]
    dsimp only
    by_cases hd : x[i] + 1 = pools[i].length
    · rw [if_pos hd, if_pos hd, setAt_ok (by simp; omega)]
      have hp0 : pools[i][0]? = some (pools[i][0]'(by omega)) := List.getElem?_eq_getElem _
      rw [hp0]
      dsimp only
      rw [setAt_ok (by omega)]
      dsimp only
      rw [List.set_set]
      have hx' : IsChoice pools (x.set i 0) := by
        refine ⟨by simpa using hxl, fun j e hj => ?_⟩
        rw [get_set (by omega)] at hj
        split at hj
        · rename_i hji
          subst hji
          simp only [Option.some.injEq] at hj
          exact ⟨_, hpi, by omega⟩
        · exact hx.2 j e hj
      have hres' : (res.set i pools[i][0]).map some = selects pools (x.set i 0) := by
        rw [selects_iff hx'.1]
        refine ⟨by simpa using hrl, fun j e p hj hp => ?_⟩
        rw [get_set (by omega)] at hj ⊢
        split at hj
        · rename_i hji
          subst hji
          simp only [Option.some.injEq] at hj
          subst hj
          rw [hpi] at hp
          simp only [Option.some.injEq] at hp
          subst hp
          exact ⟨_, hp0, if_pos rfl⟩
        · rename_i hji
          rw [if_neg hji]
          exact hrg j e p hj hp
      rcases ih (x.set i 0) _ (by omega) hx' hres' with ⟨h1, h2, h3⟩ | ⟨k, d, p, y, res', h0, h1, h2, h3, h4, h5, h6, h7, h8, h9⟩
      · refine .inl ⟨h1, h2, fun j d p hj hxj hpj => ?_⟩
        by_cases hji : j = i
        · subst hji
          rw [hxi] at hxj
          rw [hpi] at hpj
          simp only [Option.some.injEq] at hxj hpj
          subst hxj hpj
          exact hd
        · exact h3 j d p (by omega) (by rw [get_set (by omega), if_neg hji]; exact hxj) hpj
      · refine .inr ⟨k, d, p, y, res', by omega, h1, h2, ?_, h4, h5, h6, h7, ?_, ?_⟩
        · rw [get_set (by omega), if_neg (by omega)] at h3; exact h3
        · intro j e q hj1 hj2 hxj hpj
          by_cases hji : j = i
          · subst hji
            rw [hxi] at hxj
            rw [hpi] at hpj
            simp only [Option.some.injEq] at hxj hpj
            subst hxj hpj
            exact hd
          · exact h8 j e q hj1 (by omega) (by rw [get_set (by omega), if_neg hji]; exact hxj) hpj
        · intro j
          rw [h9, get_set (by omega)]
          by_cases hjk : j = k
          · rw [if_pos hjk, if_pos hjk]
          · rw [if_neg hjk, if_neg hjk]
            by_cases hji : j = i
            · rw [if_neg (by omega), if_pos hji, if_pos (by omega)]
            · rw [if_neg hji]
              by_cases hjj : k < j ∧ j < i
              · rw [if_pos hjj, if_pos (by omega)]
              · rw [if_neg hjj, if_neg (by omega)]
    · rw [if_neg hd, if_neg hd]
      have hlt : x[i] + 1 < pools[i].length := by omega
      have hpd : pools[i][x[i] + 1]? = some (pools[i][x[i] + 1]) := List.getElem?_eq_getElem hlt
      rw [hpd]
      dsimp only
      rw [setAt_ok (by omega)]
      dsimp only
      have hx' : IsChoice pools (x.set i (x[i] + 1)) := by
        refine ⟨by simpa using hxl, fun j e hj => ?_⟩
        rw [get_set (by omega)] at hj
        split at hj
        · rename_i hji
          subst hji
          simp only [Option.some.injEq] at hj
          exact ⟨_, hpi, by omega⟩
        · exact hx.2 j e hj
      refine .inr ⟨i, x[i], pools[i], _, _, by omega, rfl, rfl, hxi, hpi, hlt, hx', ?_, fun j e q h1 h2 => by omega, ?_⟩
      · rw [selects_iff hx'.1]
        refine ⟨by simpa using hrl, fun j e p hj hp => ?_⟩
        rw [get_set (by omega)] at hj ⊢
        split at hj
        · rename_i hji
          subst hji
          simp only [Option.some.injEq] at hj
          subst hj
          rw [hpi] at hp
          simp only [Option.some.injEq] at hp
          subst hp
          exact ⟨_, hpd, if_pos rfl⟩
        · rename_i hji
          rw [if_neg hji]
          exact hrg j e p hj hp
      · intro j
        rw [get_set (by omega)]
        by_cases hji : j = i
        · rw [if_pos hji, if_pos hji]
        · rw [if_neg hji, if_neg hji, if_neg (by omega)]

theorem product_step (hne : ∀ p ∈ pools, p ≠ []) (x : List Nat) (res : List α) (hx : IsChoice pools x) (hres : res.map some = selects pools x) :
    (productNext pools pools.length x res = some none ∧ productNextS pools pools.length x = some none ∧ ∀ z, IsChoice pools z → ¬ x < z) ∨
    ∃ y res', productNext pools pools.length x res = some (some (y, res')) ∧ productNextS pools pools.length x = some (some y) ∧
      IsChoice pools y ∧ res'.map some = selects pools y ∧ x < y ∧ ∀ z, IsChoice pools z → x < z → ¬ z < y := by
  have hxl := hx.1
  have key : ∀ (j d e : Nat), (∀ p, pools[j]? = some p → d + 1 = p.length) → x[j]? = some d → choiceAllowed pools (x.take j) e → e ≤ d := by
    rintro j d e h hj ⟨p, hp1, hp2⟩
    have := get_lt hj
    rw [List.length_take, Nat.min_eq_left (by omega)] at hp1
    have := h p hp1
    omega
  rcases productNext_ok hne pools.length x res (Nat.le_refl _) hx hres with ⟨h1, h2, h3⟩ | ⟨i, d, p, y, res', h0, h1, h2, h3, h4, h5, h6, h7, h8, h9⟩
  · refine .inl ⟨h1, h2, fun z hz => valid_last hxl (isChoice_valid.mp hz) ?_⟩
    intro j d hj e he
    have := get_lt hj
    exact key j d e (fun p hp => h3 j d p (by omega) hj hp) hj he
  · refine .inr ⟨y, res', h1, h2, h6, h7, ?_⟩
    have hpre : x.take i = y.take i := take_ext fun j hj => by rw [h9, if_neg (by omega), if_neg (by omega)]
    have := valid_next (allowed := choiceAllowed pools) (r := pools.length) hxl h6.1 hpre h3 (by rw [h9, if_pos rfl]) (by omega)
      (fun e _ he => by omega)
      (fun j e hj hje f hf => by
        have := get_lt hje
        exact key j e f (fun q hq => h8 j e q hj (by omega) hje hq) hje hf)
      (fun j e hj hje f hf => by
        have := get_lt hje
        have := h6.1
        rw [h9, if_neg (by omega), if_pos (by omega)] at hje
        simp only [Option.some.injEq] at hje
        omega)
    exact ⟨this.1, fun z hz => this.2 z (isChoice_valid.mp hz)⟩

theorem length_le_flatten {p : List α} : ∀ {pools : List (List α)}, p ∈ pools → p.length ≤ pools.flatten.length := by
  intro pools
  induction pools with
  | nil => intro h; cases h
  | cons a pools ih =>
    intro h
    rw [List.flatten_cons, List.length_append]
    rcases List.mem_cons.mp h with rfl | h
    · omega
    · have := ih h; omega

theorem choice_bound {z : List Nat} (hz : IsChoice pools z) : z.length = pools.length ∧ ∀ d ∈ z, d < pools.flatten.length := by
  refine ⟨hz.1, fun d hd => ?_⟩
  obtain ⟨i, hi⟩ := List.mem_iff_getElem?.mp hd
  obtain ⟨p, h1, h2⟩ := hz.2 i d hi
  have := length_le_flatten (List.mem_of_getElem? h1)
  omega

theorem choice_zero (hne : ∀ p ∈ pools, p ≠ []) : IsChoice pools (List.replicate pools.length 0) := by
  refine ⟨by simp, fun i d hi => ?_⟩
  have hil := get_lt hi
  rw [List.length_replicate] at hil
  have h2 := List.mem_of_getElem? hi
  rw [List.mem_replicate] at h2
  have h3 := hne _ (List.getElem_mem hil)
  exact ⟨pools[i], List.getElem?_eq_getElem hil, by rw [h2.2]; exact List.length_pos_iff.mpr h3⟩

theorem choice_first {z : List Nat} (hz : IsChoice pools z) : ¬ z < List.replicate pools.length 0 :=
  valid_first (by simp) (isChoice_valid.mp hz) (fun i d hi e _ => by
    have := List.mem_of_getElem? hi
    rw [List.mem_replicate] at this
    omega)

theorem heads (hne : ∀ p ∈ pools, p ≠ []) : ∃ res, pools.mapM (·[0]?) = some res ∧ res.map some = selects pools (List.replicate pools.length 0) := by
  induction pools with
  | nil => exact ⟨[], rfl, rfl⟩
  | cons p pools ih =>
    obtain ⟨res, h1, h2⟩ := ih (fun q hq => hne q (by simp [hq]))
    cases p with
    | nil => exact absurd rfl (hne [] (by simp))
    | cons x p =>
      refine ⟨x :: res, by simp [List.mapM_cons, h1], ?_⟩
      rw [List.map_cons, h2]
      simp [selects, List.replicate_succ]

theorem isChoice_empty {z : List Nat} (h : [] ∈ pools) : ¬ IsChoice pools z := by
  intro hz
  obtain ⟨i, hi⟩ := List.mem_iff_getElem?.mp h
  have hil := get_lt hi
  obtain ⟨p, h1, h2⟩ := hz.2 i _ (List.getElem?_eq_getElem (by rw [hz.1]; exact hil))
  rw [hi] at h1
  simp only [Option.some.injEq] at h1
  subst h1
  simp at h2

/-- The combinations of the literal overload's odometer. -/
theorem pick_ok : ∀ {pools : List (List α)} {z : List Nat}, IsChoice pools z → ∃ res, pick pools z = some res ∧ res.map some = selects pools z := by
  intro pools
  induction pools with
  | nil =>
    intro z hz
    have : z = [] := List.length_eq_zero_iff.mp hz.1
    subst this
    exact ⟨[], rfl, rfl⟩
  | cons p pools ih =>
    intro z hz
    cases z with
    | nil => have := hz.1; simp at this
    | cons d z =>
      obtain ⟨res, h1, h2⟩ := ih (z := z) ⟨by have := hz.1; simpa using this, fun i e hi => by
        have := hz.2 (i + 1) e (by simpa using hi)
        simpa using this⟩
      obtain ⟨q, hq1, hq2⟩ := hz.2 0 d (by simp)
      simp only [List.getElem?_cons_zero, Option.some.injEq] at hq1
      subst hq1
      refine ⟨p[d] :: res, ?_, ?_⟩
      · simp only [pick]
        rw [h1, List.getElem?_eq_getElem hq2]
      · rw [List.map_cons, h2]
        simp [selects, List.getElem?_eq_getElem hq2]

theorem mapM_pick : ∀ {zs : List (List Nat)}, (∀ z ∈ zs, IsChoice pools z) →
    ∃ rs, zs.mapM (pick pools) = some rs ∧ rs.map (·.map some) = zs.map (selects pools) := by
  intro zs
  induction zs with
  | nil => intro _; exact ⟨[], rfl, rfl⟩
  | cons z zs ih =>
    intro h
    obtain ⟨rs, h1, h2⟩ := ih (fun y hy => h y (by simp [hy]))
    obtain ⟨r, h3, h4⟩ := pick_ok (h z (by simp))
    exact ⟨r :: rs, by simp [List.mapM_cons, h3, h1], by rw [List.map_cons, List.map_cons, h4, h2]⟩

end product

/-- **C39, product** (repeat count not a literal).  The pools are the arguments, taken `rep` times over. -/
theorem c39_product (iterables : List (List α)) (rep : Nat) :
    ∃ N, ∀ fuel, N ≤ fuel → ∃ out, product fuel iterables rep = .ok out ∧
      Enumerates (selects (List.replicate rep iterables).flatten) (IsChoice (List.replicate rep iterables).flatten) out := by
  by_cases h0 : rep = 0
  · subst h0
    refine ⟨1, fun fuel hf => ?_⟩
    obtain ⟨fuel, rfl⟩ : ∃ f, fuel = f + 1 := ⟨fuel - 1, by omega⟩
    refine ⟨[[]], by simp [product, collect, productNext], [[]], by simp, fun z => ?_, rfl⟩
    simp only [List.replicate_zero, List.flatten_nil, List.mem_singleton]
    constructor
    · rintro rfl; exact ⟨rfl, fun i d h => by simp at h⟩
    · intro h; exact List.length_eq_zero_iff.mp h.1
  · by_cases hemp : [] ∈ iterables
    · refine ⟨0, fun fuel _ => ⟨[], ?_, [], by simp, fun z => ?_, rfl⟩⟩
      · unfold product
        have hz : ¬ (rep : Int) = 0 := by omega
        rw [if_neg (by omega)]
        simp only [hz, if_false, List.take_length]
        rw [if_pos]
        rw [List.any_eq_true]
        exact ⟨[], hemp, rfl⟩
      · constructor
        · intro h; cases h
        · intro h
          exact absurd h (isChoice_empty (by
            rw [List.mem_flatten]
            exact ⟨iterables, by rw [List.mem_replicate]; exact ⟨h0, rfl⟩, hemp⟩))
    · generalize hps : (List.replicate rep iterables).flatten = pools
      have hne : ∀ p ∈ pools, p ≠ [] := by
        rintro p hp rfl
        rw [← hps, List.mem_flatten] at hp
        obtain ⟨l, hl1, hl2⟩ := hp
        rw [List.mem_replicate] at hl1
        rw [hl1.2] at hl2
        exact hemp hl2
      obtain ⟨res, hh1, hh2⟩ := heads hne
      obtain ⟨N, hN⟩ := enumerate (step := fun s : List Nat × List α => productNext pools pools.length s.1 s.2)
        (Inv := fun s => IsChoice pools s.1 ∧ s.2.map some = selects pools s.1)
        (P := IsChoice pools) (idx := (·.1)) pools.flatten.length pools.length (fun z hz => choice_bound hz) (fun s hs => hs.1)
        (fun s hs => by
          rcases product_step hne s.1 s.2 hs.1 hs.2 with ⟨h1, _, h3⟩ | ⟨y, res', h1, _, h3, h4, h5⟩
          · exact .inl ⟨h1, h3⟩
          · exact .inr ⟨(y, res'), h1, ⟨h3, h4⟩, h5⟩)
        (List.replicate pools.length 0, res) ⟨choice_zero hne, hh2⟩ (fun z hz => choice_first hz)
      refine ⟨N, fun fuel hf => ?_⟩
      obtain ⟨ss, h1, h2, h3, h4⟩ := hN fuel hf
      refine ⟨ss.map (·.2), ?_, ss.map (·.1), h3, h4, ?_⟩
      · unfold product
        have hz : ¬ (rep : Int) = 0 := by omega
        rw [if_neg (by omega)]
        simp only [hz, if_false, List.take_length]
        rw [if_neg, Int.toNat_natCast, hps, hh1]
        · dsimp only
          rw [h1]
        · rw [List.any_eq_true]
          rintro ⟨p, hp1, hp2⟩
          have : p = [] := List.isEmpty_iff.mp hp2
          subst this
          exact hemp hp1
      · rw [List.map_map, List.map_map]
        exact List.map_congr_left fun s hs => (h2 s hs).2

example : product 10 ["ab".toList, "xyz".toList] 1 =
    .ok ["ax".toList, "ay".toList, "az".toList, "bx".toList, "by".toList, "bz".toList] ∧
    product 10 ["ab".toList] 2 = .ok ["aa".toList, "ab".toList, "ba".toList, "bb".toList] := by decide +kernel

end Codon.Iter
