import Verif.Random.Lemmas
import Verif.Date.Props43
/-! # `randrange` -/
namespace Codon.Random

theorem wrap_id {x : Int} (h1 : -2 ^ 63 ≤ x) (h2 : x < 2 ^ 63) : wrap x = x := by
  unfold wrap Int.bmod
  simp only
  split <;> omega

theorem Only.map {α β : Type} {p : M α} {P : α → Prop} {Q : β → Prop} (f : α → β) (hp : Only p P)
    (h : ∀ a, P a → Q (f a)) : Only (do let r ← p; return f r) Q :=
  hp.bind fun a ha => Only.pure (h a ha)

/-- Drawing one of `n` steps. -/
theorem steps_exactly {start stop step : Int} (n : Nat) (h1 : 1 ≤ n) (h2 : n ≤ 2 ^ 53)
    (hfit : ∀ i : Nat, i < n → -2 ^ 63 ≤ step * i ∧ step * i < 2 ^ 63 ∧ -2 ^ 63 ≤ start + step * i ∧ start + step * i < 2 ^ 63)
    (hin : ∀ i : Nat, i < n ↔ InRange start stop step (start + step * i)) :
    Exactly (steps start step n) (InRange start stop step) := by
  unfold steps
  rw [Date.toDouble_exact (by omega), if_neg (by omega), if_neg (by omega)]
  have hb := randbelow_exactly n h1 (by omega)
  constructor
  · refine hb.1.bind fun r hr => Only.pure ?_
    obtain ⟨r, rfl⟩ := Int.eq_ofNat_of_zero_le hr.1
    have hrn : r < n := by omega
    obtain ⟨f1, f2, f3, f4⟩ := hfit r hrn
    rw [wrap_id f1 f2, wrap_id f3 f4]
    exact (hin r).mp hrn
  · intro v hv
    obtain ⟨i, hv', hi⟩ := hv
    have hin' : InRange start stop step (start + step * i) := ⟨i, rfl, by rw [← hv']; exact hi⟩
    have hrn := (hin i).mpr hin'
    refine (hb.2 (i : Int) ⟨by omega, by omega⟩).bind ?_
    obtain ⟨f1, f2, f3, f4⟩ := hfit i hrn
    rw [wrap_id f1 f2, wrap_id f3 f4, ← hv']
    exact Can.pure _

theorem tdiv_small {a b : Int} (hb : 0 < b) (h : a < b) : a.tdiv b ≤ 0 := by
  by_cases ha : 0 ≤ a
  · rw [Int.tdiv_eq_ediv_of_nonneg ha, Int.ediv_eq_zero_of_lt ha h]
  · have h1 : a.tdiv b = -((-a).tdiv b) := by rw [Int.neg_tdiv, Int.neg_neg]
    have h2 : 0 ≤ (-a).tdiv b := Int.tdiv_nonneg (by omega) (by omega)
    omega

theorem mul_mono {s a b : Int} (hs : 0 < s) (h : a ≤ b) : s * a ≤ s * b := Int.mul_le_mul_of_nonneg_left h (by omega)

/-- The number of values of a range and where they lie, for a positive step. -/
theorem count_pos {start stop step : Int} (hs : 0 < step) (hw : start < stop) :
    ∃ n : Nat, (stop - start + step - 1).tdiv step = n ∧ 1 ≤ n ∧ (n : Int) ≤ (stop - start) / step + 1 ∧
      ∀ i : Nat, i < n ↔ start + step * i < stop := by
  have hq : (stop - start + step - 1).tdiv step = (stop - start + step - 1) / step :=
    Int.tdiv_eq_ediv_of_nonneg (by omega)
  have h0 : 1 ≤ (stop - start + step - 1) / step := by
    rw [Int.le_ediv_iff_mul_le hs]
    omega
  have h1 : (stop - start + step - 1) / step ≤ (stop - start) / step + 1 := by
    have : (stop - start + step - 1) / step ≤ (stop - start + step * 1) / step := Int.ediv_le_ediv hs (by omega)
    rw [Int.add_mul_ediv_left _ _ (by omega)] at this
    omega
  refine ⟨((stop - start + step - 1) / step).toNat, by omega, by omega, by omega, fun i => ?_⟩
  have h2 : (i : Int) + 1 ≤ (stop - start + step - 1) / step ↔ ((i : Int) + 1) * step ≤ stop - start + step - 1 :=
    Int.le_ediv_iff_mul_le hs
  have h3 : ((i : Int) + 1) * step = step * i + step := by ring
  rw [h3] at h2
  generalize step * (i : Int) = z at *
  generalize (stop - start + step - 1) / step = q at *
  omega

theorem inRange_pos {start stop step : Int} (hs : 0 < step) (i : Nat) :
    InRange start stop step (start + step * i) ↔ start + step * i < stop := by
  constructor
  · rintro ⟨_, _, h | h⟩
    · exact h.2
    · omega
  · intro h
    exact ⟨i, rfl, .inl ⟨hs, h⟩⟩

theorem inRange_neg {start stop step : Int} (hs : step < 0) (i : Nat) :
    InRange start stop step (start + step * i) ↔ stop < start + step * i := by
  constructor
  · rintro ⟨_, _, h | h⟩
    · omega
    · exact h.2
  · intro h
    exact ⟨i, rfl, .inr ⟨hs, h⟩⟩

/-- There is a value. -/
def Nonempty (start stop step : Int) : Prop := 0 < step ∧ start < stop ∨ step < 0 ∧ stop < start

theorem nonempty_iff {start stop step : Int} : (∃ v, InRange start stop step v) ↔ Nonempty start stop step := by
  constructor
  · rintro ⟨v, i, hv, h | h⟩
    · left
      refine ⟨h.1, ?_⟩
      have := mul_mono h.1 (show (0 : Int) ≤ i by omega)
      omega
    · right
      refine ⟨h.1, ?_⟩
      have := mul_mono (s := -step) (by omega) (show (0 : Int) ≤ i by omega)
      rw [Int.neg_mul, Int.neg_mul] at this
      omega
  · rintro (h | h)
    · exact ⟨start, 0, by simp, .inl ⟨h.1, h.2⟩⟩
    · exact ⟨start, 0, by simp, .inr ⟨h.1, h.2⟩⟩

theorem raise_eq {α : Type} {p : M α} (h : p = raise .valueError) : ∀ ws, p ws = .exc .valueError := by
  rw [h]
  exact fun _ => rfl

theorem steps_raise {start step n : Int} (h : n ≤ 0) (hb : -2 ^ 53 ≤ n) : steps start step n = raise .valueError := by
  unfold steps
  rw [Date.toDouble_exact (by omega), if_pos h]

theorem tdiv_low {a b : Int} (hb : 0 < b) : a / b ≤ a.tdiv b := by
  by_cases ha : 0 ≤ a
  · rw [Int.tdiv_eq_ediv_of_nonneg ha]
  · rw [Int.tdiv_eq_ediv]
    split
    · omega
    · have := Int.sign_eq_one_of_pos hb
      omega

/-- Positive step other than 1. -/
theorem randrange_pos {start stop step : Int} (h0 : stop ≠ 0) (hs : 1 < step) (ha : -2 ^ 63 ≤ start ∧ start < 2 ^ 63)
    (hb : -2 ^ 63 ≤ stop ∧ stop < 2 ^ 63) (hw : (stop - start).natAbs + step.natAbs < 2 ^ 63)
    (hn : (stop - start).natAbs / step.natAbs < 2 ^ 53) :
    (start < stop → Exactly (randrange start stop step) (InRange start stop step)) ∧
    (stop ≤ start → randrange start stop step = raise .valueError) := by
  have hwr : wrap (stop - start) = stop - start := wrap_id (by omega) (by omega)
  have hwr2 : wrap (stop - start + step) = stop - start + step := wrap_id (by omega) (by omega)
  have hwr3 : wrap (stop - start + step - 1) = stop - start + step - 1 := wrap_id (by omega) (by omega)
  have hsd : sdiv (stop - start + step - 1) step = pure ((stop - start + step - 1).tdiv step) := by
    unfold sdiv
    rw [if_neg (by omega)]
  have hr : randrange start stop step = steps start step ((stop - start + step - 1).tdiv step) := by
    unfold randrange
    simp only
    rw [if_neg h0, if_neg (by omega), if_neg (by omega), if_pos (by omega), hwr, hwr2, hwr3, hsd]
    rfl
  rw [hr]
  constructor
  · intro hlt
    obtain ⟨n, e, h1, h2, h3⟩ := count_pos (start := start) (stop := stop) (step := step) (by omega) hlt
    rw [e]
    have hnat : (stop - start) / step = (((stop - start).natAbs / step.natAbs : Nat) : Int) := by
      rw [Int.natCast_ediv, Int.natCast_natAbs, Int.natCast_natAbs, abs_of_pos (by omega), abs_of_pos (by omega)]
    refine steps_exactly n h1 (by omega) (fun i hi => ?_) (fun i => ?_)
    · have := (h3 i).mp hi
      have h5 := mul_mono (s := step) (by omega) (show (0 : Int) ≤ i by omega)
      generalize step * (i : Int) = z at *
      omega
    · rw [h3, inRange_pos (by omega)]
  · intro hle
    refine steps_raise (tdiv_small (by omega) (by omega)) ?_
    have h1 : (stop - start + step - 1) / step ≤ (stop - start + step - 1).tdiv step := tdiv_low (by omega)
    have h2 : (-2 ^ 53 : Int) ≤ (stop - start + step - 1) / step := by
      rw [Int.le_ediv_iff_mul_le (by omega)]
      have h3 : (stop - start).natAbs < 2 ^ 53 * step.natAbs := (Nat.div_lt_iff_lt_mul (by omega)).mp hn
      have h4 : ((stop - start).natAbs : Int) < 2 ^ 53 * (step.natAbs : Int) := by exact_mod_cast h3
      rw [Int.natCast_natAbs, Int.natCast_natAbs, abs_of_nonpos (by omega), abs_of_pos (by omega)] at h4
      omega
    omega

/-- Negative step. -/
theorem randrange_neg {start stop step : Int} (h0 : stop ≠ 0) (hs : step < 0) (ha : -2 ^ 63 ≤ start ∧ start < 2 ^ 63)
    (hb : -2 ^ 63 ≤ stop ∧ stop < 2 ^ 63) (hw : (stop - start).natAbs + step.natAbs < 2 ^ 63)
    (hn : (stop - start).natAbs / step.natAbs < 2 ^ 53) :
    (stop < start → Exactly (randrange start stop step) (InRange start stop step)) ∧
    (start ≤ stop → randrange start stop step = raise .valueError) := by
  have hwr : wrap (stop - start) = stop - start := wrap_id (by omega) (by omega)
  have hwr2 : wrap (stop - start + step) = stop - start + step := wrap_id (by omega) (by omega)
  have hwr3 : wrap (stop - start + step + 1) = stop - start + step + 1 := wrap_id (by omega) (by omega)
  have hneg : (stop - start + step + 1).tdiv step = (start - stop + -step - 1).tdiv (-step) := by
    rw [show stop - start + step + 1 = -(start - stop + -step - 1) by ring, Int.neg_tdiv, Int.tdiv_neg]
  have hsd : sdiv (stop - start + step + 1) step = pure ((start - stop + -step - 1).tdiv (-step)) := by
    unfold sdiv
    rw [if_neg (by omega), hneg]
  have hr : randrange start stop step = steps start step ((start - stop + -step - 1).tdiv (-step)) := by
    unfold randrange
    simp only
    rw [if_neg h0, if_neg (by omega), if_neg (by omega), if_neg (by omega), if_pos hs, hwr, hwr2, hwr3, hsd]
    rfl
  rw [hr]
  constructor
  · intro hlt
    obtain ⟨n, e, h1, h2, h3⟩ := count_pos (start := stop) (stop := start) (step := -step) (by omega) hlt
    rw [e]
    have hnat : (start - stop) / -step = (((stop - start).natAbs / step.natAbs : Nat) : Int) := by
      rw [Int.natCast_ediv, Int.natCast_natAbs, Int.natCast_natAbs, abs_of_neg (by omega), abs_of_neg (by omega)]
      congr 1
      ring
    have h6 : ∀ i : Nat, i < n ↔ stop < start + step * i := by
      intro i
      rw [h3, Int.neg_mul]
      omega
    refine steps_exactly n h1 (by omega) (fun i hi => ?_) (fun i => ?_)
    · have := (h6 i).mp hi
      have h5 := mul_mono (s := -step) (by omega) (show (0 : Int) ≤ i by omega)
      rw [Int.neg_mul, Int.neg_mul] at h5
      generalize step * (i : Int) = z at *
      omega
    · rw [h6, inRange_neg hs]
  · intro hle
    refine steps_raise (tdiv_small (by omega) (by omega)) ?_
    have h1 : (start - stop + -step - 1) / -step ≤ (start - stop + -step - 1).tdiv (-step) := tdiv_low (by omega)
    have h2 : (-2 ^ 53 : Int) ≤ (start - stop + -step - 1) / -step := by
      rw [Int.le_ediv_iff_mul_le (by omega)]
      have h3 : (stop - start).natAbs < 2 ^ 53 * step.natAbs := (Nat.div_lt_iff_lt_mul (by omega)).mp hn
      have h4 : ((stop - start).natAbs : Int) < 2 ^ 53 * (step.natAbs : Int) := by exact_mod_cast h3
      rw [Int.natCast_natAbs, Int.natCast_natAbs, abs_of_nonneg (by omega), abs_of_neg (by omega)] at h4
      omega
    omega

/-- Step 1. -/
theorem randrange_one {start stop : Int} (h0 : stop ≠ 0) (ha : -2 ^ 63 ≤ start ∧ start < 2 ^ 63)
    (hb : -2 ^ 63 ≤ stop ∧ stop < 2 ^ 63) (hw : (stop - start).natAbs < 2 ^ 63) :
    (start < stop → Exactly (randrange start stop 1) (InRange start stop 1)) ∧
    (stop ≤ start → randrange start stop 1 = raise .valueError) := by
  have hwr : wrap (stop - start) = stop - start := wrap_id (by omega) (by omega)
  unfold randrange
  simp only [hwr]
  rw [if_neg h0]
  constructor
  · intro hlt
    rw [if_pos ⟨trivial, by omega⟩]
    obtain ⟨n, hn⟩ := Int.eq_ofNat_of_zero_le (show 0 ≤ stop - start by omega)
    rw [hn]
    have hbel := randbelow_exactly n (by omega) (by omega)
    constructor
    · refine hbel.1.bind fun r hr => Only.pure ?_
      rw [wrap_id (by omega) (by omega)]
      exact ⟨r.toNat, by omega, .inl ⟨by omega, by omega⟩⟩
    · rintro v ⟨i, hv, h | h⟩
      · refine (hbel.2 (i : Int) ⟨by omega, by omega⟩).bind ?_
        rw [wrap_id (by omega) (by omega)]
        rw [show start + (i : Int) = v by omega]
        exact Can.pure _
      · omega
  · intro hle
    rw [if_neg (by omega), if_pos trivial]

end Codon.Random
