import Verif.PowM.Lemmas
import Mathlib.Data.Nat.Factorial.Basic
import Mathlib.Tactic.IntervalCases
/-!
# C89: powers, `divmod`, sums and factorials of integers
-/
namespace Codon.PowM
open Codon.Arith

/-- `pow(b, e)` is `b ** e` modulo 2^64; a negative exponent is a `ValueError`. -/
theorem c89_pow (py : Bool) (b e : I64) :
    (e.toInt < 0 → pow py b e none = .value) ∧ (0 ≤ e.toInt → pow py b e none = .val (BitVec.ofInt 64 (b.toInt ^ e.toInt.toNat))) := by
  have hs : e.slt 0 = true ↔ e.toInt < 0 := by rw [BitVec.slt_iff_toInt_lt]; rfl
  have hf := (fits_iff _).mp (fits_toInt e)
  refine ⟨fun h => by rw [pow, if_pos (hs.mpr h)], fun h => ?_⟩
  rw [pow, if_neg (by rw [hs]; omega)]
  have := loop_none py 64 b 1 e h (by omega)
  rw [show (1 : I64).toInt = 1 from rfl, one_mul] at this
  exact this

example : pow false (-3) 5 none = .val (-243) ∧ pow true 3 41 none = .val (BitVec.ofInt 64 (3 ^ 41)) ∧ pow false 2 (-1) none = .value := by decide +kernel

/-- So it is exact if the power is an `int`. -/
theorem c89_pow_exact (py : Bool) (b e : I64) (he : 0 ≤ e.toInt) (hf : -(2 ^ 63) ≤ b.toInt ^ e.toInt.toNat ∧ b.toInt ^ e.toInt.toNat < 2 ^ 63) :
    ∃ r, pow py b e none = .val r ∧ r.toInt = b.toInt ^ e.toInt.toNat :=
  ⟨_, (c89_pow py b e).2 he, toInt_ofInt_of_fits ((fits_iff _).mpr hf)⟩

example : pow false (-2) 63 none = .val (BitVec.intMin 64) := by decide +kernel

/-- `pow(b, e, m)` for moduli of at most 3037000500 in absolute value: the exact remainder of `b ** e`, rounded like `%`, with no overflow on the way.  Missing: greater moduli
(`c89_violation_mod`), and `pow(-2**63, e, -1)`, where the first remainder is undefined (`c89_violation_least`). -/
theorem c89_pow_mod_partial (py : Bool) (b e m : I64) (he : 0 ≤ e.toInt) (hm : m.toInt ≠ 0) (hb : m.toInt.natAbs ≤ 3037000500) (hl : ¬ (b.toInt = -(2 ^ 63) ∧ m.toInt = -1)) :
    ∃ r, pow py b e (some m) = .val r ∧ r.toInt = if py then (b.toInt ^ e.toInt.toNat).fmod m.toInt else (b.toInt ^ e.toInt.toNat).tmod m.toInt := by
  have hm0 : m ≠ 0 := fun h => hm (by rw [h]; rfl)
  have hs : e.slt 0 = true ↔ e.toInt < 0 := by rw [BitVec.slt_iff_toInt_lt]; rfl
  have hf := (fits_iff _).mp (fits_toInt e)
  have hn : ¬ (b = BitVec.intMin 64 ∧ m = -1) := by
    rintro ⟨rfl, rfl⟩
    exact hl (by decide)
  refine ⟨_, ?_, rem_toInt py (b.toInt ^ e.toInt.toNat) hm0⟩
  rw [pow, if_neg (by rw [hs]; omega)]
  simp only [if_neg hm0, run_mod py hm0 hn, lift]
  rw [loop_mod py m hm0 hb 64 _ 1 e he (by omega) (by rw [rem_toInt py _ hm0]; exact rem_lt py _ _ hm) (Or.inr rfl), rem_toInt py _ hm0, rem_pow, show (1 : I64).toInt = 1 from rfl, one_mul]

example : pow true 7 3 (some (-5)) = .val (-2) ∧ pow false (-7) 3 (some 5) = .val (-3) ∧ pow false 3037000499 (BitVec.ofNat 64 (2 ^ 62 + 1)) (some 3037000500) = .val 3037000499 := by decide +kernel

/-- A zero modulus and a negative exponent are `ValueError`s, whatever the other arguments. -/
theorem c89_pow_mod_error (py : Bool) (b e m : I64) : (e.toInt < 0 → pow py b e (some m) = .value) ∧ (0 ≤ e.toInt → m.toInt = 0 → pow py b e (some m) = .value) := by
  have hs : e.slt 0 = true ↔ e.toInt < 0 := by rw [BitVec.slt_iff_toInt_lt]; rfl
  refine ⟨fun h => by rw [pow, if_pos (hs.mpr h)], fun h hm => ?_⟩
  rw [pow, if_neg (by rw [hs]; omega)]
  simp only [if_pos (toInt_eq_zero.1 hm)]

example : pow true 2 (-1) (some 7) = .value ∧ pow false 2 5 (some 0) = .value := by decide +kernel

/-- The bound is sharp: `pow(3037000500, 2, 3037000501)` is not 1, since the square overflows. -/
theorem c89_violation_mod : pow true 3037000500 2 (some 3037000501) ≠ .val 1 ∧ pow false 3037000500 2 (some 3037000501) ≠ .val 1 ∧ ((3037000500 : Int) ^ 2).fmod 3037000501 = 1 := by decide +kernel

/-- `pow(-2**63, 1, -1)`, which is 0, is undefined: `srem` of the least integer by -1. -/
theorem c89_violation_least : pow true (BitVec.intMin 64) 1 (some (-1)) = .ub ∧ pow false (BitVec.intMin 64) 1 (some (-1)) = .ub := by decide +kernel

/-- In Python a negative exponent with a modulus gives the inverse: `pow(3, -1, 7) == 5`; here it is a `ValueError`. -/
theorem c89_violation_inverse : pow true 3 (-1) (some 7) = .value ∧ ((3 : Int) * 5).fmod 7 = 1 := by decide +kernel

/-- `divmod(a, b)` is the quotient rounded down and its remainder, with or without `-numerics=py`, except for `divmod(-2**63, -1)`, whose quotient is not an `int`. -/
theorem c89_divmod_partial (py : Bool) (a b : I64) (hb : b.toInt ≠ 0) (hl : ¬ (a.toInt = -(2 ^ 63) ∧ b.toInt = -1)) :
    ∃ q r, divmod py a b = .val (q, r) ∧ a.toInt = q.toInt * b.toInt + r.toInt ∧ (0 < b.toInt → 0 ≤ r.toInt ∧ r.toInt < b.toInt) ∧ (b.toInt < 0 → b.toInt < r.toInt ∧ r.toInt ≤ 0) := by
  have hb0 : b ≠ 0 := fun h => hb (by rw [h]; rfl)
  have hn : ¬ (a = BitVec.intMin 64 ∧ b = -1) := by
    rintro ⟨rfl, rfl⟩
    exact hl (by decide)
  have e : divmod py a b = .val (BitVec.ofInt 64 (a.toInt.fdiv b.toInt), BitVec.ofInt 64 (a.toInt.fmod b.toInt)) := by
    rw [divmod, if_neg (fun h => hb0 h.2), Run.divmod_eq hb0, Host.pyDivmod_spec hb0 hn, lift]
  have hr := rem_toInt true a.toInt hb0
  simp only [rem, if_true] at hr
  have ha := (fits_iff _).mp (fits_toInt a)
  have hkey := Int.fmod_add_mul_fdiv a.toInt b.toInt
  have hbounds : (0 < b.toInt → 0 ≤ a.toInt.fmod b.toInt ∧ a.toInt.fmod b.toInt < b.toInt) ∧ (b.toInt < 0 → b.toInt < a.toInt.fmod b.toInt ∧ a.toInt.fmod b.toInt ≤ 0) := by
    refine ⟨fun h => ⟨Int.fmod_nonneg_of_pos _ h, Int.fmod_lt_of_pos _ h⟩, fun h => ?_⟩
    have e : a.toInt.fmod b.toInt = -((-a.toInt).fmod (-b.toInt)) := by rw [Int.neg_fmod_neg, Int.neg_neg]
    have h1 := Int.fmod_nonneg_of_pos (-a.toInt) (show 0 < -b.toInt by omega)
    have h2 := Int.fmod_lt_of_pos (-a.toInt) (show 0 < -b.toInt by omega)
    omega
  have hq : (BitVec.ofInt 64 (a.toInt.fdiv b.toInt)).toInt = a.toInt.fdiv b.toInt := by
    refine toInt_ofInt_of_fits ((fits_iff _).mpr ?_)
    generalize a.toInt.fdiv b.toInt = q at hkey
    generalize a.toInt.fmod b.toInt = r at hkey hbounds
    rcases Int.lt_or_lt_of_ne hb with h | h
    · have hr := hbounds.2 h
      constructor
      · by_contra hh
        have : b.toInt * q ≥ b.toInt * (-(2 ^ 63) - 1) := Int.mul_le_mul_of_nonpos_left (by omega) (by omega)
        omega
      · by_contra hh
        have h3 : b.toInt * q ≤ b.toInt * 2 ^ 63 := Int.mul_le_mul_of_nonpos_left (by omega) (by omega)
        omega
    · have hr := hbounds.1 h
      constructor
      · by_contra hh
        have : b.toInt * q ≤ b.toInt * (-(2 ^ 63) - 1) := Int.mul_le_mul_of_nonneg_left (by omega) (by omega)
        omega
      · by_contra hh
        have : b.toInt * q ≥ b.toInt * 2 ^ 63 := Int.mul_le_mul_of_nonneg_left (by omega) (by omega)
        omega
  refine ⟨_, _, e, ?_, ?_, ?_⟩
  · rw [hq, hr, Int.mul_comm]; omega
  · rw [hr]; exact hbounds.1
  · rw [hr]; exact hbounds.2

example : divmod true (-7) 2 = .val (-4, 1) ∧ divmod false (-7) 2 = .val (-4, 1) ∧ divmod false 7 (-2) = .val (-4, -1) ∧ divmod true 7 0 = .zeroDiv := by decide +kernel

/-- Division by zero is `ZeroDivisionError` only with `-numerics=py`; else it is undefined, and so is `divmod(-2**63, -1)`. -/
theorem c89_violation_divmod : (∀ a, divmod true a 0 = .zeroDiv) ∧ (∀ a, divmod false a 0 = .ub) ∧ ∀ py, divmod py (BitVec.intMin 64) (-1) = .ub := by
  refine ⟨fun a => rfl, fun a => ?_, by decide +kernel⟩
  rw [divmod, if_neg (by simp), Run.divmod, Run.sdiv, if_pos (Or.inl rfl)]
  rfl

/-- `sum` is the sum modulo 2^64, whatever the partial sums. -/
theorem c89_sum (x : List I64) (start : I64) : sum x start = BitVec.ofInt 64 (start.toInt + (x.map BitVec.toInt).sum) := by
  unfold sum
  induction x generalizing start with
  | nil => simp
  | cons v x ih =>
    rw [List.foldl_cons, ih, List.map_cons, List.sum_cons, ← add_assoc, BitVec.ofInt_add, BitVec.ofInt_add (x := start.toInt + v.toInt), ofInt_add, BitVec.ofInt_toInt]

/-- `sum` of `bool`s counts the true ones. -/
theorem c89_sum_bool (x : List Bool) (start : I64) : sumBool x start = BitVec.ofInt 64 (start.toInt + x.count true) := by
  unfold sumBool
  induction x generalizing start with
  | nil => simp
  | cons v x ih =>
    rw [List.foldl_cons, ih]
    cases v with
    | false => simp
    | true =>
      rw [if_pos rfl, List.count_cons_self, Nat.cast_add, Nat.cast_one, show start.toInt + ((List.count true x : Int) + 1) = (start.toInt + (1 : I64).toInt) + (List.count true x : Int) by
        rw [show (1 : I64).toInt = 1 from rfl]; ring]
      rw [BitVec.ofInt_add, BitVec.ofInt_add (x := start.toInt + (1 : I64).toInt), ofInt_add, BitVec.ofInt_toInt]

/-- The sum of all partial sums need not fit: 2^63 - 1 + 1 - 1. -/
example : sum [BitVec.intMax 64, 1, -1] 0 = BitVec.intMax 64 ∧ sumBool [true, false, true] 5 = 7 := by decide +kernel

/-- `math.factorial(x)` is `x!` where that is an `int`, and a `ValueError` elsewhere. -/
theorem c89_factorial (x : I64) : (0 ≤ x.toInt ∧ x.toInt ≤ 20 → factorial x = .val (BitVec.ofNat 64 x.toInt.toNat.factorial) ∧ x.toInt.toNat.factorial < 2 ^ 63) ∧
    (¬ (0 ≤ x.toInt ∧ x.toInt ≤ 20) → factorial x = .value) := by
  have hs : ((0 : I64).sle x = true ∧ x.sle 20 = true) ↔ (0 ≤ x.toInt ∧ x.toInt ≤ 20) := by
    rw [BitVec.sle_iff_toInt_le, BitVec.sle_iff_toInt_le]; rfl
  refine ⟨fun h => ?_, fun h => by rw [factorial, if_pos (by rw [hs]; exact h)]⟩
  have e : x = BitVec.ofNat 64 x.toInt.toNat := by
    have : BitVec.ofInt 64 ((x.toInt.toNat : Int)) = x := by rw [Int.toNat_of_nonneg h.1, BitVec.ofInt_toInt]
    rw [BitVec.ofInt_natCast] at this
    exact this.symm
  have hk : x.toInt.toNat ≤ 20 := by omega
  generalize x.toInt.toNat = k at e hk
  subst e
  interval_cases k <;> decide +kernel

example : factorial 20 = .val 2432902008176640000 ∧ factorial 21 = .value ∧ factorial (-1) = .value ∧ Nat.factorial 21 > 2 ^ 63 := by decide +kernel

end Codon.PowM
