import Verif.PowM.Model
import Verif.Arith.Lemmas
import Mathlib.Tactic.Ring
import Mathlib.Tactic.NormNum
/-!
# The loop of `pow`
-/
namespace Codon.PowM
open Codon.Arith

/-- What `%` means: the remainder of the division rounded down with `-numerics=py`, else of that rounded towards zero. -/
def rem (py : Bool) (a m : Int) : Int := if py then a.fmod m else a.tmod m

theorem rem_mul (py : Bool) (a b m : Int) : rem py (a * b) m = rem py (rem py a m * rem py b m) m := by
  unfold rem
  cases py
  · exact Int.mul_tmod a b m
  · exact Int.mul_fmod a b m

theorem rem_rem (py : Bool) (a m : Int) : rem py (rem py a m) m = rem py a m := by
  unfold rem
  cases py
  · exact Int.tmod_tmod a m
  · exact Int.fmod_fmod a m

theorem rem_left (py : Bool) (a b m : Int) : rem py (rem py a m * b) m = rem py (a * b) m := by
  rw [rem_mul, rem_rem, ← rem_mul]

theorem rem_right (py : Bool) (a b m : Int) : rem py (a * rem py b m) m = rem py (a * b) m := by
  rw [rem_mul, rem_rem, ← rem_mul]

theorem rem_pow (py : Bool) (a c m : Int) (n : Nat) : rem py (c * (rem py a m) ^ n) m = rem py (c * a ^ n) m := by
  induction n generalizing c with
  | zero => rw [pow_zero, pow_zero]
  | succ n ih =>
    rw [pow_succ, pow_succ, ← mul_assoc, rem_right, ← mul_assoc]
    have e : ∀ x : Int, c * x ^ n * a = c * a * x ^ n := fun x => by ring
    rw [e, e, ih]

theorem rem_lt (py : Bool) (a m : Int) (hm : m ≠ 0) : (rem py a m).natAbs < m.natAbs := by
  unfold rem
  cases py
  · show (a.tmod m).natAbs < _
    rw [Int.natAbs_tmod]
    exact Nat.mod_lt _ (by omega)
  · show (a.fmod m).natAbs < _
    rcases Int.lt_or_lt_of_ne hm with h | h
    · have e : a.fmod m = -((-a).fmod (-m)) := by rw [Int.neg_fmod_neg, Int.neg_neg]
      have h1 := Int.fmod_nonneg_of_pos (-a) (show 0 < -m by omega)
      have h2 := Int.fmod_lt_of_pos (-a) (show 0 < -m by omega)
      omega
    · have h1 := Int.fmod_nonneg_of_pos a h
      have h2 := Int.fmod_lt_of_pos a h
      omega

theorem run_mod (py : Bool) {a m : I64} (hm : m ≠ 0) (hn : ¬ (a = BitVec.intMin 64 ∧ m = -1)) : Run.mod py a m = .val (BitVec.ofInt 64 (rem py a.toInt m.toInt)) := by
  unfold Run.mod rem
  cases py
  · simp only [Bool.false_eq_true, if_false, Run.srem]
    rw [if_neg (by tauto), ofInt_tmod]
  · simp only [if_true]
    rw [if_neg hm, Run.divmod_eq hm, Host.pyDivmod_spec hm hn]

theorem rem_toInt (py : Bool) (x : Int) {m : I64} (hm : m ≠ 0) : (BitVec.ofInt 64 (rem py x m.toInt)).toInt = rem py x m.toInt := by
  have h0 : m.toInt ≠ 0 := fun h => hm (toInt_eq_zero.1 h)
  have h1 := rem_lt py x m.toInt h0
  have h2 := (fits_iff _).mp (fits_toInt m)
  exact toInt_ofInt_of_fits ((fits_iff _).mpr (by omega))

theorem pos_iff (e : I64) : (0 : I64).slt e = true ↔ 0 < e.toInt := by
  rw [BitVec.slt_iff_toInt_lt]; rfl

theorem shift_toInt (e : I64) : (e.sshiftRight 1).toInt = e.toInt / 2 := by
  rw [BitVec.toInt_sshiftRight, Int.shiftRight_eq_div_pow]; rfl

theorem odd_iff (e : I64) (he : 0 ≤ e.toInt) : e &&& 1 ≠ 0 ↔ e.toInt % 2 = 1 := by
  have h1 : (e &&& 1).toNat = e.toNat % 2 := by
    rw [BitVec.toNat_and]
    exact Nat.and_one_is_mod _
  have h2 : e.toInt = e.toNat := by
    have := BitVec.toInt_eq_toNat_cond e
    have := e.isLt
    split at * <;> omega
  rw [h2, ne_eq, ← BitVec.toNat_inj, h1]
  have : (0 : I64).toNat = 0 := rfl
  omega

theorem pow_half (base : Int) (e : Int) (he : 0 < e) : base ^ e.toNat = base ^ (e % 2).toNat * (base * base) ^ (e / 2).toNat := by
  rw [← pow_two, ← pow_mul, ← pow_add]
  congr 1
  omega

theorem mul_natAbs_lt {a b : Int} {k : Nat} (ha : a.natAbs ≤ k) (hb : b.natAbs ≤ k) : (a * b).natAbs ≤ k * k := by
  rw [Int.natAbs_mul]
  exact Nat.mul_le_mul ha hb

/-- A product of two numbers of at most 3037000499 is exact, and its remainder is defined. -/
theorem mod_product (py : Bool) {x y m : I64} (hm : m ≠ 0) (h : (x.toInt * y.toInt).natAbs < 2 ^ 63) :
    Run.mod py (x * y) m = .val (BitVec.ofInt 64 (rem py (x.toInt * y.toInt) m.toInt)) := by
  have e : (x * y).toInt = x.toInt * y.toInt := by
    rw [← ofInt_mul]
    exact toInt_ofInt_of_fits ((fits_iff _).mpr (by omega))
  rw [run_mod py hm, e]
  rintro ⟨h1, _⟩
  rw [h1] at e
  have : (BitVec.intMin 64).toInt = -(2 ^ 63) := by decide
  omega

theorem loop_mod (py : Bool) (m : I64) (hm : m ≠ 0) (hb : m.toInt.natAbs ≤ 3037000500) : ∀ (n : Nat) (base result exp : I64), 0 ≤ exp.toInt → exp.toInt < 2 ^ n →
    base.toInt.natAbs < m.toInt.natAbs → (result.toInt.natAbs < m.toInt.natAbs ∨ result.toInt = 1) →
    loop py (some m) (n + 1) base result exp = .val (BitVec.ofInt 64 (rem py (result.toInt * base.toInt ^ exp.toInt.toNat) m.toInt)) := by
  intro n
  have h0 : m.toInt ≠ 0 := fun h => hm (toInt_eq_zero.1 h)
  induction n with
  | zero =>
    intro base result exp he hn hbase hres
    have h1 : exp.toInt = 0 := by simp at hn; omega
    have h2 : ¬ (0 : I64).slt exp = true := by rw [pos_iff]; omega
    rw [loop, if_neg h2, reduced, run_mod py hm, h1]
    · simp [lift]
    · rintro ⟨h3, h4⟩
      rw [h3, h4] at hres
      revert hres
      decide
  | succ n ih =>
    intro base result exp he hn hbase hres
    rw [loop]
    by_cases hp : (0 : I64).slt exp = true
    · rw [if_pos hp]
      rw [pos_iff] at hp
      have hsh := shift_toInt exp
      have hlt : (exp.sshiftRight 1).toInt < 2 ^ n := by rw [hsh]; rw [pow_succ] at hn; omega
      have next : ∀ r : I64, (r.toInt.natAbs < m.toInt.natAbs ∨ r.toInt = 1) →
          (reduced py (some m) (base * base) fun base => loop py (some m) (n + 1) base r (exp.sshiftRight 1)) =
            .val (BitVec.ofInt 64 (rem py (r.toInt * (base.toInt * base.toInt) ^ (exp.toInt / 2).toNat) m.toInt)) := by
        intro r hr
        have hsq : (base.toInt * base.toInt).natAbs < 2 ^ 63 := lt_of_le_of_lt (mul_natAbs_lt (k := 3037000499) (by omega) (by omega)) (by norm_num)
        simp only [reduced, mod_product py hm hsq, lift]
        rw [ih _ r _ (by rw [hsh]; omega) hlt (by rw [rem_toInt py _ hm]; exact rem_lt py _ _ h0) hr, rem_toInt py _ hm, rem_pow, hsh]
      have hhalf := pow_half base.toInt exp.toInt hp
      by_cases ho : exp &&& 1 ≠ 0
      · simp only [if_pos ho]
        rw [odd_iff exp he] at ho
        have hpr : (result.toInt * base.toInt).natAbs < 2 ^ 63 := by
          refine lt_of_le_of_lt (mul_natAbs_lt (k := 3037000499) ?_ (by omega)) (by norm_num)
          rcases hres with hres | hres <;> omega
        have key := next (BitVec.ofInt 64 (rem py (result.toInt * base.toInt) m.toInt)) (Or.inl (by rw [rem_toInt py _ hm]; exact rem_lt py _ _ h0))
        show reduced py (some m) (result * base) _ = _
        rw [reduced, mod_product py hm hpr]
        simp only [lift]
        rw [key, rem_toInt py _ hm, rem_left, hhalf, ho]
        congr 3
        rw [show (1 : Int).toNat = 1 from rfl, pow_one]
        ring
      · simp only [if_neg ho]
        rw [odd_iff exp he] at ho
        rw [next result hres, hhalf, show exp.toInt % 2 = 0 by omega]
        congr 3
        rw [show (0 : Int).toNat = 0 from rfl, pow_zero, one_mul]
    · rw [if_neg hp]
      rw [pos_iff] at hp
      have h1 : exp.toInt = 0 := by omega
      rw [reduced, run_mod py hm, h1]
      · simp [lift]
      · rintro ⟨h3, h4⟩
        rw [h3, h4] at hres
        revert hres
        decide

theorem ofInt_pow_congr {x y : Int} (h : BitVec.ofInt 64 x = BitVec.ofInt 64 y) (n : Nat) : BitVec.ofInt 64 (x ^ n) = BitVec.ofInt 64 (y ^ n) := by
  induction n with
  | zero => rw [pow_zero, pow_zero]
  | succ n ih => rw [pow_succ, pow_succ, BitVec.ofInt_mul, BitVec.ofInt_mul, ih, h]

theorem loop_none (py : Bool) : ∀ (n : Nat) (base result exp : I64), 0 ≤ exp.toInt → exp.toInt < 2 ^ n →
    loop py none (n + 1) base result exp = .val (BitVec.ofInt 64 (result.toInt * base.toInt ^ exp.toInt.toNat)) := by
  intro n
  induction n with
  | zero =>
    intro base result exp he hn
    have h1 : exp.toInt = 0 := by simp at hn; omega
    have h2 : ¬ (0 : I64).slt exp = true := by rw [pos_iff]; omega
    rw [loop, if_neg h2, reduced, h1]
    simp
  | succ n ih =>
    intro base result exp he hn
    rw [loop]
    by_cases hp : (0 : I64).slt exp = true
    · rw [if_pos hp]
      rw [pos_iff] at hp
      have hsh := shift_toInt exp
      have hlt : (exp.sshiftRight 1).toInt < 2 ^ n := by rw [hsh]; rw [pow_succ] at hn; omega
      have hsq : ∀ k : Nat, BitVec.ofInt 64 ((base * base).toInt ^ k) = BitVec.ofInt 64 ((base.toInt * base.toInt) ^ k) := fun k =>
        ofInt_pow_congr (by rw [BitVec.ofInt_toInt, ofInt_mul]) k
      have hhalf := pow_half base.toInt exp.toInt hp
      by_cases ho : exp &&& 1 ≠ 0
      · simp only [if_pos ho, reduced]
        rw [odd_iff exp he] at ho
        rw [ih _ _ _ (by rw [hsh]; omega) hlt, hsh, hhalf, ho, BitVec.ofInt_mul, hsq, BitVec.ofInt_toInt]
        rw [show (1 : Int).toNat = 1 from rfl, pow_one, ← mul_assoc, BitVec.ofInt_mul (x := result.toInt * base.toInt), ofInt_mul]
      · simp only [if_neg ho, reduced]
        rw [odd_iff exp he] at ho
        rw [ih _ _ _ (by rw [hsh]; omega) hlt, hsh, hhalf, show exp.toInt % 2 = 0 by omega, BitVec.ofInt_mul, hsq, ← BitVec.ofInt_mul]
        rw [show (0 : Int).toNat = 0 from rfl, pow_zero, one_mul]
    · rw [if_neg hp]
      rw [pos_iff] at hp
      have h1 : exp.toInt = 0 := by omega
      rw [reduced, h1]
      simp

end Codon.PowM
