import Verif.IntN.Model
import Mathlib.Tactic.Ring
import Mathlib.Algebra.Order.Ring.Int
import Mathlib.Data.Nat.Digits.Defs
/-!
# Lemmas on integers of any width
-/
namespace Codon.IntN

theorem ofInt_toInt' {M : Nat} (N : Nat) (x : BitVec M) (h : N ≤ M) : x.setWidth N = BitVec.ofInt N x.toInt := by
  apply BitVec.eq_of_toInt_eq
  rw [BitVec.toInt_setWidth, BitVec.toInt_ofInt, BitVec.toInt_eq_toNat_bmod, Int.bmod_bmod_of_dvd (Nat.pow_dvd_pow _ h)]

theorem sext_eq {M : Nat} (N : Nat) (x : BitVec M) : x.signExtend N = BitVec.ofInt N x.toInt := rfl

theorem setWidth_eq {M : Nat} (N : Nat) (x : BitVec M) : x.setWidth N = BitVec.ofInt N (x.toNat : Int) := by
  apply BitVec.eq_of_toNat_eq
  rw [BitVec.toNat_setWidth, BitVec.ofInt_natCast, BitVec.toNat_ofNat]

/-- Conversions of signed numbers. -/
theorem intOfInt_eq {M : Nat} (N : Nat) (x : BitVec M) : intOfInt N x = BitVec.ofInt N x.toInt := by
  unfold intOfInt trunc sext
  split
  · exact ofInt_toInt' N x (by omega)
  · split
    · exact ofInt_toInt' N x (by omega)
    · rfl

theorem uintOfInt_eq {M : Nat} (N : Nat) (x : BitVec M) : uintOfInt N x = BitVec.ofInt N x.toInt := intOfInt_eq N x

theorem uintOfUInt_eq {M : Nat} (N : Nat) (x : BitVec M) : uintOfUInt N x = BitVec.ofInt N (x.toNat : Int) := by
  unfold uintOfUInt trunc zext
  split
  · exact setWidth_eq N x
  · split <;> exact setWidth_eq N x

theorem intInt_eq {N : Nat} (x : BitVec N) : intInt x = BitVec.ofInt 64 x.toInt := by
  have := intOfInt_eq 64 x
  unfold intOfInt at this
  unfold intInt
  rw [← this]
  by_cases h : 64 < N
  · rw [if_pos h, if_pos h]
  · rw [if_neg h, if_neg h]
    by_cases h2 : N = 64
    · rw [if_pos h2, if_pos h2.symm]
    · rw [if_neg h2, if_neg (Ne.symm h2)]

theorem uintInt_eq {N : Nat} (x : BitVec N) : uintInt x = BitVec.ofInt 64 (x.toNat : Int) := by
  unfold uintInt trunc zext
  split
  · exact setWidth_eq 64 x
  · split <;> exact setWidth_eq 64 x

theorem lit_eq (N : Nat) (k : Int) (h1 : -2 ^ 63 ≤ k) (h2 : k < 2 ^ 63) : lit N k = BitVec.ofInt N k := by
  rw [lit, intOfInt_eq, BitVec.toInt_ofInt, Int.bmod_eq_of_le (by omega) (by omega)]

theorem lit_zero (N : Nat) : lit N 0 = 0#N := by rw [lit_eq N 0 (by decide) (by decide)]; rfl
theorem lit_one (N : Nat) : lit N 1 = 1#N := by rw [lit_eq N 1 (by decide) (by decide)]; rfl

/-! ### Strings -/

/-- The number that the digits denote. -/
def digits (s : List (BitVec 8)) : Nat := Nat.ofDigits 10 ((s.map fun b => b.toNat - 48).reverse)

/-- Decimal digits. -/
def isDigit (b : BitVec 8) : Bool := decide (48 ≤ b.toNat ∧ b.toNat < 58)

theorem parseLoop_eq (N : Nat) : ∀ (s : List (BitVec 8)) (v : Int), parseLoop N s (BitVec.ofInt N v) =
    if s.all isDigit then .ok (BitVec.ofInt N (v * 10 ^ s.length + digits s)) else .error .value
  | [], v => by simp [parseLoop, digits]
  | b :: s, v => by
    rw [parseLoop, List.all_cons]
    by_cases hb : b.toNat < 48 ∨ b.toNat ≥ 58
    · rw [if_pos hb]
      have : isDigit b = false := by simp only [isDigit, decide_eq_false_iff_not]; omega
      rw [this]; simp
    · rw [if_neg hb]
      have : isDigit b = true := by simp only [isDigit, decide_eq_true_eq]; omega
      rw [this, Bool.true_and, lit_eq N 10 (by decide) (by decide), lit_eq N _ (by omega) (by omega), ← BitVec.ofInt_mul, ← BitVec.ofInt_add, parseLoop_eq N s]
      split
      · congr 2
        simp only [digits, List.map_cons, List.reverse_cons, Nat.ofDigits_append, List.length_cons, List.length_reverse, List.length_map, Nat.ofDigits_singleton]
        push_cast
        rw [Nat.cast_sub (by omega)]
        push_cast
        ring
      · rfl

/-! ### Powers -/

theorem and_one_ne {N : Nat} (hN : 2 ≤ N) (e : BitVec N) : (e &&& 1#N ≠ 0#N) ↔ e.toNat % 2 = 1 := by
  rw [Ne, ← BitVec.toNat_inj, BitVec.toNat_and, BitVec.toNat_ofNat, BitVec.toNat_ofNat, Nat.zero_mod,
    Nat.mod_eq_of_lt (a := 1) (by have : 2 ^ 2 ≤ 2 ^ N := Nat.pow_le_pow_right (by decide) hN; omega), Nat.and_one_is_mod]
  omega

/-- Both shifts by one halve an exponent that is not negative, and the loop multiplies the powers. -/
theorem powLoop_eq {N : Nat} (hN : 2 ≤ N) (sh : BitVec N → BitVec N → Option (BitVec N)) (good : BitVec N → Prop)
    (hsh : ∀ e, good e → ∃ e', sh e 1#N = some e' ∧ e'.toNat = e.toNat / 2 ∧ good e') : ∀ (fuel : Nat) (s e r : BitVec N), good e → e.toNat < 2 ^ fuel → 0 < fuel →
    ∃ x, powLoop sh fuel s e r = some x ∧ x.toNat = r.toNat * s.toNat ^ e.toNat % 2 ^ N
  | 0, _, _, _, _, _, h => by omega
  | fuel + 1, s, e, r, hg, he, _ => by
    obtain ⟨e', h1, h2, h3⟩ := hsh e hg
    rw [powLoop, lit_one, h1]
    dsimp only
    have hr : (if e &&& 1#N ≠ 0#N then r * s else r).toNat = r.toNat * s.toNat ^ (e.toNat % 2) % 2 ^ N := by
      by_cases hb : e &&& 1#N ≠ 0#N
      · rw [if_pos hb, BitVec.toNat_mul, (and_one_ne hN e).mp hb, pow_one]
      · rw [if_neg hb]
        have : e.toNat % 2 = 0 := by
          have := (and_one_ne hN e).not.mp hb; omega
        rw [this, pow_zero, Nat.mul_one, Nat.mod_eq_of_lt r.isLt]
    by_cases hz : e' = 0#N
    · rw [if_pos hz]
      refine ⟨_, rfl, ?_⟩
      rw [hr]
      have : e.toNat / 2 = 0 := by rw [← h2, hz]; rfl
      have h4 : e.toNat % 2 = e.toNat := by omega
      rw [h4]
    · rw [if_neg hz]
      have hne : e'.toNat ≠ 0 := fun h => hz (BitVec.eq_of_toNat_eq (by rw [h]; rfl))
      have hf : 0 < fuel := by
        rcases Nat.eq_zero_or_pos fuel with h | h
        · rw [h] at he; omega
        · exact h
      obtain ⟨x, hx1, hx2⟩ := powLoop_eq hN sh good hsh fuel (s * s) e' (if e &&& 1#N ≠ 0#N then r * s else r) h3 (by rw [h2]; rw [Nat.pow_succ] at he; omega) hf
      refine ⟨x, hx1, ?_⟩
      rw [hx2, hr, BitVec.toNat_mul, h2, Nat.mod_mul_mod, Nat.mul_mod, ← Nat.pow_mod, ← Nat.mul_mod, Nat.mul_assoc]
      congr 2
      rw [← Nat.pow_two, ← Nat.pow_mul, ← Nat.pow_add, Nat.mod_add_div]

theorem lshr_one {N : Nat} (hN : 2 ≤ N) (e : BitVec N) : ∃ e', lshr e 1#N = some e' ∧ e'.toNat = e.toNat / 2 ∧ True := by
  have h1 : (1#N).toNat = 1 := by
    rw [BitVec.toNat_ofNat, Nat.mod_eq_of_lt]
    have : 2 ^ 2 ≤ 2 ^ N := Nat.pow_le_pow_right (by decide) hN
    omega
  refine ⟨_, by rw [lshr, h1, if_pos (by omega)], ?_, trivial⟩
  rw [BitVec.toNat_ushiftRight, Nat.shiftRight_eq_div_pow, Nat.pow_one]

theorem ashr_one {N : Nat} (hN : 2 ≤ N) (e : BitVec N) (he : e.msb = false) : ∃ e', ashr e 1#N = some e' ∧ e'.toNat = e.toNat / 2 ∧ e'.msb = false := by
  obtain ⟨e', h1, h2, _⟩ := lshr_one hN e
  refine ⟨e', ?_, h2, ?_⟩
  · rw [ashr, BitVec.sshiftRight_eq_of_msb_false he]; exact h1
  · rw [BitVec.msb_eq_decide] at he ⊢
    simp only [decide_eq_false_iff_not, Nat.not_le] at he ⊢
    omega

end Codon.IntN
