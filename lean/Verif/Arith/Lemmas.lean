import Verif.Arith.Model
import Mathlib.Tactic.Ring
import Mathlib.Tactic.Linarith

namespace Codon.Arith

theorem fits_iff (z : Int) : fits z = true ↔ -(2 ^ 63) ≤ z ∧ z < 2 ^ 63 := by simp [fits]

theorem fits_toInt (a : I64) : fits a.toInt = true := by
  rw [fits_iff]
  have h1 := BitVec.le_toInt a
  have h2 := @BitVec.toInt_lt 64 a
  norm_num at *
  omega

theorem toInt_ofInt_of_fits {z : Int} (h : fits z = true) : (BitVec.ofInt 64 z).toInt = z := by
  rw [fits_iff] at h
  rw [BitVec.toInt_ofInt, Int.bmod_eq_of_le]
  · have : ((2 ^ 64 : Nat) : Int) = 18446744073709551616 := by norm_num
    omega
  · have : ((2 ^ 64 : Nat) : Int) = 18446744073709551616 := by norm_num
    omega

theorem cxx_of_fits {z : Int} (h : fits z = true) : cxx z = .val (BitVec.ofInt 64 z) := by
  simp [cxx, h]

theorem cxx_val {z : Int} {r : I64} : cxx z = .val r ↔ fits z = true ∧ r = BitVec.ofInt 64 z := by
  unfold cxx
  split
  · rename_i h
    constructor
    · intro h'; exact ⟨h, (Out.val.inj h').symm⟩
    · rintro ⟨_, rfl⟩; rfl
  · rename_i h
    constructor
    · intro h'; cases h'
    · rintro ⟨h', _⟩; exact absurd h' h

theorem cxx_ub {z : Int} : cxx z = .ub ↔ ¬ fits z = true := by
  unfold cxx
  split <;> simp_all

theorem cxx_ne_zeroDiv {z : Int} : cxx z ≠ .zeroDiv := by
  unfold cxx
  split <;> simp

theorem ofInt_add (a b : I64) : BitVec.ofInt 64 (a.toInt + b.toInt) = a + b := by
  rw [BitVec.ofInt_add, BitVec.ofInt_toInt, BitVec.ofInt_toInt]

theorem ofInt_mul (a b : I64) : BitVec.ofInt 64 (a.toInt * b.toInt) = a * b := by
  rw [BitVec.ofInt_mul, BitVec.ofInt_toInt, BitVec.ofInt_toInt]

theorem ofInt_sub (a b : I64) : BitVec.ofInt 64 (a.toInt - b.toInt) = a - b := by
  rw [Int.sub_eq_add_neg, BitVec.ofInt_add, BitVec.ofInt_neg, BitVec.ofInt_toInt,
    BitVec.ofInt_toInt, BitVec.sub_eq_add_neg]

theorem toInt_eq_zero {b : I64} : b.toInt = 0 ↔ b = 0 := by
  constructor
  · intro h
    apply BitVec.eq_of_toInt_eq
    simpa using h
  · rintro rfl
    rfl

/-- The truncated quotient is representable unless it is `-2^63 / -1`. -/
theorem fits_tdiv {a b : I64} (hb : b ≠ 0) :
    fits (a.toInt.tdiv b.toInt) = true ↔ ¬ (a = BitVec.intMin 64 ∧ b = -1) := by
  have hb0 : b.toInt ≠ 0 := fun h => hb (toInt_eq_zero.1 h)
  have ha := fits_toInt a
  have hbf := fits_toInt b
  rw [fits_iff] at ha hbf ⊢
  have key : a.toInt.tdiv b.toInt * b.toInt + a.toInt.tmod b.toInt = a.toInt := by
    rw [Int.mul_comm]; exact Int.mul_tdiv_add_tmod _ _
  have hmin : a = BitVec.intMin 64 ↔ a.toInt = -(2 ^ 63) := by
    rw [← BitVec.toInt_inj]
    rfl
  have hm1 : b = -1 ↔ b.toInt = -1 := by
    rw [← BitVec.toInt_inj]
    rfl
  rw [hmin, hm1]
  have habs : (a.toInt.tdiv b.toInt).natAbs = a.toInt.natAbs / b.toInt.natAbs :=
    Int.natAbs_tdiv _ _
  by_cases h1 : b.toInt.natAbs = 1
  · have : b.toInt = 1 ∨ b.toInt = -1 := by omega
    rcases this with h | h <;> rw [h] at key ⊢ <;> simp at key ⊢ <;> omega
  · have h2 : 2 ≤ b.toInt.natAbs := by omega
    have h3 : a.toInt.natAbs / b.toInt.natAbs ≤ a.toInt.natAbs / 2 :=
      Nat.div_le_div_left h2 (by omega)
    have h4 : a.toInt.natAbs ≤ 2 ^ 63 := by omega
    constructor
    · intro _ h
      omega
    · intro _
      omega

theorem ofInt_tdiv {a b : I64} (hb : b ≠ 0) (hn : ¬ (a = BitVec.intMin 64 ∧ b = -1)) :
    BitVec.ofInt 64 (a.toInt.tdiv b.toInt) = a.sdiv b := by
  apply BitVec.eq_of_toInt_eq
  rw [toInt_ofInt_of_fits ((fits_tdiv hb).2 hn)]
  rw [BitVec.toInt_sdiv_of_ne_or_ne]
  by_contra hcon
  push Not at hcon
  exact hn hcon

theorem ofInt_tmod (a b : I64) : BitVec.ofInt 64 (a.toInt.tmod b.toInt) = a.srem b := by
  rw [← BitVec.toInt_srem, BitVec.ofInt_toInt]

theorem Host.div_eq {a b : I64} (hb : b ≠ 0) :
    Host.div a b = Run.sdiv a b := by
  unfold Host.div Run.sdiv
  rw [if_neg hb]
  by_cases h : a = BitVec.intMin 64 ∧ b = -1
  · rw [if_pos (Or.inr h), cxx_ub, fits_tdiv hb]
    exact not_not.2 h
  · rw [if_neg (by tauto), cxx_of_fits ((fits_tdiv hb).2 h), ofInt_tdiv hb h]

theorem Host.mod_eq {a b : I64} (hb : b ≠ 0) :
    Host.mod a b = Run.srem a b := by
  unfold Host.mod Run.srem
  rw [if_neg hb]
  by_cases h : a = BitVec.intMin 64 ∧ b = -1
  · rw [if_pos (Or.inr h), if_neg]
    rw [fits_tdiv hb]
    exact not_not.2 h
  · rw [if_neg (show ¬ (b = 0 ∨ _) by tauto), if_pos ((fits_tdiv hb).2 h), ofInt_tmod]

theorem xor_slt_zero (a b : I64) : (a ^^^ b).slt 0 = true ↔ (a.toInt < 0) ≠ (b.toInt < 0) := by
  rw [show (0 : I64) = 0#64 from rfl, BitVec.slt_zero_eq_msb, BitVec.msb_xor]
  have h1 : a.msb = decide (a.toInt < 0) := by rw [BitVec.msb_eq_toInt]
  have h2 : b.msb = decide (b.toInt < 0) := by rw [BitVec.msb_eq_toInt]
  rw [h1, h2]
  by_cases ha : a.toInt < 0 <;> by_cases hb : b.toInt < 0 <;> simp [ha, hb]

/-- `pyDivmod` computes Python's floor quotient and remainder, and is undefined only on the one
overflowing quotient. -/
theorem Host.pyDivmod_spec {a b : I64} (hb : b ≠ 0) (hn : ¬ (a = BitVec.intMin 64 ∧ b = -1)) :
    Host.pyDivmod a b = .val (BitVec.ofInt 64 (a.toInt.fdiv b.toInt),
      BitVec.ofInt 64 (a.toInt.fmod b.toInt)) := by
  have hb0 : b.toInt ≠ 0 := fun h => hb (toInt_eq_zero.1 h)
  have ha := fits_toInt a
  have hbf := fits_toInt b
  have hq := (fits_tdiv hb).2 hn
  have key : a.toInt.tdiv b.toInt * b.toInt + a.toInt.tmod b.toInt = a.toInt := by
    rw [Int.mul_comm]; exact Int.mul_tdiv_add_tmod _ _
  have hmabs : (a.toInt.tmod b.toInt).natAbs < b.toInt.natAbs := by
    rw [Int.natAbs_tmod]
    exact Nat.mod_lt _ (by omega)
  have hmabs2 : (a.toInt.tmod b.toInt).natAbs ≤ a.toInt.natAbs := by
    rw [Int.natAbs_tmod]
    exact Nat.mod_le _ _
  have hsg : 0 ≤ a.toInt → 0 ≤ a.toInt.tmod b.toInt := fun h => Int.tmod_nonneg _ h
  have hsg' : a.toInt ≤ 0 → a.toInt.tmod b.toInt ≤ 0 := by
    intro h
    have := Int.tmod_nonneg (a := -a.toInt) b.toInt (by omega)
    rw [Int.neg_tmod] at this
    omega
  have hm : fits (a.toInt.tmod b.toInt) = true := by rw [fits_iff] at *; omega
  have hp : fits (a.toInt.tdiv b.toInt * b.toInt) = true := by rw [fits_iff] at *; omega
  have hdiv : Host.div a b = .val (BitVec.ofInt 64 (a.toInt.tdiv b.toInt)) := by
    unfold Host.div
    rw [if_neg hb, cxx_of_fits hq]
  have hmul : Host.mul (BitVec.ofInt 64 (a.toInt.tdiv b.toInt)) b
      = .val (BitVec.ofInt 64 (a.toInt.tdiv b.toInt * b.toInt)) := by
    unfold Host.mul
    rw [toInt_ofInt_of_fits hq, cxx_of_fits hp]
  have hsub : Host.sub a (BitVec.ofInt 64 (a.toInt.tdiv b.toInt * b.toInt))
      = .val (BitVec.ofInt 64 (a.toInt.tmod b.toInt)) := by
    unfold Host.sub
    rw [toInt_ofInt_of_fits hp, show a.toInt - a.toInt.tdiv b.toInt * b.toInt
      = a.toInt.tmod b.toInt by omega, cxx_of_fits hm]
  unfold Host.pyDivmod
  simp only [hdiv, hmul, hsub]
  have hm0 : BitVec.ofInt 64 (a.toInt.tmod b.toInt) ≠ 0 ↔ a.toInt.tmod b.toInt ≠ 0 := by
    rw [not_iff_not, ← toInt_eq_zero, toInt_ofInt_of_fits hm]
  simp only [hm0, xor_slt_zero, toInt_ofInt_of_fits hm]
  have hfl := Int.mul_fdiv_add_fmod a.toInt b.toInt
  have hfm : ∀ d m : Int, d * b.toInt + m = a.toInt → (0 < b.toInt → 0 ≤ m ∧ m < b.toInt) →
      (b.toInt < 0 → m ≤ 0 ∧ b.toInt < m) → a.toInt.fdiv b.toInt = d ∧ a.toInt.fmod b.toInt = m := by
    intro d m h h1 h2
    have : a.toInt.fdiv b.toInt = d := by
      rw [← h, Int.add_comm]
      rcases Int.lt_or_gt_of_ne hb0 with hneg | hpos
      · rw [Int.add_mul_fdiv_right _ _ hb0]
        have := h2 hneg
        have h3 : m.fdiv b.toInt = 0 := by
          have h4 : (-m).fdiv (-b.toInt) = 0 := by
            rw [Int.fdiv_eq_ediv_of_nonneg _ (by omega)]
            exact Int.ediv_eq_zero_of_lt (by omega) (by omega)
          rwa [Int.neg_fdiv_neg] at h4
        omega
      · rw [Int.add_mul_fdiv_right _ _ hb0]
        have := h1 hpos
        have h3 : m.fdiv b.toInt = 0 := by
          rw [Int.fdiv_eq_ediv_of_nonneg _ (by omega)]
          exact Int.ediv_eq_zero_of_lt (by omega) (by omega)
        omega
    refine ⟨this, ?_⟩
    rw [this, Int.mul_comm] at hfl
    omega
  by_cases hc : a.toInt.tmod b.toInt ≠ 0 ∧ (b.toInt < 0) ≠ (a.toInt.tmod b.toInt < 0)
  · rw [if_pos hc]
    obtain ⟨hc1, hc2⟩ := hc
    have hc2' : (b.toInt < 0 ∧ 0 ≤ a.toInt.tmod b.toInt) ∨ (0 ≤ b.toInt ∧ a.toInt.tmod b.toInt < 0) := by
      by_cases h1 : b.toInt < 0 <;> by_cases h2 : a.toInt.tmod b.toInt < 0 <;> simp_all
    have hfd := hfm (a.toInt.tdiv b.toInt - 1) (a.toInt.tmod b.toInt + b.toInt)
      (by rw [Int.sub_mul]; omega) (by omega) (by omega)
    have hd1 : fits (a.toInt.tdiv b.toInt - 1) = true := by
      by_contra hcon
      have hq' := hq
      rw [fits_iff] at hcon hq'
      have hqm : a.toInt.tdiv b.toInt = -(2 ^ 63) := by omega
      have habs : (a.toInt.tdiv b.toInt).natAbs = a.toInt.natAbs / b.toInt.natAbs :=
        Int.natAbs_tdiv _ _
      have : 2 ^ 63 * b.toInt.natAbs ≤ a.toInt.natAbs := by
        rw [← (Nat.le_div_iff_mul_le (by omega)), ← habs, hqm]
        decide
      rw [fits_iff] at ha
      rw [hqm] at key
      have : b.toInt.natAbs = 1 := by omega
      omega
    have hadd : Host.add (BitVec.ofInt 64 (a.toInt.tmod b.toInt)) b
        = .val (BitVec.ofInt 64 (a.toInt.tmod b.toInt + b.toInt)) := by
      unfold Host.add
      rw [toInt_ofInt_of_fits hm, cxx_of_fits]
      rw [fits_iff] at *
      omega
    have hsub1 : Host.sub (BitVec.ofInt 64 (a.toInt.tdiv b.toInt)) 1
        = .val (BitVec.ofInt 64 (a.toInt.tdiv b.toInt - 1)) := by
      unfold Host.sub
      rw [toInt_ofInt_of_fits hq, show (1 : I64).toInt = 1 from rfl, cxx_of_fits hd1]
    simp only [hadd, hsub1, hfd.1, hfd.2]
  · rw [if_neg hc]
    have hc' : a.toInt.tmod b.toInt = 0 ∨ (b.toInt < 0 ∧ a.toInt.tmod b.toInt < 0)
        ∨ (0 ≤ b.toInt ∧ 0 ≤ a.toInt.tmod b.toInt) := by
      by_cases h0 : a.toInt.tmod b.toInt = 0
      · exact Or.inl h0
      · by_cases h1 : b.toInt < 0 <;> by_cases h2 : a.toInt.tmod b.toInt < 0 <;> simp_all
    have hfd := hfm (a.toInt.tdiv b.toInt) (a.toInt.tmod b.toInt) key (by omega) (by omega)
    rw [hfd.1, hfd.2]

theorem Host.pyDivmod_overflow {a b : I64} (h : a = BitVec.intMin 64 ∧ b = -1) :
    Host.pyDivmod a b = .ub := by
  obtain ⟨rfl, rfl⟩ := h
  decide

/-- The run-time `divmod` and the compile-time `pyDivmod` coincide. -/
theorem Run.divmod_eq {a b : I64} (hb : b ≠ 0) : Run.divmod a b = Host.pyDivmod a b := by
  by_cases hn : a = BitVec.intMin 64 ∧ b = -1
  · rw [Host.pyDivmod_overflow hn]
    unfold Run.divmod Run.sdiv
    rw [if_pos (Or.inr hn)]
  · have hspec := Host.pyDivmod_spec hb hn
    unfold Host.pyDivmod at hspec ⊢
    unfold Run.divmod
    rw [← Host.div_eq hb]
    cases hd : Host.div a b with
    | ub => simp [hd] at hspec
    | zeroDiv => simp [hd] at hspec
    | val d =>
      simp only [hd] at hspec ⊢
      cases hp : Host.mul d b with
      | ub => simp [hp] at hspec
      | zeroDiv => simp [hp] at hspec
      | val p =>
        simp only [hp] at hspec ⊢
        have hp' : p = d * b := by
          have := (cxx_val.1 hp).2
          rwa [ofInt_mul] at this
        cases hm : Host.sub a p with
        | ub => simp [hm] at hspec
        | zeroDiv => simp [hm] at hspec
        | val m =>
          simp only [hm] at hspec ⊢
          have hm' : m = a - d * b := by
            have := (cxx_val.1 hm).2
            rwa [ofInt_sub, hp'] at this
          rw [← hm']
          split
          · rename_i hc
            rw [if_pos hc] at hspec
            cases ha : Host.add m b with
            | ub => simp [ha] at hspec
            | zeroDiv => simp [ha] at hspec
            | val m2 =>
              cases hs : Host.sub d 1 with
              | ub => rw [ha, hs] at hspec; cases hspec
              | zeroDiv => rw [ha, hs] at hspec; cases hspec
              | val d2 =>
                have h1 := (cxx_val.1 ha).2
                have h2 := (cxx_val.1 hs).2
                rw [ofInt_add] at h1
                rw [ofInt_sub] at h2
                simp [h1, h2]
          · rfl

theorem shift_amount {b : I64} (h : 0 ≤ b.toInt ∧ b.toInt < 64) :
    b.toNat < 64 ∧ b.toInt.toNat = b.toNat := by
  rw [BitVec.toInt_eq_toNat_cond] at h ⊢
  have := b.isLt
  split at h <;> omega

theorem shift_amount' {b : I64} (h : b.toNat < 64) : 0 ≤ b.toInt ∧ b.toInt < 64 := by
  rw [BitVec.toInt_eq_toNat_cond]
  split <;> omega

theorem Host.shl_eq (a b : I64) : Host.shl a b = Run.shl a b := by
  unfold Host.shl Run.shl
  by_cases h : b.toNat < 64
  · rw [if_pos (shift_amount' h), if_pos h, (shift_amount (shift_amount' h)).2]
  · rw [if_neg (fun hc => h (shift_amount hc).1), if_neg h]

theorem Host.shr_eq (a b : I64) : Host.shr a b = Run.shr a b := by
  unfold Host.shr Run.shr
  by_cases h : b.toNat < 64
  · rw [if_pos (shift_amount' h), if_pos h, (shift_amount (shift_amount' h)).2]
  · rw [if_neg (fun hc => h (shift_amount hc).1), if_neg h]

/-- The run-time power loop computes `result * base ^ exp` modulo 2^64. -/
theorem Run.powLoop_spec (exp : Nat) : ∀ base result : I64,
    Run.powLoop base result exp = BitVec.ofInt 64 (result.toInt * base.toInt ^ exp) := by
  induction exp using Nat.strongRecOn with
  | ind e ih =>
    intro base result
    rw [Run.powLoop]
    have hr : (if e % 2 = 1 then result * base else result)
        = BitVec.ofInt 64 (result.toInt * base.toInt ^ (e % 2)) := by
      rcases Nat.mod_two_eq_zero_or_one e with h | h <;> rw [h] <;> simp [BitVec.ofInt_mul]
    simp only [hr]
    split
    · rename_i h
      have : e % 2 = e := by omega
      rw [this]
    · rename_i h
      rw [ih (e / 2) (by omega)]
      have hsplit : result.toInt * base.toInt ^ e
          = (result.toInt * base.toInt ^ (e % 2)) * (base.toInt * base.toInt) ^ (e / 2) := by
        have h2 : base.toInt ^ e = base.toInt ^ (e % 2) * (base.toInt * base.toInt) ^ (e / 2) := by
          rw [← pow_two, ← pow_mul, ← pow_add]
          congr 1
          omega
        rw [h2, Int.mul_assoc]
      have hpow : ∀ (x y : Int), BitVec.ofInt 64 x = BitVec.ofInt 64 y → ∀ n : Nat,
          BitVec.ofInt 64 (x ^ n) = BitVec.ofInt 64 (y ^ n) := by
        intro x y hxy n
        induction n with
        | zero => simp
        | succ n ihn => rw [pow_succ, pow_succ, BitVec.ofInt_mul, BitVec.ofInt_mul, ihn, hxy]
      rw [hsplit, BitVec.ofInt_mul, BitVec.ofInt_mul (y := (base.toInt * base.toInt) ^ (e / 2)),
        BitVec.ofInt_toInt]
      congr 1
      apply hpow
      rw [BitVec.ofInt_toInt, ofInt_mul]

/-- A defined compile-time power loop computes the same value. -/
theorem Host.powLoop_val (exp : Nat) : ∀ (base result r : I64),
    Host.powLoop base result exp = .val r → Run.powLoop base result exp = r := by
  induction exp using Nat.strongRecOn with
  | ind e ih =>
    intro base result r h
    rw [Host.powLoop] at h
    rw [Run.powLoop]
    split at h
    · rename_i r1 hr1
      have hr : (if e % 2 = 1 then result * base else result) = r1 := by
        split at hr1
        · have := (cxx_val.1 hr1).2
          rw [ofInt_mul] at this
          rw [if_pos (by assumption), this]
        · rw [if_neg (by assumption)]
          exact Out.val.inj hr1
      simp only [hr]
      split at h
      · rw [dif_pos (by assumption)]
        exact Out.val.inj h
      · rename_i hne
        rw [dif_neg hne]
        split at h
        · rename_i bb hbb
          have h2 := (cxx_val.1 hbb).2
          rw [ofInt_mul] at h2
          rw [← h2]
          exact ih (e / 2) (by omega) bb r1 r h
        · cases h
    · cases h

theorem sq_fits {b : Int} (h : b * b ≤ 2 ^ 63) : fits (b * b) = true := by
  rw [fits_iff]
  constructor
  · nlinarith
  · by_contra hcon
    have heq : b * b = 2 ^ 63 := by omega
    have h1 : b.natAbs * b.natAbs = 2 ^ 63 := by
      have := Int.natAbs_mul_self' b
      zify
      rw [heq] at this
      simpa [Int.natAbs_mul_self'] using this
    rcases Nat.lt_or_ge b.natAbs 3037000500 with hlt | hge
    · have : b.natAbs * b.natAbs ≤ 3037000499 * 3037000499 :=
        Nat.mul_le_mul (by omega) (by omega)
      omega
    · have : 3037000500 * 3037000500 ≤ b.natAbs * b.natAbs := Nat.mul_le_mul hge hge
      omega

/-- The compile-time power loop is defined whenever the final product is representable. -/
theorem Host.powLoop_defined (exp : Nat) : ∀ (base result : I64),
    (result = 0 → base = 0) → fits (result.toInt * base.toInt ^ exp) = true →
    ∃ r, Host.powLoop base result exp = .val r := by
  induction exp using Nat.strongRecOn with
  | ind e ih =>
    intro base result h0 hf
    rw [Host.powLoop]
    by_cases hb : base = 0
    · subst hb
      have hm0 : ∀ x : I64, Host.mul x 0 = .val 0 := by
        intro x
        unfold Host.mul
        rw [show (0 : I64).toInt = 0 from rfl, Int.mul_zero]
        rfl
      have hstep : ∃ r, (if e % 2 = 1 then Host.mul result 0 else Out.val result) = .val r := by
        split
        · exact ⟨0, hm0 _⟩
        · exact ⟨_, rfl⟩
      obtain ⟨r, hr⟩ := hstep
      simp only [hr]
      split
      · exact ⟨r, rfl⟩
      · rename_i hne
        rw [hm0]
        simp only
        apply ih (e / 2) (by omega) 0 r (by simp)
        rw [show (0 : I64).toInt = 0 from rfl, zero_pow hne, Int.mul_zero]
        rfl
    · have hbz : base.toInt ≠ 0 := fun h => hb (toInt_eq_zero.1 h)
      have hrz : result.toInt ≠ 0 := fun h => hb (h0 (toInt_eq_zero.1 h))
      have hsplit : result.toInt * base.toInt ^ e
          = (result.toInt * base.toInt ^ (e % 2)) * (base.toInt * base.toInt) ^ (e / 2) := by
        have h2 : base.toInt ^ e = base.toInt ^ (e % 2) * (base.toInt * base.toInt) ^ (e / 2) := by
          rw [← pow_two, ← pow_mul, ← pow_add]
          congr 1
          omega
        rw [h2, Int.mul_assoc]
      have hsqpos : 1 ≤ base.toInt * base.toInt := by
        have : 0 < base.toInt * base.toInt := mul_self_pos.2 hbz
        omega
      have hpp : 1 ≤ (base.toInt * base.toInt) ^ (e / 2) := one_le_pow₀ hsqpos
      have hfr : fits (result.toInt * base.toInt ^ (e % 2)) = true := by
        rw [hsplit] at hf
        rw [fits_iff] at hf ⊢
        generalize result.toInt * base.toInt ^ (e % 2) = x at *
        generalize (base.toInt * base.toInt) ^ (e / 2) = y at *
        constructor <;> nlinarith
      have hstep : (if e % 2 = 1 then Host.mul result base else Out.val result)
          = .val (BitVec.ofInt 64 (result.toInt * base.toInt ^ (e % 2))) := by
        rcases Nat.mod_two_eq_zero_or_one e with h | h
        · simp [h]
        · rw [if_pos h]
          rw [h, pow_one] at hfr ⊢
          exact cxx_of_fits hfr
      simp only [hstep]
      split
      · exact ⟨_, rfl⟩
      · rename_i hne
        have hx : result.toInt * base.toInt ^ (e % 2) ≠ 0 :=
          mul_ne_zero hrz (pow_ne_zero _ hbz)
        have hsq : base.toInt * base.toInt ≤ (base.toInt * base.toInt) ^ (e / 2) := by
          conv_lhs => rw [← pow_one (base.toInt * base.toInt)]
          exact pow_le_pow_right₀ hsqpos (by omega)
        have hsf : fits (base.toInt * base.toInt) = true := by
          apply sq_fits
          rw [hsplit, fits_iff] at hf
          generalize result.toInt * base.toInt ^ (e % 2) = x at *
          generalize (base.toInt * base.toInt) ^ (e / 2) = y at *
          rcases Int.lt_or_gt_of_ne hx with h | h <;> nlinarith
        have hbb : Host.mul base base = .val (base * base) := by
          unfold Host.mul
          rw [cxx_of_fits hsf, ofInt_mul]
        rw [hbb]
        simp only
        have htb : (base * base).toInt = base.toInt * base.toInt := by
          rw [← ofInt_mul, toInt_ofInt_of_fits hsf]
        apply ih (e / 2) (by omega)
        · intro hz
          exfalso
          apply hx
          rw [← toInt_ofInt_of_fits hfr, hz]
          rfl
        · rw [toInt_ofInt_of_fits hfr, htb, ← hsplit]
          exact hf

end Codon.Arith
