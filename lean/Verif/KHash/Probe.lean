import Verif.KHash.Flags
import Mathlib.Data.Fintype.EquivFin
import Mathlib.Data.Nat.ModEq
import Mathlib.Data.Nat.Prime.Basic

/-! Lemmas about triangular probing modulo a power of two and about bucket-count rounding. -/

namespace Codon.KHash

/-- The `t`-th probed bucket starting from `a` in a table with `n` buckets. -/
def P (n a t : Nat) : Nat := (a + t * (t + 1) / 2) % n

theorem P_zero {n a : Nat} (ha : a < n) : P n a 0 = a := by
  simp [P, Nat.mod_eq_of_lt ha]

theorem P_lt {n : Nat} (hn : 0 < n) (a t : Nat) : P n a t < n := Nat.mod_lt _ hn

theorem tri_succ (t : Nat) : (t + 1) * (t + 1 + 1) / 2 = t * (t + 1) / 2 + (t + 1) := by
  have : (t + 1) * (t + 1 + 1) = t * (t + 1) + (t + 1) * 2 := by ring
  rw [this, Nat.add_mul_div_right _ _ (by omega)]

theorem mask_mod (b i : Nat) : i &&& (2 ^ b - 1) = i % 2 ^ b := Nat.and_two_pow_sub_one_eq_mod i b

theorem P_succ (b a t : Nat) : (P (2 ^ b) a t + (t + 1)) &&& (2 ^ b - 1) = P (2 ^ b) a (t + 1) := by
  rw [mask_mod]
  unfold P
  rw [tri_succ, Nat.mod_add_mod]
  congr 1; omega

theorem tri_two (t : Nat) : t * (t + 1) / 2 * 2 = t * (t + 1) :=
  Nat.div_mul_cancel (Nat.even_mul_succ_self t).two_dvd

theorem P_inj {b a s t : Nat} (hst : s < t) (ht : t < 2 ^ b) : P (2 ^ b) a s ≠ P (2 ^ b) a t := by
  intro h
  have h1 : (a + s * (s + 1) / 2) ≡ (a + t * (t + 1) / 2) [MOD 2 ^ b] := h
  have h2 : (s * (s + 1) / 2) ≡ (t * (t + 1) / 2) [MOD 2 ^ b] := Nat.ModEq.add_left_cancel' a h1
  have hle : s * (s + 1) / 2 ≤ t * (t + 1) / 2 :=
    Nat.div_le_div_right (Nat.mul_le_mul (by omega) (by omega))
  have h3 : 2 ^ b ∣ t * (t + 1) / 2 - s * (s + 1) / 2 := (Nat.modEq_iff_dvd' hle).mp h2
  have h4 : 2 ^ (b + 1) ∣ (t - s) * (t + s + 1) := by
    have h5 : 2 ^ b * 2 ∣ (t * (t + 1) / 2 - s * (s + 1) / 2) * 2 := Nat.mul_dvd_mul_right h3 2
    rw [Nat.sub_mul, tri_two, tri_two] at h5
    have : t * (t + 1) - s * (s + 1) = (t - s) * (t + s + 1) := by
      obtain ⟨d, rfl⟩ : ∃ d, t = s + d := ⟨t - s, by omega⟩
      have : s + d - s = d := by omega
      rw [this]
      have : (s + d) * (s + d + 1) = d * (s + d + s + 1) + s * (s + 1) := by ring
      omega
    rw [this] at h5
    rwa [pow_succ]
  rcases Nat.even_or_odd (t - s) with he | ho
  · have ho : Odd (t + s + 1) := by
      obtain ⟨k, hk⟩ := he
      exact ⟨k + s, by omega⟩
    have hc : Nat.Coprime (2 ^ (b + 1)) (t + s + 1) :=
      Nat.Coprime.pow_left _ (Nat.coprime_two_left.mpr ho)
    have := hc.dvd_of_dvd_mul_right h4
    have := Nat.le_of_dvd (by omega) this
    rw [pow_succ] at this
    omega
  · have hc : Nat.Coprime (2 ^ (b + 1)) (t - s) :=
      Nat.Coprime.pow_left _ (Nat.coprime_two_left.mpr ho)
    have := hc.dvd_of_dvd_mul_left h4
    have := Nat.le_of_dvd (by omega) this
    rw [pow_succ] at this
    omega

theorem P_surj (b a e : Nat) (he : e < 2 ^ b) : ∃ t, t < 2 ^ b ∧ P (2 ^ b) a t = e := by
  let f : Fin (2 ^ b) → Fin (2 ^ b) := fun t => ⟨P (2 ^ b) a t, P_lt (by positivity) _ _⟩
  have hinj : Function.Injective f := by
    intro s t hst
    have hst' : P (2 ^ b) a s = P (2 ^ b) a t := by simpa [f] using hst
    rcases Nat.lt_trichotomy s.1 t.1 with h | h | h
    · exact absurd hst' (P_inj h t.2)
    · exact Fin.ext h
    · exact absurd hst'.symm (P_inj h s.2)
  obtain ⟨t, ht⟩ := Finite.surjective_of_injective hinj ⟨e, he⟩
  exact ⟨t.1, t.2, by simpa [f] using congrArg Fin.val ht⟩

/-! ### Rounding -/

/-- Sign-extended bit of `x`. -/
def xb (x : BitVec 64) (i : Nat) : Bool := if i < 64 then x.getLsbD i else x.msb

/-- `y` is `x` with every bit smeared `c` positions to the right. -/
def Smear (x y : BitVec 64) (c : Nat) : Prop :=
  y.msb = x.msb ∧ ∀ j, j < 64 → (y.getLsbD j = true ↔ ∃ i, j ≤ i ∧ i < j + c ∧ xb x i = true)

theorem smear_init (x : BitVec 64) : Smear x x 1 := by
  refine ⟨rfl, fun j hj => ?_⟩
  constructor
  · intro h; exact ⟨j, le_refl _, by omega, by simp [xb, hj, h]⟩
  · rintro ⟨i, h1, h2, h3⟩
    obtain rfl : i = j := by omega
    simpa [xb, hj] using h3

theorem smear_step {x y : BitVec 64} {c : Nat} (hc : 1 ≤ c) (h : Smear x y c) (s : Nat)
    (hs : s ≤ c) : Smear x (y ||| y.sshiftRight s) (c + s) := by
  obtain ⟨hm, hb⟩ := h
  constructor
  · rw [BitVec.msb_or, BitVec.msb_sshiftRight, hm]; simp
  · intro j hj
    rw [BitVec.getLsbD_or, BitVec.getLsbD_sshiftRight, Bool.or_eq_true, hb j hj]
    have h64 : decide (64 ≤ j) = false := by simp; omega
    rw [h64]
    by_cases hsj : s + j < 64
    · rw [if_pos hsj]
      simp only [Bool.not_false, Bool.true_and]
      rw [hb _ hsj]
      constructor
      · rintro (⟨i, a1, a2, a3⟩ | ⟨i, a1, a2, a3⟩)
        · exact ⟨i, a1, by omega, a3⟩
        · exact ⟨i, by omega, by omega, a3⟩
      · rintro ⟨i, a1, a2, a3⟩
        by_cases hi : i < j + c
        · exact Or.inl ⟨i, a1, hi, a3⟩
        · exact Or.inr ⟨i, by omega, by omega, a3⟩
    · rw [if_neg hsj]
      simp only [Bool.not_false, Bool.true_and]
      rw [hm]
      constructor
      · rintro (⟨i, a1, a2, a3⟩ | hx)
        · exact ⟨i, a1, by omega, a3⟩
        · exact ⟨j + s, by omega, by omega, by
            unfold xb; rw [if_neg (by omega)]; exact hx⟩
      · rintro ⟨i, a1, a2, a3⟩
        by_cases hi : i < 64
        · exact Or.inl ⟨i, a1, by omega, a3⟩
        · right
          unfold xb at a3; rwa [if_neg hi] at a3

/-- The smeared value computed by `_kh_resize` before the final `+ 1`. -/
def smeared (x : BitVec 64) : BitVec 64 :=
  let n := x
  let n := n ||| n.sshiftRight 1
  let n := n ||| n.sshiftRight 2
  let n := n ||| n.sshiftRight 4
  let n := n ||| n.sshiftRight 8
  let n := n ||| n.sshiftRight 16
  n ||| n.sshiftRight 32

theorem roundUp_eq (m : BitVec 64) :
    roundUp m = if (smeared (m - 1) + 1).toInt < 4 then 4 else (smeared (m - 1) + 1).toNat := rfl

theorem smeared_spec (x : BitVec 64) : Smear x (smeared x) 64 := by
  have h := smear_init x
  have h := smear_step (by omega) h 1 (by omega)
  have h := smear_step (by omega) h 2 (by omega)
  have h := smear_step (by omega) h 4 (by omega)
  have h := smear_step (by omega) h 8 (by omega)
  have h := smear_step (by omega) h 16 (by omega)
  exact smear_step (by omega) h 32 (by omega)

theorem smeared_neg {x : BitVec 64} (hx : x.msb = true) : smeared x = BitVec.allOnes 64 := by
  apply BitVec.eq_of_getLsbD_eq
  intro j hj
  rw [BitVec.getLsbD_allOnes]
  simp only [hj, decide_true]
  rw [(smeared_spec x).2 j hj]
  refine ⟨63, by omega, by omega, ?_⟩
  unfold xb
  rw [BitVec.msb_eq_getLsbD_last] at hx
  simpa using hx

theorem smeared_pos {x : BitVec 64} (hx : x.msb = false) {L : Nat} (h1 : x.toNat < 2 ^ L)
    (h2 : L = 0 ∨ 2 ^ (L - 1) ≤ x.toNat) (hL : L ≤ 63) :
    smeared x = BitVec.ofNat 64 (2 ^ L - 1) := by
  apply BitVec.eq_of_getLsbD_eq
  intro j hj
  rw [Bool.eq_iff_iff, (smeared_spec x).2 j hj, BitVec.getLsbD_ofNat, Nat.testBit_two_pow_sub_one]
  simp only [hj, decide_true, Bool.true_and, decide_eq_true_eq]
  constructor
  · rintro ⟨i, a1, a2, a3⟩
    unfold xb at a3
    split at a3
    · have : 2 ^ i ≤ x.toNat := Nat.ge_two_pow_of_testBit a3
      by_contra hc
      have : 2 ^ L ≤ 2 ^ i := Nat.pow_le_pow_right (by omega) (by omega)
      omega
    · rw [hx] at a3; cases a3
  · intro hjL
    rcases h2 with h2 | h2
    · omega
    · have : 2 ^ j ≤ 2 ^ (L - 1) := Nat.pow_le_pow_right (by omega) (by omega)
      obtain ⟨i, hi, ht⟩ := Nat.exists_ge_and_testBit_of_ge_two_pow (le_trans this h2)
      have hi64 : i < 64 := by
        by_contra hc
        have : x.getLsbD i = false := BitVec.getLsbD_of_ge _ _ (by omega)
        rw [BitVec.getLsbD, ht] at this; cases this
      exact ⟨i, hi, by omega, by unfold xb; rw [if_pos hi64]; exact ht⟩

theorem roundUp_neg {m : BitVec 64} (hx : (m - 1).msb = true) : roundUp m = 4 := by
  rw [roundUp_eq, smeared_neg hx]; decide

theorem pow_le62 {L : Nat} (hL : L ≤ 62) : 2 ^ L ≤ 4611686018427387904 :=
  le_trans (Nat.pow_le_pow_right (by omega) hL) (by norm_num)

theorem roundUp_pos {m : BitVec 64} (hx : (m - 1).msb = false) {L : Nat} (h1 : (m - 1).toNat < 2 ^ L)
    (h2 : L = 0 ∨ 2 ^ (L - 1) ≤ (m - 1).toNat) (hL : L ≤ 62) :
    roundUp m = if L < 2 then 4 else 2 ^ L := by
  rw [roundUp_eq, smeared_pos hx h1 h2 (by omega)]
  have hp := pow_le62 hL
  have hpos : 0 < 2 ^ L := by positivity
  have e : BitVec.ofNat 64 (2 ^ L - 1) + 1 = BitVec.ofNat 64 (2 ^ L) := by
    apply BitVec.eq_of_toNat_eq
    simp only [BitVec.toNat_add, BitVec.toNat_ofNat]
    rw [show (1 : BitVec 64).toNat = 1 from rfl]
    omega
  have en : (BitVec.ofNat 64 (2 ^ L)).toNat = 2 ^ L := by
    rw [BitVec.toNat_ofNat]; omega
  have ei : (BitVec.ofNat 64 (2 ^ L)).toInt = ((2 ^ L : Nat) : Int) := by
    rw [BitVec.toInt_eq_toNat_cond, en, if_pos (by omega)]
  rw [e, ei, en]
  by_cases h : L < 2
  · have : 2 ^ L ≤ 2 ^ 1 := Nat.pow_le_pow_right (by omega) (by omega)
    rw [if_pos (by omega), if_pos h]
  · have : 2 ^ 2 ≤ 2 ^ L := Nat.pow_le_pow_right (by omega) (by omega)
    rw [if_neg (by omega), if_neg h]

theorem roundUp_63 {m : BitVec 64} (hx : (m - 1).msb = false) (h2 : 2 ^ 62 ≤ (m - 1).toNat) :
    roundUp m = 4 := by
  have h1 : (m - 1).toNat < 2 ^ 63 := by
    rw [BitVec.msb_eq_decide] at hx; simpa using hx
  rw [roundUp_eq, smeared_pos hx h1 (Or.inr h2) (le_refl _)]; decide

/-- Whatever is asked for, the new number of buckets is a power of two, at least four. -/
theorem roundUp_pow (m : BitVec 64) : ∃ b, 2 ≤ b ∧ b ≤ 62 ∧ roundUp m = 2 ^ b := by
  by_cases hx : (m - 1).msb = true
  · exact ⟨2, le_refl _, by omega, roundUp_neg hx⟩
  · have hx : (m - 1).msb = false := by simpa using hx
    by_cases h62 : 2 ^ 62 ≤ (m - 1).toNat
    · exact ⟨2, le_refl _, by omega, roundUp_63 hx h62⟩
    · have key : ∃ L, L ≤ 62 ∧ (m - 1).toNat < 2 ^ L ∧ (L = 0 ∨ 2 ^ (L - 1) ≤ (m - 1).toNat) := by
        have hex : ∃ L, (m - 1).toNat < 2 ^ L := ⟨62, by omega⟩
        refine ⟨Nat.find hex, Nat.find_min' hex (by omega), Nat.find_spec hex, ?_⟩
        by_cases h0 : Nat.find hex = 0
        · exact Or.inl h0
        · right
          have := Nat.find_min hex (m := Nat.find hex - 1) (by omega)
          omega
      obtain ⟨L, h0, h1, h2⟩ := key
      rw [roundUp_pos hx h1 h2 h0]
      by_cases h : L < 2
      · exact ⟨2, le_refl _, by omega, by rw [if_pos h]; rfl⟩
      · exact ⟨L, by omega, h0, by rw [if_neg h]⟩

/-- The rounded size is at most twice the request. -/
theorem roundUp_le {m : BitVec 64} {B : Nat} (hB : 2 ≤ B) (hB' : B ≤ 62)
    (hm : m.toInt ≤ ((2 ^ B : Nat) : Int)) : roundUp m ≤ 2 ^ B := by
  have h4 : 2 ^ 2 ≤ 2 ^ B := Nat.pow_le_pow_right (by omega) hB
  have hp := pow_le62 hB'
  by_cases hx : (m - 1).msb = true
  · rw [roundUp_neg hx]; omega
  · have hx : (m - 1).msb = false := by simpa using hx
    by_cases h62 : 2 ^ 62 ≤ (m - 1).toNat
    · rw [roundUp_63 hx h62]; omega
    · have hlt : (m - 1).toNat < 2 ^ B := by
        have h1 := BitVec.toInt_eq_toNat_cond (x := m)
        have h2 := m.isLt
        have h3 : (m - 1).toNat = (2 ^ 64 - 1 + m.toNat) % 2 ^ 64 := by
          rw [BitVec.toNat_sub]; rfl
        split at h1 <;> omega
      have hex : ∃ L, (m - 1).toNat < 2 ^ L := ⟨B, hlt⟩
      have hle : Nat.find hex ≤ B := Nat.find_min' hex hlt
      rw [roundUp_pos hx (Nat.find_spec hex) ?_ (by omega)]
      · split
        · omega
        · exact Nat.pow_le_pow_right (by omega) hle
      · by_cases h0 : Nat.find hex = 0
        · exact Or.inl h0
        · right
          have := Nat.find_min hex (m := Nat.find hex - 1) (by omega)
          omega

theorem msb_false_of_lt {x : BitVec 64} (h : x.toNat < 9223372036854775808) : x.msb = false := by
  rw [BitVec.msb_eq_decide]; simp; omega

/-- Rehash in place: asking for one bucket less keeps the size. -/
theorem roundUp_pred {b : Nat} (hb : 2 ≤ b) (hb' : b ≤ 62) :
    roundUp (BitVec.ofNat 64 (2 ^ b) - 1) = 2 ^ b := by
  have hp := pow_le62 hb'
  have h4 : 2 ^ 2 ≤ 2 ^ b := Nat.pow_le_pow_right (by omega) hb
  have e : (BitVec.ofNat 64 (2 ^ b) - 1 - 1).toNat = 2 ^ b - 2 := by
    simp only [BitVec.toNat_sub, BitVec.toNat_ofNat]
    rw [show (1 : BitVec 64).toNat = 1 from rfl]
    omega
  have hs : 2 ^ b = 2 * 2 ^ (b - 1) := by
    obtain ⟨c, rfl⟩ : ∃ c, b = c + 1 := ⟨b - 1, by omega⟩
    rw [pow_succ]; simp; ring
  have h1 : 2 ^ 1 ≤ 2 ^ (b - 1) := Nat.pow_le_pow_right (by omega) (by omega)
  rw [roundUp_pos (msb_false_of_lt (by omega)) (L := b) (by omega) (Or.inr (by omega)) hb',
    if_neg (by omega)]

/-- Growth: asking for one bucket more doubles the size. -/
theorem roundUp_succ {b : Nat} (hb : 2 ≤ b) (hb' : b ≤ 61) :
    roundUp (BitVec.ofNat 64 (2 ^ b) + 1) = 2 * 2 ^ b := by
  have hp := pow_le62 (L := b) (by omega)
  have h4 : 2 ^ 2 ≤ 2 ^ b := Nat.pow_le_pow_right (by omega) hb
  have e : (BitVec.ofNat 64 (2 ^ b) + 1 - 1).toNat = 2 ^ b := by
    simp only [BitVec.toNat_sub, BitVec.toNat_add, BitVec.toNat_ofNat]
    rw [show (1 : BitVec 64).toNat = 1 from rfl]
    omega
  have hs : 2 ^ (b + 1) = 2 * 2 ^ b := by rw [pow_succ]; ring
  rw [roundUp_pos (msb_false_of_lt (by omega)) (L := b + 1) (by omega) (Or.inr (by rw [e, Nat.add_sub_cancel]))
    (by omega), if_neg (by omega), hs]

end Codon.KHash
