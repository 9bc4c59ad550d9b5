import Verif.Random.Spec
import Mathlib.Tactic.Ring
/-! # Lemmas on drawing -/
namespace Codon.Random

/-! ### Programs -/

variable {α β : Type}

theorem Only.bind {p : M α} {f : α → M β} {P : α → Prop} {Q : β → Prop} (hp : Only p P)
    (hf : ∀ a, P a → Only (f a) Q) : Only (p >>= f) Q := by
  intro ws
  show (p ws >>= fun r => f r.1 r.2) = _ ∨ ∃ a ws', (p ws >>= fun r => f r.1 r.2) = _ ∧ _
  rcases hp ws with h | ⟨a, ws', h, ha⟩
  · left
    rw [h]
    rfl
  · rw [h]
    exact hf a ha ws'

theorem Only.pure {a : α} {P : α → Prop} (h : P a) : Only (Pure.pure a : M α) P :=
  fun ws => .inr ⟨a, ws, rfl, h⟩

theorem Only.mono {p : M α} {P Q : α → Prop} (hp : Only p P) (h : ∀ a, P a → Q a) : Only p Q := by
  intro ws
  rcases hp ws with h1 | ⟨a, ws', h1, ha⟩
  · exact .inl h1
  · exact .inr ⟨a, ws', h1, h a ha⟩

theorem Can.bind {p : M α} {f : α → M β} {a : α} {b : β} (hp : Can p a) (hf : Can (f a) b) : Can (p >>= f) b := by
  obtain ⟨ws, h1⟩ := hp
  obtain ⟨ws', h2⟩ := hf
  refine ⟨ws ++ ws', fun rest => ?_⟩
  show (p (ws ++ ws' ++ rest) >>= fun r => f r.1 r.2) = _
  rw [List.append_assoc, h1]
  exact h2 rest

theorem Can.pure (a : α) : Can (Pure.pure a : M α) a := ⟨[], fun _ => rfl⟩

theorem only_draw : Only draw (fun _ => True) := by
  intro ws
  cases ws with
  | nil => exact .inl rfl
  | cons w ws => exact .inr ⟨w, ws, rfl, trivial⟩

theorem can_draw (w : Word) : Can draw w := ⟨[w], fun _ => rfl⟩

/-! ### `getrandbits` -/

theorem mask_shift (x : BitVec 64) (s : Nat) (hs : s < 64) :
    (x &&& ~~~ ((1#64 <<< s) - 1#64)) >>> s = x >>> s := by
  apply BitVec.eq_of_getLsbD_eq
  intro i hi
  simp only [BitVec.getLsbD_ushiftRight, BitVec.getLsbD_and, BitVec.getLsbD_not]
  by_cases h : s + i < 64
  · have h1 : ((1#64 <<< s) - 1#64) = BitVec.ofNat 64 (2 ^ s - 1) := by
      apply BitVec.eq_of_toNat_eq
      have h2 : 2 ^ s < 2 ^ 64 := Nat.pow_lt_pow_right (by omega) hs
      have h3 : 0 < 2 ^ s := Nat.two_pow_pos s
      rw [BitVec.toNat_sub, BitVec.toNat_shiftLeft, BitVec.toNat_ofNat, BitVec.toNat_ofNat, Nat.shiftLeft_eq]
      rw [show 1 % 2 ^ 64 = 1 from rfl, Nat.one_mul, Nat.mod_eq_of_lt h2, Nat.mod_eq_of_lt (a := 2 ^ s - 1) (by omega)]
      omega
    rw [h1, BitVec.getLsbD_ofNat, Nat.testBit_two_pow_sub_one]
    simp [h]
  · rw [BitVec.getLsbD_of_ge _ _ (by omega)]
    simp

/-- The bits put together. -/
theorem join_bits (lo hi : Word) (s : Nat) (h1 : 0 < s) (h2 : s < 32) :
    ((((hi.setWidth 64) &&& ~~~ ((1#64 <<< s) - 1#64)) >>> s <<< 32) ||| lo.setWidth 64).toInt =
      ((hi.toNat >>> s * 2 ^ 32 + lo.toNat : Nat) : Int) := by
  rw [mask_shift _ _ (by omega)]
  have hb : hi.toNat >>> s < 2 ^ 31 := by
    rw [Nat.shiftRight_eq_div_pow]
    have h3 : 2 ^ 1 ≤ 2 ^ s := Nat.pow_le_pow_right (by omega) h1
    have := hi.isLt
    rw [Nat.div_lt_iff_lt_mul (Nat.two_pow_pos s)]
    calc hi.toNat < 2 ^ 31 * 2 ^ 1 := by omega
      _ ≤ 2 ^ 31 * 2 ^ s := Nat.mul_le_mul_left _ h3
  have hl := lo.isLt
  have hv : ((hi.setWidth 64 >>> s <<< 32) ||| lo.setWidth 64).toNat = hi.toNat >>> s * 2 ^ 32 + lo.toNat := by
    rw [BitVec.toNat_or, BitVec.toNat_shiftLeft, BitVec.toNat_ushiftRight, BitVec.toNat_setWidth, BitVec.toNat_setWidth,
      Nat.mod_eq_of_lt (a := hi.toNat) (by have := hi.isLt; omega), Nat.mod_eq_of_lt (a := lo.toNat) (by omega),
      Nat.mod_eq_of_lt (by rw [Nat.shiftLeft_eq]; omega), ← Nat.shiftLeft_add_eq_or_of_lt hl, Nat.shiftLeft_eq]
  rw [BitVec.toInt_eq_toNat_of_lt (by rw [hv]; omega), hv]

theorem getrandbits_exactly (k : Nat) (hk : k ≤ 63) : Exactly (getrandbits k) (fun v => 0 ≤ v ∧ v < 2 ^ k) := by
  unfold getrandbits
  by_cases h0 : k = 0
  · subst h0
    rw [if_pos (by simp)]
    refine ⟨Only.pure (by decide), fun a ha => ?_⟩
    have : a = 0 := by simp at ha; omega
    subst this
    exact Can.pure _
  rw [if_neg (by omega), if_neg (by omega), if_neg (by omega)]
  by_cases h1 : k ≤ 32
  · rw [if_pos (by omega)]
    have hs : (32 - (k : Int)).toNat = 32 - k := by omega
    rw [hs]
    have hp : 2 ^ k * 2 ^ (32 - k) = 2 ^ 32 := by rw [← Nat.pow_add]; congr 1; omega
    constructor
    · refine only_draw.bind fun w _ => Only.pure ⟨Int.natCast_nonneg _, ?_⟩
      have := w.isLt
      rw [Nat.shiftRight_eq_div_pow]
      have : w.toNat / 2 ^ (32 - k) < 2 ^ k := by
        rw [Nat.div_lt_iff_lt_mul (Nat.two_pow_pos _), hp]
        exact this
      exact_mod_cast this
    · rintro a ⟨ha, hb⟩
      obtain ⟨a, rfl⟩ := Int.eq_ofNat_of_zero_le ha
      have hb' : a < 2 ^ k := by exact_mod_cast hb
      have hm : a * 2 ^ (32 - k) < 2 ^ 32 := by
        rw [← hp]
        exact Nat.mul_lt_mul_of_pos_right hb' (Nat.two_pow_pos _)
      refine (can_draw (BitVec.ofNat 32 (a * 2 ^ (32 - k)))).bind ?_
      rw [BitVec.toNat_ofNat, Nat.mod_eq_of_lt hm, Nat.shiftRight_eq_div_pow, Nat.mul_div_cancel _ (Nat.two_pow_pos _)]
      exact Can.pure _
  · rw [if_neg (by omega)]
    have hs : (64 - (k : Int)).toNat = 64 - k := by omega
    rw [hs]
    have hp : 2 ^ (k - 32) * 2 ^ (64 - k) = 2 ^ 32 := by rw [← Nat.pow_add]; congr 1; omega
    have hq : 2 ^ k = 2 ^ (k - 32) * 2 ^ 32 := by rw [← Nat.pow_add]; congr 1; omega
    constructor
    · refine only_draw.bind fun lo _ => only_draw.bind fun hi _ => Only.pure ?_
      rw [join_bits lo hi (64 - k) (by omega) (by omega)]
      refine ⟨by omega, ?_⟩
      have h2 : hi.toNat >>> (64 - k) < 2 ^ (k - 32) := by
        rw [Nat.shiftRight_eq_div_pow, Nat.div_lt_iff_lt_mul (Nat.two_pow_pos _), hp]
        exact hi.isLt
      have h3 := lo.isLt
      have h4 : (hi.toNat >>> (64 - k) + 1) * 2 ^ 32 ≤ 2 ^ (k - 32) * 2 ^ 32 := Nat.mul_le_mul_right _ h2
      have : hi.toNat >>> (64 - k) * 2 ^ 32 + lo.toNat < 2 ^ k := by
        rw [hq]
        omega
      exact_mod_cast this
    · rintro a ⟨ha, hb⟩
      obtain ⟨a, rfl⟩ := Int.eq_ofNat_of_zero_le ha
      have hb' : a < 2 ^ k := by exact_mod_cast hb
      have hd : a / 2 ^ 32 < 2 ^ (k - 32) := by
        rw [Nat.div_lt_iff_lt_mul (by decide), ← hq]
        exact hb'
      have hm : a / 2 ^ 32 * 2 ^ (64 - k) < 2 ^ 32 :=
        lt_of_lt_of_eq (Nat.mul_lt_mul_of_pos_right hd (Nat.two_pow_pos _)) hp
      refine (can_draw (BitVec.ofNat 32 (a % 2 ^ 32))).bind
        ((can_draw (BitVec.ofNat 32 (a / 2 ^ 32 * 2 ^ (64 - k)))).bind ?_)
      simp only
      rw [join_bits _ _ (64 - k) (by omega) (by omega), BitVec.toNat_ofNat, BitVec.toNat_ofNat, Nat.mod_eq_of_lt hm,
        Nat.shiftRight_eq_div_pow, Nat.mul_div_cancel _ (Nat.two_pow_pos _), Nat.mod_mod, Nat.div_add_mod']
      exact Can.pure _

/-! ### `_randbelow` -/

theorem bitLoop_spec (fuel : Nat) : ∀ n, n < 2 ^ fuel →
    n < 2 ^ bitLoop n fuel ∧ (1 ≤ n → 1 ≤ bitLoop n fuel ∧ 2 ^ (bitLoop n fuel - 1) ≤ n) := by
  induction fuel with
  | zero =>
    intro n h
    exact ⟨h, fun h1 => by omega⟩
  | succ fuel ih =>
    intro n h
    unfold bitLoop
    by_cases h0 : n = 0
    · rw [if_pos h0]
      exact ⟨by omega, fun h1 => by omega⟩
    · rw [if_neg h0]
      rw [Nat.pow_succ] at h
      obtain ⟨h1, h2⟩ := ih (n / 2) (by omega)
      refine ⟨by rw [Nat.pow_succ]; omega, fun _ => ⟨by omega, ?_⟩⟩
      rw [Nat.add_sub_cancel]
      by_cases h3 : n / 2 = 0
      · have : bitLoop (n / 2) fuel = 0 := by
          cases fuel with
          | zero => rfl
          | succ fuel =>
            unfold bitLoop
            rw [if_pos h3]
        rw [this]
        omega
      · obtain ⟨h4, h5⟩ := h2 (by omega)
        obtain ⟨b, hb⟩ : ∃ b, bitLoop (n / 2) fuel = b + 1 := ⟨bitLoop (n / 2) fuel - 1, by omega⟩
        rw [hb] at h5 ⊢
        rw [Nat.pow_succ]
        simp only [Nat.add_sub_cancel] at h5
        omega

theorem lt_bitLength (n : Nat) (h : n < 2 ^ 63) : n < 2 ^ bitLength n := (bitLoop_spec 64 n (by omega)).1

theorem bitLength_le (n : Nat) (h : 1 ≤ n) (h2 : n < 2 ^ 63) : 1 ≤ bitLength n ∧ 2 ^ (bitLength n - 1) ≤ n :=
  (bitLoop_spec 64 n (by omega)).2 h

theorem bitLength_bound (n : Nat) (h : n < 2 ^ 63) : bitLength n ≤ 63 := by
  by_contra hc
  by_cases h0 : n = 0
  · subst h0
    exact hc (by decide)
  · have h1 := (bitLength_le n (by omega) h).2
    have h2 : 2 ^ 63 ≤ 2 ^ (bitLength n - 1) := Nat.pow_le_pow_right (by omega) (by omega)
    omega

theorem belowLoop_only (n : Int) (k : Nat) (hk : k ≤ 63) (fuel : Nat) :
    ∀ r, 0 ≤ r → Only (belowLoop n k r fuel) (fun v => 0 ≤ v ∧ v < n) := by
  induction fuel with
  | zero => intro r _ ws; exact .inl rfl
  | succ fuel ih =>
    intro r hr
    unfold belowLoop
    split
    · exact (getrandbits_exactly k hk).1.bind fun a ha => ih a ha.1
    · next h => exact Only.pure ⟨hr, by omega⟩

theorem toNat_ofInt (n : Nat) (h : n < 2 ^ 63) : (BitVec.ofInt 64 (n : Int)).toNat = n := by
  rw [BitVec.ofInt_natCast, BitVec.toNat_ofNat, Nat.mod_eq_of_lt (by omega)]

/-- `_randbelow(n)` returns the numbers below `n`. -/
theorem randbelow_exactly (n : Nat) (h1 : 1 ≤ n) (h2 : n < 2 ^ 63) :
    Exactly (randbelow n) (fun v => 0 ≤ v ∧ v < n) := by
  have hk := bitLength_bound n h2
  have hg := getrandbits_exactly (bitLength n) hk
  unfold randbelow
  rw [toNat_ofInt n h2]
  constructor
  · refine hg.1.bind fun r hr ws => ?_
    exact belowLoop_only n _ hk _ r hr.1 ws
  · rintro a ⟨ha, hb⟩
    have h3 := lt_bitLength n h2
    have h4 : a < 2 ^ bitLength n := by
      have : (n : Int) < ((2 ^ bitLength n : Nat) : Int) := by exact_mod_cast h3
      push_cast at this
      omega
    refine (hg.2 a ⟨ha, h4⟩).bind ⟨[], fun rest => ?_⟩
    show belowLoop n (bitLength n) a (rest.length + 1) rest = _
    unfold belowLoop
    rw [if_neg (by omega)]
    rfl

end Codon.Random
