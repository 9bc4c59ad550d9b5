import Verif.Date.Cal

/-! # The packed representations -/

namespace Codon.Date

open Spec

theorem or_eq_add {a b i : Nat} (h : b < 2 ^ i) : a <<< i ||| b = a * 2 ^ i + b := by
  rw [← Nat.shiftLeft_add_eq_or_of_lt h, Nat.shiftLeft_eq]

theorem packDate_nat {a b c : Nat} (ha : a < 65536) (hb : b < 256) (hc : c < 256) :
    (packDate a b c).word.toNat = a * 65536 + b * 256 + c := by
  have h1 : a <<< 16 = a * 65536 := Nat.shiftLeft_eq a 16
  have h2 : b <<< 8 = b * 256 := Nat.shiftLeft_eq b 8
  simp only [packDate, BitVec.ofInt_natCast, BitVec.toNat_setWidth, BitVec.toNat_or,
    BitVec.toNat_shiftLeft, BitVec.toNat_ofNat]
  rw [Nat.mod_eq_of_lt (by omega : a < 2 ^ 64), Nat.mod_eq_of_lt (by omega : b < 2 ^ 64),
    Nat.mod_eq_of_lt (by omega : c < 2 ^ 64), Nat.mod_eq_of_lt (by omega : a <<< 16 < 2 ^ 64),
    Nat.mod_eq_of_lt (by omega : b <<< 8 < 2 ^ 64), Nat.or_assoc, or_eq_add (by omega : c < 2 ^ 8),
    or_eq_add (by omega : b * 2 ^ 8 + c < 2 ^ 16)]
  omega

theorem toInt_small {w : BitVec 64} (h : w.toNat < 2 ^ 63) : w.toInt = w.toNat := by
  rw [BitVec.toInt_eq_toNat_of_lt (by omega)]

theorem sshiftRight_small {w : BitVec 64} (h : w.toNat < 2 ^ 63) (k : Nat) :
    (w.sshiftRight k).toNat = w.toNat / 2 ^ k := by
  have hm : w.msb = false := by
    rw [BitVec.msb_eq_false_iff_two_mul_lt]; omega
  rw [BitVec.toNat_sshiftRight_of_msb_false hm, Nat.shiftRight_eq_div_pow]

theorem Date.fields {D : Date} {a b c : Nat} (ha : a < 32768) (hb : b < 256) (hc : c < 256)
    (h : D.word.toNat = a * 65536 + b * 256 + c) : D.year = a ∧ D.month = b ∧ D.day = c := by
  have hw : (D.word.setWidth 64).toNat = a * 65536 + b * 256 + c := by
    rw [BitVec.toNat_setWidth, h, Nat.mod_eq_of_lt (by omega)]
  have hs : (D.word.setWidth 64).toNat < 2 ^ 63 := by omega
  have hmask : ∀ x : Nat, x &&& 255 = x % 256 := fun x => Nat.and_two_pow_sub_one_eq_mod x 8
  have hk : (255 : BitVec 64).toNat = 255 := rfl
  refine ⟨?_, ?_, ?_⟩
  · have h1 := sshiftRight_small hs 16
    rw [hw] at h1
    rw [Date.year, toInt_small (by omega), h1]
    norm_cast
    omega
  · have h1 := sshiftRight_small hs 8
    rw [hw] at h1
    have h2 : ((D.word.setWidth 64).sshiftRight 8 &&& 255).toNat = b := by
      rw [BitVec.toNat_and, h1, hk, hmask]; omega
    rw [Date.month, toInt_small (by omega), h2]
  · have h2 : (D.word.setWidth 64 &&& 255).toNat = c := by
      rw [BitVec.toNat_and, hw, hk, hmask]; omega
    rw [Date.day, toInt_small (by omega), h2]

/-- The dates of the class. -/
structure InRange (y m d : Int) : Prop extends Valid y m d where
  maxYear : y ≤ 9999

theorem packDate_word {y m d : Int} (h : InRange y m d) :
    ((packDate y m d).word.toNat : Int) = y * 65536 + m * 256 + d := by
  obtain ⟨⟨h1, h2, h3⟩, h4⟩ := h
  have := monthLen_pos y m
  obtain ⟨a, rfl⟩ := Int.eq_ofNat_of_zero_le (by omega : 0 ≤ y)
  obtain ⟨b, rfl⟩ := Int.eq_ofNat_of_zero_le (by omega : 0 ≤ m)
  obtain ⟨c, rfl⟩ := Int.eq_ofNat_of_zero_le (by omega : 0 ≤ d)
  rw [packDate_nat (by omega) (by omega) (by omega)]
  push_cast
  omega

theorem packDate_fields {y m d : Int} (h : InRange y m d) :
    (packDate y m d).year = y ∧ (packDate y m d).month = m ∧ (packDate y m d).day = d := by
  have hw := packDate_word h
  obtain ⟨⟨h1, h2, h3⟩, h4⟩ := h
  have := monthLen_pos y m
  obtain ⟨a, rfl⟩ := Int.eq_ofNat_of_zero_le (by omega : 0 ≤ y)
  obtain ⟨b, rfl⟩ := Int.eq_ofNat_of_zero_le (by omega : 0 ≤ m)
  obtain ⟨c, rfl⟩ := Int.eq_ofNat_of_zero_le (by omega : 0 ≤ d)
  exact Date.fields (by omega) (by omega) (by omega) (by exact_mod_cast hw)

theorem dateNew_ok {y m d : Int} (h : InRange y m d) : dateNew y m d = .ok (packDate y m d) := by
  obtain ⟨⟨h1, h2, h3⟩, h4⟩ := h
  simp [dateNew, checkDateArgs, minYear, Codon.Date.maxYear, h1, h2, h3, h4,
    daysInMonth_eq (by omega : 0 ≤ y) h2, show ¬ monthLen y m < d by omega]

theorem dateNew_exc {y m d : Int} (h : ¬ InRange y m d) : dateNew y m d = .exc .value := by
  by_cases h1 : 1 ≤ y ∧ y ≤ 9999
  · by_cases h2 : 1 ≤ m ∧ m ≤ 12
    · have h3 : ¬ (1 ≤ d ∧ d ≤ monthLen y m) := fun h3 => h ⟨⟨h1.1, h2, h3⟩, h1.2⟩
      simp only [dateNew, checkDateArgs, minYear, Codon.Date.maxYear, h1, h2, h3, and_self, not_true,
        if_false, daysInMonth_eq (by omega : 0 ≤ y) h2, Out.bind_ok, not_false_eq_true, if_true,
        Out.bind_exc]
    · simp only [dateNew, checkDateArgs, minYear, Codon.Date.maxYear, h1, h2, and_self, not_true,
        if_false, not_false_eq_true, if_true, Out.bind_exc]
  · simp only [dateNew, checkDateArgs, minYear, Codon.Date.maxYear, h1, if_true, not_false_eq_true,
      Out.bind_exc]

theorem pack_lt {y m d y' m' d' : Int} (h : InRange y m d) (h' : InRange y' m' d') :
    (packDate y m d).lt (packDate y' m' d') = true ↔ Before (y, m, d) (y', m', d') := by
  have a := packDate_word h
  have b := packDate_word h'
  obtain ⟨⟨h1, h2, h3⟩, h4⟩ := h
  obtain ⟨⟨h1', h2', h3'⟩, h4'⟩ := h'
  have := monthLen_pos y m
  have := monthLen_pos y' m'
  simp only [Date.lt, BitVec.ult_iff_lt, BitVec.lt_def, Before]
  omega

/-! ## Times -/

theorem packTime_nat {a b c e : Nat} (ha : a < 2 ^ 16) (hb : b < 256) (hc : c < 256) (he : e < 2 ^ 24) :
    (packTime a b c e).word.toNat = a * 2 ^ 40 + b * 2 ^ 32 + c * 2 ^ 24 + e := by
  have h1 : a <<< 40 = a * 2 ^ 40 := Nat.shiftLeft_eq a 40
  have h2 : b <<< 32 = b * 2 ^ 32 := Nat.shiftLeft_eq b 32
  have h3 : c <<< 24 = c * 2 ^ 24 := Nat.shiftLeft_eq c 24
  simp only [packTime, BitVec.ofInt_natCast, BitVec.toNat_or,
    BitVec.toNat_shiftLeft, BitVec.toNat_ofNat]
  rw [Nat.mod_eq_of_lt (by omega : a < 2 ^ 64), Nat.mod_eq_of_lt (by omega : b < 2 ^ 64),
    Nat.mod_eq_of_lt (by omega : c < 2 ^ 64), Nat.mod_eq_of_lt (by omega : e < 2 ^ 64),
    Nat.mod_eq_of_lt (by omega : a <<< 40 < 2 ^ 64), Nat.mod_eq_of_lt (by omega : b <<< 32 < 2 ^ 64),
    Nat.mod_eq_of_lt (by omega : c <<< 24 < 2 ^ 64), Nat.or_assoc, Nat.or_assoc,
    or_eq_add (by omega : e < 2 ^ 24), or_eq_add (by omega : c * 2 ^ 24 + e < 2 ^ 32),
    or_eq_add (by omega : b * 2 ^ 32 + (c * 2 ^ 24 + e) < 2 ^ 40)]
  omega

theorem Time.fields {T : Time} {a b c e : Nat} (ha : a < 2 ^ 16) (hb : b < 256) (hc : c < 256)
    (he : e < 2 ^ 24) (h : T.word.toNat = a * 2 ^ 40 + b * 2 ^ 32 + c * 2 ^ 24 + e) :
    T.hour = a ∧ T.minute = b ∧ T.second = c ∧ T.microsecond = e := by
  have hs : T.word.toNat < 2 ^ 63 := by omega
  have hmask : ∀ x : Nat, x &&& 255 = x % 256 := fun x => Nat.and_two_pow_sub_one_eq_mod x 8
  have hk : (255 : BitVec 64).toNat = 255 := rfl
  refine ⟨?_, ?_, ?_, ?_⟩
  · have h1 := sshiftRight_small hs 40
    rw [h] at h1
    rw [Time.hour, toInt_small (by omega), h1]
    norm_cast
    omega
  · have h1 := sshiftRight_small hs 32
    rw [h] at h1
    have h2 : (T.word.sshiftRight 32 &&& 255).toNat = b := by
      rw [BitVec.toNat_and, h1, hk, hmask]; omega
    rw [Time.minute, toInt_small (by omega), h2]
  · have h1 := sshiftRight_small hs 24
    rw [h] at h1
    have h2 : (T.word.sshiftRight 24 &&& 255).toNat = c := by
      rw [BitVec.toNat_and, h1, hk, hmask]; omega
    rw [Time.second, toInt_small (by omega), h2]
  · have h2 : (T.word &&& 0xFFFFFF).toNat = e := by
      rw [BitVec.toNat_and, h, show (0xFFFFFF : BitVec 64).toNat = 2 ^ 24 - 1 from rfl,
        Nat.and_two_pow_sub_one_eq_mod]
      omega
    rw [Time.microsecond, toInt_small (by omega), h2]

theorem packTime_word {h mi s us : Int} (v : ValidTime h mi s us) :
    ((packTime h mi s us).word.toNat : Int) = h * 2 ^ 40 + mi * 2 ^ 32 + s * 2 ^ 24 + us := by
  obtain ⟨h1, h2, h3, h4⟩ := v
  obtain ⟨a, rfl⟩ := Int.eq_ofNat_of_zero_le h1.1
  obtain ⟨b, rfl⟩ := Int.eq_ofNat_of_zero_le h2.1
  obtain ⟨c, rfl⟩ := Int.eq_ofNat_of_zero_le h3.1
  obtain ⟨e, rfl⟩ := Int.eq_ofNat_of_zero_le h4.1
  rw [packTime_nat (by omega) (by omega) (by omega) (by omega)]
  push_cast
  omega

theorem packTime_fields {h mi s us : Int} (v : ValidTime h mi s us) :
    (packTime h mi s us).hour = h ∧ (packTime h mi s us).minute = mi ∧
      (packTime h mi s us).second = s ∧ (packTime h mi s us).microsecond = us := by
  have hw := packTime_word v
  obtain ⟨h1, h2, h3, h4⟩ := v
  obtain ⟨a, rfl⟩ := Int.eq_ofNat_of_zero_le h1.1
  obtain ⟨b, rfl⟩ := Int.eq_ofNat_of_zero_le h2.1
  obtain ⟨c, rfl⟩ := Int.eq_ofNat_of_zero_le h3.1
  obtain ⟨e, rfl⟩ := Int.eq_ofNat_of_zero_le h4.1
  exact Time.fields (by omega) (by omega) (by omega) (by omega) (by exact_mod_cast hw)

theorem timeNew_ok {h mi s us : Int} (v : ValidTime h mi s us) :
    timeNew h mi s us = .ok (packTime h mi s us) := by
  obtain ⟨h1, h2, h3, h4⟩ := v
  simp [timeNew, checkTimeArgs, h1, h2, h3, h4]

theorem timeNew_exc {h mi s us : Int} (v : ¬ ValidTime h mi s us) :
    timeNew h mi s us = .exc .value := by
  simp only [timeNew, checkTimeArgs]
  split_ifs with h1 h2 h3 h4 <;> try rfl
  exact absurd ⟨h1, h2, h3, h4⟩ v

theorem packTime_lt {h mi s us h' mi' s' us' : Int} (v : ValidTime h mi s us)
    (v' : ValidTime h' mi' s' us') :
    (packTime h mi s us).lt (packTime h' mi' s' us') = true ↔
      micros h mi s us < micros h' mi' s' us' := by
  have a := packTime_word v
  have b := packTime_word v'
  obtain ⟨h1, h2, h3, h4⟩ := v
  obtain ⟨h1', h2', h3', h4'⟩ := v'
  have e1 : (packTime h mi s us).word.toInt = (packTime h mi s us).word.toNat :=
    toInt_small (by omega)
  have e2 : (packTime h' mi' s' us').word.toInt = (packTime h' mi' s' us').word.toNat :=
    toInt_small (by omega)
  simp only [Time.lt, BitVec.slt_iff_toInt_lt, e1, e2, a, b, micros]
  rcases Int.lt_trichotomy h h' with q | rfl | q
  · omega
  · rcases Int.lt_trichotomy mi mi' with q | rfl | q
    · omega
    · rcases Int.lt_trichotomy s s' with q | rfl | q <;> omega
    · omega
  · omega

end Codon.Date
