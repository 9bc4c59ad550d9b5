import Verif.IntN.Lemmas
/-!
# C73: integers of any width

The value of an `Int[N]` is `toInt`, that of a `UInt[N]` is `toNat`.  `Int.bmod v (2 ^ N)` is the number of `N` bits that is congruent to `v`, with sign.
-/
namespace Codon.IntN

/-- A number that fits is not changed by wrapping. -/
theorem wrap_fits (N : Nat) (hN : 0 < N) (v : Int) (h1 : -2 ^ (N - 1) ≤ v) (h2 : v < 2 ^ (N - 1)) : v.bmod (2 ^ N) = v := by
  obtain ⟨n, rfl⟩ : ∃ n, N = n + 1 := ⟨N - 1, by omega⟩
  simp only [Nat.add_sub_cancel] at h1 h2
  have e : ((2 ^ (n + 1) : Nat) : Int) = 2 * 2 ^ n := by push_cast; ring
  exact Int.bmod_eq_of_le (by rw [e]; omega) (by rw [e]; omega)

/-! ### Conversions -/

/-- `Int[N]` of a signed number wraps it around. -/
theorem c73_int_of_int {M : Nat} (N : Nat) (x : BitVec M) : (intOfInt N x).toInt = x.toInt.bmod (2 ^ N) := by rw [intOfInt_eq, BitVec.toInt_ofInt]

/-- A number that fits keeps its value. -/
theorem c73_int_of_int_fits {M : Nat} (N : Nat) (x : BitVec M) (hN : 0 < N) (h1 : -2 ^ (N - 1) ≤ x.toInt) (h2 : x.toInt < 2 ^ (N - 1)) : (intOfInt N x).toInt = x.toInt := by
  rw [c73_int_of_int, wrap_fits N hN _ h1 h2]

example : (intOfInt 4 (-3 : BitVec 64)).toInt = -3 ∧ (intOfInt 4 (9 : BitVec 64)).toInt = -7 ∧ (intOfInt 100 (-3 : BitVec 64)).toInt = -3 := by decide

/-- `UInt[N]` of a signed number wraps it around. -/
theorem c73_uint_of_int {M : Nat} (N : Nat) (x : BitVec M) : ((uintOfInt N x).toNat : Int) = x.toInt % 2 ^ N := by
  rw [uintOfInt_eq, BitVec.toNat_ofInt]
  have : (0 : Int) ≤ x.toInt % ((2 ^ N : Nat) : Int) := Int.emod_nonneg _ (by simp)
  rw [Int.toNat_of_nonneg this]; push_cast; rfl

/-- `UInt[N]` of an unsigned number wraps it around. -/
theorem c73_uint_of_uint {M : Nat} (N : Nat) (x : BitVec M) : (uintOfUInt N x).toNat = x.toNat % 2 ^ N := by
  rw [uintOfUInt_eq, BitVec.ofInt_natCast, BitVec.toNat_ofNat]

example : (uintOfInt 8 (-1 : BitVec 64)).toNat = 255 ∧ (uintOfUInt 16 (200 : BitVec 8)).toNat = 200 ∧ (uintOfUInt 4 (200 : BitVec 8)).toNat = 8 := by decide

/-- `int` of an `Int[N]` and of a `UInt[N]`. -/
theorem c73_int {N : Nat} (x : BitVec N) : (intInt x).toInt = x.toInt.bmod (2 ^ 64) ∧ (uintInt x).toInt = (x.toNat : Int).bmod (2 ^ 64) := by
  rw [intInt_eq, uintInt_eq, BitVec.toInt_ofInt, BitVec.toInt_ofInt]; exact ⟨rfl, rfl⟩

example : (intInt (-3 : BitVec 8)).toInt = -3 ∧ (uintInt (200 : BitVec 8)).toInt = 200 := by decide

/-- `Int[N]` of an unsigned number wraps it around.  `_partial`: if it is widened, its highest bit must not be set. -/
theorem c73_int_of_uint_partial {M : Nat} (N : Nat) (x : BitVec M) (h : N ≤ M ∨ x.msb = false) : (intOfUInt N x).toInt = (x.toNat : Int).bmod (2 ^ N) := by
  have e : intOfUInt N x = intOfInt N x := rfl
  rw [e, c73_int_of_int]
  rcases h with h | h
  · rw [BitVec.toInt_eq_toNat_bmod, Int.bmod_bmod_of_dvd (Nat.pow_dvd_pow _ h)]
  · rw [BitVec.toInt_eq_toNat_of_msb h]

example : (intOfUInt 8 (200 : BitVec 8)).toInt = -56 ∧ (intOfUInt 16 (100 : BitVec 8)).toInt = 100 := by decide

/-- Violation: `Int[16](u8(200))` is -56. -/
theorem c73_violation_sext : (200 : BitVec 8).toNat = 200 ∧ (intOfUInt 16 (200 : BitVec 8)).toInt = -56 := by decide

/-! ### Strings -/

/-- A string of digits is converted to the number it denotes, wrapped around; with `-` before it, to the opposite number.  Every other string raises `ValueError`. -/
theorem c73_parse (N : Nat) (s : List (BitVec 8)) :
    parse N (45#8 :: s) = (if s.all isDigit then .ok (BitVec.ofInt N (-(digits s : Int))) else .error .value) ∧
    (s.head? ≠ some 45#8 → parse N s = if s.all isDigit then .ok (BitVec.ofInt N (digits s)) else .error .value) := by
  have h0 : lit N 0 = BitVec.ofInt N 0 := lit_eq N 0 (by decide) (by decide)
  have h1 : lit N 1 = BitVec.ofInt N 1 := lit_eq N 1 (by decide) (by decide)
  have h2 : lit N (-1) = BitVec.ofInt N (-1) := lit_eq N (-1) (by decide) (by decide)
  constructor
  · rw [parse, h0, parseLoop_eq, h2]
    by_cases h : s.all isDigit = true
    · rw [if_pos h, if_pos h]
      simp only [Except.map, ← BitVec.ofInt_mul]
      congr 2; ring
    · rw [if_neg h, if_neg h]; rfl
  · intro hs
    have e : parse N s = (parseLoop N s (lit N 0)).map fun r => lit N 1 * r := by
      unfold parse
      split
      · simp at hs
      · rfl
    rw [e, h0, parseLoop_eq, h1]
    by_cases h : s.all isDigit = true
    · rw [if_pos h, if_pos h]
      simp only [Except.map, ← BitVec.ofInt_mul]
      congr 2; ring
    · rw [if_neg h, if_neg h]; rfl

example : digits [49, 50, 51] = 123 ∧ parse 8 [45, 49, 50, 51] = .ok (-123) ∧ parse 8 [51, 48, 48] = .ok 44 ∧ parse 8 [49, 43] = .error .value := by decide

/-- Violation: strings without digits are accepted, and those with `+`, which `int` accepts, are not. -/
theorem c73_violation_parse : parse 32 [] = .ok 0 ∧ parse 32 [45] = .ok 0 ∧ parse 32 [43, 49] = .error .value := by decide

/-! ### Division -/

theorem toInt_bounds {N : Nat} (hN : 0 < N) (x : BitVec N) : -2 ^ (N - 1) ≤ x.toInt ∧ x.toInt < 2 ^ (N - 1) := ⟨BitVec.le_toInt x, BitVec.toInt_lt⟩

theorem msb_iff {N : Nat} (x : BitVec N) : x.msb = true ↔ x.toInt < 0 := by
  rw [← BitVec.slt_zero_iff_msb_cond, BitVec.slt_iff_toInt_lt, BitVec.toInt_zero]

/-- `divmod` of signed numbers rounds down, as in Python. -/
theorem c73_divmod {N : Nat} (x y : BitVec N) (hy : y.toInt ≠ 0) (ho : ¬(x = BitVec.intMin N ∧ y = -1#N)) :
    ∃ d m, sdivmod x y = some (d, m) ∧ d.toInt = x.toInt.fdiv y.toInt ∧ m.toInt = x.toInt.fmod y.toInt := by
  have hN : 0 < N := by
    rcases Nat.eq_zero_or_pos N with h | h
    · subst h
      have := BitVec.eq_nil y; subst this
      simp at hy
    · exact h
  have hy0 : y ≠ 0#N := fun h => hy (by rw [h, BitVec.toInt_zero])
  obtain ⟨hx1, hx2⟩ := toInt_bounds hN x
  obtain ⟨hy1, hy2⟩ := toInt_bounds hN y
  have hd : (x.sdiv y).toInt = x.toInt.tdiv y.toInt := BitVec.toInt_sdiv_of_ne_or_ne x y (by
    by_cases h : x = BitVec.intMin N
    · exact Or.inr fun h' => ho ⟨h, h'⟩
    · exact Or.inl h)
  have hmul := Int.tmod_add_mul_tdiv x.toInt y.toInt
  have habs := Int.natAbs_tmod x.toInt y.toInt
  have hlt : (x.toInt.tmod y.toInt).natAbs < y.toInt.natAbs := by
    rw [habs]; exact Nat.mod_lt _ (by omega)
  have hm : (x - x.sdiv y * y).toInt = x.toInt.tmod y.toInt := by
    rw [BitVec.toInt_sub, BitVec.toInt_mul, hd, Int.sub_bmod_bmod, Int.mul_comm]
    rw [show x.toInt - y.toInt * x.toInt.tdiv y.toInt = x.toInt.tmod y.toInt by omega]
    exact wrap_fits N hN _ (by omega) (by omega)
  have hsd : sdiv x y = some (x.sdiv y) := by rw [sdiv, if_neg hy0, if_neg ho]
  have hsx : 0 ≤ x.toInt → 0 ≤ x.toInt.tmod y.toInt := fun h => Int.tmod_nonneg _ h
  rw [sdivmod, hsd]
  dsimp only
  rw [lit_zero, lit_one]
  have hcond : (x - x.sdiv y * y ≠ 0#N ∧ (y ^^^ (x - x.sdiv y * y)).slt 0#N = true) ↔ (x.toInt.tmod y.toInt ≠ 0 ∧ (y.toInt < 0 ↔ ¬ x.toInt.tmod y.toInt < 0)) := by
    have e1 : (x - x.sdiv y * y ≠ 0#N) ↔ x.toInt.tmod y.toInt ≠ 0 := by
      rw [← hm, Ne, Ne, ← BitVec.toInt_inj, BitVec.toInt_zero]
    rw [e1, BitVec.slt_zero_iff_msb_cond, BitVec.msb_xor, ← hm, ← msb_iff, ← msb_iff]
    cases y.msb <;> cases (x - x.sdiv y * y).msb <;> simp
  generalize hr : x.toInt.tmod y.toInt = r at *
  generalize hq : x.toInt.tdiv y.toInt = q at *
  by_cases hc : r ≠ 0 ∧ (y.toInt < 0 ↔ ¬ r < 0)
  · rw [if_pos (hcond.mpr hc)]
    refine ⟨_, _, rfl, ?_⟩
    have e1 : (x - x.sdiv y * y + y).toInt = r + y.toInt := by
      rw [BitVec.toInt_add, hm]
      exact wrap_fits N hN _ (by omega) (by omega)
    have hq2 : q.natAbs * 2 ≤ x.toInt.natAbs := by
      have h1 : q.natAbs = x.toInt.natAbs / y.toInt.natAbs := by rw [← hq, Int.natAbs_tdiv]; rfl
      rw [h1]
      have h2 : 2 ≤ y.toInt.natAbs := by omega
      calc x.toInt.natAbs / y.toInt.natAbs * 2 ≤ x.toInt.natAbs / y.toInt.natAbs * y.toInt.natAbs := Nat.mul_le_mul_left _ h2
        _ ≤ _ := Nat.div_mul_le_self _ _
    have h1N : (1 : BitVec N) = 1#N := rfl
    have e2 : (x.sdiv y - 1#N).toInt = q - 1 := by
      rw [BitVec.toInt_sub, hd]
      have hN2 : 2 ≤ N := by
        rcases Nat.lt_or_ge N 2 with h | h
        · exfalso
          have : N = 1 := by omega
          subst this
          simp at hy1 hy2
          omega
        · exact h
      have h1 : (1#N).toInt = 1 := by
        rw [BitVec.toInt_eq_toNat_of_lt, BitVec.toNat_ofNat, Nat.mod_eq_of_lt]
        · rfl
        · have : 2 ^ 2 ≤ 2 ^ N := Nat.pow_le_pow_right (by decide) hN2
          omega
        · have : 2 ^ 2 ≤ 2 ^ N := Nat.pow_le_pow_right (by decide) hN2
          rw [BitVec.toNat_ofNat, Nat.mod_eq_of_lt (by omega)]; omega
      rw [h1]
      exact wrap_fits N hN _ (by omega) (by omega)
    rw [e1, e2]
    have hres : r + y.toInt + y.toInt * (q - 1) = x.toInt := by
      rw [Int.mul_sub]; omega
    rcases Int.lt_or_gt_of_ne hy with hneg | hpos
    · have := (Int.fdiv_fmod_unique' (a := x.toInt) (b := y.toInt) (r := r + y.toInt) (q := q - 1) hneg).mpr ⟨hres, by omega, by omega⟩
      exact ⟨this.1.symm, this.2.symm⟩
    · have := (Int.fdiv_fmod_unique (a := x.toInt) (b := y.toInt) (r := r + y.toInt) (q := q - 1) hpos).mpr ⟨hres, by omega, by omega⟩
      exact ⟨this.1.symm, this.2.symm⟩
  · rw [if_neg (fun h => hc (hcond.mp h))]
    refine ⟨_, _, rfl, ?_⟩
    rw [hd, hm]
    rcases Int.lt_or_gt_of_ne hy with hneg | hpos
    · have := (Int.fdiv_fmod_unique' (a := x.toInt) (b := y.toInt) (r := r) (q := q) hneg).mpr ⟨hmul, by omega, by omega⟩
      exact ⟨this.1.symm, this.2.symm⟩
    · have := (Int.fdiv_fmod_unique (a := x.toInt) (b := y.toInt) (r := r) (q := q) hpos).mpr ⟨hmul, by omega, by omega⟩
      exact ⟨this.1.symm, this.2.symm⟩

example : sdivmod (-7 : BitVec 8) 2 = some (-4, 1) ∧ sdivmod (7 : BitVec 8) (-2) = some (-4, -1) ∧ sdivmod (-128 : BitVec 8) 3 = some (-43, 1) := by decide

/-- Division by zero is not defined, nor is the one division that overflows. -/
theorem c73_divmod_undefined {N : Nat} (x y : BitVec N) : sdivmod x y = none ↔ y = 0#N ∨ (x = BitVec.intMin N ∧ y = -1#N) := by
  unfold sdivmod sdiv
  by_cases h1 : y = 0#N
  · rw [if_pos h1]; simp [h1]
  · rw [if_neg h1]
    by_cases h2 : x = BitVec.intMin N ∧ y = -1#N
    · rw [if_pos h2]; simp [h2]
    · rw [if_neg h2]
      dsimp only
      split <;> simp only [reduceCtorEq, false_iff] <;> rintro (h | h)
      · exact h1 h
      · exact h2 h
      · exact h1 h
      · exact h2 h

example : sdivmod (-128 : BitVec 8) (-1) = none := by decide

/-- `divmod` of unsigned numbers. -/
theorem c73_udivmod {N : Nat} (x y : BitVec N) (hy : y.toNat ≠ 0) : ∃ d m, udivmod x y = some (d, m) ∧ d.toNat = x.toNat / y.toNat ∧ m.toNat = x.toNat % y.toNat :=
  ⟨_, _, by rw [udivmod, if_neg fun h => hy (by rw [h]; rfl)], BitVec.toNat_udiv, BitVec.toNat_umod⟩

example : udivmod (200 : BitVec 8) 7 = some (28, 4) := by decide

/-! ### Shifts and powers -/

/-- Shifts multiply or divide by powers of two, rounding down. -/
theorem c73_shifts {N : Nat} (x y : BitVec N) (h : y.toNat < N) :
    ∃ a b c, shl x y = some a ∧ ashr x y = some b ∧ lshr x y = some c ∧ a.toInt = (x.toInt * 2 ^ y.toNat).bmod (2 ^ N) ∧ b.toInt = x.toInt / 2 ^ y.toNat ∧ c.toNat = x.toNat / 2 ^ y.toNat := by
  refine ⟨_, _, _, by rw [shl, if_pos h], by rw [ashr, if_pos h], by rw [lshr, if_pos h], ?_, ?_, ?_⟩
  · rw [BitVec.toInt_eq_toNat_bmod, BitVec.toNat_shiftLeft, Nat.shiftLeft_eq, BitVec.toInt_eq_toNat_bmod]
    push_cast
    have := Int.emod_bmod (x := (x.toNat : Int) * 2 ^ y.toNat) (n := 2 ^ N)
    push_cast at this
    rw [this, Int.bmod_mul_bmod]
  · rw [BitVec.toInt_sshiftRight, Int.shiftRight_eq_div_pow]; push_cast; rfl
  · rw [BitVec.toNat_ushiftRight, Nat.shiftRight_eq_div_pow]

example : shl (3 : BitVec 8) 2 = some 12 ∧ ashr (-5 : BitVec 8) 1 = some (-3) ∧ lshr (200 : BitVec 8) 3 = some 25 ∧ shl (3 : BitVec 8) 8 = none := by decide

theorem pow_fuel {N : Nat} (e : BitVec N) : e.toNat < 2 ^ (N + 1) := by
  have := e.isLt
  rw [Nat.pow_succ]; omega

/-- Powers of unsigned numbers, of at least two bits. -/
theorem c73_upow {N : Nat} (hN : 2 ≤ N) (x e : BitVec N) : ∃ r, upow x e = some r ∧ r.toNat = x.toNat ^ e.toNat % 2 ^ N := by
  obtain ⟨r, h1, h2⟩ := powLoop_eq hN lshr (fun _ => True) (fun e _ => lshr_one hN e) (N + 1) x e 1#N trivial (pow_fuel e) (by omega)
  refine ⟨r, by rw [upow, lit_one]; exact h1, ?_⟩
  rw [h2, BitVec.toNat_ofNat, Nat.mod_eq_of_lt (a := 1), Nat.one_mul]
  have : 2 ^ 2 ≤ 2 ^ N := Nat.pow_le_pow_right (by decide) hN
  omega

/-- Powers of signed numbers; a negative exponent gives 0. -/
theorem c73_pow_partial {N : Nat} (hN : 2 ≤ N) (x e : BitVec N) :
    ∃ r, spow x e = some r ∧ r.toInt = if e.toInt < 0 then 0 else (x.toInt ^ e.toInt.toNat).bmod (2 ^ N) := by
  rw [spow, lit_zero]
  by_cases he : e.toInt < 0
  · have : e.slt 0#N = true := by rw [BitVec.slt_iff_toInt_lt, BitVec.toInt_zero]; exact he
    rw [if_pos this, if_pos he]
    exact ⟨_, rfl, BitVec.toInt_zero⟩
  · have h0 : ¬ e.slt 0#N = true := by rw [BitVec.slt_iff_toInt_lt, BitVec.toInt_zero]; exact he
    have hmsb : e.msb = false := by
      rw [← Bool.not_eq_true, msb_iff]; exact he
    rw [if_neg h0, if_neg he]
    obtain ⟨r, h1, h2⟩ := powLoop_eq hN ashr (fun e => e.msb = false) (fun e h => ashr_one hN e h) (N + 1) x e 1#N hmsb (pow_fuel e) (by omega)
    refine ⟨r, by rw [lit_one]; exact h1, ?_⟩
    have h3 : 2 ^ 2 ≤ 2 ^ N := Nat.pow_le_pow_right (by decide) hN
    rw [BitVec.toInt_eq_toNat_bmod, h2, BitVec.toNat_ofNat, Nat.mod_eq_of_lt (a := 1) (by omega), Nat.one_mul, BitVec.toInt_eq_toNat_of_msb hmsb, Int.toNat_natCast, BitVec.toInt_eq_toNat_bmod]
    rw [Int.natCast_emod, Int.emod_bmod]
    push_cast
    have : ∀ n : Nat, (((x.toNat : Int).bmod (2 ^ N)) ^ n).bmod (2 ^ N) = ((x.toNat : Int) ^ n).bmod (2 ^ N) := by
      intro n
      induction n with
      | zero => rw [pow_zero, pow_zero]
      | succ n ih =>
        rw [pow_succ, pow_succ, Int.mul_bmod_bmod, ← Int.bmod_mul_bmod, ih, Int.bmod_mul_bmod]
    exact (this _).symm

example : spow (-3 : BitVec 8) 3 = some (-27) ∧ spow (2 : BitVec 8) 7 = some (-128) ∧ upow (3 : BitVec 8) 5 = some 243 ∧ spow (2 : BitVec 8) (-1) = some 0 := by decide

/-- Violation: for one bit, the loop shifts by the width, which is not defined. -/
theorem c73_violation_pow : upow (1 : BitVec 1) 1 = none ∧ spow (1 : BitVec 1) 0 = none := by decide

/-! ### Counting bits -/

theorem cnt_le (f : Nat → Bool) (n : Nat) : (List.range n).countP f ≤ n := by
  have := List.countP_le_length (p := f) (l := List.range n)
  rwa [List.length_range] at this

theorem lt_two_pow_pred (N : Nat) (h : 3 ≤ N) : N < 2 ^ (N - 1) := by
  induction N with
  | zero => omega
  | succ n ih =>
    rcases Nat.lt_or_ge n 3 with hn | hn
    · have : n = 2 := by omega
      subst this; decide
    · have := ih hn
      rw [show n + 1 - 1 = (n - 1) + 1 by omega, Nat.pow_succ]; omega

/-- `popcnt` is the number of bits that are set.  `_partial`: for at least three bits. -/
theorem c73_popcnt_partial {N : Nat} (h : 3 ≤ N) (hN : N < 2 ^ 63) (x : BitVec N) : (popcnt x).toInt = (List.range N).countP fun i => x.getLsbD i := by
  have h1 := cnt_le (fun i => x.getLsbD i) N
  have h2 := lt_two_pow_pred N h
  have h3 : 2 ^ N = 2 * 2 ^ (N - 1) := by rw [← Nat.pow_succ']; congr 1; omega
  have ht : (ctpop x).toInt = ((List.range N).countP fun i => x.getLsbD i : Nat) := by
    rw [BitVec.toInt_eq_toNat_of_lt, ctpop, BitVec.toNat_ofNat, Nat.mod_eq_of_lt (by omega)]
    rw [ctpop, BitVec.toNat_ofNat, Nat.mod_eq_of_lt (by omega)]; omega
  rw [popcnt, (c73_int _).1, ht]
  exact Int.bmod_eq_of_le (by omega) (by omega)

example : (popcnt (0xb5 : BitVec 8)).toInt = 5 := by decide

/-- Violation: the number of bits does not fit in one or two bits with sign. -/
theorem c73_violation_popcnt : (popcnt (1 : BitVec 1)).toInt = -1 ∧ (popcnt (3 : BitVec 2)).toInt = -2 := by decide

theorem log2_bound {N : Nat} (x : BitVec N) (hx : x ≠ 0#N) : Nat.log2 x.toNat < N := by
  have : x.toNat ≠ 0 := fun h => hx (BitVec.eq_of_toNat_eq (by rw [h]; rfl))
  exact (Nat.log2_lt this).mpr x.isLt

theorem bits_of {N : Nat} (hN : N < 2 ^ 63) (x : BitVec N) (hx : x ≠ 0#N) (conv : BitVec N → BitVec 64) (hc : ∀ c : Nat, c < N → conv (BitVec.ofNat N c) = BitVec.ofNat 64 c) :
    ∃ c, ctlz x = some c ∧ (BitVec.ofNat 64 N - conv c).toInt = Nat.log2 x.toNat + 1 := by
  have h1 := log2_bound x hx
  refine ⟨_, by rw [ctlz, if_neg hx], ?_⟩
  rw [hc _ (by omega), BitVec.toInt_sub]
  have e : ∀ k : Nat, k < 2 ^ 63 → (BitVec.ofNat 64 k).toInt = k := fun k hk => by
    rw [BitVec.toInt_eq_toNat_of_lt, BitVec.toNat_ofNat, Nat.mod_eq_of_lt (by omega)]
    rw [BitVec.toNat_ofNat, Nat.mod_eq_of_lt (by omega)]; omega
  rw [e _ (by omega), e _ (by omega), show ((N : Int) - ((N - 1 - Nat.log2 x.toNat : Nat) : Int)) = Nat.log2 x.toNat + 1 by omega]
  exact Int.bmod_eq_of_le (by omega) (by omega)

/-- `bit_length` of unsigned numbers: the smallest number of bits that is sufficient. -/
theorem c73_ubit_length {N : Nat} (hN : N < 2 ^ 63) (x : BitVec N) : ∃ b k, ubitLength x = some b ∧ b.toInt = (k : Nat) ∧ x.toNat < 2 ^ k ∧ (x.toNat ≠ 0 → 2 ^ (k - 1) ≤ x.toNat) ∧ (x.toNat = 0 → k = 0) := by
  rw [ubitLength]
  by_cases hx : x = 0#N
  · rw [if_pos hx]
    exact ⟨_, 0, rfl, rfl, by rw [hx]; simp, fun h => absurd (by rw [hx]; rfl) h, fun _ => rfl⟩
  · rw [if_neg hx]
    have h0 : x.toNat ≠ 0 := fun h => hx (BitVec.eq_of_toNat_eq (by rw [h]; rfl))
    obtain ⟨c, h1, h2⟩ := bits_of hN x hx uintInt fun c hc => by
      rw [uintInt_eq, BitVec.toNat_ofNat, Nat.mod_eq_of_lt (Nat.lt_trans hc Nat.lt_two_pow_self), BitVec.ofInt_natCast]
    rw [h1]
    exact ⟨_, Nat.log2 x.toNat + 1, rfl, h2, Nat.lt_log2_self, fun _ => by rw [Nat.add_sub_cancel]; exact Nat.log2_self_le h0, fun h => absurd h h0⟩

/-- `bit_length` of signed numbers: that of the absolute value. -/
theorem c73_bit_length {N : Nat} (hN : N < 2 ^ 63) (x : BitVec N) :
    ∃ b k, bitLength x = some b ∧ b.toInt = (k : Nat) ∧ x.toInt.natAbs < 2 ^ k ∧ (x.toInt ≠ 0 → 2 ^ (k - 1) ≤ x.toInt.natAbs) ∧ (x.toInt = 0 → k = 0) := by
  rw [bitLength]
  by_cases hx : x = 0#N
  · rw [if_pos hx]
    exact ⟨_, 0, rfl, rfl, by rw [hx, BitVec.toInt_zero]; decide, fun h => absurd (by rw [hx, BitVec.toInt_zero]) h, fun _ => rfl⟩
  · rw [if_neg hx]
    have habs : (sabs x).toNat = x.toInt.natAbs := by
      rw [sabs]
      by_cases hs : x.slt 0#N = true
      · rw [if_pos hs]
        have hm : x.msb = true := by rw [← BitVec.slt_zero_iff_msb_cond]; exact hs
        have hi := BitVec.toInt_eq_msb_cond x
        rw [hm, if_pos rfl] at hi
        have h0 : x.toNat ≠ 0 := fun h => hx (BitVec.eq_of_toNat_eq (by rw [h]; rfl))
        have := x.isLt
        rw [BitVec.toNat_neg, Nat.mod_eq_of_lt (by omega), hi]
        omega
      · rw [if_neg hs]
        have hm : x.msb = false := by rw [← Bool.not_eq_true, ← BitVec.slt_zero_iff_msb_cond]; exact hs
        rw [BitVec.toInt_eq_toNat_of_msb hm]; rfl
    have hne : x.toInt ≠ 0 := fun h => hx (BitVec.eq_of_toInt_eq (by rw [h, BitVec.toInt_zero]))
    have hs0 : sabs x ≠ 0#N := fun h => by rw [h] at habs; simp at habs; omega
    obtain ⟨c, h1, h2⟩ := bits_of hN (sabs x) hs0 intInt fun c hc => by
      rw [intInt_eq, BitVec.toInt_eq_toNat_of_lt, BitVec.toNat_ofNat, Nat.mod_eq_of_lt (Nat.lt_trans hc Nat.lt_two_pow_self), BitVec.ofInt_natCast]
      rw [BitVec.toNat_ofNat, Nat.mod_eq_of_lt (Nat.lt_trans hc Nat.lt_two_pow_self)]
      have h3 : N - 1 < 2 ^ (N - 1) := Nat.lt_two_pow_self
      have h4 : 2 ^ N = 2 * 2 ^ (N - 1) := by rw [← Nat.pow_succ']; congr 1; omega
      omega
    rw [h1]
    refine ⟨_, Nat.log2 (sabs x).toNat + 1, rfl, h2, ?_, fun _ => ?_, fun h => absurd h hne⟩
    · rw [← habs]; exact Nat.lt_log2_self
    · rw [Nat.add_sub_cancel, ← habs]
      exact Nat.log2_self_le (by omega)

example : bitLength (-128 : BitVec 8) = some 8 ∧ bitLength (-5 : BitVec 8) = some 3 ∧ ubitLength (200 : BitVec 8) = some 8 := by decide

end Codon.IntN
