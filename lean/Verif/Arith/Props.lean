import Verif.Arith.Lemmas

/-!
C01: folding an integer operator on two literals produces the literal that the compiled operator
would have produced at run time.
-/
namespace Codon.Arith

/-- The meaning of an operator over unbounded integers, written independently of the model:
Python's meaning except that without `-numerics=py` Codon documents C semantics for `//` and `%`,
and a negative exponent gives 0.  `none`: no value (zero divisor, shift amount outside `[0,64)`). -/
def meaning (py : Bool) (o : BinOp) (a b : Int) : Option (Int ⊕ Bool) :=
  match o with
  | .add => some (.inl (a + b))
  | .sub => some (.inl (a - b))
  | .mul => some (.inl (a * b))
  | .floordiv => if b = 0 then none else some (.inl (if py then a.fdiv b else a.tdiv b))
  | .mod => if b = 0 then none else some (.inl (if py then a.fmod b else a.tmod b))
  | .shl => if 0 ≤ b ∧ b < 64 then some (.inl (a * 2 ^ b.toNat)) else none
  | .shr => if 0 ≤ b ∧ b < 64 then some (.inl (a.fdiv (2 ^ b.toNat))) else none
  | .pow => some (.inl (if b < 0 then 0 else a ^ b.toNat))
  | .eq => some (.inr (decide (a = b)))
  | .ne => some (.inr (decide (a ≠ b)))
  | .gt => some (.inr (decide (a > b)))
  | .ge => some (.inr (decide (a ≥ b)))
  | .lt => some (.inr (decide (a < b)))
  | .le => some (.inr (decide (a ≤ b)))
  | .xor | .or | .and => none

/-- Reduce a mathematical result to the 64-bit literal denoting it. -/
def wrapLit : Int ⊕ Bool → Lit
  | .inl z => .int (BitVec.ofInt 64 z)
  | .inr b => .bool b

/-- **C01 (partial).**  Whenever constant folding is itself defined and yields a literal, the
run-time operation on the same operands is defined and yields exactly that literal, for every
operator, both numerics modes and all operands.  Missing for the full claim: operands whose
compile-time C++ operation is undefined (signed overflow), see
`c01_violation_host_overflow`. -/
theorem c01_fold_agrees_with_run_partial (py : Bool) (o : BinOp) (a b : I64) (r : Lit)
    (h : foldBin py o a b = some (.val r)) : runBin py o a b = .val r := by
  have arith : ∀ {z : Int} {w : I64}, Out.map Lit.int (cxx z) = .val r →
      BitVec.ofInt 64 z = w → Out.val (Lit.int w) = .val r := by
    intro z w hz hw
    unfold cxx at hz
    split at hz
    · rw [← hw]; exact hz
    · cases hz
  cases o <;> simp only [foldBin, runBin] at h ⊢
  case add => exact arith (Option.some.inj h) (ofInt_add a b)
  case sub => exact arith (Option.some.inj h) (ofInt_sub a b)
  case mul => exact arith (Option.some.inj h) (ofInt_mul a b)
  case floordiv =>
    split at h
    · cases h
    · rename_i hb
      unfold Run.floordiv
      cases py
      · simp only [Bool.false_eq_true, if_false] at h ⊢
        rw [← Host.div_eq hb]
        exact Option.some.inj h
      · simp only [if_true] at h ⊢
        rw [if_neg hb, Run.divmod_eq hb]
        have h := Option.some.inj h
        cases hd : Host.pyDivmod a b with
        | val p => rw [hd] at h; exact h
        | ub => rw [hd] at h; cases h
        | zeroDiv => rw [hd] at h; cases h
  case mod =>
    split at h
    · cases h
    · rename_i hb
      unfold Run.mod
      cases py
      · simp only [Bool.false_eq_true, if_false] at h ⊢
        rw [← Host.mod_eq hb]
        exact Option.some.inj h
      · simp only [if_true] at h ⊢
        rw [if_neg hb, Run.divmod_eq hb]
        have h := Option.some.inj h
        cases hd : Host.pyDivmod a b with
        | val p => rw [hd] at h; exact h
        | ub => rw [hd] at h; cases h
        | zeroDiv => rw [hd] at h; cases h
  case shl => rw [← Host.shl_eq]; exact Option.some.inj h
  case shr => rw [← Host.shr_eq]; exact Option.some.inj h
  case pow =>
    have h := Option.some.inj h
    unfold Host.pow at h
    unfold Run.pow
    split at h
    · rw [if_pos (by assumption)]; exact h
    · rw [if_neg (by assumption)]
      cases hp : Host.powLoop a 1 b.toInt.toNat with
      | val p =>
        rw [hp] at h
        rw [Host.powLoop_val _ _ _ _ hp]
        exact h
      | ub => rw [hp] at h; cases h
      | zeroDiv => rw [hp] at h; cases h
  case xor => exact Option.some.inj h
  case or => exact Option.some.inj h
  case and => exact Option.some.inj h
  case eq =>
    rw [← Option.some.inj h]
    simp [BitVec.toInt_inj, beq_eq_decide]
  case ne =>
    rw [← Option.some.inj h]
    simp [BitVec.toInt_inj, bne, beq_eq_decide]
  case gt => rw [← Option.some.inj h, BitVec.slt_eq_decide]
  case ge => rw [← Option.some.inj h, BitVec.sle_eq_decide]
  case lt => rw [← Option.some.inj h, BitVec.slt_eq_decide]
  case le => rw [← Option.some.inj h, BitVec.sle_eq_decide]

example : foldBin true .floordiv (BitVec.ofInt 64 (-7)) 2 = some (.val (.int (BitVec.ofInt 64 (-4))))
    ∧ foldBin false .floordiv (BitVec.ofInt 64 (-7)) 2 = some (.val (.int (BitVec.ofInt 64 (-3))))
    ∧ foldBin false .pow 3 20 = some (.val (.int 3486784401)) := by
  refine ⟨by decide, by decide, ?_⟩
  simp [foldBin, Host.pow, Host.powLoop, Host.mul, cxx, fits, Out.map]

theorem shl_meaning (a b : I64) (h : b.toNat < 64) :
    a <<< b.toNat = BitVec.ofInt 64 (a.toInt * 2 ^ b.toNat) := by
  rw [BitVec.ofInt_mul, BitVec.ofInt_toInt]
  apply BitVec.eq_of_toNat_eq
  rw [BitVec.toNat_shiftLeft, BitVec.toNat_mul, Nat.shiftLeft_eq]
  congr 2
  have h2 : (2 : Int) ^ b.toNat = ((2 ^ b.toNat : Nat) : Int) := by norm_num
  rw [h2, BitVec.ofInt_natCast, BitVec.toNat_ofNat, Nat.mod_eq_of_lt]
  exact Nat.pow_lt_pow_right (by omega) h

theorem shr_meaning (a b : I64) :
    a.sshiftRight b.toNat = BitVec.ofInt 64 (a.toInt.fdiv (2 ^ b.toNat)) := by
  apply BitVec.eq_of_toInt_eq
  rw [BitVec.toInt_sshiftRight]
  have h2 : a.toInt >>> b.toNat = a.toInt.fdiv (2 ^ b.toNat) := by
    rw [Int.shiftRight_eq_div_pow, Int.fdiv_eq_ediv_of_nonneg _ (by positivity)]
    norm_num
  rw [h2]
  rw [toInt_ofInt_of_fits]
  rw [← h2]
  have := fits_toInt (a.sshiftRight b.toNat)
  rwa [BitVec.toInt_sshiftRight] at this

/-- Run-time meaning: the compiled operator returns the mathematical result reduced to 64 bits
(the single exception being the overflowing quotient `-2^63 // -1`, undefined in LLVM). -/
theorem c01_run_meaning (py : Bool) (o : BinOp) (a b : I64) (z : Int ⊕ Bool)
    (hm : meaning py o a.toInt b.toInt = some z)
    (hq : (o = .floordiv ∨ o = .mod) → ¬ (a = BitVec.intMin 64 ∧ b = -1)) :
    runBin py o a b = .val (wrapLit z) := by
  cases o <;> simp only [meaning, runBin] at hm ⊢
  case add => rw [← Option.some.inj hm]; simp [wrapLit, BitVec.ofInt_add]
  case sub => rw [← Option.some.inj hm]; simp only [wrapLit]; rw [ofInt_sub]
  case mul => rw [← Option.some.inj hm]; simp [wrapLit, BitVec.ofInt_mul]
  case floordiv =>
    split at hm
    · cases hm
    · rename_i hb0
      have hb : b ≠ 0 := fun h => hb0 (toInt_eq_zero.2 h)
      have hn := hq (Or.inl rfl)
      rw [← Option.some.inj hm]
      unfold Run.floordiv
      cases py
      · simp only [Bool.false_eq_true, if_false, wrapLit]
        unfold Run.sdiv
        rw [if_neg (by tauto), ofInt_tdiv hb hn]
        rfl
      · simp only [if_true, wrapLit]
        rw [if_neg hb, Run.divmod_eq hb, Host.pyDivmod_spec hb hn]
        rfl
  case mod =>
    split at hm
    · cases hm
    · rename_i hb0
      have hb : b ≠ 0 := fun h => hb0 (toInt_eq_zero.2 h)
      have hn := hq (Or.inr rfl)
      rw [← Option.some.inj hm]
      unfold Run.mod
      cases py
      · simp only [Bool.false_eq_true, if_false, wrapLit]
        unfold Run.srem
        rw [if_neg (by tauto), ofInt_tmod]
        rfl
      · simp only [if_true, wrapLit]
        rw [if_neg hb, Run.divmod_eq hb, Host.pyDivmod_spec hb hn]
        rfl
  case shl =>
    split at hm
    · rename_i h
      have hs := shift_amount h
      rw [← Option.some.inj hm]
      simp only [Run.shl, wrapLit, if_pos hs.1, Out.map, shl_meaning a b hs.1, hs.2]
    · cases hm
  case shr =>
    split at hm
    · rename_i h
      have hs := shift_amount h
      rw [← Option.some.inj hm]
      simp only [Run.shr, wrapLit, if_pos hs.1, Out.map, shr_meaning a b, hs.2]
    · cases hm
  case pow =>
    rw [← Option.some.inj hm]
    unfold Run.pow
    simp only [wrapLit]
    split
    · rfl
    · rw [Run.powLoop_spec, show (1 : I64).toInt = 1 from rfl, Int.one_mul]
  case eq => rw [← Option.some.inj hm]; simp [wrapLit, BitVec.toInt_inj, beq_eq_decide]
  case ne => rw [← Option.some.inj hm]; simp [wrapLit, BitVec.toInt_inj, bne, beq_eq_decide]
  case gt => rw [← Option.some.inj hm, BitVec.slt_eq_decide]; rfl
  case ge => rw [← Option.some.inj hm, BitVec.sle_eq_decide]; rfl
  case lt => rw [← Option.some.inj hm, BitVec.slt_eq_decide]; rfl
  case le => rw [← Option.some.inj hm, BitVec.sle_eq_decide]; rfl
  case xor => cases hm
  case or => cases hm
  case and => cases hm

example : meaning true .mod (-7) 2 = some (.inl 1) ∧ meaning false .mod (-7) 2 = some (.inl (-1)) := by
  decide

/-- Folding is defined whenever the mathematical result is representable; in particular the
repeated squaring of `int_pow` never overflows before the result itself does. -/
theorem c01_fold_defined (py : Bool) (o : BinOp) (a b : I64) (z : Int)
    (hm : meaning py o a.toInt b.toInt = some (.inl z)) (hf : fits z = true)
    (hq : o = .mod → ¬ (a = BitVec.intMin 64 ∧ b = -1)) :
    foldBin py o a b = some (.val (.int (BitVec.ofInt 64 z))) := by
  cases o <;> simp only [meaning, foldBin] at hm ⊢
  case add => cases Sum.inl.inj (Option.some.inj hm); simp [Host.add, cxx_of_fits hf, Out.map]
  case sub => cases Sum.inl.inj (Option.some.inj hm); simp [Host.sub, cxx_of_fits hf, Out.map]
  case mul => cases Sum.inl.inj (Option.some.inj hm); simp [Host.mul, cxx_of_fits hf, Out.map]
  case floordiv =>
    split at hm
    · cases hm
    · rename_i hb0
      have hb : b ≠ 0 := fun h => hb0 (toInt_eq_zero.2 h)
      have hz := Sum.inl.inj (Option.some.inj hm)
      rw [if_neg hb]
      cases py
      · simp only [Bool.false_eq_true, if_false] at hz ⊢
        subst hz
        rw [Host.div, if_neg hb, cxx_of_fits hf]
        rfl
      · simp only [if_true] at hz ⊢
        subst hz
        by_cases hn : a = BitVec.intMin 64 ∧ b = -1
        · obtain ⟨rfl, rfl⟩ := hn
          exact absurd hf (by decide)
        · rw [Host.pyDivmod_spec hb hn]
          rfl
  case mod =>
    split at hm
    · cases hm
    · rename_i hb0
      have hb : b ≠ 0 := fun h => hb0 (toInt_eq_zero.2 h)
      have hz := Sum.inl.inj (Option.some.inj hm)
      rw [if_neg hb]
      have hn := hq rfl
      cases py
      · simp only [Bool.false_eq_true, if_false] at hz ⊢
        subst hz
        rw [Host.mod, if_neg hb, if_pos ((fits_tdiv hb).2 hn)]
        rfl
      · simp only [if_true] at hz ⊢
        subst hz
        rw [Host.pyDivmod_spec hb hn]
        rfl
  case shl =>
    split at hm
    · rename_i h
      have hs := shift_amount h
      rw [← Sum.inl.inj (Option.some.inj hm)]
      simp only [Host.shl, if_pos h, Out.map, hs.2, shl_meaning a b hs.1]
    · cases hm
  case shr =>
    split at hm
    · rename_i h
      have hs := shift_amount h
      rw [← Sum.inl.inj (Option.some.inj hm)]
      simp only [Host.shr, if_pos h, Out.map, hs.2, shr_meaning a b]
    · cases hm
  case pow =>
    have hz := Sum.inl.inj (Option.some.inj hm)
    unfold Host.pow
    split at hz
    · rw [if_pos (by assumption), ← hz]; rfl
    · rw [if_neg (by assumption)]
      have h1 : (1 : I64).toInt = 1 := rfl
      obtain ⟨r, hr⟩ := Host.powLoop_defined b.toInt.toNat a 1 (by simp)
        (by rw [h1, Int.one_mul, hz]; exact hf)
      have hrun := Host.powLoop_val _ _ _ _ hr
      rw [Run.powLoop_spec, h1, Int.one_mul, hz] at hrun
      rw [hr, hrun]
      rfl
  all_goals cases hm

example : meaning false .pow (-2) 63 = some (.inl (-(2 ^ 63))) ∧ fits (-(2 ^ 63)) = true := by
  decide

/-- **C01 violated (overflow).**  There are operands on which the compiled addition (resp.
multiplication, power, negation) is well defined (it wraps) but folding executes a signed C++
overflow, so nothing is guaranteed about the literal it leaves behind. -/
theorem c01_violation_host_overflow :
    (∃ a b, foldBin false .add a b = some .ub ∧
      runBin false .add a b = .val (.int (BitVec.intMin 64))) ∧
    (∃ a b, foldBin false .mul a b = some .ub ∧ ∃ r, runBin false .mul a b = .val r) ∧
    (∃ a, foldUn .neg a = .ub ∧ runUn .neg a = a) := by
  refine ⟨⟨BitVec.intMax 64, 1, by decide, by decide⟩,
    ⟨BitVec.intMax 64, 2, by decide, ?_⟩, ⟨BitVec.intMin 64, by decide, by decide⟩⟩
  exact ⟨_, rfl⟩

/-- **C01, division.**  Folding never removes a division by a zero literal: the call is left for
run time (where it raises with `-numerics=py`). -/
theorem c01_zero_divisor_not_folded (py : Bool) (o : BinOp) (a : I64) :
    foldBin py o a 0 = none ↔ o = .floordiv ∨ o = .mod := by
  cases o <;> simp [foldBin]

example : runBin true .floordiv 5 0 = .zeroDiv ∧ runBin true .mod 5 0 = .zeroDiv := by decide

/-- **C01, unary operators.**  A folded unary operator agrees with the run-time method, and only
the negation of `-2^63` is undefined at compile time. -/
theorem c01_unary (o : UnOp) (a : I64) :
    (∀ r, foldUn o a = .val r → runUn o a = r) ∧
    (foldUn o a = .ub ↔ o = .neg ∧ a = BitVec.intMin 64) := by
  have hneg : fits (-a.toInt) = true ↔ a ≠ BitVec.intMin 64 := by
    have h := fits_toInt a
    rw [fits_iff] at h ⊢
    have hmin : a = BitVec.intMin 64 ↔ a.toInt = -(2 ^ 63) := by
      rw [← BitVec.toInt_inj]
      rfl
    rw [ne_eq, hmin]
    omega
  cases o
  · simp [foldUn, runUn]
  · constructor
    · intro r h
      have := (cxx_val.1 h).2
      rw [this, BitVec.ofInt_neg, BitVec.ofInt_toInt]
      simp [runUn]
    · simp only [foldUn, Host.neg, cxx_ub, hneg]
      simp
  · constructor
    · intro r h
      rw [← Out.val.inj h]
      simp only [runUn]
      rw [show (-1 : I64) = BitVec.allOnes 64 from by decide, BitVec.xor_allOnes]
    · simp [foldUn]

example : foldUn .inv 5 = .val (BitVec.ofInt 64 (-6)) := by decide

end Codon.Arith
