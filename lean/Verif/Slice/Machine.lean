import Verif.Slice.Props

/-!
# C25 on 64-bit integers

`Model.lean` uses unbounded integers.  Here the increment `i += step` of `range.__iter__`
(stdlib/internal/types/range.codon:68-79) is the wrapping 64-bit addition of Codon's `int`
(stdlib/internal/types/int.codon, `__add__` is LLVM `add i64`).
-/
namespace Codon.Slice

/-- The first (at most) `fuel` values yielded by stdlib/internal/types/range.codon:68-79. -/
def iter64 (stop step : BitVec 64) : Nat → BitVec 64 → List (BitVec 64)
  | 0, _ => []
  | fuel + 1, i =>
    if (0 : BitVec 64).slt step then
      if i.slt stop then i :: iter64 stop step fuel (i + step) else []
    else
      if stop.slt i then i :: iter64 stop step fuel (i + step) else []

/-- C25 holds on machine integers as long as the increment after the last element does not
overflow: the yielded values are a prefix of the unbounded progression (and all of it once `fuel`
suffices). -/
theorem c25_iter64_partial (start stop step : BitVec 64) (l : List Int) (fuel : Nat)
    (h : Range.iter ⟨start.toInt, stop.toInt, step.toInt⟩ = some l)
    (hup : stop.toInt + step.toInt ≤ 2 ^ 63) (hdn : -(2 ^ 63) - 1 ≤ stop.toInt + step.toInt) :
    (iter64 stop step fuel start).map BitVec.toInt = l.take fuel := by
  have hslt : ∀ a b : BitVec 64, a.slt b = decide (a.toInt < b.toInt) := fun a b => rfl
  have hb : ∀ x : BitVec 64, -(2 ^ 63) ≤ x.toInt ∧ x.toInt < 2 ^ 63 := by
    intro x
    have h1 := x.toInt_lt
    have h2 := x.le_toInt
    simp at h1 h2
    omega
  have hadd : ∀ x : BitVec 64, -(2 ^ 63) ≤ x.toInt + step.toInt → x.toInt + step.toInt < 2 ^ 63 →
      (x + step).toInt = x.toInt + step.toInt := by
    intro x h1 h2
    rw [BitVec.toInt_add, Int.bmod_def]
    omega
  unfold Range.iter at h
  simp only at h
  have hz : (0 : BitVec 64).toInt = 0 := by decide
  split at h
  · rename_i hp
    injection h with h
    subst h
    induction fuel generalizing start with
    | zero => simp [iter64]
    | succ n ih =>
      unfold iter64 iterUp
      simp only [hslt, hz, hp, decide_true, if_true, decide_eq_true_eq]
      split
      · rename_i hlt
        have := hb start
        have := hb stop
        have e := hadd start (by omega) (by omega)
        rw [List.map_cons, List.take_succ_cons, ih, e]
      · simp
  · rename_i hp
    split at h
    · rename_i hn
      injection h with h
      subst h
      induction fuel generalizing start with
      | zero => simp [iter64]
      | succ n ih =>
        unfold iter64 iterDown
        simp only [hslt, hz, hp, decide_false, Bool.false_eq_true, if_false, decide_eq_true_eq, gt_iff_lt]
        split
        · rename_i hlt
          have := hb start
          have := hb stop
          have e := hadd start (by omega) (by omega)
          rw [List.map_cons, List.take_succ_cons, ih, e]
        · simp
    · simp at h

-- non-vacuity
example : Range.iter ⟨(5 : BitVec 64).toInt, (12 : BitVec 64).toInt, (3 : BitVec 64).toInt⟩ = some [5, 8, 11] := by
  rw [iter_eq_prog _ (by decide)]; decide

/-- The code violates C25 near the end of the 64-bit range: `for i in range(0, 2**63-1, 2**62)`
never terminates (the progression has the two elements 0 and 2^62) ... -/
theorem c25_iter64_violation_nonterminating (fuel : Nat) :
    (iter64 (BitVec.ofInt 64 (2 ^ 63 - 1)) (BitVec.ofInt 64 (2 ^ 62)) fuel 0).length = fuel := by
  have key : ∀ fuel : Nat, ∀ i : BitVec 64,
      (i = 0 ∨ i = BitVec.ofInt 64 (2 ^ 62) ∨ i = BitVec.ofInt 64 (2 ^ 63) ∨ i = BitVec.ofInt 64 (-(2 ^ 62))) →
      (iter64 (BitVec.ofInt 64 (2 ^ 63 - 1)) (BitVec.ofInt 64 (2 ^ 62)) fuel i).length = fuel := by
    intro fuel
    induction fuel with
    | zero => intros; rfl
    | succ n ih =>
      intro i hi
      unfold iter64
      rw [if_pos (by decide)]
      rcases hi with rfl | rfl | rfl | rfl
      · rw [if_pos (by decide), List.length_cons, ih _ (by right; left; decide)]
      · rw [if_pos (by decide), List.length_cons, ih _ (by right; right; left; decide)]
      · rw [if_pos (by decide), List.length_cons, ih _ (by right; right; right; decide)]
      · rw [if_pos (by decide), List.length_cons, ih _ (by left; decide)]
  exact key fuel 0 (Or.inl rfl)

/-- ... and yields values outside the progression. -/
theorem c25_iter64_violation_value :
    (iter64 (BitVec.ofInt 64 (2 ^ 63 - 1)) (BitVec.ofInt 64 (2 ^ 62)) 3 0).map BitVec.toInt
      = [0, 2 ^ 62, -(2 ^ 63)] ∧
    Range.iter ⟨0, 2 ^ 63 - 1, 2 ^ 62⟩ = some [0, 2 ^ 62] := by
  refine ⟨by decide, ?_⟩
  rw [iter_eq_prog _ (by decide)]; decide

end Codon.Slice
