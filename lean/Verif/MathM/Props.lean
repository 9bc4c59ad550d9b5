import Verif.MathM.Model
import Verif.Arith.Lemmas
import Mathlib.Algebra.GCDMonoid.Nat
import Mathlib.Tactic.Linarith

/-! # Property theorems for `math.gcd` and `math.lcm` (C44) -/

namespace Codon.MathM

open Codon.Arith

theorem toInt_bounds (a : I64) : -(2 ^ 63) ≤ a.toInt ∧ a.toInt < 2 ^ 63 := by
  have := (fits_iff _).mp (fits_toInt a)
  exact this

theorem slt_zero (a : I64) : a.slt 0 = true ↔ a.toInt < 0 := by
  rw [BitVec.slt_iff_toInt_lt]; simp

theorem neg_toInt {a : I64} (h : a ≠ BitVec.intMin 64) : (-a).toInt = -a.toInt := by
  rw [BitVec.toInt_neg_of_ne_intMin h]

theorem ne_intMin {a : I64} (h : a.toInt ≠ -(2 ^ 63)) : a ≠ BitVec.intMin 64 := by
  rintro rfl
  exact h (by decide)

theorem abs_toInt {a : I64} (h : a ≠ BitVec.intMin 64) : (abs64 a).toInt = (a.toInt.natAbs : Int) := by
  unfold abs64
  split
  · rename_i hs; rw [slt_zero] at hs; rw [neg_toInt h]; omega
  · rename_i hs; rw [slt_zero] at hs; omega

theorem eq_zero_iff (a : I64) : a = 0 ↔ a.toInt = 0 := toInt_eq_zero.symm

theorem srem_toInt (a b : I64) : (a.srem b).toInt = a.toInt.tmod b.toInt := by
  rw [BitVec.toInt_srem]

theorem gcdLoop_spec : ∀ (n : Nat) (a b : I64), 0 ≤ a.toInt → 0 ≤ b.toInt → a.toInt < n →
    ∃ r, gcdLoop a b n = some r ∧ r.toInt = (Int.gcd a.toInt b.toInt : Int) := by
  intro n
  induction n with
  | zero => intro a b h1 _ h3; omega
  | succ n ih =>
    intro a b ha hb hn
    unfold gcdLoop
    by_cases h0 : a = 0
    · subst h0
      refine ⟨b, by simp, ?_⟩
      rw [show (0 : I64).toInt = 0 from rfl, Int.zero_gcd]
      omega
    · rw [if_pos h0]
      have ha0 : a.toInt ≠ 0 := fun h => h0 ((eq_zero_iff a).mpr h)
      have hm1 : a ≠ -1 := by
        intro h; rw [h] at ha
        exact absurd ha (by decide)
      have hs : srem64 b a = some (b.srem a) := by
        unfold srem64; rw [if_neg (by tauto)]
      rw [hs]
      have e := srem_toInt b a
      rw [Int.tmod_eq_emod_of_nonneg hb] at e
      have l1 := Int.emod_nonneg b.toInt ha0
      have l2 := Int.emod_lt_of_pos b.toInt (show 0 < a.toInt by omega)
      obtain ⟨r, e1, e2⟩ := ih (b.srem a) a (by omega) ha (by omega)
      refine ⟨r, e1, ?_⟩
      rw [e2, e]
      have h3 : (b.toInt % a.toInt).natAbs = b.toInt.natAbs % a.toInt.natAbs := by
        obtain ⟨x, hx⟩ := Int.eq_ofNat_of_zero_le ha
        obtain ⟨y, hy⟩ := Int.eq_ofNat_of_zero_le hb
        rw [hx, hy, ← Int.natCast_mod]
        simp only [Int.natAbs_natCast]
      unfold Int.gcd
      rw [h3, ← Nat.gcd_rec]

theorem gcd2_spec {a b : I64} (ha : a ≠ BitVec.intMin 64) (hb : b ≠ BitVec.intMin 64) :
    ∃ r, gcd2 a b = some r ∧ r.toInt = (Int.gcd a.toInt b.toInt : Int) := by
  have h1 := abs_toInt ha
  have h2 := abs_toInt hb
  obtain ⟨r, e1, e2⟩ := gcdLoop_spec ((abs64 a).toInt.natAbs + 1) (abs64 a) (abs64 b) (by omega)
    (by omega) (by omega)
  refine ⟨r, e1, ?_⟩
  rw [e2, h1, h2]
  simp only [Int.gcd, Int.natAbs_natCast]

/-- `r` is the greatest common divisor of the numbers `xs`: it is not negative and its divisors are
the common divisors. -/
def IsGcd (r : Int) (xs : List Int) : Prop := 0 ≤ r ∧ ∀ d : Int, d ∣ r ↔ ∀ x ∈ xs, d ∣ x

/-- `r` is the least common multiple of the numbers `xs`: it is not negative and its multiples are
the common multiples. -/
def IsLcm (r : Int) (xs : List Int) : Prop := 0 ≤ r ∧ ∀ m : Int, r ∣ m ↔ ∀ x ∈ xs, x ∣ m

/-- The greatest common divisor is determined. -/
theorem IsGcd.unique {r r' : Int} {xs : List Int} (h : IsGcd r xs) (h' : IsGcd r' xs) : r = r' :=
  Int.dvd_antisymm h.1 h'.1 ((h'.2 r).mpr ((h.2 r).mp (Int.dvd_refl r)))
    ((h.2 r').mpr ((h'.2 r').mp (Int.dvd_refl r')))

/-- The least common multiple is determined. -/
theorem IsLcm.unique {r r' : Int} {xs : List Int} (h : IsLcm r xs) (h' : IsLcm r' xs) : r = r' :=
  Int.dvd_antisymm h.1 h'.1 ((h.2 r').mpr ((h'.2 r').mp (Int.dvd_refl r')))
    ((h'.2 r).mpr ((h.2 r).mp (Int.dvd_refl r)))

theorem gcd_isGcd (a b : Int) : IsGcd (Int.gcd a b) [a, b] := by
  refine ⟨by omega, fun d => ?_⟩
  simp only [List.mem_cons, List.not_mem_nil, or_false, forall_eq_or_imp, forall_eq]
  exact Int.dvd_coe_gcd_iff

theorem gcdRest_spec : ∀ (xs : List I64) (res : I64), res ≠ BitVec.intMin 64 →
    (∀ x ∈ xs, x ≠ BitVec.intMin 64) → (xs = [] → 0 ≤ res.toInt) →
    ∃ r, gcdRest res xs = some r ∧ IsGcd r.toInt (res.toInt :: xs.map BitVec.toInt) := by
  intro xs
  induction xs with
  | nil =>
    intro res _ _ h0
    refine ⟨res, rfl, h0 rfl, fun d => by simp⟩
  | cons x xs ih =>
    intro res hr hx _
    unfold gcdRest
    by_cases h1 : res = 1
    · subst h1
      rw [if_pos rfl]
      refine ⟨1, rfl, by decide, fun d => ?_⟩
      have e1 : (1 : I64).toInt = 1 := by decide
      rw [e1]
      constructor
      · intro hd y _
        exact hd.trans (Int.one_dvd y)
      · intro h; exact h 1 List.mem_cons_self
    · rw [if_neg h1]
      obtain ⟨g, g1, g2⟩ := gcd2_spec hr (hx x List.mem_cons_self)
      have hgn : g ≠ BitVec.intMin 64 := ne_intMin (by omega)
      obtain ⟨r, e1, e2, e3⟩ := ih g hgn (fun y hy => hx y (List.mem_cons_of_mem _ hy)) (fun _ => by omega)
      refine ⟨r, by rw [g1]; exact e1, e2, fun d => ?_⟩
      rw [e3 d]
      simp only [List.map_cons, List.mem_cons, forall_eq_or_imp]
      rw [g2, Int.dvd_coe_gcd_iff, and_assoc]

/-- `math.gcd` of any number of arguments other than `-2**63` is defined and is the greatest common
divisor. -/
theorem c44_gcd_partial (xs : List I64) (hx : ∀ x ∈ xs, x ≠ BitVec.intMin 64) :
    ∃ r, gcd xs = some r ∧ IsGcd r.toInt (xs.map BitVec.toInt) := by
  match xs, hx with
  | [], _ => exact ⟨0, rfl, by decide, fun d => by simp⟩
  | [x], hx =>
    refine ⟨abs64 x, rfl, ?_, fun d => ?_⟩
    · rw [abs_toInt (hx x (by simp))]; omega
    · rw [abs_toInt (hx x (by simp)), Int.dvd_natAbs]; simp
  | x :: y :: ys, hx =>
    obtain ⟨r, e1, e2⟩ := gcdRest_spec (y :: ys) x (hx x (by simp))
      (fun z hz => hx z (List.mem_cons_of_mem _ hz)) (by simp)
    exact ⟨r, e1, e2⟩

theorem lcm2_spec {a b : I64} (ha : a ≠ BitVec.intMin 64) (hb : b ≠ BitVec.intMin 64) (h0 : a ≠ 0)
    (hf : (Int.lcm a.toInt b.toInt : Int) < 2 ^ 63) :
    ∃ r, lcm2 a b = some r ∧ r.toInt = (Int.lcm a.toInt b.toInt : Int) := by
  obtain ⟨g, g1, g2⟩ := gcd2_spec ha hb
  have ha0 : a.toInt ≠ 0 := fun h => h0 ((eq_zero_iff a).mpr h)
  have hgp : 0 < Int.gcd a.toInt b.toInt := Int.gcd_pos_of_ne_zero_left _ ha0
  have hg0 : g ≠ 0 := by
    intro h; rw [h] at g2
    have : (0 : I64).toInt = 0 := rfl
    omega
  have hdvd : (Int.gcd a.toInt b.toInt : Int) ∣ a.toInt := Int.gcd_dvd_left _ _
  obtain ⟨q, hq⟩ := hdvd
  have hs : sdiv64 a g = some (a.sdiv g) := by
    unfold sdiv64
    rw [if_neg]
    rintro (h | h)
    · exact hg0 h
    · exact ha h.1
  have hsd : (a.sdiv g).toInt = q := by
    have := ofInt_tdiv (a := a) (b := g) hg0 (fun h => ha h.1)
    have hqq : a.toInt.tdiv (Int.gcd a.toInt b.toInt : Int) = q := by
      have := Int.mul_tdiv_cancel_left (a := (Int.gcd a.toInt b.toInt : Int)) q (by omega)
      rwa [← hq] at this
    rw [← this, g2, hqq, toInt_ofInt_of_fits]
    rw [fits_iff]
    have hb1 := toInt_bounds a
    have hab : q.natAbs ≤ a.toInt.natAbs := by
      rw [hq, Int.natAbs_mul, Int.natAbs_natCast]
      exact Nat.le_mul_of_pos_left _ hgp
    have : a.toInt ≠ -(2 ^ 63) := by
      intro h; apply ha
      apply BitVec.eq_of_toInt_eq
      rw [h]; decide
    omega
  have hlcm : ((q * b.toInt).natAbs : Int) = (Int.lcm a.toInt b.toInt : Int) := by
    have h1 : Int.gcd a.toInt b.toInt * Int.lcm a.toInt b.toInt = a.toInt.natAbs * b.toInt.natAbs :=
      Int.gcd_mul_lcm _ _
    have h2 : a.toInt.natAbs = Int.gcd a.toInt b.toInt * q.natAbs := by
      conv_lhs => rw [hq]
      rw [Int.natAbs_mul, Int.natAbs_natCast]
    rw [h2, Nat.mul_assoc] at h1
    have h3 := Nat.eq_of_mul_eq_mul_left hgp h1
    rw [h3, Int.natAbs_mul]
  have hfit : fits (q * b.toInt) = true := by
    rw [fits_iff]; omega
  have hprod : (a.sdiv g * b).toInt = q * b.toInt := by
    rw [← ofInt_mul, hsd, toInt_ofInt_of_fits hfit]
  refine ⟨abs64 (a.sdiv g * b), by unfold lcm2; rw [g1]; simp [hs], ?_⟩
  rw [abs_toInt (ne_intMin (by omega)), hprod, hlcm]

/-- The least common multiple of some numbers, as a natural number. -/
def lcmOf (xs : List Int) : Nat := xs.foldr (fun x n => Int.lcm x n) 1

theorem lcmOf_isLcm (xs : List Int) : IsLcm (lcmOf xs) xs := by
  refine ⟨by omega, fun m => ?_⟩
  induction xs with
  | nil => simp [lcmOf]
  | cons x xs ih =>
    simp only [lcmOf, List.foldr_cons, List.mem_cons, forall_eq_or_imp]
    rw [Int.coe_lcm_dvd_iff, ← ih]
    rfl

theorem lcmRest_spec : ∀ (xs : List I64) (res : I64), res ≠ BitVec.intMin 64 →
    (∀ x ∈ xs, x ≠ BitVec.intMin 64) → (xs = [] → 0 ≤ res.toInt) →
    (∀ pre, pre <+: xs → pre ≠ [] → ∀ r, IsLcm r (res.toInt :: pre.map BitVec.toInt) → r < 2 ^ 63) →
    ∃ r, lcmRest res xs = some r ∧ IsLcm r.toInt (res.toInt :: xs.map BitVec.toInt) := by
  intro xs
  induction xs with
  | nil =>
    intro res _ _ h0 _
    refine ⟨res, rfl, h0 rfl, fun d => by simp⟩
  | cons x xs ih =>
    intro res hr hx _ hfit
    unfold lcmRest
    by_cases h1 : res = 0
    · subst h1
      rw [if_pos rfl]
      refine ⟨0, rfl, by decide, fun d => ?_⟩
      have e1 : (0 : I64).toInt = 0 := by decide
      rw [e1]
      constructor
      · intro hd y _
        rw [Int.zero_dvd.mp hd]
        exact Int.dvd_zero y
      · intro h; exact h 0 List.mem_cons_self
    · rw [if_neg h1]
      have hlc : IsLcm (Int.lcm res.toInt x.toInt : Int) [res.toInt, x.toInt] := by
        refine ⟨by omega, fun m => ?_⟩
        rw [Int.coe_lcm_dvd_iff]; simp
      have hlt := hfit [x] ⟨xs, rfl⟩ (by simp) _ hlc
      obtain ⟨g, g1, g2⟩ := lcm2_spec hr (hx x List.mem_cons_self) h1 hlt
      have hgn : g ≠ BitVec.intMin 64 := ne_intMin (by omega)
      have hstep : ∀ (r : Int) (ys : List Int), IsLcm r (g.toInt :: ys) ↔ IsLcm r (res.toInt :: x.toInt :: ys) := by
        intro r ys
        unfold IsLcm
        simp only [List.mem_cons, forall_eq_or_imp]
        rw [g2]
        simp only [Int.coe_lcm_dvd_iff, and_assoc]
      obtain ⟨r, e1, e2⟩ := ih g hgn (fun y hy => hx y (List.mem_cons_of_mem _ hy)) (fun _ => by omega)
        (fun pre hp _ r hr' => by
          obtain ⟨t, ht⟩ := hp
          exact hfit (x :: pre) ⟨t, by rw [← ht]; rfl⟩ (by simp) r ((hstep _ _).mp hr'))
      exact ⟨r, by rw [g1]; exact e1, (hstep _ _).mp e2⟩

/-- `math.lcm` of any number of arguments other than `-2**63` is defined and is the least common
multiple, if the least common multiple of every initial part of the arguments fits in 64 bits.
(Without zeros among the arguments this is the case if the result fits.) -/
theorem c44_lcm_partial (xs : List I64) (hx : ∀ x ∈ xs, x ≠ BitVec.intMin 64)
    (hfit : ∀ pre, pre <+: xs → ∀ r, IsLcm r (pre.map BitVec.toInt) → r < 2 ^ 63) :
    ∃ r, lcm xs = some r ∧ IsLcm r.toInt (xs.map BitVec.toInt) := by
  match xs, hx, hfit with
  | [], _, _ => exact ⟨1, rfl, by decide, fun d => by
      have e1 : (1 : I64).toInt = 1 := by decide
      rw [e1]; simp⟩
  | [x], hx, _ =>
    refine ⟨abs64 x, rfl, ?_, fun d => ?_⟩
    · rw [abs_toInt (hx x (by simp))]; omega
    · rw [abs_toInt (hx x (by simp)), Int.natAbs_dvd]; simp
  | x :: y :: ys, hx, hfit =>
    obtain ⟨r, e1, e2⟩ := lcmRest_spec (y :: ys) x (hx x (by simp))
      (fun z hz => hx z (List.mem_cons_of_mem _ hz)) (by simp)
      (fun pre hp _ r hr => by
        obtain ⟨t, ht⟩ := hp
        exact hfit (x :: pre) ⟨t, by rw [← ht]; rfl⟩ r hr)
    exact ⟨r, e1, e2⟩

/-- If no argument is zero and the least common multiple of all arguments fits, the condition of
`c44_lcm_partial` on the initial parts holds. -/
theorem c44_lcm_fits_of_nonzero_partial (xs : List I64) (hx : ∀ x ∈ xs, x ≠ BitVec.intMin 64)
    (h0 : ∀ x ∈ xs, x ≠ 0) (hfit : ∀ r, IsLcm r (xs.map BitVec.toInt) → r < 2 ^ 63) :
    ∃ r, lcm xs = some r ∧ IsLcm r.toInt (xs.map BitVec.toInt) := by
  apply c44_lcm_partial xs hx
  intro pre hp r hr
  have hall := lcmOf_isLcm (xs.map BitVec.toInt)
  have hlt := hfit _ hall
  have hpos : (lcmOf (xs.map BitVec.toInt) : Int) ≠ 0 := by
    have : ∀ ys : List Int, (∀ y ∈ ys, y ≠ 0) → lcmOf ys ≠ 0 := by
      intro ys
      induction ys with
      | nil => intro _; simp [lcmOf]
      | cons y ys ih =>
        intro hy
        have h1 := hy y List.mem_cons_self
        have h2 := ih fun z hz => hy z (List.mem_cons_of_mem _ hz)
        show Int.lcm y (lcmOf ys) ≠ 0
        exact Nat.pos_iff_ne_zero.mp (Int.lcm_pos h1 (by omega))
    have h3 := this (xs.map BitVec.toInt) (by
      intro y hy
      obtain ⟨x, hx1, rfl⟩ := List.mem_map.mp hy
      exact fun h => h0 x hx1 ((eq_zero_iff x).mpr h))
    omega
  have hd : r ∣ (lcmOf (xs.map BitVec.toInt) : Int) := by
    rw [hr.2]
    intro y hy
    obtain ⟨t, rfl⟩ := hp
    exact (hall.2 _).mp (Int.dvd_refl _) y (by rw [List.map_append]; exact List.mem_append_left _ hy)
  have := Int.le_of_dvd (by omega) hd
  omega

/-- `math.gcd(-2**63, 6)` is `-2`: the absolute value of the least integer wraps around. -/
theorem c44_violation_gcd_least_integer :
    gcd [BitVec.intMin 64, 6] = some (-2) ∧ ¬ IsGcd (-2) [(BitVec.intMin 64).toInt, 6] ∧
    IsGcd 2 [(BitVec.intMin 64).toInt, 6] := by
  refine ⟨by decide +kernel, fun h => absurd h.1 (by decide), ?_⟩
  have := gcd_isGcd (BitVec.intMin 64).toInt 6
  rwa [show ((Int.gcd (BitVec.intMin 64).toInt 6 : Nat) : Int) = 2 by decide +kernel] at this

/-- `math.lcm(-2**63, 5, 0)` divides the least integer by `-1`, which is undefined; the least common
multiple is 0. -/
theorem c44_violation_lcm_least_integer :
    lcm [BitVec.intMin 64, 5, 0] = none ∧ IsLcm 0 [(BitVec.intMin 64).toInt, 5, 0] := by
  refine ⟨by decide +kernel, by decide, fun m => ?_⟩
  simp only [List.mem_cons, List.not_mem_nil, or_false, forall_eq_or_imp, forall_eq]
  constructor
  · intro h
    rw [Int.zero_dvd.mp h]
    exact ⟨Int.dvd_zero _, Int.dvd_zero _, Int.dvd_zero _⟩
  · exact fun h => h.2.2

example : gcd [-12, 18, 0, 27] = some 3 := by decide +kernel
example : lcm [-4, 6, 10] = some 60 := by decide +kernel
example : lcm [4, 0, 10] = some 0 := by decide +kernel
example : (-4 : I64) ≠ BitVec.intMin 64 ∧ (6 : I64) ≠ BitVec.intMin 64 := by decide

end Codon.MathM
