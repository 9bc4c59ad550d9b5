import Verif.Str.FindModel
import Verif.Sort.Base
import Mathlib.Tactic.Ring

/-! Lemmas on substring search. -/

set_option linter.unusedSimpArgs false

namespace Codon.Str

open Codon.Sort (rd rd_nat rd_ex rd_some_iff)

/-- `p` occurs in `s` at index `i`. -/
def Occurs (s p : Str) (i : Int) : Prop := ∃ a c, s = a ++ (p ++ c) ∧ (a.length : Int) = i

/-- `r` is the first index of `p` in `s`, or -1. -/
def IsFirst (s p : Str) (r : Int) : Prop :=
  (Occurs s p r ∧ ∀ j, j < r → ¬ Occurs s p j) ∨ (r = -1 ∧ ∀ j, ¬ Occurs s p j)

/-- `r` is the last index of `p` in `s`, or -1. -/
def IsLast (s p : Str) (r : Int) : Prop :=
  (Occurs s p r ∧ ∀ j, r < j → ¬ Occurs s p j) ∨ (r = -1 ∧ ∀ j, ¬ Occurs s p j)

theorem Occurs.bounds {s p : Str} {i : Int} (h : Occurs s p i) : 0 ≤ i ∧ i + p.length ≤ s.length := by
  obtain ⟨a, c, rfl, rfl⟩ := h
  simp only [List.length_append]; omega

theorem occurs_nil (s : Str) {i : Int} (h0 : 0 ≤ i) (h1 : i ≤ s.length) : Occurs s [] i :=
  ⟨s.take i.toNat, s.drop i.toNat, by simp, by simp; omega⟩

theorem split_at (s : Str) {i k : Int} (h0 : 0 ≤ i) (hk : 0 ≤ k) (h1 : i + k ≤ s.length) :
    ∃ A X C, s = A ++ (X ++ C) ∧ (A.length : Int) = i ∧ (X.length : Int) = k :=
  ⟨s.take i.toNat, (s.drop i.toNat).take k.toNat, (s.drop i.toNat).drop k.toNat,
    by rw [List.take_append_drop, List.take_append_drop], by simp; omega, by simp; omega⟩

theorem occurs_append {A X C p : Str} (h : X.length = p.length) : Occurs (A ++ (X ++ C)) p A.length ↔ X = p := by
  constructor
  · rintro ⟨a, c, h1, h2⟩
    have h3 : a.length = A.length := by omega
    obtain ⟨rfl, h4⟩ := List.append_inj h1 h3.symm
    exact (List.append_inj h4 h).1
  · rintro rfl; exact ⟨A, C, rfl, rfl⟩

theorem ends (L : Str) (h : 2 ≤ L.length) : ∃ x m y, L = x :: (m ++ [y]) := by
  cases L with
  | nil => simp at h
  | cons x L =>
    have : L ≠ [] := by intro e; subst e; simp at h
    exact ⟨x, L.dropLast, L.getLast this, by rw [List.dropLast_concat_getLast]⟩

/-- The three tests of a candidate. -/
theorem candidate {s p : Str} {j : Int} {fb lb : UInt8} (hk : 2 ≤ p.length) (h0 : 0 ≤ j) (h1 : j + p.length ≤ s.length)
    (hf : rd p 0 = some fb) (hl : rd p ((p.length : Int) - 1) = some lb) :
    ∃ x y e, rd s j = some x ∧ rd s (j + p.length - 1) = some y ∧ memcmpEq s (j + 1) p 1 (p.length - 2) = some e ∧
      (Occurs s p j ↔ fb = x ∧ lb = y ∧ e = true) := by
  obtain ⟨A, X, C, rfl, hA, hX⟩ := split_at s h0 (show (0 : Int) ≤ p.length by omega) h1
  have hXl : X.length = p.length := by omega
  obtain ⟨x, m, y, rfl⟩ := ends X (by omega)
  obtain ⟨x', m', y', rfl⟩ := ends p hk
  have hm : m.length = m'.length := by simpa using hXl
  have e1 : rd (x' :: (m' ++ [y'])) 0 = some x' := by
    rw [show (0 : Int) = ((0 : Nat) : Int) by rfl, rd_nat]; rfl
  have e2 : rd (x' :: (m' ++ [y'])) (((x' :: (m' ++ [y'])).length : Int) - 1) = some y' := by
    rw [show (((x' :: (m' ++ [y'])).length : Int) - 1) = ((m'.length + 1 : Nat) : Int) by simp, rd_nat]
    simp
  rw [e1] at hf
  rw [e2] at hl
  cases hf
  cases hl
  subst hA
  refine ⟨x, y, m == m', ?_, ?_, ?_, ?_⟩
  · rw [rd_nat]; simp
  · rw [show ((A.length : Int) + ((fb :: (m' ++ [lb])).length : Int) - 1) = ((A.length + (m.length + 1) : Nat) : Int) by simp; omega, rd_nat]
    rw [List.getElem?_append_right (by omega)]
    simp
  · unfold memcmpEq len
    rw [if_pos (by simp; omega)]
    congr 1
    have t1 : ((A.length : Int) + 1).toNat = A.length + 1 := by omega
    have t2 : (((fb :: (m' ++ [lb])).length : Int) - 2).toNat = m'.length := by simp; omega
    rw [t1, t2, List.drop_append]
    rw [List.drop_eq_nil_of_le (show A.length ≤ A.length + 1 by omega)]
    simp [← hm]
  · rw [occurs_append (by simpa using hm)]
    simp only [List.cons.injEq, beq_iff_eq]
    constructor
    · rintro ⟨h1, h2⟩
      obtain ⟨h3, h4⟩ := List.append_inj h2 hm
      simp at h4
      exact ⟨h1.symm, h4.symm, h3⟩
    · rintro ⟨h1, h2, h3⟩
      exact ⟨h1.symm, by rw [h2, h3]⟩

open Classical in
theorem testAt_spec {s p : Str} {j : Int} {fb lb : UInt8} (hk : 2 ≤ p.length) (h0 : 0 ≤ j) (h1 : j + p.length ≤ s.length)
    (hf : rd p 0 = some fb) (hl : rd p ((p.length : Int) - 1) = some lb) :
    testAt s p p.length j fb lb = some (decide (Occurs s p j)) := by
  obtain ⟨x, y, e, e1, e2, e3, e4⟩ := candidate hk h0 h1 hf hl
  unfold testAt
  rw [e1]
  simp only [Option.bind_eq_bind, Option.bind_some]
  by_cases c1 : fb = x
  · rw [if_pos (by simpa using c1), e2]
    simp only [Option.bind_some]
    by_cases c2 : lb = y
    · rw [if_pos (by simpa using c2), e3]
      congr 1
      cases e <;> simp [e4, c1, c2]
    · rw [if_neg (by simpa using c2)]
      simp [e4, c2]
  · rw [if_neg (by simpa using c1)]
    simp [e4, c1]

open Classical in
theorem testBack_spec {s p : Str} {j : Int} {fb lb : UInt8} (hk : 2 ≤ p.length) (h0 : 0 ≤ j - p.length + 1) (h1 : j < s.length)
    (hf : rd p 0 = some fb) (hl : rd p ((p.length : Int) - 1) = some lb) :
    testBack s p p.length j fb lb = some (decide (Occurs s p (j - p.length + 1))) := by
  obtain ⟨x, y, e, e1, e2, e3, e4⟩ := candidate (s := s) hk h0 (by omega) hf hl
  rw [show j - (p.length : Int) + 1 + p.length - 1 = j by omega] at e2
  rw [show j - (p.length : Int) + 1 + 1 = j - p.length + 2 by omega] at e3
  unfold testBack
  rw [e2]
  simp only [Option.bind_eq_bind, Option.bind_some]
  by_cases c1 : lb = y
  · rw [if_pos (by simpa using c1), e1]
    simp only [Option.bind_some]
    by_cases c2 : fb = x
    · rw [if_pos (by simpa using c2), e3]
      congr 1
      cases e <;> simp [e4, c1, c2]
    · rw [if_neg (by simpa using c2)]
      simp [e4, c2]
  · rw [if_neg (by simpa using c1)]
    simp [e4, c1]

theorem testBit_bitsToNat : ∀ (l : List Bool) (b : Nat), (bitsToNat l).testBit b = l[b]?.getD false := by
  intro l
  induction l with
  | nil => intro b; simp [bitsToNat]
  | cons x l ih =>
    intro b
    unfold bitsToNat
    cases b with
    | zero =>
      rw [Nat.testBit_zero]
      cases x <;> simp
    | succ b =>
      rw [Nat.testBit_succ]
      have : (x.toNat + 2 * bitsToNat l) / 2 = bitsToNat l := by cases x <;> (simp; try omega)
      rw [this, ih]; simp

theorem block16_some {s : Str} {i : Int} (h0 : 0 ≤ i) (h1 : i + 16 ≤ s.length) :
    ∃ B, block16 s i = some B ∧ B.length = 16 ∧ ∀ b : Nat, b < 16 → B[b]? = rd s (i + b) := by
  refine ⟨_, by unfold block16 len; rw [if_pos ⟨h0, h1⟩], by simp; omega, ?_⟩
  intro b hb
  rw [List.getElem?_take_of_lt hb, List.getElem?_drop, show i + (b : Int) = ((i.toNat + b : Nat) : Int) by omega, rd_nat]

/-- Which bits the mask has. -/
theorem mask_bits {s p : Str} {i : Int} {fb lb : UInt8} (hk : 2 ≤ p.length) (h0 : 0 ≤ i) (h1 : i + p.length + 16 - 1 ≤ s.length)
    (hf : rd p 0 = some fb) (hl : rd p ((p.length : Int) - 1) = some lb) :
    ∃ B1 B2 m, block16 s i = some B1 ∧ block16 s (i + p.length - 1) = some B2 ∧
      m = bitsToNat (List.zipWith (fun x y => fb == x && lb == y) B1 B2) ∧
      (∀ b, m.testBit b = true → b < 16) ∧
      (∀ b : Nat, b < 16 → (m.testBit b = true → ∃ e, memcmpEq s (i + b + 1) p 1 (p.length - 2) = some e ∧ (Occurs s p (i + b) ↔ e = true)) ∧
        (m.testBit b = false → ¬ Occurs s p (i + b))) := by
  obtain ⟨B1, q1, q2, q3⟩ := block16_some (s := s) h0 (by omega)
  obtain ⟨B2, r1, r2, r3⟩ := block16_some (s := s) (i := i + p.length - 1) (by omega) (by omega)
  refine ⟨B1, B2, _, q1, r1, rfl, ?_, ?_⟩
  · intro b hb
    rw [testBit_bitsToNat] at hb
    by_contra hc
    rw [List.getElem?_eq_none (by simp [q2, r2]; omega)] at hb
    simp at hb
  · intro b hb
    rw [testBit_bitsToNat]
    obtain ⟨x, y, e, e1, e2, e3, e4⟩ := candidate (s := s) (j := i + b) hk (by omega) (by omega) hf hl
    have g1 : B1[b]? = some x := by rw [q3 b hb, e1]
    have g2 : B2[b]? = some y := by
      rw [r3 b hb, ← e2]; congr 1; omega
    have hz : (List.zipWith (fun x y => fb == x && lb == y) B1 B2)[b]? = some (fb == x && lb == y) := by
      rw [List.getElem?_zipWith, g1, g2]
    rw [hz, Option.getD_some]
    constructor
    · intro h
      refine ⟨e, e3, ?_⟩
      simp at h
      rw [e4]
      simp [h]
    · intro h ho
      have := e4.mp ho
      simp [this.1, this.2.1] at h

theorem cttz_some {m : Nat} (h : m ≠ 0) (hb : ∀ b, m.testBit b = true → b < 16) :
    ∃ t, cttz m = some t ∧ m.testBit t = true ∧ ∀ b, b < t → m.testBit b = false := by
  unfold cttz
  cases hc : (List.range 16).find? fun b => m.testBit b with
  | none =>
    exfalso
    apply h
    apply Nat.eq_of_testBit_eq
    intro b
    rw [Nat.zero_testBit]
    by_contra hh
    have hh : m.testBit b = true := by simpa using hh
    rw [List.find?_eq_none] at hc
    exact hc b (by simpa using hb b hh) hh
  | some t =>
    rw [List.find?_range_eq_some] at hc
    refine ⟨t, rfl, hc.1, fun b hbt => ?_⟩
    simpa using hc.2.2 b hbt

theorem ctlz_some {m : Nat} (h : m ≠ 0) (hb : ∀ b, m.testBit b = true → b < 16) :
    ∃ t, ctlz m = some t ∧ t < 16 ∧ m.testBit (15 - t) = true ∧ ∀ b, 15 - t < b → m.testBit b = false := by
  unfold ctlz
  cases hc : (List.range 16).find? fun b => m.testBit (15 - b) with
  | none =>
    exfalso
    apply h
    apply Nat.eq_of_testBit_eq
    intro b
    rw [Nat.zero_testBit]
    by_contra hh
    have hh : m.testBit b = true := by simpa using hh
    have hlt := hb b hh
    rw [List.find?_eq_none] at hc
    refine hc (15 - b) (by simp; omega) ?_
    rw [show 15 - (15 - b) = b by omega]; exact hh
  | some t =>
    rw [List.find?_range_eq_some] at hc
    have ht : t < 16 := by simpa using hc.2.1
    refine ⟨t, rfl, ht, hc.1, fun b hbt => ?_⟩
    by_contra hh
    have hh : m.testBit b = true := by simpa using hh
    have hlt := hb b hh
    have := hc.2.2 (15 - b) (by omega)
    rw [show 15 - (15 - b) = b by omega, hh] at this
    simp at this

/-- `mask & (mask - 1)` clears the lowest set bit. -/
theorem clear_lowest {m t : Nat} (h1 : m.testBit t = true) (h2 : ∀ b, b < t → m.testBit b = false) :
    (∀ b, (m &&& (m - 1)).testBit b = (m.testBit b && decide (b ≠ t))) ∧ m &&& (m - 1) < m := by
  have hmod : m % 2 ^ t = 0 := by
    apply Nat.eq_of_testBit_eq
    intro b
    rw [Nat.testBit_mod_two_pow, Nat.zero_testBit]
    by_cases hb : b < t
    · simp [h2 b hb]
    · simp [hb]
  obtain ⟨q, hq⟩ := Nat.dvd_of_mod_eq_zero hmod
  have hp : 0 < 2 ^ t := Nat.two_pow_pos t
  have tb : ∀ b, m.testBit b = if b < t then false else q.testBit (b - t) := by
    intro b
    rw [hq]
    have := Nat.testBit_two_pow_mul_add (i := t) q (b := 0) hp b
    rw [Nat.add_zero] at this
    rw [this]; simp
  have hodd : q.testBit 0 = true := by
    have := tb t
    rw [h1, if_neg (Nat.lt_irrefl _), Nat.sub_self] at this
    exact this.symm
  have hq0 : q % 2 = 1 := by rw [Nat.testBit_zero] at hodd; simpa using hodd
  have hm1 : m - 1 = 2 ^ t * (q - 1) + (2 ^ t - 1) := by
    obtain ⟨r, rfl⟩ : ∃ r, q = r + 1 := ⟨q - 1, by omega⟩
    rw [hq, Nat.mul_add, Nat.add_sub_cancel]; omega
  have bits : ∀ b, (m &&& (m - 1)).testBit b = (m.testBit b && decide (b ≠ t)) := by
    intro b
    rw [Nat.testBit_and, hm1, Nat.testBit_two_pow_mul_add (q - 1) (by omega) b]
    by_cases hb : b < t
    · rw [h2 b hb]; simp
    · rw [if_neg hb, tb b, if_neg hb]
      by_cases hbt : b = t
      · subst hbt
        rw [Nat.sub_self, Nat.testBit_zero]
        have : (q - 1) % 2 = 0 := by omega
        simp [this]
      · obtain ⟨c, hc⟩ : ∃ c, b - t = c + 1 := ⟨b - t - 1, by omega⟩
        rw [hc, Nat.testBit_succ, Nat.testBit_succ, show (q - 1) / 2 = q / 2 by omega]
        simp [hbt]
  refine ⟨bits, ?_⟩
  have hle : m &&& (m - 1) ≤ m - 1 := Nat.and_le_right
  have hm : 0 < m := by
    rcases Nat.eq_zero_or_pos m with h | h
    · rw [h] at h1; simp at h1
    · exact h
  omega

/-- `mask & ~(1 << c)` clears bit `c`. -/
theorem clear_bit {m c : Nat} (hb : ∀ b, m.testBit b = true → b < 16) (hc : c < 16) (h1 : m.testBit c = true) :
    (∀ b, (m &&& (0xFFFF ^^^ (1 <<< c))).testBit b = (m.testBit b && decide (b ≠ c))) ∧
      m &&& (0xFFFF ^^^ (1 <<< c)) < m := by
  have bits : ∀ b, (m &&& (0xFFFF ^^^ (1 <<< c))).testBit b = (m.testBit b && decide (b ≠ c)) := by
    intro b
    have hF : (0xFFFF : Nat).testBit b = decide (b < 16) := Nat.testBit_two_pow_sub_one 16 b
    rw [Nat.testBit_and, Nat.testBit_xor, hF, Nat.shiftLeft_eq, Nat.one_mul, Nat.testBit_two_pow]
    by_cases h : m.testBit b = true
    · have := hb b h
      rw [h]
      by_cases hbc : b = c
      · subst hbc; simp [this]
      · have hcb : ¬ c = b := fun h => hbc h.symm
        simp [this, hbc, hcb]
    · have h : m.testBit b = false := by simpa using h
      rw [h]; simp
  refine ⟨bits, ?_⟩
  have hle : m &&& (0xFFFF ^^^ (1 <<< c)) ≤ m := Nat.and_le_left
  rcases Nat.lt_or_eq_of_le hle with h | h
  · exact h
  · exfalso
    have := bits c
    rw [h, h1] at this
    simp at this

theorem fwdBits_spec (s p : Str) (i : Int) : ∀ (n mask : Nat), mask < n → (∀ b, mask.testBit b = true → b < 16) →
    (∀ b : Nat, mask.testBit b = true → ∃ e, memcmpEq s (i + b + 1) p 1 (p.length - 2) = some e ∧ (Occurs s p (i + b) ↔ e = true)) →
    (∃ b : Nat, fwdBits s p p.length i n mask = some (some (i + b)) ∧ mask.testBit b = true ∧ Occurs s p (i + b) ∧
      ∀ b' : Nat, b' < b → mask.testBit b' = true → ¬ Occurs s p (i + b')) ∨
    (fwdBits s p p.length i n mask = some none ∧ ∀ b : Nat, mask.testBit b = true → ¬ Occurs s p (i + b)) := by
  intro n
  induction n with
  | zero => intro mask h; omega
  | succ n ih =>
    intro mask h hb hm
    unfold fwdBits
    by_cases h0 : mask = 0
    · right
      subst h0
      exact ⟨rfl, by simp⟩
    · rw [if_pos h0]
      obtain ⟨t, t1, t2, t3⟩ := cttz_some h0 hb
      obtain ⟨e, e1, e2⟩ := hm t t2
      rw [t1]
      simp only [Option.bind_eq_bind, Option.bind_some]
      rw [e1]
      simp only [Option.bind_some]
      cases e with
      | true =>
        left
        refine ⟨t, rfl, t2, e2.mpr rfl, fun b' hb' h => ?_⟩
        rw [t3 b' hb'] at h; cases h
      | false =>
        rw [if_neg (by simp)]
        have hno : ¬ Occurs s p (i + t) := by rw [e2]; simp
        obtain ⟨c1, c2⟩ := clear_lowest t2 t3
        have hsub : ∀ b, (mask &&& (mask - 1)).testBit b = true → mask.testBit b = true := by
          intro b hb'
          rw [c1 b] at hb'
          simp at hb'
          exact hb'.1
        rcases ih (mask &&& (mask - 1)) (by omega) (fun b h => hb b (hsub b h)) (fun b h => hm b (hsub b h)) with
          ⟨b, q1, q2, q3, q4⟩ | ⟨q1, q2⟩
        · left
          refine ⟨b, q1, hsub b q2, q3, fun b' hb' h => ?_⟩
          by_cases hbt : b' = t
          · subst hbt; exact hno
          · exact q4 b' hb' (by rw [c1 b', h]; simp [hbt])
        · right
          refine ⟨q1, fun b h => ?_⟩
          by_cases hbt : b = t
          · subst hbt; exact hno
          · exact q2 b (by rw [c1 b, h]; simp [hbt])

theorem fwdTail_spec {s p : Str} {fb lb : UInt8} (hk : 2 ≤ p.length) (hf : rd p 0 = some fb)
    (hl : rd p ((p.length : Int) - 1) = some lb) (i : Int) (h0 : 0 ≤ i) : ∀ (m d : Nat),
    (s.length : Int) - p.length - i < d + m → (∀ j, j < i + d → ¬ Occurs s p j) →
    ∃ r, fwdTail s p p.length fb lb i ((List.range' d m).map fun t : Nat => (t : Int)) = some r ∧ IsFirst s p r := by
  intro m
  induction m with
  | zero =>
    intro d h1 h2
    refine ⟨-1, rfl, Or.inr ⟨rfl, fun j hj => ?_⟩⟩
    exact h2 j (by have := hj.bounds; omega) hj
  | succ m ih =>
    intro d h1 h2
    rw [List.range'_succ, List.map_cons]
    unfold fwdTail
    dsimp only
    by_cases hc : i + (d : Int) + p.length ≤ len s
    · rw [if_pos hc, testAt_spec hk (by omega) hc hf hl]
      simp only [Option.bind_eq_bind, Option.bind_some]
      by_cases ho : Occurs s p (i + d)
      · rw [if_pos (by simpa using ho)]
        exact ⟨i + d, rfl, Or.inl ⟨ho, h2⟩⟩
      · rw [if_neg (by simpa using ho)]
        refine ih (d + 1) (by omega) (fun j hj => ?_)
        by_cases hjd : j = i + d
        · subst hjd; exact ho
        · exact h2 j (by omega)
    · rw [if_neg hc]
      refine ⟨-1, rfl, Or.inr ⟨rfl, fun j hj => ?_⟩⟩
      exact h2 j (by have := hj.bounds; unfold len at hc; omega) hj

theorem fwdLoop_spec {s p : Str} {fb lb : UInt8} (hk : 2 ≤ p.length) (hf : rd p 0 = some fb)
    (hl : rd p ((p.length : Int) - 1) = some lb) : ∀ (n : Nat) (i : Int), 0 ≤ i → (s.length : Int) - i < n ∧ 0 < n →
    (∀ j, j < i → ¬ Occurs s p j) →
    ∃ r, fwdLoop s p p.length fb lb n i = some r ∧ IsFirst s p r := by
  intro n
  induction n with
  | zero => intro i h0 h1; omega
  | succ n ih =>
    intro i h0 h1 h2
    unfold fwdLoop
    by_cases hc : i + p.length + 16 - 1 ≤ len s
    · rw [if_pos hc]
      obtain ⟨B1, B2, m, q1, q2, q3, q4, q5⟩ := mask_bits hk h0 hc hf hl
      have hmask : fwdMask s p.length i fb lb = some m := by
        unfold fwdMask
        rw [q1, q2, q3]; rfl
      rw [hmask]
      simp only [Option.bind_eq_bind, Option.bind_some]
      have hlow : ∀ b : Nat, b < 16 → m.testBit b = false → ¬ Occurs s p (i + b) := fun b hb => (q5 b hb).2
      rcases fwdBits_spec s p i (m + 1) m (by omega) q4 (fun b hb => (q5 b (q4 b hb)).1 hb) with
        ⟨b, r1, r2, r3, r4⟩ | ⟨r1, r2⟩
      · rw [r1]
        refine ⟨i + b, rfl, Or.inl ⟨r3, fun j hj => ?_⟩⟩
        by_cases hji : j < i
        · exact h2 j hji
        · obtain ⟨b', hb'⟩ := Int.eq_ofNat_of_zero_le (show 0 ≤ j - i by omega)
          have hj' : j = i + b' := by omega
          rw [hj']
          have hb16 := q4 b r2
          by_cases ht : m.testBit b' = true
          · exact r4 b' (by omega) ht
          · exact hlow b' (by omega) (by simpa using ht)
      · rw [r1]
        simp only [Option.bind_some]
        refine ih (i + 16) (by omega) (by unfold len at hc; omega) (fun j hj => ?_)
        by_cases hji : j < i
        · exact h2 j hji
        · obtain ⟨b', hb'⟩ := Int.eq_ofNat_of_zero_le (show 0 ≤ j - i by omega)
          have hj' : j = i + b' := by omega
          rw [hj']
          by_cases ht : m.testBit b' = true
          · exact r2 b' ht
          · exact hlow b' (by omega) (by simpa using ht)
    · rw [if_neg hc]
      have : fwdOffsets = (List.range' 0 16).map fun t : Nat => (t : Int) := by decide
      rw [this]
      exact fwdTail_spec hk hf hl i h0 16 0 (by unfold len at hc; omega) (by simpa using h2)

theorem occurs_single {s : Str} {c : UInt8} {i : Nat} : Occurs s [c] i ↔ s[i]? = some c := by
  constructor
  · rintro ⟨a, t, rfl, h⟩
    have : a.length = i := by omega
    subst this
    simp
  · intro h
    have hi := (List.getElem?_eq_some_iff.mp h)
    have hi1 : i < s.length := hi.1
    refine ⟨s.take i, s.drop (i + 1), ?_, by simp; omega⟩
    rw [List.singleton_append, ← hi.2, ← List.drop_eq_getElem_cons hi.1, List.take_append_drop]

theorem rd_zero_of_pos {p : Str} (h : 0 < p.length) : ∃ c, rd p 0 = some c :=
  rd_ex (Int.le_refl _) (by omega)

theorem forwardFind_spec (s p : Str) : ∃ r, forwardFind s p = some r ∧ IsFirst s p r := by
  unfold forwardFind
  dsimp only [len]
  by_cases h0 : (p.length : Int) = 0
  · rw [if_pos h0]
    have : p = [] := List.eq_nil_of_length_eq_zero (by omega)
    subst this
    refine ⟨0, rfl, Or.inl ⟨occurs_nil s (Int.le_refl _) (by omega), fun j hj ho => ?_⟩⟩
    have := ho.bounds; omega
  · rw [if_neg h0]
    by_cases h1 : (s.length : Int) < p.length
    · rw [if_pos h1]
      refine ⟨-1, rfl, Or.inr ⟨rfl, fun j ho => ?_⟩⟩
      have := ho.bounds; omega
    · rw [if_neg h1]
      by_cases h2 : (p.length : Int) = 1
      · rw [if_pos h2]
        match p, h2 with
        | [c], _ =>
          have : rd [c] 0 = some c := rfl
          rw [this]
          simp only [Option.bind_eq_bind, Option.bind_some]
          unfold memchr
          cases hf : s.findIdx? (· == c) with
          | none =>
            refine ⟨-1, rfl, Or.inr ⟨rfl, fun j ho => ?_⟩⟩
            obtain ⟨n, rfl⟩ := Int.eq_ofNat_of_zero_le ho.bounds.1
            rw [occurs_single] at ho
            rw [List.findIdx?_eq_none_iff] at hf
            have := hf c (List.mem_of_getElem? ho)
            simp at this
          | some i =>
            rw [List.findIdx?_eq_some_iff_getElem] at hf
            obtain ⟨g1, g2, g3⟩ := hf
            refine ⟨(i : Int), rfl, Or.inl ⟨?_, fun j hj ho => ?_⟩⟩
            · rw [occurs_single, List.getElem?_eq_getElem g1]
              simpa using g2
            · obtain ⟨n, rfl⟩ := Int.eq_ofNat_of_zero_le ho.bounds.1
              rw [occurs_single] at ho
              have := g3 n (by omega)
              have hn : n < i := by omega
              rw [List.getElem?_eq_getElem (by omega)] at ho
              simp at this ho
              exact this ho
      · rw [if_neg h2]
        obtain ⟨fb, hf⟩ := rd_zero_of_pos (p := p) (by omega)
        obtain ⟨lb, hl⟩ := rd_ex (a := p) (i := (p.length : Int) - 1) (by omega) (by omega)
        rw [hf, hl]
        simp only [Option.bind_eq_bind, Option.bind_some]
        exact fwdLoop_spec (by omega) hf hl (s.length + 1) 0 (Int.le_refl _) (by omega) (fun j hj ho => by
          have := ho.bounds; omega)

/-! ### Backward -/

theorem bwdBits_spec (s p : Str) (i : Int) : ∀ (n mask : Nat), mask < n → (∀ b, mask.testBit b = true → b < 16) →
    (∀ b : Nat, mask.testBit b = true → ∃ e, memcmpEq s (i - 15 - (p.length - 1) + b + 1) p 1 (p.length - 2) = some e ∧
      (Occurs s p (i - 15 - (p.length - 1) + b) ↔ e = true)) →
    (∃ b : Nat, bwdBits s p p.length i n mask = some (some (i - 15 - (p.length - 1) + b)) ∧ mask.testBit b = true ∧
      Occurs s p (i - 15 - (p.length - 1) + b) ∧
      ∀ b' : Nat, b < b' → mask.testBit b' = true → ¬ Occurs s p (i - 15 - (p.length - 1) + b')) ∨
    (bwdBits s p p.length i n mask = some none ∧ ∀ b : Nat, mask.testBit b = true → ¬ Occurs s p (i - 15 - (p.length - 1) + b)) := by
  intro n
  induction n with
  | zero => intro mask h; omega
  | succ n ih =>
    intro mask h hb hm
    unfold bwdBits
    by_cases h0 : mask = 0
    · right
      subst h0
      exact ⟨rfl, by simp⟩
    · rw [if_pos h0]
      obtain ⟨t, t1, t16, t2, t3⟩ := ctlz_some h0 hb
      obtain ⟨e, e1, e2⟩ := hm (15 - t) t2
      have ei : i - 15 - ((p.length : Int) - 1) + ((15 - t : Nat) : Int) = i - (p.length - 1) - t := by omega
      rw [ei] at e1 e2
      rw [t1]
      simp only [Option.bind_eq_bind, Option.bind_some]
      rw [e1]
      simp only [Option.bind_some]
      cases e with
      | true =>
        left
        refine ⟨15 - t, ?_, t2, by rw [ei]; exact e2.mpr rfl, fun b' hb' h => ?_⟩
        · rw [ei]; rfl
        · rw [t3 b' hb'] at h; cases h
      | false =>
        rw [if_neg (by simp)]
        have hno : ¬ Occurs s p (i - 15 - (p.length - 1) + ((15 - t : Nat) : Int)) := by rw [ei, e2]; simp
        obtain ⟨c1, c2⟩ := clear_bit hb (show 15 - t < 16 by omega) t2
        rw [show 16 - 1 - t = 15 - t by omega]
        have hsub : ∀ b, (mask &&& (0xFFFF ^^^ (1 <<< (15 - t)))).testBit b = true → mask.testBit b = true := by
          intro b hb'
          rw [c1 b] at hb'
          simp at hb'
          exact hb'.1
        rcases ih _ (by omega) (fun b h => hb b (hsub b h)) (fun b h => hm b (hsub b h)) with
          ⟨b, q1, q2, q3, q4⟩ | ⟨q1, q2⟩
        · left
          refine ⟨b, q1, hsub b q2, q3, fun b' hb' h => ?_⟩
          by_cases hbt : b' = 15 - t
          · subst hbt; exact hno
          · exact q4 b' hb' (by rw [c1 b', h]; simp [hbt])
        · right
          refine ⟨q1, fun b h => ?_⟩
          by_cases hbt : b = 15 - t
          · subst hbt; exact hno
          · exact q2 b (by rw [c1 b, h]; simp [hbt])

/-- The tail, as long as the bad offset is not reached. -/
theorem bwdTail_spec {s p : Str} {fb lb : UInt8} (hk : 2 ≤ p.length) (hf : rd p 0 = some fb)
    (hl : rd p ((p.length : Int) - 1) = some lb) (i : Int) (h0 : i < s.length) (rest : List Int) : ∀ (m d : Nat),
    0 < m ∧ i - p.length + 1 + 1 < d + m → (∀ j, i - p.length + 1 - d < j → ¬ Occurs s p j) →
    ∃ r, bwdTail s p p.length fb lb i (((List.range' d m).map fun t : Nat => -(t : Int)) ++ rest) = some r ∧ IsLast s p r := by
  intro m
  induction m with
  | zero => intro d h1; omega
  | succ m ih =>
    intro d h1 h2
    rw [List.range'_succ, List.map_cons, List.cons_append]
    unfold bwdTail
    dsimp only
    by_cases hc : i + -(d : Int) - p.length + 1 ≥ 0
    · rw [if_pos hc, testBack_spec hk hc (by omega) hf hl]
      simp only [Option.bind_eq_bind, Option.bind_some]
      by_cases ho : Occurs s p (i + -(d : Int) - p.length + 1)
      · rw [if_pos (by simpa using ho)]
        exact ⟨_, rfl, Or.inl ⟨ho, fun j hj => h2 j (by omega)⟩⟩
      · rw [if_neg (by simpa using ho)]
        refine ih (d + 1) (by omega) (fun j hj => ?_)
        by_cases hjd : j = i + -(d : Int) - p.length + 1
        · subst hjd; exact ho
        · exact h2 j (by omega)
    · rw [if_neg hc]
      refine ⟨-1, rfl, Or.inr ⟨rfl, fun j hj => ?_⟩⟩
      exact h2 j (by have := hj.bounds; omega) hj

theorem bwdLoop_spec {s p : Str} {fb lb : UInt8} (hk : 2 ≤ p.length) (hf : rd p 0 = some fb)
    (hl : rd p ((p.length : Int) - 1) = some lb) : ∀ (n : Nat) (i : Int), -1 ≤ i - p.length + 1 → i < s.length → i < n ∧ 0 < n →
    (i - p.length + 1 + 1) % 16 ≤ 9 →
    (∀ j, i - p.length + 1 < j → ¬ Occurs s p j) →
    ∃ r, bwdLoop s p p.length fb lb n i = some r ∧ IsLast s p r := by
  intro n
  induction n with
  | zero => intro i h0 h1 h2; omega
  | succ n ih =>
    intro i h0 h1 h2 hmod h3
    unfold bwdLoop
    by_cases hc : i - ((p.length : Int) - 1) - (16 - 1) ≥ 0
    · rw [if_pos hc]
      obtain ⟨B1, B2, m, q1, q2, q3, q4, q5⟩ := mask_bits (s := s) (i := i - 15 - ((p.length : Int) - 1)) hk (by omega) (by omega) hf hl
      have hmask : bwdMask s p.length i fb lb = some m := by
        unfold bwdMask
        dsimp only
        rw [show i - 16 + 1 - (p.length : Int) + 1 = i - 15 - ((p.length : Int) - 1) by omega, q1]
        rw [show i - 15 - ((p.length : Int) - 1) + p.length - 1 = i - 16 + 1 by omega] at q2
        rw [q2, q3]; rfl
      rw [hmask]
      simp only [Option.bind_eq_bind, Option.bind_some]
      have hlow : ∀ b : Nat, b < 16 → m.testBit b = false → ¬ Occurs s p (i - 15 - ((p.length : Int) - 1) + b) :=
        fun b hb => (q5 b hb).2
      rcases bwdBits_spec s p i (m + 1) m (by omega) q4 (fun b hb => (q5 b (q4 b hb)).1 hb) with
        ⟨b, r1, r2, r3, r4⟩ | ⟨r1, r2⟩
      · rw [r1]
        refine ⟨_, rfl, Or.inl ⟨r3, fun j hj => ?_⟩⟩
        by_cases hji : i - p.length + 1 < j
        · exact h3 j hji
        · obtain ⟨b', hb'⟩ := Int.eq_ofNat_of_zero_le (show 0 ≤ j - (i - 15 - ((p.length : Int) - 1)) by omega)
          have hj' : j = i - 15 - ((p.length : Int) - 1) + b' := by omega
          rw [hj']
          by_cases ht : m.testBit b' = true
          · exact r4 b' (by omega) ht
          · exact hlow b' (by omega) (by simpa using ht)
      · rw [r1]
        simp only [Option.bind_some]
        refine ih (i - 16) (by omega) (by omega) (by omega) (by omega) (fun j hj => ?_)
        by_cases hji : i - p.length + 1 < j
        · exact h3 j hji
        · obtain ⟨b', hb'⟩ := Int.eq_ofNat_of_zero_le (show 0 ≤ j - (i - 15 - ((p.length : Int) - 1)) by omega)
          have hj' : j = i - 15 - ((p.length : Int) - 1) + b' := by omega
          rw [hj']
          by_cases ht : m.testBit b' = true
          · exact r2 b' ht
          · exact hlow b' (by omega) (by simpa using ht)
    · rw [if_neg hc]
      have : bwdOffsets = ((List.range' 0 10).map fun t : Nat => -(t : Int)) ++ [10, -11, -12, -13, -14, -15] := by decide
      rw [this]
      exact bwdTail_spec hk hf hl i h1 _ 10 0 (by omega) (by simpa using h3)

theorem bwdScan_spec (s : Str) (c : UInt8) : ∀ (n : Nat) (i : Int), -1 ≤ i → i < s.length → i + 1 < n →
    (∀ j, i < j → ¬ Occurs s [c] j) → ∃ r, bwdScan s c n i = some r ∧ IsLast s [c] r := by
  intro n
  induction n with
  | zero => intro i h0 h1 h2; omega
  | succ n ih =>
    intro i h0 h1 h2 h3
    unfold bwdScan
    by_cases hc : i ≥ 0
    · rw [if_pos hc]
      obtain ⟨x, hx⟩ := rd_ex (a := s) hc h1
      obtain ⟨m, rfl⟩ := Int.eq_ofNat_of_zero_le hc
      rw [hx]
      simp only [Option.bind_eq_bind, Option.bind_some]
      rw [rd_nat] at hx
      by_cases hxc : x = c
      · subst hxc
        rw [if_pos (by simp)]
        exact ⟨_, rfl, Or.inl ⟨occurs_single.mpr hx, h3⟩⟩
      · rw [if_neg (by simpa using hxc)]
        refine ih _ (by omega) (by omega) (by omega) (fun j hj ho => ?_)
        by_cases hjm : j = m
        · subst hjm
          rw [occurs_single, hx] at ho
          cases ho
          exact hxc rfl
        · exact h3 j (by omega) ho
    · rw [if_neg hc]
      refine ⟨-1, rfl, Or.inr ⟨rfl, fun j ho => ?_⟩⟩
      exact h3 j (by have := ho.bounds; omega) ho

/-- `backward_find` where its unrolled tail stops before the wrong offset. -/
theorem backwardFind_spec (s p : Str) (h : p.length ≤ 1 ∨ s.length < p.length ∨ (s.length - p.length + 1) % 16 ≤ 9) :
    ∃ r, backwardFind s p = some r ∧ IsLast s p r := by
  unfold backwardFind
  dsimp only [len]
  by_cases h0 : (p.length : Int) = 0
  · rw [if_pos h0]
    have : p = [] := List.eq_nil_of_length_eq_zero (by omega)
    subst this
    refine ⟨_, rfl, Or.inl ⟨occurs_nil s (by omega) (Int.le_refl _), fun j hj ho => ?_⟩⟩
    have := ho.bounds; simp at this; omega
  · rw [if_neg h0]
    by_cases h1 : (s.length : Int) < p.length
    · rw [if_pos h1]
      refine ⟨-1, rfl, Or.inr ⟨rfl, fun j ho => ?_⟩⟩
      have := ho.bounds; omega
    · rw [if_neg h1]
      by_cases h2 : (p.length : Int) = 1
      · rw [if_pos h2]
        match p, h2 with
        | [c], _ =>
          have : rd [c] 0 = some c := rfl
          rw [this]
          simp only [Option.bind_eq_bind, Option.bind_some]
          exact bwdScan_spec s c _ _ (by omega) (by omega) (by omega) (fun j hj ho => by have := ho.bounds; simp at this; omega)
      · rw [if_neg h2]
        obtain ⟨fb, hf⟩ := rd_zero_of_pos (p := p) (by omega)
        obtain ⟨lb, hl⟩ := rd_ex (a := p) (i := (p.length : Int) - 1) (by omega) (by omega)
        rw [hf, hl]
        simp only [Option.bind_eq_bind, Option.bind_some]
        exact bwdLoop_spec (by omega) hf hl (s.length + 1) _ (by omega) (by omega) (by omega) (by omega) (fun j hj ho => by
          have := ho.bounds; omega)

end Codon.Str
