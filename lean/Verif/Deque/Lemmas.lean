import Verif.Deque.Model
import Verif.Deque.Spec
import Mathlib.Tactic.Common

namespace Codon.Deque

open Codon

variable {α : Type}

/-- `d` holds the elements `xs`. -/
structure Rel (d : Dq α) (xs : List α) : Prop where
  pow : ∃ e, d.arr.length = 2 ^ e
  head0 : 0 ≤ d.head
  headlt : d.head < d.arr.length
  len : xs.length < d.arr.length
  tail : d.tail = ((d.head.toNat + xs.length) % d.arr.length : Nat)
  cells : ∀ (i : Nat) (x : α), xs[i]? = some x →
    d.arr[(d.head.toNat + i) % d.arr.length]? = some (some x)

theorem wrap {h i c : Nat} (hh : h < c) (hi : i ≤ c) :
    (h + i) % c = if h + i < c then h + i else h + i - c := by
  split
  · exact Nat.mod_eq_of_lt ‹_›
  · rw [Nat.mod_eq_sub_mod (by omega)]
    exact Nat.mod_eq_of_lt (by omega)

theorem ldiff_pow (e m : Nat) : Nat.ldiff (2 ^ e - 1) m = 2 ^ e - 1 - m % 2 ^ e := by
  apply Nat.eq_of_testBit_eq
  intro i
  rw [Nat.testBit_ldiff, Nat.testBit_two_pow_sub_one]
  have : 2 ^ e - 1 - m % 2 ^ e = 2 ^ e - (m % 2 ^ e + 1) := by omega
  rw [this, Nat.testBit_two_pow_sub_succ (Nat.mod_lt _ (Nat.two_pow_pos e)), Nat.testBit_mod_two_pow]
  cases decide (i < e) <;> simp

theorem land_pow (e : Nat) (x : Int) : Int.land x ((2 ^ e : Nat) - 1 : Int) = x % (2 ^ e : Nat) := by
  have hp := Nat.two_pow_pos e
  have h1 : ((2 ^ e : Nat) - 1 : Int) = ((2 ^ e - 1 : Nat) : Int) := by omega
  rw [h1]
  cases x with
  | ofNat n =>
    show ((n &&& (2 ^ e - 1) : Nat) : Int) = _
    rw [Nat.and_two_pow_sub_one_eq_mod]
    rfl
  | negSucc m =>
    show ((Nat.ldiff (2 ^ e - 1) m : Nat) : Int) = _
    rw [ldiff_pow, Int.negSucc_emod_ofNat]
    have := Nat.mod_lt m hp
    rw [Int.subNatNat_eq_coe]
    omega

theorem mask_eq {d : Dq α} (h : ∃ e, d.arr.length = 2 ^ e) (x : Int) :
    mask d x = x % (d.arr.length : Int) := by
  obtain ⟨e, he⟩ := h
  unfold mask
  rw [he]
  exact land_pow e x

theorem len_eq {d : Dq α} {xs : List α} (h : Rel d xs) : len d = xs.length := by
  unfold len
  rw [mask_eq h.pow, h.tail]
  have h0 := h.head0
  have h1 := h.headlt
  have h2 := h.len
  rw [wrap (by omega) (by omega)]
  split
  · rw [Int.emod_eq_of_lt] <;> omega
  · have : ((d.head.toNat + xs.length - d.arr.length : Nat) : Int) - d.head
        = xs.length - d.arr.length := by omega
    rw [this, Int.sub_emod_right, Int.emod_eq_of_lt] <;> omega

theorem head_eq_tail {d : Dq α} {xs : List α} (h : Rel d xs) : d.head = d.tail ↔ xs = [] := by
  have h0 := h.head0
  have h1 := h.headlt
  have h2 := h.len
  rw [h.tail, wrap (by omega) (by omega), ← List.length_eq_zero_iff]
  split <;> omega

theorem nonEmpty_iff {d : Dq α} {xs : List α} (h : Rel d xs) : nonEmpty d = decide (xs ≠ []) := by
  unfold nonEmpty
  have := head_eq_tail h
  simp [this]

theorem ld_cell {d : Dq α} {xs : List α} (h : Rel d xs) {i : Nat} {x : α} (hx : xs[i]? = some x)
    {p : Int} (hp : p = ((d.head.toNat + i) % d.arr.length : Nat)) :
    ld (ε := Err) d.arr p = .ok x := by
  subst hp
  unfold ld
  rw [if_pos (by omega), Int.toNat_natCast, h.cells i x hx]

theorem popleft_cons {d : Dq α} {x : α} {xs : List α} (h : Rel d (x :: xs)) :
    ∃ d', popleft d = .ok (x, d') ∧ Rel d' xs ∧ d'.maxlen = d.maxlen := by
  have h0 := h.head0
  have h1 := h.headlt
  have h2 := h.len
  simp only [List.length_cons] at h2
  unfold popleft
  rw [nonEmpty_iff h, if_pos (by simp), ld_cell h (i := 0) (x := x) rfl
    (by rw [Nat.add_zero, Nat.mod_eq_of_lt (by omega)]; omega)]
  refine ⟨{ d with head := mask d (d.head + 1) }, rfl, ?_, rfl⟩
  have hm : mask d (d.head + 1) = ((d.head.toNat + 1) % d.arr.length : Nat) := by
    rw [mask_eq h.pow, show d.head + 1 = ((d.head.toNat + 1 : Nat) : Int) by omega]
    rfl
  rw [hm]
  have hadd : ∀ i, ((d.head.toNat + 1) % d.arr.length + i) % d.arr.length
      = (d.head.toNat + (i + 1)) % d.arr.length := by
    intro i
    rw [Nat.mod_add_mod, Nat.add_assoc, Nat.add_comm 1 i]
  refine ⟨h.pow, Int.natCast_nonneg _, ?_, by simp only; omega, ?_, ?_⟩
  · have := Nat.mod_lt (d.head.toNat + 1) (show d.arr.length > 0 by omega)
    simp only; omega
  · simp only [Int.toNat_natCast, hadd]
    simpa using h.tail
  · intro i y hy
    simp only [Int.toNat_natCast, hadd]
    exact h.cells (i + 1) y (by simpa using hy)

theorem popleft_nil {d : Dq α} (h : Rel d []) : popleft d = .exc .index := by
  unfold popleft
  rw [nonEmpty_iff h]
  simp

theorem pop_append {d : Dq α} {x : α} {xs : List α} (h : Rel d (xs ++ [x])) :
    ∃ d', pop d = .ok (x, d') ∧ Rel d' xs ∧ d'.maxlen = d.maxlen := by
  have h0 := h.head0
  have h1 := h.headlt
  have h2 := h.len
  simp only [List.length_append, List.length_singleton] at h2
  have hm : mask d (d.tail - 1) = ((d.head.toNat + xs.length) % d.arr.length : Nat) := by
    rw [mask_eq h.pow, h.tail]
    simp only [List.length_append, List.length_singleton]
    rw [wrap (by omega) (by omega), wrap (by omega) (by omega)]
    by_cases hc : d.head.toNat + (xs.length + 1) < d.arr.length
    · rw [if_pos hc, if_pos (by omega), Int.emod_eq_of_lt] <;> omega
    · rw [if_neg hc]
      by_cases hc' : d.head.toNat + xs.length < d.arr.length
      · rw [if_pos hc']
        have : ((d.head.toNat + (xs.length + 1) - d.arr.length : Nat) : Int) - 1
          = (d.arr.length - 1) - d.arr.length := by omega
        rw [this, Int.sub_emod_right, Int.emod_eq_of_lt] <;> omega
      · rw [if_neg hc', Int.emod_eq_of_lt] <;> omega
  unfold pop
  rw [nonEmpty_iff h, if_pos (by simp)]
  simp only [hm]
  rw [ld_cell h (i := xs.length) (x := x) (by simp) rfl]
  refine ⟨_, rfl, ?_, rfl⟩
  refine ⟨h.pow, h.head0, h.headlt, by simp only; omega, rfl, ?_⟩
  intro i y hy
  apply h.cells i y
  rw [List.getElem?_append_left, hy]
  by_contra hlt
  rw [List.getElem?_eq_none (by omega)] at hy
  cases hy

theorem pop_nil {d : Dq α} (h : Rel d []) : pop d = .exc .index := by
  unfold pop
  rw [nonEmpty_iff h]
  simp

/-- One element more than `Rel` allows: the ring is full or not. -/
structure RelW (d : Dq α) (xs : List α) : Prop where
  pow : ∃ e, d.arr.length = 2 ^ e
  head0 : 0 ≤ d.head
  headlt : d.head < d.arr.length
  len : xs.length ≤ d.arr.length
  ne : xs ≠ []
  tail : d.tail = ((d.head.toNat + xs.length) % d.arr.length : Nat)
  cells : ∀ (i : Nat) (x : α), xs[i]? = some x →
    d.arr[(d.head.toNat + i) % d.arr.length]? = some (some x)

theorem RelW.rel {d : Dq α} {xs : List α} (h : RelW d xs) (hl : xs.length < d.arr.length) :
    Rel d xs := ⟨h.pow, h.head0, h.headlt, hl, h.tail, h.cells⟩

theorem RelW.full {d : Dq α} {xs : List α} (h : RelW d xs) (hl : xs.length = d.arr.length) :
    d.head = d.tail := by
  have h0 := h.head0
  have h1 := h.headlt
  rw [h.tail, wrap (by omega) (by omega)]
  split <;> omega

theorem copyLoop_eq {dst src : Block α} {d s : Nat} {ys : List α} :
    ∀ n : Nat, n ≤ ys.length → d + n ≤ dst.length →
    (∀ (i : Nat) (y : α), ys[i]? = some y → src[s + i]? = some (some y)) →
    ∃ dst', copyLoop dst src d s n = .ok dst' ∧ dst'.length = dst.length ∧
      (∀ i : Nat, i < d → dst'[i]? = dst[i]?) ∧
      (∀ i : Nat, i < n → dst'[d + i]? = ys[i]?.map some) := by
  intro n
  induction n with
  | zero => intro _ _ _; exact ⟨dst, rfl, rfl, fun _ _ => rfl, by omega⟩
  | succ n ih =>
    intro hn hd hs
    obtain ⟨d1, e1, l1, p1, q1⟩ := ih (by omega) (by omega) hs
    have hy : ys[n]? = some ys[n] := List.getElem?_eq_getElem (by omega)
    have e2 : ld (ε := Err) src ((s : Int) + n) = .ok ys[n] := by
      unfold ld
      rw [if_pos (by omega), show ((s : Int) + n).toNat = s + n by omega, hs n _ hy]
    have e3 : st (ε := Err) d1 ((d : Int) + n) ys[n] = .ok (d1.set (d + n) (some ys[n])) := by
      unfold st
      rw [if_pos (by omega), show ((d : Int) + n).toNat = d + n by omega]
    refine ⟨d1.set (d + n) (some ys[n]), ?_, by simp [l1], ?_, ?_⟩
    · simp [copyLoop, e1, e2, e3]
    · intro i hi
      rw [List.getElem?_set_ne (by omega), p1 i hi]
    · intro i hi
      by_cases h : i = n
      · subst h
        rw [List.getElem?_set_self (by omega), hy]
        rfl
      · rw [List.getElem?_set_ne (by omega), q1 i (by omega)]

theorem doubleCap_eq {d : Dq α} {xs : List α} (h : RelW d xs) (hl : xs.length = d.arr.length) :
    ∃ d', doubleCap d = .ok d' ∧ Rel d' xs ∧ d'.maxlen = d.maxlen ∧
      d'.arr.length = 2 * d.arr.length := by
  have h0 := h.head0
  have h1 := h.headlt
  obtain ⟨p, hp⟩ : ∃ p : Nat, d.head = p := ⟨d.head.toNat, by omega⟩
  have hc := h.cells
  rw [hp] at hc h1
  simp only [Int.toNat_natCast] at hc
  unfold doubleCap
  simp only [hp, Int.toNat_natCast]
  rw [show ((d.arr.length : Int) - (p : Int)) = ((d.arr.length - p : Nat) : Int) by omega,
    Int.toNat_natCast]
  have ea : alloc (ε := Err) (α := α) ((d.arr.length : Int) * 2)
      = .ok (List.replicate (2 * d.arr.length) none) := by
    unfold alloc
    rw [if_pos (by omega)]
    congr 2
    omega
  rw [ea]
  obtain ⟨a1, e1, l1, -, q1⟩ := copyLoop_eq (dst := List.replicate (2 * d.arr.length) none)
    (src := d.arr) (d := 0) (s := p) (ys := xs.take (d.arr.length - p)) (d.arr.length - p)
    (by simp; omega) (by simp; omega) (by
      intro i y hy
      rw [List.getElem?_take] at hy
      split at hy
      · have := hc i y hy
        rwa [Nat.mod_eq_of_lt (by omega)] at this
      · cases hy)
  obtain ⟨a2, e2, l2, p2, q2⟩ := copyLoop_eq (dst := a1)
    (src := d.arr) (d := d.arr.length - p) (s := 0) (ys := xs.drop (d.arr.length - p)) p
    (by simp; omega) (by simp [l1]; omega) (by
      intro i y hy
      rw [List.getElem?_drop] at hy
      have hi : i < p := by
        by_contra hi
        rw [List.getElem?_eq_none (by omega)] at hy
        cases hy
      have := hc _ y hy
      rw [show p + (d.arr.length - p + i) = i + d.arr.length by omega, Nat.add_mod_right,
        Nat.mod_eq_of_lt (by omega)] at this
      rwa [Nat.zero_add])
  simp only [Nat.cast_zero] at e1 e2
  simp only [Out.bind_ok, e1, e2]
  have hlen2 : a2.length = 2 * d.arr.length := by rw [l2, l1]; simp
  refine ⟨_, rfl, ?_, rfl, hlen2⟩
  obtain ⟨e, he⟩ := h.pow
  have hcap : 0 < d.arr.length := by omega
  refine ⟨⟨e + 1, by simp only [hlen2, he]; rw [Nat.pow_succ]; omega⟩, by simp, ?_, ?_, ?_, ?_⟩
  · simp only [hlen2]; omega
  · simp only [hlen2]; omega
  · simp only [hlen2, Int.toNat_zero, Nat.zero_add]
    rw [Nat.mod_eq_of_lt (by omega), hl]
  · intro i x hx
    have hi : i < xs.length := by
      by_contra hi
      rw [List.getElem?_eq_none (by omega)] at hx
      cases hx
    simp only [hlen2, Int.toNat_zero, Nat.zero_add]
    rw [Nat.mod_eq_of_lt (by omega)]
    by_cases hip : i < d.arr.length - p
    · rw [p2 i hip]
      have := q1 i hip
      rw [Nat.zero_add] at this
      rw [this, List.getElem?_take, if_pos hip, hx]
      rfl
    · have := q2 (i - (d.arr.length - p)) (by omega)
      rw [show d.arr.length - p + (i - (d.arr.length - p)) = i by omega] at this
      rw [this, List.getElem?_drop,
        show d.arr.length - p + (i - (d.arr.length - p)) = i by omega, hx]
      rfl

/-- The bound on the length that the `_maxlen` field stands for. -/
def bound (d : Dq α) : Option Nat := if d.maxlen < 0 then none else some d.maxlen.toNat

/-- `maxlen` is negative (no bound) or `maxlen + 1` is not a power of two. -/
def GoodMax (m : Int) : Prop := m < 0 ∨ ∀ e : Nat, m + 1 ≠ 2 ^ e

/-- The length is within the bound. -/
def Within (d : Dq α) (xs : List α) : Prop := d.maxlen < 0 ∨ (xs.length : Int) ≤ d.maxlen

theorem trim_grow {d : Dq α} {xs ys : List α} {z : α} {p : Dq α → Out Err (α × Dq α)}
    (h : RelW d xs) (hg : GoodMax d.maxlen) (hw : d.maxlen < 0 ∨ (xs.length : Int) ≤ d.maxlen + 1)
    (hp : Rel d xs → ∃ d', p d = .ok (z, d') ∧ Rel d' ys ∧ d'.maxlen = d.maxlen)
    (hys : ys.length + 1 = xs.length) :
    ∃ d', (trim d p >>= grow) = .ok d' ∧ d'.maxlen = d.maxlen ∧
      Rel d' (if 0 ≤ d.maxlen ∧ (xs.length : Int) = d.maxlen + 1 then ys else xs) := by
  have h0 := h.head0
  have h1 := h.headlt
  by_cases hfull : xs.length = d.arr.length
  · have hcond : ¬ (0 ≤ d.maxlen ∧ (xs.length : Int) = d.maxlen + 1) := by
      rintro ⟨a, b⟩
      obtain ⟨e, he⟩ := h.pow
      rcases hg with hg | hg
      · omega
      · apply hg e
        rw [← b, hfull, he]
        push_cast
        rfl
    have hlen : len d = 0 := by
      unfold len
      rw [mask_eq h.pow, h.full hfull]
      simp
    have ht : trim d p = .ok d := by
      unfold trim
      rw [hlen, if_neg (by omega)]
      rfl
    rw [ht, if_neg hcond]
    obtain ⟨d', e1, e2, e3, -⟩ := doubleCap_eq h hfull
    refine ⟨d', ?_, e3, e2⟩
    simp only [Out.bind_ok, grow]
    rw [if_pos (h.full hfull), e1]
  · have hr : Rel d xs := h.rel (by have := h.len; omega)
    unfold trim
    rw [len_eq hr]
    by_cases hc : 0 ≤ d.maxlen ∧ (xs.length : Int) = d.maxlen + 1
    · rw [if_pos (by omega), if_pos hc]
      obtain ⟨d', e1, e2, e3⟩ := hp hr
      rw [e1]
      simp only [Out.bind_ok, Out.pure_eq, grow]
      by_cases hne : d'.head = d'.tail
      · -- only when the result is empty: `maxlen = 0`, which `GoodMax` excludes
        have := (head_eq_tail e2).mp hne
        subst this
        exfalso
        rcases hg with hg | hg
        · omega
        · apply hg 0
          simp at hys
          omega
      · rw [if_neg hne]
        exact ⟨d', rfl, e3, e2⟩
    · rw [if_neg (by omega), if_neg hc]
      simp only [Out.bind_ok, Out.pure_eq, grow]
      rw [if_neg (by rw [head_eq_tail hr]; exact h.ne)]
      exact ⟨d, rfl, rfl, hr⟩

theorem append_eq {d : Dq α} {xs : List α} (h : Rel d xs) (hg : GoodMax d.maxlen)
    (hw : Within d xs) (x : α) :
    ∃ d', append d x = .ok d' ∧ d'.maxlen = d.maxlen ∧
      Rel d' (Spec.keepRight (bound d) (xs ++ [x])) := by
  have h0 := h.head0
  have h1 := h.headlt
  have h2 := h.len
  have hcap : 0 < d.arr.length := by omega
  have ht : 0 ≤ d.tail := by rw [h.tail]; omega
  have ht1 : d.tail.toNat = (d.head.toNat + xs.length) % d.arr.length := by rw [h.tail]; omega
  have ht2 := Nat.mod_lt (d.head.toNat + xs.length) hcap
  unfold append
  have e1 : st (ε := Err) d.arr d.tail x = .ok (d.arr.set d.tail.toNat (some x)) := by
    unfold st
    rw [if_pos ⟨ht, by omega⟩]
  simp only [e1, Out.bind_ok]
  have hm : mask d (d.tail + 1) = ((d.head.toNat + (xs.length + 1)) % d.arr.length : Nat) := by
    rw [mask_eq h.pow, h.tail]
    push_cast
    rw [Int.emod_add_emod, Int.add_assoc]
  have hW : RelW { d with arr := d.arr.set d.tail.toNat (some x), tail := mask d (d.tail + 1) }
      (xs ++ [x]) := by
    refine ⟨by simpa using h.pow, h0, by simpa using h1, by simp; omega, by simp, ?_, ?_⟩
    · simp only [hm, List.length_set, List.length_append, List.length_singleton]
    · intro i y hy
      simp only [List.length_set]
      by_cases hi : i = xs.length
      · subst hi
        simp at hy
        subst hy
        rw [ht1, List.getElem?_set_self (by omega)]
      · have hi' : i < xs.length := by
          by_contra hlt
          rw [List.getElem?_eq_none (by simp; omega)] at hy
          cases hy
        rw [List.getElem?_append_left hi'] at hy
        rw [List.getElem?_set_ne, h.cells i y hy]
        rw [ht1, wrap (by omega) (by omega), wrap (by omega) (by omega)]
        split <;> split <;> omega
  have key := trim_grow (p := popleft) (ys := (xs ++ [x]).tail) (z := (xs ++ [x]).head (by simp))
    hW hg (by unfold Within at hw; simp; omega)
    (by
      intro hr
      have : xs ++ [x] = (xs ++ [x]).head (by simp) :: (xs ++ [x]).tail := by simp
      generalize hz : (xs ++ [x]).head (by simp) = z at *
      generalize (xs ++ [x]).tail = t at *
      rw [this] at hr
      exact popleft_cons hr)
    (by simp)
  obtain ⟨d', k1, k2, k3⟩ := key
  refine ⟨d', k1, k2, ?_⟩
  simp only [List.length_append, List.length_singleton] at k3
  unfold Within at hw
  unfold bound
  by_cases hneg : d.maxlen < 0
  · rw [if_neg (by omega)] at k3
    simpa [hneg, Spec.keepRight] using k3
  · rw [if_neg hneg]
    simp only [Spec.keepRight, List.length_append, List.length_singleton]
    by_cases hc : (xs.length : Int) = d.maxlen
    · rw [if_pos (by omega)] at k3
      rw [show xs.length + 1 - d.maxlen.toNat = 1 by omega, List.drop_one]
      exact k3
    · rw [if_neg (by omega)] at k3
      rw [show xs.length + 1 - d.maxlen.toNat = 0 by omega, List.drop_zero]
      exact k3

theorem appendleft_eq {d : Dq α} {xs : List α} (h : Rel d xs) (hg : GoodMax d.maxlen)
    (hw : Within d xs) (x : α) :
    ∃ d', appendleft d x = .ok d' ∧ d'.maxlen = d.maxlen ∧
      Rel d' (Spec.keepLeft (bound d) (x :: xs)) := by
  have h0 := h.head0
  have h1 := h.headlt
  have h2 := h.len
  have hcap : 0 < d.arr.length := by omega
  obtain ⟨q, hq, hqlt, hqw⟩ : ∃ q : Nat, mask d (d.head - 1) = q ∧ q < d.arr.length ∧
      ∀ i, (q + (i + 1)) % d.arr.length = (d.head.toNat + i) % d.arr.length := by
    rw [mask_eq h.pow]
    by_cases hz : d.head = 0
    · refine ⟨d.arr.length - 1, ?_, by omega, ?_⟩
      · rw [hz, show (0 : Int) - 1 = (d.arr.length - 1) - d.arr.length by omega,
          Int.sub_emod_right, Int.emod_eq_of_lt] <;> omega
      · intro i
        rw [show d.arr.length - 1 + (i + 1) = i + d.arr.length by omega, Nat.add_mod_right, hz]
        simp
    · refine ⟨d.head.toNat - 1, ?_, by omega, ?_⟩
      · rw [Int.emod_eq_of_lt] <;> omega
      · intro i
        rw [show d.head.toNat - 1 + (i + 1) = d.head.toNat + i by omega]
  unfold appendleft
  have e1 : st (ε := Err) d.arr (q : Int) x = .ok (d.arr.set q (some x)) := by
    unfold st
    rw [if_pos ⟨by omega, by omega⟩]
    rfl
  simp only [hq, e1, Out.bind_ok]
  have hW : RelW { d with arr := d.arr.set q (some x), head := (q : Int) } (x :: xs) := by
    refine ⟨by simpa using h.pow, by simp, by simpa using hqlt, by simp; omega, by simp, ?_, ?_⟩
    · simp only [List.length_set, List.length_cons, Int.toNat_natCast, hqw]
      exact h.tail
    · intro i y hy
      simp only [List.length_set, Int.toNat_natCast]
      cases i with
      | zero =>
        simp at hy
        subst hy
        rw [Nat.add_zero, Nat.mod_eq_of_lt hqlt, List.getElem?_set_self hqlt]
      | succ i =>
        have hi' : i < xs.length := by
          by_contra hlt
          rw [List.getElem?_eq_none (by simp; omega)] at hy
          cases hy
        rw [List.getElem?_set_ne, hqw, h.cells i y (by simpa using hy)]
        rw [wrap hqlt (by omega)]
        split <;> omega
  have key := trim_grow (p := pop) (ys := (x :: xs).dropLast) (z := (x :: xs).getLast (by simp))
    hW hg (by unfold Within at hw; simp; omega)
    (by
      intro hr
      have := (List.dropLast_concat_getLast (l := x :: xs) (by simp)).symm
      generalize hz : (x :: xs).getLast (by simp) = z at *
      generalize (x :: xs).dropLast = t at *
      rw [this] at hr
      exact pop_append hr)
    (by simp)
  obtain ⟨d', k1, k2, k3⟩ := key
  refine ⟨d', k1, k2, ?_⟩
  simp only [List.length_cons] at k3
  unfold Within at hw
  unfold bound
  by_cases hneg : d.maxlen < 0
  · rw [if_neg (by omega)] at k3
    simpa [hneg, Spec.keepLeft] using k3
  · rw [if_neg hneg]
    simp only [Spec.keepLeft]
    by_cases hc : (xs.length : Int) = d.maxlen
    · rw [if_pos (by omega)] at k3
      rw [List.dropLast_eq_take] at k3
      rw [show d.maxlen.toNat = (x :: xs).length - 1 by simp; omega]
      exact k3
    · rw [if_neg (by omega)] at k3
      rw [List.take_of_length_le (by simp; omega)]
      exact k3

theorem clear_eq {d : Dq α} {xs : List α} (h : Rel d xs) : Rel (clear d) [] := by
  have h0 := h.head0
  have h1 := h.headlt
  refine ⟨h.pow, by simp [clear], by simp only [clear]; omega, by simp [clear]; omega, ?_, by simp⟩
  simp [clear]

theorem iterLoop_eq {d : Dq α} {xs : List α} (h : Rel d xs) :
    ∀ (ys : List α) (k fuel : Nat), xs.drop k = ys → k ≤ xs.length → ys.length ≤ fuel →
    iterLoop d fuel ((d.head.toNat + k) % d.arr.length : Nat) = .ok ys := by
  have h0 := h.head0
  have h1 := h.headlt
  have h2 := h.len
  intro ys
  induction ys with
  | nil =>
    intro k fuel hk hkl _
    have hke : k = xs.length := by
      have := List.drop_eq_nil_iff.mp hk
      omega
    subst hke
    cases fuel <;> simp [iterLoop, h.tail]
  | cons y ys ih =>
    intro k fuel hk hkl hf
    cases fuel with
    | zero => simp at hf
    | succ fuel =>
      have hlt : k < xs.length := by
        by_contra hlt
        rw [List.drop_eq_nil_iff.mpr (by omega)] at hk
        cases hk
      have hne : ¬ (((d.head.toNat + k) % d.arr.length : Nat) : Int) = d.tail := by
        rw [h.tail, wrap (by omega) (by omega), wrap (by omega) (by omega)]
        split <;> split <;> omega
      have hx : xs[k]? = some y := by
        have := congrArg List.head? hk
        simpa using this
      unfold iterLoop
      rw [if_neg hne, ld_cell h hx rfl]
      have hm : mask d ((((d.head.toNat + k) % d.arr.length : Nat) : Int) + 1)
          = ((d.head.toNat + (k + 1)) % d.arr.length : Nat) := by
        rw [mask_eq h.pow]
        push_cast
        rw [Int.emod_add_emod, Int.add_assoc]
      rw [hm]
      rw [Out.bind_ok, ih (k + 1) fuel (by
        rw [← List.drop_drop, ← List.tail_drop] at *
        simp [hk]) (by omega) (by simp at hf; omega)]
      rfl

theorem iter_eq {d : Dq α} {xs : List α} (h : Rel d xs) : iter d = .ok xs := by
  have h0 := h.head0
  have h1 := h.headlt
  have h2 := h.len
  have := iterLoop_eq h xs 0 d.arr.length (by simp) (by omega) (by omega)
  unfold iter
  rw [Nat.add_zero, Nat.mod_eq_of_lt (by omega)] at this
  rw [show d.head = (d.head.toNat : Int) by omega]
  exact this

theorem getitem_eq {d : Dq α} {xs : List α} (h : Rel d xs) {i : Int} {k : Nat} {x : α}
    (hi : i = k ∨ i = (k : Int) - xs.length ∧ i < 0) (hx : xs[k]? = some x) :
    getitem d i = .ok x := by
  have h0 := h.head0
  have h1 := h.headlt
  have h2 := h.len
  have hk : k < xs.length := by
    by_contra hlt
    rw [List.getElem?_eq_none (by omega)] at hx
    cases hx
  unfold getitem
  rw [len_eq h]
  have hj : (if i < 0 then i + (xs.length : Int) else i) = k := by
    split <;> omega
  simp only [hj]
  have hne : ¬ d.head = d.tail := by
    rw [head_eq_tail h]
    rintro rfl
    simp at hk
  have hc : idxCheck d (k : Int) = true := by
    unfold idxCheck
    rw [len_eq h]
    simp [hne]
    omega
  rw [if_pos hc]
  have hw := wrap (h := d.head.toNat) (i := k) (c := d.arr.length) (by omega) (by omega)
  have htl := h.tail
  rw [wrap (by omega) (by omega)] at htl
  by_cases hle : d.head ≤ d.tail
  · rw [if_pos hle]
    apply ld_cell h hx
    rw [hw]
    split at htl <;> split <;> omega
  · rw [if_neg hle]
    by_cases hlt : d.head + (k : Int) < d.arr.length
    · rw [if_pos hlt]
      apply ld_cell h hx
      rw [hw]
      split <;> omega
    · rw [if_neg hlt]
      rw [if_pos (by split at htl <;> omega)]
      apply ld_cell h hx
      rw [hw]
      split <;> omega

theorem getitem_none {d : Dq α} {xs : List α} (h : Rel d xs) {i : Int}
    (hi : (xs.length : Int) ≤ i ∨ i < -xs.length) : getitem d i = .exc .index := by
  unfold getitem
  rw [len_eq h]
  generalize hj : (if i < 0 then i + (xs.length : Int) else i) = j
  rw [if_neg]
  unfold idxCheck
  rw [len_eq h]
  have : (xs.length : Int) ≤ j ∨ j < 0 := by
    split at hj <;> omega
  rcases this with h | h
  · simp [h]
  · simp [h]

theorem left_eq {d : Dq α} {xs : List α} (h : Rel d xs) :
    left d = match xs with | [] => .exc .index | x :: _ => .ok x := by
  have h0 := h.head0
  have h1 := h.headlt
  unfold left idxCheck
  rw [len_eq h]
  cases xs with
  | nil => simp
  | cons x xs =>
    have hne : ¬ d.head = d.tail := by rw [head_eq_tail h]; simp
    rw [if_pos (by simp [hne])]
    exact ld_cell h (i := 0) (x := x) rfl
      (by rw [Nat.add_zero, Nat.mod_eq_of_lt (by omega)]; omega)

theorem new_rel : Rel (new : Dq α) [] :=
  ⟨⟨4, rfl⟩, by simp [new], by simp [new], by simp [new], by simp [new], by simp⟩

theorem capLoop_pow (fuel : Nat) (m : Int) : ∀ e : Nat, ∃ e', capLoop fuel (2 ^ e : Nat) m
    = (2 ^ e' : Nat) := by
  induction fuel with
  | zero => intro e; exact ⟨e, rfl⟩
  | succ n ih =>
    intro e
    unfold capLoop
    split
    · obtain ⟨e', he⟩ := ih (e + 1)
      refine ⟨e', ?_⟩
      rw [← he, Nat.pow_succ]
      push_cast
      rfl
    · exact ⟨e, rfl⟩

/-- `maxlen` iterations suffice: the loop of `__init__` ends with `cap ≥ maxlen`. -/
theorem capLoop_ge (fuel : Nat) : ∀ (cap m : Int), 1 ≤ cap → m ≤ cap + fuel →
    m ≤ capLoop fuel cap m := by
  induction fuel with
  | zero => intro cap m _ h; simpa [capLoop] using h
  | succ n ih =>
    intro cap m h1 h2
    unfold capLoop
    split
    · apply ih <;> omega
    · omega

theorem newMax_rel (m : Int) : Rel (newMax m : Dq α) [] := by
  obtain ⟨e, he⟩ := capLoop_pow m.toNat m 0
  have hp := Nat.two_pow_pos e
  have he' : capLoop m.toNat 1 m = (2 ^ e : Nat) := by simpa using he
  have hl : (newMax m : Dq α).arr.length = 2 ^ e := by
    simp only [newMax, he', List.length_replicate, Int.toNat_natCast]
  refine ⟨⟨e, hl⟩, by simp [newMax], ?_, ?_, by simp [newMax], by simp⟩
  · rw [hl]; simp only [newMax]; omega
  · rw [hl]; simpa using hp

end Codon.Deque
