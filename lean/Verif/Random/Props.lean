import Verif.Random.Range
import Verif.Random.Lists
/-!
# C45: random selection

Words come from anywhere: every theorem is about all lists of 32-bit words.
-/
namespace Codon.Random

/-- C45: `getrandbits(k)` returns exactly the numbers of at most `k` bits.  (`k` = 64: `c45_violation_getrandbits`.) -/
theorem c45_getrandbits_partial (k : Nat) (hk : k ≤ 63) : Exactly (getrandbits k) (fun v => 0 ≤ v ∧ v < 2 ^ k) :=
  getrandbits_exactly k hk

/-- C45: every count of bits outside 0 … 64 is refused. -/
theorem c45_getrandbits_refuses (k : Int) (hk : k < 0 ∨ 64 < k) (ws : List Word) :
    getrandbits k ws = .exc .valueError := by
  unfold getrandbits
  rw [if_neg (by omega)]
  rcases hk with h | h
  · rw [if_pos h]
    rfl
  · rw [if_neg (by omega), if_pos h]
    rfl

/-- C45: a word with first bit 0 ends `_randbelow` at once, so that less than two draws are expected.  (`n` up to 2³²; a
larger `n` takes a second word.) -/
theorem c45_randbelow_ends (n : Nat) (h1 : 1 ≤ n) (h2 : n < 2 ^ 32) (w : Word) (hw : w.toNat < 2 ^ 31) (ws : List Word) :
    randbelow n (w :: ws) = .ok (((w.toNat >>> (32 - bitLength n) : Nat) : Int), ws) := by
  obtain ⟨hk, hle⟩ := bitLength_le n h1 (by omega)
  have hk2 : bitLength n ≤ 32 := by
    by_contra hc
    have h4 : 2 ^ 32 ≤ 2 ^ (bitLength n - 1) := Nat.pow_le_pow_right (by omega) (by omega)
    omega
  have hlt : w.toNat >>> (32 - bitLength n) < n := by
    rw [Nat.shiftRight_eq_div_pow, Nat.div_lt_iff_lt_mul (Nat.two_pow_pos _)]
    have h3 : 2 ^ (bitLength n - 1) * 2 ^ (32 - bitLength n) = 2 ^ 31 := by
      rw [← Nat.pow_add]
      congr 1
      omega
    have h4 := Nat.mul_le_mul_right (2 ^ (32 - bitLength n)) hle
    omega
  have hg : getrandbits (bitLength n : Int) (w :: ws) = .ok (((w.toNat >>> (32 - bitLength n) : Nat) : Int), ws) := by
    unfold getrandbits
    rw [if_neg (by omega), if_neg (by omega), if_neg (by omega), if_pos (by omega)]
    rw [show (32 - (bitLength n : Int)).toNat = 32 - bitLength n by omega]
    rfl
  unfold randbelow
  rw [toNat_ofInt n (by omega)]
  show (getrandbits (bitLength n : Int) (w :: ws) >>= fun r => belowLoop n (bitLength n) r.1 (r.2.length + 1) r.2) = _
  rw [hg]
  show belowLoop n (bitLength n) _ (ws.length + 1) ws = _
  unfold belowLoop
  rw [if_neg (by omega)]
  rfl

/-- C45: `randrange` returns exactly the values of `range(start, stop, step)`, and raises `ValueError` when there are
none.  Missing: `stop` = 0, differences that do not fit 64 bits, and more than 2⁵³ values with a step other than 1 (see the
violations). -/
theorem c45_randrange_partial (start stop step : Int) (h0 : stop ≠ 0) (ha : -2 ^ 63 ≤ start ∧ start < 2 ^ 63)
    (hb : -2 ^ 63 ≤ stop ∧ stop < 2 ^ 63) (hw : (stop - start).natAbs < 2 ^ 63)
    (hn : step ≠ 1 → (stop - start).natAbs + step.natAbs < 2 ^ 63 ∧ (stop - start).natAbs / step.natAbs < 2 ^ 53) :
    ((∃ v, InRange start stop step v) → Exactly (randrange start stop step) (InRange start stop step)) ∧
    ((¬ ∃ v, InRange start stop step v) → ∀ ws, randrange start stop step ws = .exc .valueError) := by
  rw [nonempty_iff]
  unfold Nonempty
  by_cases h1 : step = 1
  · subst h1
    obtain ⟨a, b⟩ := randrange_one h0 ha hb (by omega)
    exact ⟨fun h => a (by omega), fun h => raise_eq (b (by omega))⟩
  · by_cases h2 : step = 0
    · subst h2
      refine ⟨fun h => by omega, fun h => raise_eq ?_⟩
      unfold randrange
      simp only
      rw [if_neg h0, if_neg (by omega), if_neg (by omega), if_neg (by omega), if_neg (by omega)]
    · by_cases h3 : 0 < step
      · obtain ⟨a, b⟩ := randrange_pos h0 (by omega) ha hb (hn h1).1 (hn h1).2
        exact ⟨fun h => a (by omega), fun h => raise_eq (b (by omega))⟩
      · obtain ⟨a, b⟩ := randrange_neg h0 (by omega) ha hb (hn h1).1 (hn h1).2
        exact ⟨fun h => a (by omega), fun h => raise_eq (b (by omega))⟩

/-- C45: `randint(a, b)` returns exactly the numbers from `a` to `b`.  Missing: `b` = −1, `b` = 2⁶³−1 and differences
that do not fit. -/
theorem c45_randint_partial (a b : Int) (hab : a ≤ b) (ha : -2 ^ 63 ≤ a) (hb : b < 2 ^ 63 - 1) (h1 : b ≠ -1)
    (hw : b + 1 - a < 2 ^ 63) : Exactly (randint a b) (fun v => a ≤ v ∧ v ≤ b) := by
  unfold randint
  rw [wrap_id (by omega) (by omega)]
  have h := (randrange_one (start := a) (stop := b + 1) (by omega) ⟨ha, by omega⟩ ⟨by omega, by omega⟩ (by omega)).1 (by omega)
  have heq : ∀ v, InRange a (b + 1) 1 v ↔ a ≤ v ∧ v ≤ b := by
    intro v
    constructor
    · rintro ⟨i, hv, h | h⟩ <;> omega
    · intro hv
      exact ⟨(v - a).toNat, by omega, .inl ⟨by omega, by omega⟩⟩
  exact ⟨h.1.mono fun v hv => (heq v).mp hv, fun v hv => h.2 v ((heq v).mpr hv)⟩

/-- C45: `choice` returns exactly the elements; `IndexError` for an empty list. -/
theorem c45_choice {T : Type} (x : List T) (hl : x.length < 2 ^ 63) :
    (x ≠ [] → Exactly (choice x) (· ∈ x)) ∧ (x = [] → ∀ ws, choice x ws = .exc .indexError) := by
  unfold choice
  constructor
  · intro hx
    have hpos := List.length_pos_iff.mpr hx
    rw [if_neg (by omega)]
    have hb := randbelow_exactly x.length (by omega) hl
    constructor
    · refine hb.1.bind fun i hi => ?_
      rw [if_pos hi.1, List.getElem?_eq_getElem (by omega)]
      exact Only.pure (List.getElem_mem _)
    · intro v hv
      obtain ⟨i, hi, rfl⟩ := List.getElem_of_mem hv
      refine (hb.2 (i : Int) ⟨by omega, by omega⟩).bind ?_
      rw [if_pos (by omega), Int.toNat_natCast, List.getElem?_eq_getElem hi]
      exact Can.pure _
  · rintro rfl ws
    rfl

/-- C45: `shuffle` leaves exactly the rearrangements of the list. -/
theorem c45_shuffle {T : Type} (x : List T) (h : x.length < 2 ^ 63) : Exactly (shuffle x) (fun y => y.Perm x) :=
  shuffle_exactly x h

/-- C45: `sample` returns exactly the sequences of `k` elements from different positions, with either method. -/
theorem c45_sample {T : Type} (small : Bool) (population : List T) (hl : population.length < 2 ^ 63) (k : Int) :
    (0 ≤ k ∧ k ≤ population.length →
      Exactly (sample small population k) (fun ys => (ys.length : Int) = k ∧ Picked ys population)) ∧
    (¬ (0 ≤ k ∧ k ≤ population.length) → ∀ ws, sample small population k ws = .exc .valueError) := by
  constructor
  · rintro ⟨h1, h2⟩
    obtain ⟨k, rfl⟩ := Int.eq_ofNat_of_zero_le h1
    have h := sample_exactly small population k (by omega) hl
    exact ⟨h.1.mono fun v hv => ⟨by rw [hv.1], hv.2⟩, fun v hv => h.2 v ⟨by have := hv.1; omega, hv.2⟩⟩
  · intro h ws
    unfold sample
    rw [if_neg h]
    rfl

/-! ### Violations -/

/-- `randint(-5, -1)` always raises `ValueError`, since a `stop` of 0 counts as not given. -/
theorem c45_violation_randint : (∀ ws, randint (-5) (-1) ws = .exc .valueError) ∧ InRange (-5) 0 1 (-3) :=
  ⟨fun _ => rfl, 2, by decide, by decide⟩

/-- `randrange(5, 0)` returns a number, though the range is empty. -/
theorem c45_violation_stop_zero : Can (randrange 5 0 1) 3 ∧ ¬ ∃ v, InRange 5 0 1 v := by
  refine ⟨(randbelow_exactly 5 (by decide) (by decide)).2 3 (by decide), ?_⟩
  rw [nonempty_iff]
  unfold Nonempty
  decide

/-- The number of values goes through a `float`: with 2⁵³+3 values `stop` itself may be returned. -/
theorem c45_violation_rounding :
    Can (randrange 0 (2 ^ 54 + 6) 2) (2 ^ 54 + 6) ∧ ¬ InRange 0 (2 ^ 54 + 6) 2 (2 ^ 54 + 6) := by
  constructor
  · have h : randrange 0 (2 ^ 54 + 6) 2 = (do
        let r ← randbelow ((2 ^ 53 + 4 : Nat) : Int)
        return wrap (0 + wrap (2 * r))) := by
      have hs : sdiv (2 ^ 54 + 7) 2 = pure (2 ^ 53 + 3) := rfl
      have hd : Date.toDouble (2 ^ 53 + 3) = 2 ^ 53 + 4 := by decide
      have hr : randrange 0 (2 ^ 54 + 6) 2 = (do
        let n ← sdiv (2 ^ 54 + 7) 2
        steps 0 2 n) := rfl
      rw [hr, hs, pure_bind]
      unfold steps
      rw [hd]
      rfl
    rw [h]
    have := ((randbelow_exactly (2 ^ 53 + 4) (by decide) (by decide)).2 ((2 ^ 53 + 3 : Nat) : Int) (by decide)).bind
      (f := fun r => (return wrap (0 + wrap (2 * r)) : M Int)) (b := 2 ^ 54 + 6) (by
        rw [show wrap (0 + wrap (2 * ((2 ^ 53 + 3 : Nat) : Int))) = 2 ^ 54 + 6 by decide]
        exact Can.pure _)
    exact this
  · rintro ⟨_, _, h | h⟩ <;> omega

/-- A width of 2⁶³ overflows: `randrange(-2**62, 2**62)` raises. -/
theorem c45_violation_width :
    (∀ ws, randrange (-2 ^ 62) (2 ^ 62) 1 ws = .exc .valueError) ∧ InRange (-2 ^ 62) (2 ^ 62) 1 0 := by
  refine ⟨fun ws => rfl, 2 ^ 62, by decide, by decide⟩

/-- `getrandbits(64)` may be negative. -/
theorem c45_violation_getrandbits : Can (getrandbits 64) (-1) :=
  ⟨[0xFFFFFFFF, 0xFFFFFFFF], fun _ => rfl⟩

/-! ### Cases -/

example : (shuffle [1, 2, 3, 4] [0x80000000, 0x20000000, 0x40000000, 5]).bind (fun r => Out.ok r.1) =
    (.ok [3, 1, 4, 2] : Out Err _) := by decide +kernel

example : sample true ['a', 'b', 'c'] 2 [0x40000000, 0x40000000] = .ok (['b', 'c'], []) := by decide +kernel

example : sample false ['a', 'b', 'c'] 2 [0x40000000, 0x40000000, 0x80000000] = .ok (['b', 'c'], []) := by decide +kernel

example : InRange 10 0 (-3) 4 ∧ ¬ InRange 10 0 (-3) 0 :=
  ⟨⟨2, by decide, by decide⟩, by rintro ⟨i, h, h' | h'⟩ <;> omega⟩

end Codon.Random
