import Verif.IntStr.Top

/-!
# C85: `int(s, base)`, `bin`, `oct` and `hex`
-/

namespace Codon.IntStr
open Codon.Str Spec

/-- A base outside 2..36 other than 0 is a `ValueError`, for every text. -/
theorem c85_base (s : Str) (base : Int) (h : base < 0 ∨ base = 1 ∨ 36 < base) : fromStr s base = some (.error .value) := by
  unfold fromStr
  rw [if_pos (by omega)]

/-- `int(s, base)` for every text and every base: the value of the literal if the text without surrounding white space
is one (in Python's grammar, without underscores) and fits 64 bits, otherwise a `ValueError`; no byte outside the text
is read.  Missing: an unsigned literal with a prefix must have two characters after the prefix of which the first is a
digit; a negative literal with a prefix must not be the smallest 64-bit number; with base 0, zero must be written with a
prefix (for each of these a violation below).  Underscores, digits outside ASCII and integers outside 64 bits are
`ValueError`s, unlike in Python. -/
theorem c85_parse_partial (base : Nat) (hb : base = 0 ∨ 2 ≤ base ∧ base ≤ 36) (s x : Str) (ht : Trimmed s x)
    (hU : ∀ B rest, Marked base [] x B rest → rest = [] ∨ ∃ c c2 r, rest = c :: c2 :: r ∧ IsDigit B c)
    (hM : ∀ B rest, Marked base (b "-") x B rest → val B rest ≠ 2 ^ 63)
    (hZ : base = 0 → ∀ sg σ ds, Sign sg σ → x = sg ++ ds → ds ≠ [] → ∃ d ∈ ds, d ≠ 48) :
    ∃ r, fromStr s base = some r ∧ ∀ v, r = .ok v ↔ Lit base x v ∧ -2 ^ 63 ≤ v ∧ v < 2 ^ 63 :=
  fromStr_spec (by omega) (by omega) ht hU hM hZ

/-- Every text has exactly one trimmed form. -/
theorem c85_trimmed (s : Str) : ∃ x, Trimmed s x ∧ ∀ y, Trimmed s y → y = x := by
  obtain ⟨y, pre, post, e, h1, h2, h3, h4, h5⟩ := c51_strip s []
  have hw : ∀ c, Stripped [] c ↔ White c := by
    intro c; simp [Stripped, Blank, White]
  have : Trimmed s y := ⟨pre, post, h1, fun c hc => (hw c).mp (h2 c hc), fun c hc => (hw c).mp (h3 c hc),
    fun c hc h => h4 c hc ((hw c).mpr h), fun c hc h => h5 c hc ((hw c).mpr h)⟩
  exact ⟨y, this, fun z hz => by rw [← cut_eq hz, cut_eq this]⟩

theorem trimmed_self {x : Str} (h1 : ∀ c, x.head? = some c → ¬ White c) (h2 : ∀ c, x.getLast? = some c → ¬ White c) :
    Trimmed x x := ⟨[], [], by simp, by simp, by simp, h1, h2⟩

/-- Not vacuous: a text that meets the hypotheses, with its value. -/
example : Lit 16 (b "+0xfF") 255 := Lit.mk (sg := b "+") (pre := b "0x") (ds := b "fF") .plus
  (.mark (B := 16) (by decide) (Or.inr rfl)) (by decide)
  (by intro c hc
      have : c = 102 ∨ c = 70 := by simpa [b] using hc
      rcases this with rfl | rfl
      · exact ⟨15, by decide, by decide⟩
      · exact ⟨15, by decide, by decide⟩) (fun h => (by cases h))

example : fromStr (b "  +0xfF\n") 16 = some (.ok 255) ∧ fromStr (b "-zz") 36 = some (.ok (-1295)) ∧
    fromStr (b "0b1012") 0 = some (.error .value) ∧ fromStr (b "12 3") 10 = some (.error .value) ∧
    fromStr (b "9223372036854775808") 10 = some (.error .value) := ⟨rfl, rfl, rfl, rfl, rfl⟩

/-- `bin`, `oct` and `hex` of every 64-bit integer print the sign, the prefix and the digits of the absolute value; the
loops end after at most 65 rounds, nothing outside the new block is written, and the text does not depend on what the
block contained. With `-numerics=py` (flooring `//` and `%`) this holds of non-negative integers. -/
theorem c85_format (py : Bool) (junk : Nat → UInt8) (n : Int) (h : -2 ^ 63 ≤ n ∧ n < 2 ^ 63) (hp : py = false ∨ 0 ≤ n) :
    (∃ t, bin py 65 junk n = some t ∧ IsText 2 (b "0b") n t) ∧ (∃ t, oct py 65 junk n = some t ∧ IsText 8 (b "0o") n t) ∧
    ∃ t, hex py 65 junk n = some t ∧ IsText 16 (b "0x") n t := by
  have hn : n.natAbs < 2 ^ 64 := by omega
  exact ⟨isText (B := 2) (by decide) (by decide) junk _ hp hn, isText (B := 8) (by decide) (by decide) junk _ hp hn,
    isText (B := 16) (by decide) (by decide) junk _ hp hn⟩

example : hex false 65 (fun _ => 7) (-255) = some (b "-0xff") ∧ bin false 65 (fun _ => 7) 0 = some (b "0b0") ∧
    oct true 65 (fun _ => 7) 64 = some (b "0o100") := ⟨rfl, rfl, rfl⟩

/-- A number has one such text: the specification of `bin`, `oct` and `hex` leaves no choice. -/
theorem isText_unique {B : Nat} (hB : 2 ≤ B) (hB' : B ≤ 16) {pre : Str} {n : Int} {t u : Str} (h1 : IsText B pre n t)
    (h2 : IsText B pre n u) : t = u := by
  have dig : ∀ c : UInt8, c ∈ b "0123456789abcdef" → ∀ c' ∈ b "0123456789abcdef", digit c = digit c' → c = c' := by
    intro c hc c' hc'
    have : ∀ c ∈ b "0123456789abcdef", ∀ c' ∈ b "0123456789abcdef", digit c = digit c' → c = c' := by decide +kernel
    exact this c hc c' hc'
  have bound : ∀ ds : Str, (∀ c ∈ ds, IsDigit B c) → val B ds < B ^ ds.length := by
    intro ds h
    induction ds with
    | nil => simp [val]
    | cons c cs ih =>
      obtain ⟨d, e, hd⟩ := h c (by simp)
      rw [val, e, List.length_cons, Nat.pow_succ]
      have := ih fun x hx => h x (by simp [hx])
      show d * B ^ cs.length + _ < _
      have h2 : (d + 1) * B ^ cs.length ≤ B * B ^ cs.length := Nat.mul_le_mul_right _ hd
      rw [Nat.mul_comm (B ^ cs.length) B]
      rw [Nat.add_mul] at h2
      omega
  have same : ∀ ds es : Str, ds.length = es.length → (∀ c ∈ ds, c ∈ b "0123456789abcdef" ∧ IsDigit B c) →
      (∀ c ∈ es, c ∈ b "0123456789abcdef" ∧ IsDigit B c) → val B ds = val B es → ds = es := by
    intro ds
    induction ds with
    | nil => intro es hl _ _ _; exact (List.length_eq_zero_iff.mp hl.symm).symm
    | cons c cs ih =>
      intro es hl hd he hv
      cases es with
      | nil => simp at hl
      | cons e es =>
        obtain ⟨x, ex, hx⟩ := (hd c (by simp)).2
        obtain ⟨y, ey, hy⟩ := (he e (by simp)).2
        have hl' : cs.length = es.length := by simpa using hl
        have b1 := bound cs fun z hz => (hd z (by simp [hz])).2
        have b2 := bound es fun z hz => (he z (by simp [hz])).2
        rw [val, val, ex, ey, hl'] at hv
        rw [hl'] at b1
        have hv : x * B ^ es.length + val B cs = y * B ^ es.length + val B es := hv
        have hxy : x = y := by
          have hpos : 0 < B ^ es.length := by positivity
          have q1 : (x * B ^ es.length + val B cs) / B ^ es.length = x := by
            rw [Nat.mul_comm, Nat.mul_add_div hpos, Nat.div_eq_of_lt b1]; rfl
          have q2 : (y * B ^ es.length + val B es) / B ^ es.length = y := by
            rw [Nat.mul_comm, Nat.mul_add_div hpos, Nat.div_eq_of_lt b2]; rfl
          rw [← q1, hv, q2]
        subst hxy
        have hce : c = e := dig c (hd c (by simp)).1 e (he e (by simp)).1 (by rw [ex, ey])
        subst hce
        rw [ih es hl' (fun z hz => hd z (by simp [hz])) (fun z hz => he z (by simp [hz])) (by omega)]
  have lower : ∀ ds : Str, (∀ c ∈ ds, IsDigit B c) → ds.head? ≠ some 48 → (∀ c ∈ ds, c ∈ b "0123456789abcdef") →
      ds ≠ [] → B ^ (ds.length - 1) ≤ val B ds := by
    intro ds h hh hm hne
    cases ds with
    | nil => exact absurd rfl hne
    | cons c cs =>
      obtain ⟨d, e, hd⟩ := h c (by simp)
      rw [val, e, List.length_cons, Nat.add_sub_cancel]
      have hd0 : d ≠ 0 := by
        rintro rfl
        have := dig c (hm c (by simp)) 48 (by decide) (by rw [e]; decide)
        exact hh (by rw [this]; rfl)
      show _ ≤ d * B ^ cs.length + _
      have : 1 * B ^ cs.length ≤ d * B ^ cs.length := Nat.mul_le_mul_right _ (by omega)
      omega
  obtain ⟨ds, rfl, n1, d1, v1, z1⟩ := h1
  obtain ⟨es, rfl, n2, d2, v2, z2⟩ := h2
  have z48 : val B [48] = 0 := by simp [val]; decide
  have nz : ∀ ds : Str, (∀ c ∈ ds, c ∈ b "0123456789abcdef" ∧ IsDigit B c) → ds ≠ [] → val B ds = 0 →
      (ds.head? = some 48 → ds = [48]) → ds = [48] := by
    intro ds hd hne hv hz
    by_cases hh : ds.head? = some 48
    · exact hz hh
    · have := lower ds (fun c hc => (hd c hc).2) hh (fun c hc => (hd c hc).1) hne
      have : 0 < B ^ (ds.length - 1) := by positivity
      omega
  have : ds = es := by
    by_cases h0 : n.natAbs = 0
    · rw [nz ds d1 n1 (by omega) z1, nz es d2 n2 (by omega) z2]
    · have g1 : ds.head? ≠ some 48 := fun h => by rw [z1 h, z48] at v1; omega
      have g2 : es.head? ≠ some 48 := fun h => by rw [z2 h, z48] at v2; omega
      have l1 := lower ds (fun c hc => (d1 c hc).2) g1 (fun c hc => (d1 c hc).1) n1
      have l2 := lower es (fun c hc => (d2 c hc).2) g2 (fun c hc => (d2 c hc).1) n2
      have u1 := bound ds fun c hc => (d1 c hc).2
      have u2 := bound es fun c hc => (d2 c hc).2
      have p1 : 0 < ds.length := List.length_pos_iff.mpr n1
      have p2 : 0 < es.length := List.length_pos_iff.mpr n2
      have k1 : ds.length - 1 < es.length := (Nat.pow_lt_pow_iff_right (by omega : 1 < B)).mp (by omega)
      have k2 : es.length - 1 < ds.length := (Nat.pow_lt_pow_iff_right (by omega : 1 < B)).mp (by omega)
      exact same ds es (by omega) d1 d2 (by omega)
  rw [this]

/-- Reading back what `bin`, `oct` or `hex` printed gives the number again, in the matching base and in base 0. Missing:
non-negative numbers of one digit (undefined behaviour) and the smallest 64-bit number (a `ValueError`), see below. -/
theorem c85_roundtrip_partial (p : UInt8) (B : Nat) (hp : letter p = some B) (n : Int) (t : Str) (h : IsText B [48, p] n t)
    (hn : (B : Int) ≤ n ∧ n < 2 ^ 63 ∨ -2 ^ 63 < n ∧ n < 0) (base : Nat) (hb : base = 0 ∨ base = B) :
    fromStr t base = some (.ok n) := by
  have hB := letter_cases hp
  obtain ⟨ds, rfl, h1, h2, h3, h4⟩ := h
  have hlit : Lit base ((if n < 0 then b "-" else []) ++ [48, p] ++ ds) n := by
    have hd : ∀ c ∈ ds, IsDigit B c := fun c hc => (h2 c hc).2
    by_cases hneg : n < 0
    · have := Lit.mk (base := base) (pre := [48, p]) Sign.minus (.mark hp hb) h1 hd (fun _ h => (by cases h))
      rw [if_pos hneg]
      have e : (-1 : Int) * val B ds = n := by rw [h3]; omega
      rwa [e] at this
    · have := Lit.mk (base := base) (pre := [48, p]) Sign.none (.mark hp hb) h1 hd (fun _ h => (by cases h))
      rw [if_neg hneg]
      have e : (1 : Int) * val B ds = n := by rw [h3]; omega
      rwa [e] at this
  have hmarked : ∀ sg B' rest, Marked base sg ((if n < 0 then b "-" else []) ++ [48, p] ++ ds) B' rest →
      (sg = [] ∧ 0 ≤ n ∨ sg = b "-" ∧ n < 0) → rest = ds ∧ B' = B := by
    rintro sg B' rest ⟨p', e, hp', _⟩ (⟨rfl, hs⟩ | ⟨rfl, hs⟩)
    · rw [if_neg (by omega)] at e
      simp only [List.nil_append, List.cons_append, List.cons.injEq, true_and] at e
      obtain ⟨rfl, rfl⟩ := e
      rw [hp] at hp'
      cases hp'
      exact ⟨rfl, rfl⟩
    · rw [if_pos hs] at e
      simp only [List.append_assoc, List.append_cancel_left_eq, List.cons_append, List.nil_append, List.cons.injEq,
        true_and] at e
      obtain ⟨rfl, rfl⟩ := e
      rw [hp] at hp'
      cases hp'
      exact ⟨rfl, rfl⟩
  have htrim : Trimmed ((if n < 0 then b "-" else []) ++ [48, p] ++ ds) ((if n < 0 then b "-" else []) ++ [48, p] ++ ds) := by
    refine trimmed_self ?_ ?_
    · intro c hc
      by_cases hneg : n < 0
      · rw [if_pos hneg] at hc; cases hc; rw [← white_iff]; decide
      · rw [if_neg hneg] at hc; cases hc; rw [← white_iff]; decide
    · intro c hc
      rw [List.getLast?_append_of_ne_nil _ h1] at hc
      have := (digit_not_sign (by omega) (h2 c (List.mem_of_getLast? hc)).2).2.2
      rw [← white_iff, this]; simp
  obtain ⟨r, e, hr⟩ := c85_parse_partial base (by omega) _ _ htrim (by
      intro B' rest hm
      rcases hn with hn | hn
      · obtain ⟨rfl, rfl⟩ := hmarked [] B' rest hm (Or.inl ⟨rfl, by omega⟩)
        right
        match rest, h1, h2, h3 with
        | [c], _, h2, h3 =>
          obtain ⟨d, ed, hd⟩ := (h2 c (by simp)).2
          simp only [val, ed, Option.getD_some, List.length_nil, Nat.pow_zero, Nat.mul_one, Nat.add_zero] at h3
          omega
        | c :: c2 :: r, _, h2, _ => exact ⟨c, c2, r, rfl, (h2 c (by simp)).2⟩
      · obtain ⟨p', e, _⟩ := hm
        rw [if_pos hn.2] at e
        simp [b] at e) (by
      intro B' rest hm
      by_cases hneg : n < 0
      · obtain ⟨rfl, rfl⟩ := hmarked (b "-") B' rest hm (Or.inr ⟨rfl, hneg⟩)
        rw [h3]; omega
      · obtain ⟨p', e, _⟩ := hm
        rw [if_neg hneg] at e
        simp [b] at e) (by
      intro _ sg σ ds' hs e _
      refine ⟨p, ?_, ?_⟩
      · by_cases hneg : n < 0
        · rw [if_pos hneg] at e
          cases hs <;> simp [b] at e <;> simp [← e]
        · rw [if_neg hneg] at e
          cases hs <;> simp [b] at e <;> simp [← e]
      · rintro rfl
        have : letter 48 = none := by decide
        rw [this] at hp
        cases hp)
  rw [e]
  congr 1
  exact (hr n).mpr ⟨hlit, by omega, by omega⟩

example : fromStr (b "-0x5") 16 = some (.ok (-5)) ∧ fromStr (b "0b11") 0 = some (.ok 3) := ⟨rfl, rfl⟩

/-- Violation: an unsigned literal with a prefix and one digit, as printed by `hex(5)` or `bin(1)`, reads a byte past the
end of the text (`builtin.codon:448` looks at index 3 instead of 2). -/
theorem c85_violation_short : hex false 65 (fun _ => 0) 5 = some (b "0x5") ∧ fromStr (b "0x5") 16 = none ∧
    fromStr (b "0b1") 2 = none ∧ fromStr (b "0o7") 0 = none := ⟨rfl, rfl, rfl, rfl⟩

/-- Violation: a sign after the prefix is accepted, for the same reason; white space too. -/
theorem c85_violation_sign : fromStr (b "0x-1f") 16 = some (.ok (-31)) ∧ fromStr (b "0x 1f") 16 = some (.ok 31) ∧
    ¬ (∃ v, Lit 16 (b "0x-1f") v) := by
  refine ⟨rfl, rfl, ?_⟩
  rintro ⟨v, h⟩
  rw [lit_base (by decide) (by decide)] at h
  have hu : (unsign (b "0x-1f")).2 = 48 :: 120 :: (b "-1f") := rfl
  rw [pfx_at hu (by decide)] at h
  obtain ⟨_, h, _⟩ := h
  have := h 45 (by decide)
  rw [isDigit_iff (by decide)] at this
  exact absurd this (by decide)

/-- Violation: the smallest 64-bit number, printed by `hex`, is not read back. -/
theorem c85_violation_min : hex false 65 (fun _ => 0) (-2 ^ 63) = some (b "-0x8000000000000000") ∧
    fromStr (b "-0x8000000000000000") 16 = some (.error .value) ∧
    fromStr (b "-9223372036854775808") 10 = some (.ok (-2 ^ 63)) := ⟨rfl, rfl, rfl⟩

/-- Violation: with base 0 the literal `0` is rejected. -/
theorem c85_violation_zero : fromStr (b "0") 0 = some (.error .value) ∧ Lit 0 (b "0") 0 :=
  ⟨rfl, Lit.mk (sg := []) (pre := []) (ds := b "0") (B := 10) .none (.dec rfl) (by decide)
    (by intro c hc
        have : c = 48 := by simpa [b] using hc
        subst this
        exact ⟨0, by decide, by decide⟩) (fun _ _ _ => by decide)⟩

/-- Violation: with `-numerics=py`, `bin`, `oct` and `hex` of a negative number do not end: `-1 // base` is `-1`. -/
theorem c85_violation_py (f : Nat) (junk : Nat → UInt8) : hex true f junk (-1) = none := by
  have : ∀ f k, countDigits true 16 f (-1) k = none := by
    intro f
    induction f with
    | zero => intro k; rfl
    | succ f ih => intro k; exact ih (k + 1)
  unfold hex intFormat
  rw [this]
  rfl

end Codon.IntStr
