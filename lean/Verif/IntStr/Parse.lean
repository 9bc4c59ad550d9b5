import Verif.IntStr.Lemmas

/-! `int(s, base)` against the grammar. -/

namespace Codon.IntStr
open Codon.Str Spec

theorem conv_ok (B : Nat) (s : Str) (neg : Bool) (v : Int) :
    conv B s neg = .ok v ↔ num B s = some (if neg then -v else v) := by
  unfold conv
  cases num B s with
  | none => constructor <;> (intro h; cases h)
  | some r =>
    cases neg
    · simp
    · simp only [if_true, Except.ok.injEq, Option.some.injEq]
      omega

/-- A literal with a prefix, in a known base. -/
def Pfx (B : Nat) (x : Str) (v : Int) : Prop :=
  ∃ p rest, (unsign x).2 = 48 :: p :: rest ∧ letter p = some B ∧ rest ≠ [] ∧ (∀ c ∈ rest, IsDigit B c) ∧
    v = (unsign x).1 * val B rest

theorem lit_base {B : Nat} (h0 : B ≠ 0) (hB : B ≤ 36) (x : Str) (v : Int) : Lit B x v ↔ Num B x v ∨ Pfx B x v := by
  rw [lit_iff hB]
  constructor
  · rintro ⟨pre, ds, B', h1, h2, h3, h4, -, h5⟩
    cases h2 with
    | plain _ => left; rw [List.nil_append] at h1; unfold Num; rw [h1]; exact ⟨h3, h4, h5⟩
    | dec h => exact absurd h h0
    | @mark p B' hp hb =>
      right
      rcases hb with hb | rfl
      · exact absurd hb h0
      · exact ⟨p, ds, h1, hp, h3, h4, h5⟩
  · rintro (⟨h1, h2, h3⟩ | ⟨p, rest, h1, h2, h3, h4, h5⟩)
    · exact ⟨[], _, B, rfl, .plain h0, h1, h2, fun h => absurd h h0, h3⟩
    · exact ⟨[48, p], rest, B, h1, .mark h2 (Or.inr rfl), h3, h4, fun h => absurd h h0, h5⟩

theorem sign_nonspace {x : Str} (hx : ∀ c, x.head? = some c → isSpace c = false) {sg : Str} {y : Str}
    (_ : x = sg ++ y) : ∀ c, x.head? = some c → isSpace c = false := hx

theorem unsign_digits {B : Nat} (hB : B ≤ 36) {c : UInt8} {r : Str} (hc : IsDigit B c) :
    unsign (c :: r) = (1, c :: r) := by
  have := digit_not_sign hB hc
  simp [unsign, this.1, this.2.1]

theorem num_digits {B : Nat} (hB : B ≤ 36) {c : UInt8} {r : Str} (hc : IsDigit B c) (w : Int) :
    num B (c :: r) = some w ↔ (∀ d ∈ c :: r, IsDigit B d) ∧ w = val B (c :: r) ∧ InR w := by
  rw [num_iff hB (by intro d hd; cases hd; exact (digit_not_sign hB hc).2.2)]
  unfold Num
  rw [unsign_digits hB hc]
  simp only [one_mul]
  constructor
  · rintro ⟨⟨_, h1, h2⟩, h3⟩; exact ⟨h1, h2, h3⟩
  · rintro ⟨h1, h2, h3⟩; exact ⟨⟨by simp, h1, h2⟩, h3⟩

theorem pfx_at {B : Nat} {x : Str} {p : UInt8} {rest : Str} (hu : (unsign x).2 = 48 :: p :: rest)
    (hp : letter p = some B) (v : Int) : Num B x v ∨ Pfx B x v ↔
      rest ≠ [] ∧ (∀ c ∈ rest, IsDigit B c) ∧ v = (unsign x).1 * val B rest := by
  constructor
  · rintro (⟨_, h, _⟩ | ⟨p', rest', h1, h2, h3, h4, h5⟩)
    · exact absurd (h p (by rw [hu]; simp)) (letter_not_digit hp)
    · rw [hu] at h1
      cases h1
      exact ⟨h3, h4, h5⟩
  · rintro ⟨h3, h4, h5⟩
    exact Or.inr ⟨p, rest, hu, hp, h3, h4, h5⟩

theorem parse_spec {B : Nat} (h0 : B ≠ 0) (hB : B ≤ 36) {x : Str} (hx : ∀ c, x.head? = some c → isSpace c = false)
    (hU : ∀ rest, Marked B [] x B rest → rest = [] ∨ ∃ c c2 r, rest = c :: c2 :: r ∧ IsDigit B c)
    (hM : ∀ rest, Marked B (b "-") x B rest → val B rest ≠ 2 ^ 63) :
    ∃ r, parse x B = some r ∧ ∀ v, r = .ok v ↔ Lit B x v ∧ InR v := by
  simp only [lit_base h0 hB]
  obtain ⟨sg, hs, hxs⟩ := unsign_split x
  by_cases hA : ∃ p rest, (unsign x).2 = 48 :: p :: rest ∧ letter p = some B
  · obtain ⟨p, rest, hu, hp⟩ := hA
    simp only [pfx_at hu hp]
    rw [hu] at hxs
    generalize hσ : (unsign x).1 = σ at *
    cases rest with
    | nil =>
      refine ⟨_, parse_ok (cut_none ?_ ?_), ?_⟩
      · rintro sg' p' c r e hs' hp'
        rw [hxs] at e
        cases hs <;> simp [b] at e
      · rintro p' c r e hp'
        rw [hxs] at e
        cases hs <;> simp [b] at e
      · intro v
        rw [conv_ok, num_iff hB hx]
        constructor
        · rintro ⟨⟨_, h, _⟩, _⟩
          exact absurd (h p (by rw [hu]; simp)) (letter_not_digit hp)
        · rintro ⟨⟨h, _⟩, _⟩
          exact absurd rfl h
    | cons c r =>
      have nodig : ¬ (∀ d ∈ c :: r, IsDigit B d) → ∀ v : Int, (Except.error Err.value : Except Err Int) = .ok v ↔
          (c :: r ≠ [] ∧ (∀ d ∈ c :: r, IsDigit B d) ∧ v = σ * val B (c :: r)) ∧ InR v := by
        intro h v
        constructor
        · intro h'; cases h'
        · rintro ⟨⟨_, h', _⟩, _⟩; exact absurd h' h
      cases hs with
      | none =>
        rcases hU (c :: r) ⟨p, by rw [hxs]; rfl, hp, Or.inr rfl⟩ with h | ⟨c', c2, r', h, hc⟩
        · cases h
        · cases h
          rw [hxs]
          obtain ⟨k1, k2⟩ := cut_unsigned (B := B) (p := p) (c := c) (c2 := c2) (r := r') hp
          by_cases hc2 : IsDigit B c2
          · refine ⟨_, parse_ok (k1 hc2), fun v => ?_⟩
            rw [conv_ok, num_digits hB hc]
            simp only [Bool.false_eq_true, if_false, one_mul]
            constructor
            · rintro ⟨h1, h2, h3⟩; exact ⟨⟨by simp, h1, h2⟩, h3⟩
            · rintro ⟨⟨_, h1, h2⟩, h3⟩; exact ⟨h1, h2, h3⟩
          · exact ⟨_, parse_err (k2 hc2), nodig fun h => hc2 (h c2 (by simp))⟩
      | plus =>
        rw [hxs]
        obtain ⟨k1, k2⟩ := cut_signed (B := B) (sg := 43) (p := p) (c := c) (r := r) (Or.inl rfl) hp
        by_cases hc : IsDigit B c
        · refine ⟨_, parse_ok (k1 hc), fun v => ?_⟩
          rw [conv_ok, num_digits hB hc]
          have e : ((43 : UInt8) == 45) = false := by decide
          simp only [e, Bool.false_eq_true, if_false, one_mul]
          constructor
          · rintro ⟨h1, h2, h3⟩; exact ⟨⟨by simp, h1, h2⟩, h3⟩
          · rintro ⟨⟨_, h1, h2⟩, h3⟩; exact ⟨h1, h2, h3⟩
        · exact ⟨_, parse_err (k2 hc), nodig fun h => hc (h c (by simp))⟩
      | minus =>
        have hm := hM (c :: r) ⟨p, by rw [hxs]; rfl, hp, Or.inr rfl⟩
        rw [hxs]
        obtain ⟨k1, k2⟩ := cut_signed (B := B) (sg := 45) (p := p) (c := c) (r := r) (Or.inr rfl) hp
        by_cases hc : IsDigit B c
        · refine ⟨_, parse_ok (k1 hc), fun v => ?_⟩
          rw [conv_ok, num_digits hB hc]
          have hm' : (val B (c :: r) : Int) ≠ 2 ^ 63 := by exact_mod_cast hm
          have e : ((45 : UInt8) == 45) = true := by decide
          simp only [e, if_true, InR]
          constructor
          · rintro ⟨h1, h2, h3⟩; exact ⟨⟨by simp, h1, by omega⟩, by omega⟩
          · rintro ⟨⟨_, h1, h2⟩, h3⟩; exact ⟨h1, by omega, by omega⟩
        · exact ⟨_, parse_err (k2 hc), nodig fun h => hc (h c (by simp))⟩
  · have hno : ∀ v, ¬ Pfx B x v := fun v ⟨p, rest, h1, h2, _⟩ => hA ⟨p, rest, h1, h2⟩
    refine ⟨_, parse_ok (cut_none ?_ ?_), ?_⟩
    · rintro sg' p c r rfl hs' hp
      refine hA ⟨p, c :: r, ?_, hp⟩
      rcases hs' with rfl | rfl <;> rfl
    · rintro p c r rfl hp
      exact hA ⟨p, c :: r, rfl, hp⟩
    · intro v
      rw [conv_ok]
      simp only [Bool.false_eq_true, if_false]
      rw [num_iff hB hx]
      simp [hno v]

/-! ## Base 0 -/

theorem lit_zero (x : Str) (v : Int) : Lit 0 x v ↔
    (Num 10 x v ∧ ((unsign x).2.head? = some 48 → val 10 (unsign x).2 = 0)) ∨ ∃ B, Pfx B x v := by
  rw [lit_iff (by decide)]
  constructor
  · rintro ⟨pre, ds, B', h1, h2, h3, h4, h6, h5⟩
    cases h2 with
    | plain h => exact absurd rfl h
    | dec _ =>
      left
      rw [List.nil_append] at h1
      unfold Num
      rw [h1]
      exact ⟨⟨h3, h4, h5⟩, h6 rfl rfl⟩
    | @mark p B' hp hb => exact Or.inr ⟨B', p, ds, h1, hp, h3, h4, h5⟩
  · rintro (⟨⟨h1, h2, h3⟩, h4⟩ | ⟨B, p, rest, h1, h2, h3, h4, h5⟩)
    · exact ⟨[], _, 10, rfl, .dec rfl, h1, h2, fun _ _ => h4, h3⟩
    · exact ⟨[48, p], rest, B, h1, .mark h2 (Or.inl rfl), h3, h4, fun _ h => (by cases h), h5⟩

theorem detect_eq (x : Str) : detectBase x = match (unsign x).2 with
    | 48 :: p :: _ => match letter p with | some B => .ok B | none => .error .value
    | [48] => .error .value
    | _ => .ok 10 := by
  have key : ∀ p : UInt8, (if p = 98 ∨ p = 66 then .ok 2 else if p = 111 ∨ p = 79 then .ok 8
      else if p = 120 ∨ p = 88 then .ok 16 else .error .value : Except Err Nat) =
      match letter p with | some B => .ok B | none => .error .value := by
    intro p
    unfold letter
    have e1 : p ∈ b "bB" ↔ (p = 98 ∨ p = 66) := by simp [b]
    have e2 : p ∈ b "oO" ↔ (p = 111 ∨ p = 79) := by simp [b]
    have e3 : p ∈ b "xX" ↔ (p = 120 ∨ p = 88) := by simp [b]
    by_cases h1 : p = 98 ∨ p = 66
    · rw [if_pos h1, if_pos (e1.mpr h1)]
    · rw [if_neg h1, if_neg (e1.not.mpr h1)]
      by_cases h2 : p = 111 ∨ p = 79
      · rw [if_pos h2, if_pos (e2.mpr h2)]
      · rw [if_neg h2, if_neg (e2.not.mpr h2)]
        by_cases h3 : p = 120 ∨ p = 88
        · rw [if_pos h3, if_pos (e3.mpr h3)]
        · rw [if_neg h3, if_neg (e3.not.mpr h3)]
  have body : ∀ (o : Nat) (sg u : Str), sg.length = o → (if (sg ++ u).length ≥ o + 1 ∧ (sg ++ u)[o]? = some 48 then
      if (sg ++ u).length < o + 2 then .error .value
      else if (sg ++ u)[o + 1]? = some 98 ∨ (sg ++ u)[o + 1]? = some 66 then .ok 2
      else if (sg ++ u)[o + 1]? = some 111 ∨ (sg ++ u)[o + 1]? = some 79 then .ok 8
      else if (sg ++ u)[o + 1]? = some 120 ∨ (sg ++ u)[o + 1]? = some 88 then .ok 16
      else .error .value else .ok 10 : Except Err Nat) = match u with
    | 48 :: p :: _ => match letter p with | some B => .ok B | none => .error .value
    | [48] => .error .value
    | _ => .ok 10 := by
    rintro _ sg u rfl
    have g0 : (sg ++ u)[sg.length]? = u[0]? := by rw [List.getElem?_append_right (by omega), Nat.sub_self]
    have g1 : (sg ++ u)[sg.length + 1]? = u[1]? := by
      rw [List.getElem?_append_right (by omega)]; congr 1; omega
    rw [g0, g1, List.length_append]
    match u with
    | [] => simp
    | [c] =>
      by_cases h : c = 48
      · subst h; simp
      · simp [h]
    | c :: p :: r =>
      by_cases h : c = 48
      · subst h
        rw [if_pos (by simp), if_neg (by simp)]
        simp only [List.getElem?_cons_succ, List.getElem?_cons_zero, Option.some.injEq]
        exact key p
      · rw [if_neg (by simp [h])]
        split
        · rename_i heq; simp only [List.cons.injEq] at heq; exact absurd heq.1 h
        · rename_i heq; simp at heq
        · rfl
  unfold detectBase unsign
  dsimp only
  by_cases h1 : x.head? = some 45
  · cases x with
    | nil => cases h1
    | cons c cs =>
      cases h1
      have ho : (45 :: cs).length ≥ 1 ∧ ((45 :: cs)[0]? = some (43 : UInt8) ∨ (45 :: cs)[0]? = some 45) := by simp
      simp only [if_pos ho]
      exact body 1 [45] cs rfl
  · by_cases h2 : x.head? = some 43
    · cases x with
      | nil => cases h2
      | cons c cs =>
        cases h2
        have ho : (43 :: cs).length ≥ 1 ∧ ((43 :: cs)[0]? = some (43 : UInt8) ∨ (43 :: cs)[0]? = some 45) := by simp
        simp only [if_pos ho]
        exact body 1 [43] cs rfl
    · have ho : ¬ (x.length ≥ 1 ∧ (x[0]? = some (43 : UInt8) ∨ x[0]? = some 45)) := by
        rw [← List.head?_eq_getElem?]; rintro ⟨_, h | h⟩; exacts [h2 h, h1 h]
      simp only [if_neg ho, if_neg h1, if_neg h2]
      exact body 0 [] x rfl

theorem val_zeros_head {c : UInt8} {ds : Str} (h : ∀ d ∈ c :: ds, IsDigit 10 d) (hv : val 10 (c :: ds) = 0) :
    ∀ d ∈ c :: ds, d = 48 := by
  have : ∀ ds : Str, (∀ d ∈ ds, IsDigit 10 d) → val 10 ds = 0 → ∀ d ∈ ds, d = 48 := by
    intro ds
    induction ds with
    | nil => intro _ _ d hd; cases hd
    | cons c cs ih =>
      intro h hv d hd
      have hc := h c (by simp)
      rw [isDigit_iff (by decide)] at hc
      rw [val, digit_getD (B := 10) (by decide) hc] at hv
      have h1 : chDigit c * 10 ^ cs.length = 0 := by omega
      have h2 : val 10 cs = 0 := by omega
      have h3 : chDigit c = 0 := by
        rcases Nat.mul_eq_zero.mp h1 with h | h
        · exact h
        · exact absurd h (by positivity)
      have h4 : chDigit c = 0 → c = 48 := byteAll (fun c => chDigit c = 0 → c = 48) (by decide +kernel) c
      rcases List.mem_cons.mp hd with rfl | hd
      · exact h4 h3
      · exact ih (fun x hx => h x (by simp [hx])) h2 d hd
  exact this _ h hv

end Codon.IntStr
