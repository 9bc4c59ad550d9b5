import Verif.Esc.Model
import Mathlib.Tactic.Common

/-! Properties C16 and C37. -/

namespace Codon.Esc

open Codon.Str (Str)

theorem byte_cases {P : UInt8 → Prop} (h : ∀ n : Fin 256, P (UInt8.ofNat n.val)) (c : UInt8) : P c := by
  have := h ⟨c.toNat, c.toNat_lt⟩
  simpa using this

/-- The loop does not depend on the fuel. -/
theorem digits_count (base : Nat) : ∀ (s : Str) (v n : Nat), (digits base s v n).2 ≤ n + s.length ∧ n ≤ (digits base s v n).2 := by
  intro s
  induction s with
  | nil => intro v n; simp [digits]
  | cons c s ih =>
    intro v n
    unfold digits
    cases digitVal base c with
    | none => simp
    | some d =>
      have := ih (v * base + d) (n + 1)
      simp only [List.length_cons]
      omega

theorem stoi_pos {base : Nat} {s : Str} {v : Int} {pos : Nat} (h : stoi base s = some (v, pos)) : 0 < pos := by
  unfold stoi at h
  dsimp only at h
  split at h
  · cases h
  · simp only [Option.some.injEq, Prod.mk.injEq] at h
    omega

theorem unescapeLoop_fuel : ∀ (f g : Nat) (s : Str), s.length < f → s.length < g → unescapeLoop f s = unescapeLoop g s := by
  intro f
  induction f with
  | zero => intro g s h; omega
  | succ f ih =>
    intro g s hf hg
    obtain ⟨g, rfl⟩ : ∃ k, g = k + 1 := ⟨g - 1, by omega⟩
    cases s with
    | nil => simp [unescapeLoop]
    | cons c s =>
      simp only [List.length_cons] at hf hg
      have e := ih g s (by omega) (by omega)
      unfold unescapeLoop
      by_cases hc : c = 92
      · rw [if_pos hc, if_pos hc]
        cases s with
        | nil => rw [e]
        | cons d t =>
          simp only [List.length_cons] at hf hg
          dsimp only
          rw [e]
          have e2 : ∀ n, unescapeLoop f (t.drop n) = unescapeLoop g (t.drop n) := fun n => ih g _ (by simp; omega) (by simp; omega)
          have e2' := ih g t (by omega) (by omega)
          rw [e2']
          cases hl : letter d with
          | some e => rfl
          | none =>
            dsimp only
            by_cases hx : d = 120
            · rw [if_pos hx, if_pos hx]
              simp only [e2]
            · rw [if_neg hx, if_neg hx]
              cases ho : stoi 8 ((d :: t).take 3) with
              | none => rfl
              | some p =>
                obtain ⟨v, pos⟩ := p
                have := stoi_pos ho
                obtain ⟨q, rfl⟩ : ∃ q, pos = q + 1 := ⟨pos - 1, by omega⟩
                simp only [List.drop_succ_cons, e2]
      · rw [if_neg hc, if_neg hc, e]

/-! ### Single steps of `unescape` -/

theorem unescape_nil : unescape [] = some [] := rfl

theorem unescape_plain {c : UInt8} (s : Str) (hc : c ≠ 92) : unescape (c :: s) = (c :: ·) <$> unescape s := by
  unfold unescape
  conv_lhs => unfold unescapeLoop
  rw [if_neg hc]
  rfl

theorem unescape_letter {d e : UInt8} (t : Str) (h : letter d = some e) : unescape (92 :: d :: t) = (e :: ·) <$> unescape t := by
  unfold unescape
  conv_lhs => unfold unescapeLoop
  rw [if_pos rfl]
  dsimp only
  rw [h]
  dsimp only
  rw [unescapeLoop_fuel _ (t.length + 1) t (by simp only [List.length_cons]; omega) (by omega)]

theorem unescape_hex {t : Str} {v : Int} {pos : Nat} (h : stoi 16 (t.take 2) = some (v, pos)) :
    unescape (92 :: 120 :: t) = (toChar v :: ·) <$> unescape (t.drop pos) := by
  unfold unescape
  conv_lhs => unfold unescapeLoop
  rw [if_pos rfl]
  dsimp only
  rw [show letter 120 = none from rfl]
  dsimp only
  have ht : t ≠ [] := by
    rintro rfl
    have e : stoi 16 (([] : Str).take 2) = none := by decide
    rw [e] at h
    cases h
  rw [if_pos rfl, if_neg ht, h]
  dsimp only
  rw [unescapeLoop_fuel _ ((t.drop pos).length + 1) _ (by simp; omega) (by omega)]

/-! ### C16: the exact effect of escaping and unescaping -/

/-- A byte that `escape` writes as `\x` and one hexadecimal digit. -/
def Short (c : UInt8) : Prop := c.toNat < 16 ∧ ¬ (7 ≤ c.toNat ∧ c.toNat ≤ 13)

instance : DecidablePred Short := fun c => inferInstanceAs (Decidable (_ ∧ _))

/-- A hexadecimal digit and its value. -/
def hexValue (c : UInt8) : Option Nat :=
  if 48 ≤ c.toNat ∧ c.toNat ≤ 57 then some (c.toNat - 48)
  else if 97 ≤ c.toNat ∧ c.toNat ≤ 102 then some (c.toNat - 87)
  else if 65 ≤ c.toNat ∧ c.toNat ≤ 70 then some (c.toNat - 55)
  else none

/-- No `Short` byte is followed by a hexadecimal digit. -/
def Clean : Str → Prop
  | c :: d :: s => ¬ (Short c ∧ (hexValue d).isSome) ∧ Clean (d :: s)
  | _ => True

/-- What reading the escaped text gives: a `Short` byte swallows a following hexadecimal digit. -/
def readback : Str → Str
  | [] => []
  | [c] => [c]
  | c :: d :: s =>
    if Short c then
      match hexValue d with
      | some v => UInt8.ofNat (16 * c.toNat + v) :: readback s
      | none => c :: readback (d :: s)
    else c :: readback (d :: s)

theorem digitVal_eq (c : UInt8) : digitVal 16 c = hexValue c := by
  revert c; exact byte_cases (by decide +kernel)

theorem hexDigit_val (n : Nat) (h : n < 16) : hexValue (hexDigit n) = some n := by
  revert h; revert n; decide +kernel

theorem cspace_hex (n : Nat) (h : n < 16) : cspace (hexDigit n) = false ∧ hexDigit n ≠ 43 ∧ hexDigit n ≠ 45 := by
  revert h; revert n; decide +kernel

theorem sign_other {c : UInt8} (s : Str) (h1 : c ≠ 43) (h2 : c ≠ 45) : sign (c :: s) = (false, 0) := by
  unfold sign
  split
  · rename_i h; injection h with h _; exact absurd h h1
  · rename_i h; injection h with h _; exact absurd h h2
  · rfl

theorem prefix0x_short (base : Nat) (s : Str) (h : s.length ≤ 2) : prefix0x base s = 0 := by
  unfold prefix0x
  split
  · simp at h
  · rfl

/-- Two bytes, the first a digit. -/
theorem stoi_two {n : Nat} (h : n < 16) (d : UInt8) (t : Str) :
    stoi 16 ((hexDigit n :: d :: t).take 2) = match hexValue d with
      | some v => some (((16 * n + v : Nat) : Int), 2)
      | none => some ((n : Int), 1) := by
  obtain ⟨h1, h2, h3⟩ := cspace_hex n h
  simp only [List.take_succ_cons, List.take_zero]
  unfold stoi
  dsimp only
  rw [List.takeWhile_cons_of_neg (by simp [h1]), List.length_nil, List.drop_zero, sign_other _ h2 h3, List.drop_zero,
    prefix0x_short _ _ (by simp), List.drop_zero]
  simp only [digits, digitVal_eq, hexDigit_val n h]
  cases hexValue d with
  | none => simp
  | some v => simp; omega

theorem stoi_one {n : Nat} (h : n < 16) : stoi 16 (([hexDigit n] : Str).take 2) = some ((n : Int), 1) := by
  revert h; revert n; decide +kernel

theorem toChar_nat (n : Nat) : toChar (n : Int) = UInt8.ofNat n := by
  unfold toChar
  apply UInt8.toNat_inj.mp
  simp
  omega

theorem toChar_byte (c : UInt8) : toChar (c.toNat : Int) = c := by
  rw [toChar_nat]; simp

/-- The three ways to write a byte. -/
theorem escByte_cases (c : UInt8) : (escByte c = [c] ∧ c ≠ 92) ∨ (∃ d, escByte c = [92, d] ∧ letter d = some c) ∨
    (escByte c = [92, 120, hexDigit (c.toNat / 16), hexDigit (c.toNat % 16)] ∧ 16 ≤ c.toNat) ∨
    (escByte c = [92, 120, hexDigit c.toNat] ∧ Short c) := by
  have : ∀ c : UInt8, (escByte c = [c] ∧ c ≠ 92) ∨
      (escByte c = [92, (escByte c).getD 1 0] ∧ letter ((escByte c).getD 1 0) = some c) ∨
      (escByte c = [92, 120, hexDigit (c.toNat / 16), hexDigit (c.toNat % 16)] ∧ 16 ≤ c.toNat) ∨
      (escByte c = [92, 120, hexDigit c.toNat] ∧ Short c) := byte_cases (by decide +kernel)
  rcases this c with h | h | h | h
  · exact Or.inl h
  · exact Or.inr (Or.inl ⟨_, h⟩)
  · exact Or.inr (Or.inr (Or.inl h))
  · exact Or.inr (Or.inr (Or.inr h))

theorem escByte_short (c : UInt8) : (escByte c = [92, 120, hexDigit c.toNat] ↔ Short c) := by
  revert c; exact byte_cases (by decide +kernel)

/-- The first byte of an escape is a hexadecimal digit only if the byte is one, and then it stands for itself. -/
theorem escByte_head (c : UInt8) : ((hexValue c).isSome = true → escByte c = [c]) ∧
    (hexValue c = none → ∃ d r, escByte c = d :: r ∧ hexValue d = none) := by
  have : ((hexValue c).isSome = true → escByte c = [c]) ∧
    (hexValue c = none → (escByte c).head?.isSome ∧ (escByte c).head?.bind hexValue = none) := by
    revert c; exact byte_cases (by decide +kernel)
  refine ⟨this.1, fun h => ?_⟩
  obtain ⟨h1, h2⟩ := this.2 h
  cases he : escByte c with
  | nil => rw [he] at h1; simp at h1
  | cons d r =>
    rw [he] at h2
    exact ⟨d, r, rfl, by simpa using h2⟩

theorem stoi_byte (c : UInt8) (t : Str) :
    stoi 16 ((hexDigit (c.toNat / 16) :: hexDigit (c.toNat % 16) :: t).take 2) = some ((c.toNat : Int), 2) := by
  have hlt := c.toNat_lt
  rw [stoi_two (by omega), hexDigit_val _ (by omega)]
  simp only [Option.some.injEq, Prod.mk.injEq, and_true]
  omega

theorem readback_spec : ∀ (n : Nat) (s : Str), s.length ≤ n → unescape (escape s) = some (readback s) := by
  intro n
  induction n with
  | zero =>
    intro s h
    have : s = [] := List.eq_nil_of_length_eq_zero (by omega)
    subst this
    rfl
  | succ n ih =>
    intro s hs
    cases s with
    | nil => rfl
    | cons c s =>
      simp only [List.length_cons] at hs
      have ihs := ih s (by omega)
      have hnot : ¬ Short c → readback (c :: s) = c :: readback s := by
        intro h
        cases s with
        | nil => rfl
        | cons d s => rw [readback, if_neg h]
      unfold escape
      rcases escByte_cases c with ⟨h1, h2⟩ | ⟨d, h1, h2⟩ | ⟨h1, h2⟩ | ⟨h1, h2⟩
      · rw [h1, List.singleton_append, unescape_plain _ h2, ihs, hnot]
        · rfl
        · rw [← escByte_short, h1]; simp
      · rw [h1]
        simp only [List.cons_append, List.nil_append]
        rw [unescape_letter _ h2, ihs, hnot]
        · rfl
        · rw [← escByte_short, h1]; simp
      · rw [h1]
        simp only [List.cons_append, List.nil_append]
        rw [unescape_hex (stoi_byte c (escape s)), toChar_byte]
        simp only [List.drop_succ_cons, List.drop_zero]
        rw [ihs, hnot]
        · rfl
        · intro hc
          have := hc.1
          omega
      · rw [h1]
        simp only [List.cons_append, List.nil_append]
        cases s with
        | nil =>
          have e : escape [] = [] := rfl
          rw [e, unescape_hex (stoi_one h2.1), toChar_byte]
          rfl
        | cons d s =>
          unfold readback
          rw [if_pos h2]
          cases hd : hexValue d with
          | some v =>
            have e : escape (d :: s) = d :: escape s := by
              rw [escape, (escByte_head d).1 (by rw [hd]; rfl)]; rfl
            rw [e]
            have := stoi_two h2.1 d (escape s)
            rw [hd] at this
            rw [unescape_hex this, toChar_nat]
            simp only [List.drop_succ_cons, List.drop_zero]
            rw [ih s (by simp only [List.length_cons] at hs; omega)]
            rfl
          | none =>
            obtain ⟨x, r, hx1, hx2⟩ := (escByte_head d).2 hd
            have e : escape (d :: s) = x :: (r ++ escape s) := by
              rw [escape, hx1]; rfl
            have := stoi_two h2.1 x (r ++ escape s)
            rw [hx2] at this
            rw [e] at ihs ⊢
            rw [unescape_hex this, toChar_byte]
            simp only [List.drop_succ_cons, List.drop_zero]
            rw [ihs]
            rfl

theorem readback_clean : ∀ (s : Str), Clean s → readback s = s := by
  intro s
  induction s with
  | nil => intro _; rfl
  | cons c s ih =>
    intro h
    cases s with
    | nil => rfl
    | cons d s =>
      obtain ⟨h1, h2⟩ := h
      have := ih h2
      unfold readback
      by_cases hc : Short c
      · rw [if_pos hc]
        cases hd : hexValue d with
        | some v => exact absurd ⟨hc, by rw [hd]; rfl⟩ h1
        | none => simp only; rw [this]
      · rw [if_neg hc, this]

theorem readback_length : ∀ (n : Nat) (s : Str), s.length ≤ n → (readback s).length ≤ s.length ∧
    (¬ Clean s → (readback s).length < s.length) := by
  intro n
  induction n with
  | zero =>
    intro s h
    have : s = [] := List.eq_nil_of_length_eq_zero (by omega)
    subst this
    exact ⟨Nat.le_refl _, fun h => absurd trivial h⟩
  | succ n ih =>
    intro s hs
    match s with
    | [] => exact ⟨Nat.le_refl _, fun h => absurd trivial h⟩
    | [c] => exact ⟨Nat.le_refl _, fun h => absurd trivial h⟩
    | c :: d :: s =>
      simp only [List.length_cons] at hs
      unfold readback
      have h1 := ih (d :: s) (by simp; omega)
      have h2 := ih s (by omega)
      simp only [List.length_cons] at h1 h2 ⊢
      by_cases hc : Short c
      · rw [if_pos hc]
        cases hd : hexValue d with
        | some v => simp only [List.length_cons]; omega
        | none =>
          simp only [List.length_cons]
          refine ⟨by omega, fun h => ?_⟩
          have := h1.2 (fun hcl => h ⟨by rw [hd]; simp, hcl⟩)
          omega
      · rw [if_neg hc]
        simp only [List.length_cons]
        refine ⟨by omega, fun h => ?_⟩
        have := h1.2 (fun hcl => h ⟨fun hx => hc hx.1, hcl⟩)
        omega

/-- **C16 (partial).** Unescaping the escaped string never fails, and gives back the string exactly when no byte among
0-6, 14, 15 is followed by a hexadecimal digit.  Missing: the property claims it for every string, which is false
(`c16_violation`). -/
theorem c16_roundtrip_partial (s : Str) : (∃ t, unescape (escape s) = some t) ∧ (unescape (escape s) = some s ↔ Clean s) := by
  rw [readback_spec s.length s (Nat.le_refl _)]
  refine ⟨⟨_, rfl⟩, fun h => ?_, fun h => by rw [readback_clean s h]⟩
  by_contra hc
  have := (readback_length s.length s (Nat.le_refl _)).2 hc
  simp only [Option.some.injEq] at h
  rw [h] at this
  omega

example : Clean [92, 1, 39, 104, 10, 200, 7, 97] ∧ escape [92, 1, 39] = [92, 92, 92, 120, 49, 92, 39] := by
  simp only [Clean]
  decide +kernel

/-- **C16 (partial).** Escaping keeps apart any two different strings without such pairs. -/
theorem c16_injective_partial (s t : Str) (hs : Clean s) (ht : Clean t) (h : escape s = escape t) : s = t := by
  have h1 := (c16_roundtrip_partial s).2.mpr hs
  have h2 := (c16_roundtrip_partial t).2.mpr ht
  rw [h, h2] at h1
  simpa using h1.symm

/-- **C16 is violated**: the static strings `"\x01a"` and `"\x1a"` are printed alike, and the text `\x1a` reads back as the
second. -/
theorem c16_violation : escape [1, 97] = escape [26] ∧ unescape (escape [1, 97]) = some [26] := by decide +kernel

/-! ### C37 -/

theorem reprByte_cases (q c : UInt8) (hq : q = 34 ∨ q = 39) : (reprByte q c = [c] ∧ c ≠ 92 ∧ c ≠ q ∧ 32 ≤ c ∧ c ≤ 126) ∨
    (∃ d, reprByte q c = [92, d] ∧ letter d = some c ∧ d &&& 0x80 = 0) ∨
    reprByte q c = [92, 120, hexDigit (c.toNat / 16), hexDigit (c.toNat % 16)] := by
  have : ∀ c : UInt8, (reprByte q c = [c] ∧ c ≠ 92 ∧ c ≠ q ∧ 32 ≤ c ∧ c ≤ 126) ∨
    (reprByte q c = [92, (reprByte q c).getD 1 0] ∧ letter ((reprByte q c).getD 1 0) = some c ∧ (reprByte q c).getD 1 0 &&& 0x80 = 0) ∨
    reprByte q c = [92, 120, hexDigit (c.toNat / 16), hexDigit (c.toNat % 16)] := by
    rcases hq with rfl | rfl
    · exact byte_cases (by decide +kernel)
    · exact byte_cases (by decide +kernel)
  rcases this c with h | h | h
  · exact Or.inl h
  · exact Or.inr (Or.inl ⟨_, h⟩)
  · exact Or.inr (Or.inr h)

theorem unescape_repr (q : UInt8) (hq : q = 34 ∨ q = 39) : ∀ s : Str, unescape (reprBody q s) = some s := by
  intro s
  induction s with
  | nil => rfl
  | cons c s ih =>
    unfold reprBody
    rcases reprByte_cases q c hq with ⟨h1, h2, _⟩ | ⟨d, h1, h2, _⟩ | h1
    · rw [h1, List.singleton_append, unescape_plain _ h2, ih]; rfl
    · rw [h1]
      simp only [List.cons_append, List.nil_append]
      rw [unescape_letter _ h2, ih]; rfl
    · rw [h1]
      simp only [List.cons_append, List.nil_append]
      rw [unescape_hex (stoi_byte c _), toChar_byte]
      simp only [List.drop_succ_cons, List.drop_zero]
      rw [ih]; rfl

theorem low_byte (c : UInt8) (h2 : c ≤ 126) : c &&& 0x80 = 0 := by
  have : ∀ c : UInt8, c ≤ 126 → c &&& 0x80 = 0 := byte_cases (by decide +kernel)
  exact this c h2

theorem hexDigit_low (n : Nat) (h : n < 16) : hexDigit n &&& 0x80 = 0 ∧ hexDigit n ≠ 92 ∧ hexDigit n ≠ 34 ∧ hexDigit n ≠ 39 ∧ hexDigit n ≠ 10 ∧
    hexDigit n ≠ 13 := by
  revert h; revert n; decide +kernel

theorem charLen_plain {c : UInt8} (s : Str) (h1 : c ≠ 92) (h2 : c &&& 0x80 = 0) : charLen (c :: s) = 1 := by
  unfold charLen
  split
  · rename_i h; injection h with h _; exact absurd h h1
  · simp [cpLen, h2]

theorem charLen_escape {c : UInt8} (s : Str) (h2 : c &&& 0x80 = 0) : charLen (92 :: c :: s) = 2 := by
  simp [charLen, cpLen, h2]

theorem stopShort_ne {q c : UInt8} (s : Str) (h1 : c ≠ q) (h2 : c ≠ 10) (h3 : c ≠ 13) : stopShort [q] (c :: s) = false := by
  have : (q == c) = false := by simpa using Ne.symm h1
  simp [stopShort, h2, h3, List.isPrefixOf, this]

theorem quotedBody_plain {q c : UInt8} (close : Str) (f : Nat) (s acc : Str) (h1 : c ≠ q) (h2 : c ≠ 10) (h3 : c ≠ 13) (h4 : c ≠ 92)
    (h5 : c &&& 0x80 = 0) : quotedBody (stopShort [q]) close (f + 1) (c :: s) acc = quotedBody (stopShort [q]) close f s (acc ++ [c]) := by
  conv_lhs => unfold quotedBody
  rw [charLen_plain s h4 h5, if_neg (by rw [stopShort_ne s h1 h2 h3]; simp)]
  rfl

theorem quotedBody_escape {q c : UInt8} (close : Str) (f : Nat) (s acc : Str) (hq : 92 ≠ q) (h5 : c &&& 0x80 = 0) :
    quotedBody (stopShort [q]) close (f + 1) (92 :: c :: s) acc = quotedBody (stopShort [q]) close f s (acc ++ [92, c]) := by
  conv_lhs => unfold quotedBody
  rw [charLen_escape s h5, if_neg (by rw [stopShort_ne _ hq (by decide) (by decide)]; simp)]
  rfl

theorem quotedBody_repr {q : UInt8} (hq : q = 34 ∨ q = 39) (tail : Str) : ∀ (s : Str) (f : Nat) (acc : Str), (reprBody q s).length < f →
    quotedBody (stopShort [q]) [q] f (reprBody q s ++ q :: tail) acc = some (acc ++ reprBody q s, tail) := by
  have hq92 : (92 : UInt8) ≠ q := by rcases hq with rfl | rfl <;> decide
  intro s
  induction s with
  | nil =>
    intro f acc hf
    obtain ⟨f, rfl⟩ : ∃ g, f = g + 1 := ⟨f - 1, by simp [reprBody] at hf; omega⟩
    simp only [reprBody, List.nil_append]
    unfold quotedBody
    rw [if_pos (by left; simp [stopShort])]
    simp
  | cons c s ih =>
    intro f acc hf
    unfold reprBody at hf ⊢
    rcases reprByte_cases q c hq with ⟨h1, h2, h3, h4, h5⟩ | ⟨d, h1, h2, h3⟩ | h1
    · rw [h1] at hf ⊢
      simp at hf
      obtain ⟨f, rfl⟩ : ∃ g, f = g + 1 := ⟨f - 1, by omega⟩
      simp only [List.cons_append, List.nil_append]
      rw [quotedBody_plain _ _ _ _ h3 (by rintro rfl; revert h4; decide) (by rintro rfl; revert h4; decide) h2 (low_byte c h5),
        ih f _ (by omega)]
      simp
    · rw [h1] at hf ⊢
      simp at hf
      obtain ⟨f, rfl⟩ : ∃ g, f = g + 1 := ⟨f - 1, by omega⟩
      simp only [List.cons_append, List.nil_append]
      rw [quotedBody_escape _ _ _ _ hq92 h3, ih f _ (by omega)]
      simp
    · rw [h1] at hf ⊢
      simp at hf
      obtain ⟨f, rfl⟩ : ∃ g, f = g + 3 := ⟨f - 3, by omega⟩
      have hlt := c.toNat_lt
      obtain ⟨a1, a2, a3, a4, a5, a6⟩ := hexDigit_low (c.toNat / 16) (by omega)
      obtain ⟨b1, b2, b3, b4, b5, b6⟩ := hexDigit_low (c.toNat % 16) (by omega)
      simp only [List.cons_append, List.nil_append]
      rw [quotedBody_escape _ _ _ _ hq92 (by decide),
        quotedBody_plain _ _ _ _ (by rcases hq with rfl | rfl <;> assumption) a5 a6 a2 a1,
        quotedBody_plain _ _ _ _ (by rcases hq with rfl | rfl <;> assumption) b5 b6 b2 b1, ih f _ (by omega)]
      simp

theorem quote_cases (s : Str) : quote s = 34 ∨ quote s = 39 := by
  unfold quote; split <;> simp

/-- The body of a repr does not begin with its quote. -/
theorem reprBody_head {q : UInt8} (hq : q = 34 ∨ q = 39) (s : Str) (x : UInt8) (t : Str) (h : reprBody q s = x :: t) : x ≠ q := by
  cases s with
  | nil => simp [reprBody] at h
  | cons c s =>
    unfold reprBody at h
    rcases reprByte_cases q c hq with ⟨h1, _, h3, _⟩ | ⟨d, h1, _⟩ | h1
    · rw [h1] at h; simp at h; rw [← h.1]; exact h3
    · rw [h1] at h; simp at h; rw [← h.1]; rcases hq with rfl | rfl <;> decide
    · rw [h1] at h; simp at h; rw [← h.1]; rcases hq with rfl | rfl <;> decide

/-- **C37.** Reading `repr(s)` with the grammar of string literals consumes exactly that text and gives `s` back, whatever
follows it (except another quote, which would join with the two quotes of the empty string). -/
theorem c37_repr (s tail : Str) (ht : ∀ c ∈ tail.head?, c ≠ 34 ∧ c ≠ 39) : literal (repr s ++ tail) = some (s, tail) := by
  have hq := quote_cases s
  have hstr : str (repr s ++ tail) = some (reprBody (quote s) s, tail) := by
    have hbody := quotedBody_repr hq tail s ((repr s ++ tail).length + 1) [] (by simp [repr]; omega)
    have hq3 : ∀ q', (q' = 34 ∨ q' = 39) → ([q', q', q'] : Str).isPrefixOf (repr s ++ tail) = false := by
      intro q' hq'
      rw [Bool.eq_false_iff]
      intro hp
      rw [List.isPrefixOf_iff_prefix] at hp
      obtain ⟨z, hz⟩ := hp
      unfold repr at hz
      simp only [List.cons_append, List.nil_append, List.append_assoc, List.cons.injEq] at hz
      obtain ⟨h1, h2⟩ := hz
      cases hb : reprBody (quote s) s with
      | nil =>
        rw [hb] at h2
        simp only [List.nil_append, List.cons.injEq] at h2
        have := ht q' (by rw [← h2.2]; simp)
        rcases hq' with rfl | rfl
        · exact this.1 rfl
        · exact this.2 rfl
      | cons x t =>
        rw [hb] at h2
        simp only [List.cons_append, List.cons.injEq] at h2
        exact reprBody_head hq s x t hb (by rw [← h2.1, h1])
    have hother : ∀ q', q' ≠ quote s → ([q'] : Str).isPrefixOf (repr s ++ tail) = false := by
      intro q' h
      have : (q' == quote s) = false := by simpa using h
      simp [repr, List.isPrefixOf, this]
    have hself : quoted (stopShort [quote s]) [quote s] (repr s ++ tail) = some (reprBody (quote s) s, tail) := by
      unfold quoted
      rw [if_pos (by simp [repr])]
      have : (repr s ++ tail).drop [quote s].length = reprBody (quote s) s ++ quote s :: tail := by simp [repr]
      rw [this, hbody]
      simp
    unfold str
    have e1 : quoted (stopLong [34, 34, 34]) [34, 34, 34] (repr s ++ tail) = none := by
      unfold quoted; rw [if_neg (by rw [hq3 34 (Or.inl rfl)]; simp)]
    have e2 : quoted (stopLong [39, 39, 39]) [39, 39, 39] (repr s ++ tail) = none := by
      unfold quoted; rw [if_neg (by rw [hq3 39 (Or.inr rfl)]; simp)]
    rw [e1, e2, Option.none_or, Option.none_or]
    rcases hq with h | h
    · rw [h] at hself
      rw [hself, h]; rfl
    · have e3 : quoted (stopShort [34]) [34] (repr s ++ tail) = none := by
        unfold quoted; rw [if_neg (by rw [hother 34 (by rw [h]; decide)]; simp)]
      rw [e3, Option.none_or]
      rw [h] at hself ⊢
      exact hself
  unfold literal
  rw [hstr, ]
  dsimp only
  rw [unescape_repr _ hq]

example : repr [105, 116, 39, 115, 10, 0, 200] = [34, 105, 116, 39, 115, 92, 110, 92, 120, 48, 48, 92, 120, 99, 56, 34] ∧
    literal (repr [105, 116, 39, 115, 10, 0, 200] ++ [41, 39]) = some ([105, 116, 39, 115, 10, 0, 200], [41, 39]) := by
  decide +kernel

/-- **C37.** Different strings have different reprs. -/
theorem c37_repr_injective (s t : Str) (h : repr s = repr t) : s = t := by
  have h1 := c37_repr s [] (by simp)
  have h2 := c37_repr t [] (by simp)
  rw [h, h2] at h1
  simpa using h1.symm

end Codon.Esc
