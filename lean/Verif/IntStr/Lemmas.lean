import Verif.IntStr.Model
import Verif.IntStr.Spec
import Mathlib.Tactic.Linarith
import Mathlib.Tactic.Ring
import Mathlib.Data.List.TakeWhile

/-! Lemmas about the model of `int(s, base)`. -/

namespace Codon.IntStr
open Codon.Str Spec

theorem byteAll (P : UInt8 → Prop) (h : ∀ n < 256, P (UInt8.ofNat n)) (c : UInt8) : P c := by
  have := h c.toNat c.toNat_lt
  rwa [UInt8.ofNat_toNat] at this

theorem digit_eq (c : UInt8) : digit c = if chDigit c < 36 then some (chDigit c) else none :=
  byteAll (fun c => digit c = if chDigit c < 36 then some (chDigit c) else none) (by decide +kernel) c

theorem chDigit_big (c : UInt8) : chDigit c < 36 ∨ chDigit c = 255 :=
  byteAll (fun c => chDigit c < 36 ∨ chDigit c = 255) (by decide +kernel) c

theorem isDigit_iff {B : Nat} (hB : B ≤ 36) (c : UInt8) : IsDigit B c ↔ chDigit c < B := by
  unfold IsDigit
  rw [digit_eq]
  constructor
  · rintro ⟨d, h1, h2⟩
    by_cases h : chDigit c < 36
    · rw [if_pos h] at h1
      cases h1
      exact h2
    · rw [if_neg h] at h1
      cases h1
  · intro h
    exact ⟨chDigit c, by rw [if_pos (by omega)], h⟩

theorem digit_getD {B : Nat} (hB : B ≤ 36) {c : UInt8} (h : chDigit c < B) : (digit c).getD 0 = chDigit c := by
  rw [digit_eq, if_pos (by omega)]
  rfl

theorem checkDigit_iff {B : Nat} (hB : B = 2 ∨ B = 8 ∨ B = 16) (c : UInt8) : checkDigit c B = true ↔ IsDigit B c := by
  rw [isDigit_iff (by omega)]
  rcases hB with rfl | rfl | rfl
  · exact byteAll (fun c => checkDigit c 2 = true ↔ chDigit c < 2) (by decide +kernel) c
  · exact byteAll (fun c => checkDigit c 8 = true ↔ chDigit c < 8) (by decide +kernel) c
  · exact byteAll (fun c => checkDigit c 16 = true ↔ chDigit c < 16) (by decide +kernel) c

theorem marks_iff {B : Nat} (hB : B = 2 ∨ B = 8 ∨ B = 16) (p : UInt8) :
    (p = (marks B).1 ∨ p = (marks B).2) ↔ letter p = some B := by
  rcases hB with rfl | rfl | rfl
  · exact byteAll (fun p => (p = (marks 2).1 ∨ p = (marks 2).2) ↔ letter p = some 2) (by decide +kernel) p
  · exact byteAll (fun p => (p = (marks 8).1 ∨ p = (marks 8).2) ↔ letter p = some 8) (by decide +kernel) p
  · exact byteAll (fun p => (p = (marks 16).1 ∨ p = (marks 16).2) ↔ letter p = some 16) (by decide +kernel) p

theorem letter_cases {p : UInt8} {B : Nat} (h : letter p = some B) : B = 2 ∨ B = 8 ∨ B = 16 := by
  unfold letter at h
  by_cases h1 : p ∈ b "bB"
  · rw [if_pos h1] at h; cases h; simp
  · rw [if_neg h1] at h
    by_cases h2 : p ∈ b "oO"
    · rw [if_pos h2] at h; cases h; simp
    · rw [if_neg h2] at h
      by_cases h3 : p ∈ b "xX"
      · rw [if_pos h3] at h; cases h; simp
      · rw [if_neg h3] at h; cases h

theorem letter_not_digit {p : UInt8} {B : Nat} (h : letter p = some B) : ¬ IsDigit B p := by
  have hB := letter_cases h
  rw [isDigit_iff (by omega)]
  rw [← marks_iff hB] at h
  rcases hB with rfl | rfl | rfl <;> rcases h with rfl | rfl <;> decide

theorem letter_not_dec {p : UInt8} {B : Nat} (h : letter p = some B) : ¬ IsDigit 10 p := by
  have hB := letter_cases h
  rw [isDigit_iff (by omega)]
  rw [← marks_iff hB] at h
  rcases hB with rfl | rfl | rfl <;> rcases h with rfl | rfl <;> decide

theorem digit_not_sign {B : Nat} (hB : B ≤ 36) {c : UInt8} (h : IsDigit B c) : c ≠ 45 ∧ c ≠ 43 ∧ isSpace c = false := by
  rw [isDigit_iff hB] at h
  have : chDigit c < 36 → c ≠ 45 ∧ c ≠ 43 ∧ isSpace c = false :=
    byteAll (fun c => chDigit c < 36 → c ≠ 45 ∧ c ≠ 43 ∧ isSpace c = false) (by decide +kernel) c
  exact this (by omega)

theorem foldl_val {B : Nat} (hB : B ≤ 36) (ds : Str) (h : ∀ c ∈ ds, IsDigit B c) (a : Nat) :
    ds.foldl (fun a c => B * a + chDigit c) a = a * B ^ ds.length + val B ds := by
  induction ds generalizing a with
  | nil => simp [val]
  | cons c cs ih =>
    have hc := h c (by simp)
    rw [isDigit_iff hB] at hc
    rw [List.foldl_cons, ih (fun x hx => h x (by simp [hx])), val, digit_getD hB hc, List.length_cons, Nat.pow_succ]
    ring

/-- The sign and the rest. -/
def unsign (x : Str) : Int × Str :=
  if x.head? = some 45 then (-1, x.tail) else if x.head? = some 43 then (1, x.tail) else (1, x)

theorem unsign_sign {sg : Str} {σ : Int} (h : Sign sg σ) {y : Str} (h1 : y.head? ≠ some 45) (h2 : y.head? ≠ some 43) :
    unsign (sg ++ y) = (σ, y) := by
  cases h with
  | none => simp [unsign, h1, h2]
  | plus => simp [unsign, b]
  | minus => simp [unsign, b]

theorem unsign_split (x : Str) : ∃ sg, Sign sg (unsign x).1 ∧ x = sg ++ (unsign x).2 := by
  unfold unsign
  by_cases h : x.head? = some 45
  · rw [if_pos h]
    cases x with
    | nil => cases h
    | cons c cs => cases h; exact ⟨_, .minus, rfl⟩
  · rw [if_neg h]
    by_cases h' : x.head? = some 43
    · rw [if_pos h']
      cases x with
      | nil => cases h'
      | cons c cs => cases h'; exact ⟨_, .plus, rfl⟩
    · rw [if_neg h']
      exact ⟨[], .none, rfl⟩

theorem pre_base {base B : Nat} {pre : Str} (hb : base ≤ 36) (h : Pre base pre B) : B ≤ 36 := by
  cases h with
  | plain _ => exact hb
  | dec _ => decide
  | mark h _ => have := letter_cases h; omega

theorem lit_iff {base : Nat} (hb : base ≤ 36) (x : Str) (v : Int) : Lit base x v ↔
    ∃ pre ds B, (unsign x).2 = pre ++ ds ∧ Pre base pre B ∧ ds ≠ [] ∧ (∀ c ∈ ds, IsDigit B c) ∧
      (base = 0 → pre = [] → ds.head? = some 48 → val B ds = 0) ∧ v = (unsign x).1 * val B ds := by
  constructor
  · intro h
    cases h with
    | @mk sg pre ds σ B h1 h2 h3 h4 h5 =>
      have hB := pre_base hb h2
      have key : (pre ++ ds).head? ≠ some 45 ∧ (pre ++ ds).head? ≠ some 43 := by
        have hds : ds.head? ≠ some 45 ∧ ds.head? ≠ some 43 := by
          cases ds with
          | nil => exact absurd rfl h3
          | cons c cs =>
            have := digit_not_sign hB (h4 c (by simp))
            simp [this.1, this.2.1]
        cases h2 with
        | plain _ => simpa using hds
        | dec _ => simpa using hds
        | mark _ _ => simp
      rw [List.append_assoc, unsign_sign h1 key.1 key.2]
      exact ⟨pre, ds, B, rfl, h2, h3, h4, h5, rfl⟩
  · rintro ⟨pre, ds, B, h1, h2, h3, h4, h5, rfl⟩
    obtain ⟨sg, hs, hx⟩ := unsign_split x
    rw [h1, ← List.append_assoc] at hx
    have := Lit.mk hs h2 h3 h4 h5
    rw [← hx] at this
    exact this

/-- A sign and digits, without a prefix. -/
def Num (B : Nat) (x : Str) (v : Int) : Prop :=
  (unsign x).2 ≠ [] ∧ (∀ c ∈ (unsign x).2, IsDigit B c) ∧ v = (unsign x).1 * val B (unsign x).2

/-- The 64-bit range. -/
def InR (v : Int) : Prop := -2 ^ 63 ≤ v ∧ v < 2 ^ 63

/-- The last step of `parse`. -/
def num (B : Nat) (s : Str) : Option Int :=
  match fromChars B s with
  | none => none
  | some (r, e) => if s.length = 0 ∨ e ≠ s.length then none else some r

theorem num_iff {B : Nat} (hB : B ≤ 36) {s : Str} (hs : ∀ c, s.head? = some c → isSpace c = false) (v : Int) :
    num B s = some v ↔ Num B s v ∧ InR v := by
  have ht : s.dropWhile isSpace = s := by
    cases s with
    | nil => rfl
    | cons c cs => rw [List.dropWhile_cons_of_neg]; simp [hs c rfl]
  -- in terms of `unsign`
  have hu : (if s.head? = some 45 ∨ s.head? = some 43 then s.drop 1 else s) = (unsign s).2 := by
    unfold unsign
    by_cases h1 : s.head? = some 45
    · rw [if_pos (Or.inl h1), if_pos h1, List.drop_one]
    · rw [if_neg h1]
      by_cases h2 : s.head? = some 43
      · rw [if_pos (Or.inr h2), if_pos h2, List.drop_one]
      · rw [if_neg h2, if_neg (by rintro (h | h); exacts [h1 h, h2 h])]
  obtain ⟨sg, hsg, hx⟩ := unsign_split s
  have hlen : (unsign s).2.length ≤ s.length := by
    have := congrArg List.length hx
    rw [List.length_append] at this
    omega
  have hneg : ((s.head? == some 45) = true ∧ (unsign s).1 = -1) ∨ ((s.head? == some 45) = false ∧ (unsign s).1 = 1) := by
    unfold unsign
    by_cases h1 : s.head? = some 45
    · left; simp [h1]
    · right
      by_cases h2 : s.head? = some 43 <;> simp [h1, h2]
  have hne : (unsign s).2 ≠ [] → s.length ≠ 0 := by
    intro h h'
    have : (unsign s).2.length = 0 := by omega
    exact h (List.length_eq_zero_iff.mp this)
  unfold num fromChars Num
  simp only [ht, hu]
  generalize (unsign s).2 = u at *
  generalize (unsign s).1 = σ at *
  generalize hds : u.takeWhile (fun c => decide (chDigit c < B)) = ds
  have hall : (∀ c ∈ u, IsDigit B c) ↔ ds = u := by
    rw [← hds, List.takeWhile_eq_self_iff]
    simp only [isDigit_iff hB, decide_eq_true_eq]
  have hdsu : ds.length = u.length ↔ ds = u := by
    constructor
    · intro h
      have : ds <+: u := hds ▸ List.takeWhile_prefix _
      exact this.eq_of_length h
    · rintro rfl; rfl
  have hdslen : ds.length ≤ u.length := by rw [← hds]; exact (List.takeWhile_prefix _).length_le
  have hdig : ∀ c ∈ ds, IsDigit B c := by
    intro c hc
    rw [← hds] at hc
    rw [isDigit_iff hB]
    have := List.mem_takeWhile_imp hc
    simpa using this
  have hval := foldl_val hB ds hdig 0
  rw [Nat.zero_mul, Nat.zero_add] at hval
  rw [hall]
  by_cases h0 : ds = []
  · rw [if_pos h0]
    constructor
    · intro h; cases h
    · rintro ⟨⟨h1, h2, _⟩, _⟩
      exact absurd (h2 ▸ h0) h1
  · rw [if_neg h0, hval]
    have hun : u ≠ [] := by
      rintro rfl
      exact h0 (List.length_eq_zero_iff.mp (by simpa using hdslen))
    have hs0 := hne hun
    by_cases hov : val B ds > 2 ^ 63 - 1 + (if (s.head? == some 45) = true then 1 else 0)
    · rw [if_pos hov]
      constructor
      · intro h; cases h
      · rintro ⟨⟨_, h2, h3⟩, h4, h5⟩
        rw [← h2] at h3
        exfalso
        rcases hneg with ⟨e, rfl⟩ | ⟨e, rfl⟩
        · rw [e] at hov
          simp only [if_true] at hov
          have : (2 ^ 63 : Int) < val B ds := by exact_mod_cast (by omega : 2 ^ 63 < val B ds)
          omega
        · rw [e] at hov
          simp only [Bool.false_eq_true, if_false] at hov
          have : (2 ^ 63 : Int) ≤ val B ds := by exact_mod_cast (by omega : 2 ^ 63 ≤ val B ds)
          omega
    · rw [if_neg hov]
      dsimp only
      have hR : InR (σ * val B ds) := by
        unfold InR
        rcases hneg with ⟨e, rfl⟩ | ⟨e, rfl⟩
        · rw [e] at hov
          simp only [if_true] at hov
          have : (val B ds : Int) ≤ 2 ^ 63 := by exact_mod_cast (by omega : val B ds ≤ 2 ^ 63)
          omega
        · rw [e] at hov
          simp only [Bool.false_eq_true, if_false] at hov
          have : (val B ds : Int) < 2 ^ 63 := by exact_mod_cast (by omega : val B ds < 2 ^ 63)
          omega
      have hv : (if (s.head? == some 45) = true then -(val B ds : Int) else (val B ds : Int)) = σ * val B ds := by
        rcases hneg with ⟨e, rfl⟩ | ⟨e, rfl⟩ <;> simp [e]
      rw [hv]
      by_cases he : s.length - u.length + ds.length = s.length
      · have : ds = u := hdsu.mp (by omega)
        rw [if_neg (by rintro (h | h); exacts [hs0 h, h he])]
        subst this
        constructor
        · intro h; cases h; exact ⟨⟨hun, rfl, rfl⟩, hR⟩
        · rintro ⟨⟨_, _, rfl⟩, _⟩; rfl
      · rw [if_pos (Or.inr he)]
        constructor
        · intro h; cases h
        · rintro ⟨⟨_, h2, _⟩, _⟩
          exact absurd (by rw [h2]; omega) he

/-- What `parse` does after the prefix. -/
def conv (B : Nat) (s : Str) (negate : Bool) : Except Err Int :=
  match num B s with
  | none => .error .value
  | some r => .ok (if negate then -r else r)

theorem parse_ok {x : Str} {B : Nat} {s : Str} {negate : Bool} (h : cutPrefix x B = some (.ok (s, negate))) :
    parse x B = some (conv B s negate) := by
  unfold parse conv num
  rw [h]
  show (match fromChars B s with | none => _ | some (r, e) => _) = _
  cases fromChars B s with
  | none => rfl
  | some q =>
    obtain ⟨r, e⟩ := q
    dsimp only
    by_cases h : s.length = 0 ∨ e ≠ s.length
    · rw [if_pos h, if_pos h]; rfl
    · rw [if_neg h, if_neg h]; rfl

theorem parse_err {x : Str} {B : Nat} (h : cutPrefix x B = some (.error .value)) : parse x B = some (.error .value) := by
  unfold parse
  rw [h]
  rfl

theorem cut_signed {B : Nat} {sg p c : UInt8} {r : Str} (hs : sg = 43 ∨ sg = 45) (hp : letter p = some B) :
    (IsDigit B c → cutPrefix (sg :: 48 :: p :: c :: r) B = some (.ok (c :: r, sg == 45))) ∧
    (¬ IsDigit B c → cutPrefix (sg :: 48 :: p :: c :: r) B = some (.error .value)) := by
  have hB := letter_cases hp
  have hm := (marks_iff hB p).mpr hp
  unfold cutPrefix
  rw [if_pos hB]
  dsimp only
  rw [if_pos (by simpa [hs] using hm)]
  constructor
  · intro h
    have h := (checkDigit_iff hB c).mpr h
    simp [h]
  · intro h
    have h : checkDigit c B = false := by
      rw [← checkDigit_iff hB] at h; simpa using h
    simp [h]

theorem cut_unsigned {B : Nat} {p c c2 : UInt8} {r : Str} (hp : letter p = some B) :
    (IsDigit B c2 → cutPrefix (48 :: p :: c :: c2 :: r) B = some (.ok (c :: c2 :: r, false))) ∧
    (¬ IsDigit B c2 → cutPrefix (48 :: p :: c :: c2 :: r) B = some (.error .value)) := by
  have hB := letter_cases hp
  have hm := (marks_iff hB p).mpr hp
  unfold cutPrefix
  rw [if_pos hB]
  dsimp only
  rw [if_neg (by simp), if_pos (by simpa using hm)]
  constructor
  · intro h
    have h := (checkDigit_iff hB c2).mpr h
    simp [h]
  · intro h
    have h : checkDigit c2 B = false := by
      rw [← checkDigit_iff hB] at h; simpa using h
    simp [h]

theorem cut_none {B : Nat} {x : Str}
    (h1 : ∀ sg p c r, x = sg :: 48 :: p :: c :: r → (sg = 43 ∨ sg = 45) → letter p ≠ some B)
    (h2 : ∀ p c r, x = 48 :: p :: c :: r → letter p ≠ some B) : cutPrefix x B = some (.ok (x, false)) := by
  unfold cutPrefix
  by_cases hB : B = 2 ∨ B = 8 ∨ B = 16
  · rw [if_pos hB]
    dsimp only
    rw [if_neg, if_neg]
    · rintro ⟨l, e0, e1⟩
      match x, l, h2 with
      | a :: p :: c :: r, _, h2 =>
        simp only [List.getElem?_cons_zero, List.getElem?_cons_succ, Option.some.injEq] at e0 e1
        subst e0
        exact h2 p c r rfl ((marks_iff hB p).mp e1)
    · rintro ⟨l, e0, e1, e2⟩
      match x, l, h1 with
      | a :: z :: p :: c :: r, _, h1 =>
        simp only [List.getElem?_cons_zero, List.getElem?_cons_succ, Option.some.injEq] at e0 e1 e2
        subst e1
        exact h1 a p c r rfl e0 ((marks_iff hB p).mp e2)
  · rw [if_neg hB]

end Codon.IntStr
