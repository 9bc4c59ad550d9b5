import Verif.IntStr.Parse
import Verif.Str.SplitProps

/-! `int._from_str` as a whole, and `_int_format`. -/

namespace Codon.IntStr
open Codon.Str Spec

theorem white_iff (c : UInt8) : isSpace c = true ↔ White c := by
  have : ∀ c : UInt8, isSpace c = true ↔ (c = 9 ∨ c = 10 ∨ c = 11 ∨ c = 12 ∨ c = 13 ∨ c = 32) :=
    byteAll (fun c => isSpace c = true ↔ (c = 9 ∨ c = 10 ∨ c = 11 ∨ c = 12 ∨ c = 13 ∨ c = 32)) (by decide +kernel)
  exact this c

theorem dropWhile_pre {p : UInt8 → Bool} {pre x : Str} (h1 : ∀ c ∈ pre, p c = true)
    (h2 : ∀ c, x.head? = some c → p c = false) : (pre ++ x).dropWhile p = x := by
  induction pre with
  | nil =>
    cases x with
    | nil => rfl
    | cons c cs => rw [List.nil_append, List.dropWhile_cons_of_neg]; simp [h2 c rfl]
  | cons c cs ih =>
    rw [List.cons_append, List.dropWhile_cons_of_pos (h1 c (by simp))]
    exact ih fun d hd => h1 d (by simp [hd])

/-- Both ends cut. -/
def cut (s : Str) : Str := ((s.dropWhile isSpace).reverse.dropWhile isSpace).reverse

theorem cut_eq {s x : Str} (h : Trimmed s x) : cut s = x := by
  obtain ⟨pre, post, rfl, h1, h2, h3, h4⟩ := h
  have w : ∀ {c}, ¬ White c → isSpace c = false := by
    intro c h; rw [← white_iff] at h; simpa using h
  have e : ((pre ++ (x ++ post)).dropWhile isSpace).reverse.dropWhile isSpace = x.reverse := by
    by_cases hx : x = []
    · subst hx
      have : (pre ++ ([] ++ post)).dropWhile isSpace = [] := by
        have := dropWhile_pre (p := isSpace) (pre := pre ++ post) (x := []) (by
          intro c hc
          rw [white_iff]
          rcases List.mem_append.mp hc with h | h
          · exact h1 c h
          · exact h2 c h) (by intro c hc; cases hc)
        simpa using this
      rw [this]; rfl
    · rw [dropWhile_pre (fun c hc => (white_iff c).mpr (h1 c hc)), List.reverse_append,
        dropWhile_pre (fun c hc => (white_iff c).mpr (h2 c (by simpa using hc)))]
      · intro c hc
        rw [List.head?_reverse] at hc
        exact w (h4 c hc)
      · intro c hc
        cases x with
        | nil => exact absurd rfl hx
        | cons d ds => exact w (h3 c hc)
  unfold cut
  rw [e, List.reverse_reverse]

theorem strip_trimmed {s x : Str} (h : Trimmed s x) : strip s [] = some x := by
  obtain ⟨y, pre, post, e, h1, h2, h3, h4, h5⟩ := c51_strip s []
  have hw : ∀ c, Stripped [] c ↔ White c := by
    intro c; simp [Stripped, Blank, White]
  have : Trimmed s y := ⟨pre, post, h1, fun c hc => (hw c).mp (h2 c hc), fun c hc => (hw c).mp (h3 c hc),
    fun c hc h => h4 c hc ((hw c).mpr h), fun c hc h => h5 c hc ((hw c).mpr h)⟩
  rw [e, ← cut_eq h, cut_eq this]

theorem trimmed_head {s x : Str} (h : Trimmed s x) : ∀ c, x.head? = some c → isSpace c = false := by
  obtain ⟨_, _, _, _, _, h3, _⟩ := h
  intro c hc
  have := h3 c hc
  rw [← white_iff] at this
  simpa using this

theorem pfx_zero {B : Nat} {x : Str} {p : UInt8} {rest : Str} (hu : (unsign x).2 = 48 :: p :: rest)
    (hp : letter p = some B) (v : Int) : Lit 0 x v ↔ Lit B x v := by
  have hB := letter_cases hp
  rw [lit_zero, lit_base (by omega) (by omega)]
  constructor
  · rintro (⟨⟨_, h, _⟩, _⟩ | ⟨B', p', rest', h1, h2, h3⟩)
    · exact absurd (h p (by rw [hu]; simp)) (letter_not_dec hp)
    · have h1' := h1
      rw [hu] at h1'
      cases h1'
      rw [hp] at h2
      cases h2
      exact Or.inr ⟨p, rest, h1, hp, h3⟩
  · rintro (⟨_, h, _⟩ | h)
    · exact absurd (h p (by rw [hu]; simp)) (letter_not_digit hp)
    · exact Or.inr ⟨B, h⟩

theorem fromStr_spec {base : Nat} (hb : base ≤ 36) (h1 : base ≠ 1) {s x : Str} (ht : Trimmed s x)
    (hU : ∀ B rest, Marked base [] x B rest → rest = [] ∨ ∃ c c2 r, rest = c :: c2 :: r ∧ IsDigit B c)
    (hM : ∀ B rest, Marked base (b "-") x B rest → val B rest ≠ 2 ^ 63)
    (hZ : base = 0 → ∀ sg σ ds, Sign sg σ → x = sg ++ ds → ds ≠ [] → ∃ d ∈ ds, d ≠ 48) :
    ∃ r, fromStr s base = some r ∧ ∀ v, r = .ok v ↔ Lit base x v ∧ InR v := by
  unfold fromStr
  rw [if_neg (by omega), strip_trimmed ht]
  show ∃ r, (if (base : Int) = 0 then _ else _) = some r ∧ _
  have hx := trimmed_head ht
  by_cases h0 : base = 0
  · subst h0
    rw [if_pos (show ((0 : Nat) : Int) = 0 from rfl)]
    by_cases hA : ∃ p rest, (unsign x).2 = 48 :: p :: rest
    · obtain ⟨p, rest, hu⟩ := hA
      cases hp : letter p with
      | some B =>
        have e : detectBase x = .ok B := by rw [detect_eq, hu]; simp [hp]
        rw [e]
        have hB := letter_cases hp
        simp only [pfx_zero hu hp]
        refine parse_spec (by omega) (by omega) hx ?_ ?_
        · rintro rest ⟨p, k1, k2, k3⟩; exact hU B rest ⟨p, k1, k2, Or.inl rfl⟩
        · rintro rest ⟨p, k1, k2, k3⟩; exact hM B rest ⟨p, k1, k2, Or.inl rfl⟩
      | none =>
        have e : detectBase x = .error .value := by rw [detect_eq, hu]; simp [hp]
        rw [e]
        refine ⟨_, rfl, fun v => ?_⟩
        constructor
        · intro h; cases h
        · rintro ⟨h, _⟩
          exfalso
          rw [lit_zero] at h
          rcases h with ⟨⟨k1, k2, k3⟩, k4⟩ | ⟨B', p', rest', k1, k2, k3⟩
          · obtain ⟨sg, hs, hxs⟩ := unsign_split x
            obtain ⟨d, hd, hne⟩ := hZ rfl sg _ _ hs hxs k1
            rw [hu] at k2 k4 hd
            exact hne (val_zeros_head k2 (k4 rfl) d hd)
          · rw [hu] at k1
            cases k1
            rw [hp] at k2
            cases k2
    · by_cases hz : (unsign x).2 = [48]
      · obtain ⟨sg, hs, hxs⟩ := unsign_split x
        obtain ⟨d, hd, hne⟩ := hZ rfl sg _ _ hs hxs (by rw [hz]; simp)
        rw [hz] at hd
        simp at hd
        exact absurd hd hne
      · have hd : (unsign x).2.head? ≠ some 48 := by
          intro h
          match hm : (unsign x).2, h with
          | [c], h => cases h; exact hz hm
          | c :: p :: r, h => cases h; exact hA ⟨p, r, hm⟩
        have e : detectBase x = .ok 10 := by
          rw [detect_eq]
          split
          · rename_i h; exact absurd ⟨_, _, h⟩ hA
          · rename_i h; exact absurd h hz
          · rfl
        rw [e]
        have hl : ∀ v, Lit 0 x v ↔ Lit 10 x v := by
          intro v
          rw [lit_zero, lit_base (by decide) (by decide)]
          constructor
          · rintro (⟨h, _⟩ | ⟨B, p, rest, h, _⟩)
            · exact Or.inl h
            · exact absurd ⟨p, rest, h⟩ hA
          · rintro (h | ⟨p, rest, h, _⟩)
            · exact Or.inl ⟨h, fun h => absurd h hd⟩
            · exact absurd ⟨p, rest, h⟩ hA
        simp only [hl]
        refine parse_spec (by decide) (by decide) hx ?_ ?_
        · rintro rest ⟨p, _, k2, _⟩; have := letter_cases k2; omega
        · rintro rest ⟨p, _, k2, _⟩; have := letter_cases k2; omega
  · rw [if_neg (by omega)]
    exact parse_spec h0 hb hx (fun rest h => hU base rest h) (fun rest h => hM base rest h)

/-! ## `_int_format` -/

theorem idiv_abs {py : Bool} {n : Int} (h : py = false ∨ 0 ≤ n) (B : Nat) :
    (idiv py n B).natAbs = n.natAbs / B ∧ (imod py n B).natAbs = n.natAbs % B ∧ (py = false ∨ 0 ≤ idiv py n B) := by
  have ht : (n.tdiv B).natAbs = n.natAbs / B ∧ (n.tmod B).natAbs = n.natAbs % B := by
    rw [Int.natAbs_tdiv, Int.natAbs_tmod]; simp; rfl
  cases py
  · exact ⟨ht.1, ht.2, Or.inl rfl⟩
  · have hn : 0 ≤ n := by rcases h with h | h; cases h; exact h
    unfold idiv imod
    rw [if_pos rfl, if_pos rfl, Int.fdiv_eq_tdiv_of_nonneg hn (by omega), Int.fmod_eq_tmod_of_nonneg hn (by omega)]
    exact ⟨ht.1, ht.2, Or.inr (Int.tdiv_nonneg hn (by omega))⟩

/-- The digits of `m`, most significant first; none for 0. -/
def digs (B : Nat) : Nat → Nat → Str
  | 0, _ => []
  | f + 1, m => if m = 0 then [] else digs B f (m / B) ++ [chars.getD (m % B) 0]

theorem div_lt {B m f : Nat} (hB : 2 ≤ B) (h : m < 2 ^ (f + 1)) : m / B < 2 ^ f := by
  rw [Nat.div_lt_iff_lt_mul (by omega)]
  calc m < 2 ^ (f + 1) := h
    _ = 2 ^ f * 2 := by ring
    _ ≤ 2 ^ f * B := Nat.mul_le_mul_left _ hB

theorem countDigits_eq {py : Bool} {B : Nat} (hB : 2 ≤ B) (f : Nat) : ∀ (n : Int) (k : Nat), (py = false ∨ 0 ≤ n) →
    n.natAbs < 2 ^ f → countDigits py B (f + 1) n k = some (k + (digs B (f + 1) n.natAbs).length) := by
  induction f with
  | zero =>
    intro n k h hn
    have : n = 0 := by omega
    subst this
    rfl
  | succ f ih =>
    intro n k h hn
    obtain ⟨e1, e2, e3⟩ := idiv_abs h B
    rw [countDigits, digs]
    by_cases h0 : n = 0
    · subst h0; rfl
    · rw [if_pos h0, if_neg (by omega), ih _ _ e3 (by rw [e1]; exact div_lt hB hn), e1, List.length_append]
      simp only [List.length_singleton]
      congr 1
      omega

theorem writeDigits_eq {py : Bool} {B : Nat} (hB : 2 ≤ B) (hB' : B ≤ 16) (f : Nat) : ∀ (n : Int) (A R D : Str),
    (py = false ∨ 0 ≤ n) → n.natAbs < 2 ^ f → R.length = (digs B (f + 1) n.natAbs).length →
    writeDigits py B (f + 1) n (A ++ R ++ D) (A.length + R.length - 1) = some (A ++ digs B (f + 1) n.natAbs ++ D) := by
  induction f with
  | zero =>
    intro n A R D h hn hR
    have : n = 0 := by omega
    subst this
    have : R = [] := List.length_eq_zero_iff.mp hR
    subst this
    rfl
  | succ f ih =>
    intro n A R D h hn hR
    obtain ⟨e1, e2, e3⟩ := idiv_abs h B
    rw [writeDigits]
    by_cases h0 : n = 0
    · subst h0
      have : R = [] := List.length_eq_zero_iff.mp hR
      subst this
      rfl
    · have hc : chars[(imod py n B).natAbs]? = some (chars.getD (n.natAbs % B) 0) := by
        have : n.natAbs % B < chars.length := by
          have : n.natAbs % B < B := Nat.mod_lt _ (by omega)
          have : chars.length = 17 := by decide
          omega
        rw [e2, List.getD_eq_getElem?_getD, List.getElem?_eq_getElem this]
        rfl
      have hd : digs B (f + 1 + 1) n.natAbs = digs B (f + 1) (n.natAbs / B) ++ [chars.getD (n.natAbs % B) 0] := by
        rw [digs, if_neg (by omega)]
      rw [hd] at hR ⊢
      generalize chars.getD (n.natAbs % B) 0 = c at *
      rw [if_pos h0, hc]
      rw [List.length_append, List.length_singleton] at hR
      obtain ⟨R', r, rfl⟩ : ∃ R' r, R = R' ++ [r] := by
        rcases List.eq_nil_or_concat R with rfl | ⟨R', r, h⟩
        · simp at hR
        · exact ⟨R', r, by rw [h, List.concat_eq_append]⟩
      simp only [List.length_append, List.length_singleton] at hR ⊢
      have hw : wr (A ++ (R' ++ [r]) ++ D) (A.length + ↑(R'.length + 1) - 1) c = some (A ++ R' ++ (c :: D)) := by
        unfold wr
        have e : ((A.length : Int) + ↑(R'.length + 1) - 1).toNat = (A ++ R').length := by
          rw [List.length_append]; omega
        rw [if_pos (by simp; omega), e]
        have : A ++ (R' ++ [r]) ++ D = (A ++ R') ++ (r :: D) := by simp
        rw [this, List.set_append_right _ _ (le_refl _), Nat.sub_self]
        rfl
      show (do writeDigits py B (f + 1) (idiv py n B) (← wr _ _ c) _) = _
      rw [hw]
      have := ih (idiv py n B) A R' (c :: D) e3 (by rw [e1]; exact div_lt hB hn) (by rw [e1]; omega)
      rw [e1] at this
      have e : (A.length : Int) + ↑(R'.length + 1) - 1 - 1 = A.length + R'.length - 1 := by push_cast; omega
      show writeDigits py B (f + 1) (idiv py n B) (A ++ R' ++ (c :: D)) _ = _
      rw [e, this]
      simp

theorem copyTo_eq : ∀ (cs A R D : Str), R.length = cs.length →
    copyTo cs (A ++ R ++ D) A.length = some (A ++ cs ++ D)
  | [], A, R, D, h => by
    have : R = [] := List.length_eq_zero_iff.mp h
    subst this
    simp [copyTo]
  | c :: cs, A, R, D, h => by
    cases R with
    | nil => simp at h
    | cons r R =>
      have hw : wr (A ++ (r :: R) ++ D) A.length c = some ((A ++ [c]) ++ R ++ D) := by
        unfold wr
        rw [if_pos (by simp)]
        have : A ++ (r :: R) ++ D = A ++ (r :: (R ++ D)) := by simp
        rw [this, Int.toNat_natCast, List.set_append_right _ _ (le_refl _), Nat.sub_self]
        simp
      rw [copyTo, hw]
      have := copyTo_eq cs (A ++ [c]) R D (by simpa using h)
      have e : ((A ++ [c]).length : Int) = A.length + 1 := by simp
      rw [e] at this
      show copyTo cs _ _ = _
      rw [this]
      simp

theorem intFormat_eq {py : Bool} {B : Nat} (hB : 2 ≤ B) (hB' : B ≤ 16) {f : Nat} (junk : Nat → UInt8) {n : Int} (pre : Str)
    (h : py = false ∨ 0 ≤ n) (hn : n.natAbs < 2 ^ f) :
    intFormat py (f + 1) junk n B pre = some ((if n < 0 then b "-" else []) ++ pre ++
      (if n = 0 then [48] else digs B (f + 1) n.natAbs)) := by
  unfold intFormat
  rw [countDigits_eq hB f n 0 h hn, Nat.zero_add]
  simp only [Option.bind_eq_bind, Option.bind_some]
  have hdz : (digs B (f + 1) n.natAbs).length = 0 ↔ n = 0 := by
    rw [digs]
    by_cases h0 : n = 0
    · subst h0; simp
    · rw [if_neg (by omega)]; simp [h0]
  have key : ∀ (S : Str), S.length + pre.length + max 1 (digs B (f + 1) n.natAbs).length =
      (digs B (f + 1) n.natAbs).length + (if n ≤ 0 then 1 else 0) + pre.length →
      ∀ J : Str, J.length = pre.length + max 1 (digs B (f + 1) n.natAbs).length →
      ((copyTo pre (S ++ J) (S.length : Int)).bind fun p =>
        putDigits py (f + 1) n B (digs B (f + 1) n.natAbs).length p ((S.length : Int) + pre.length)) = some (S ++ pre ++
          (if n = 0 then [48] else digs B (f + 1) n.natAbs)) := by
    intro S _ J hJ
    obtain ⟨J1, J2, rfl, hJ1⟩ : ∃ J1 J2, J = J1 ++ J2 ∧ J1.length = pre.length :=
      ⟨J.take pre.length, J.drop pre.length, (List.take_append_drop _ _).symm, by
        rw [List.length_take]; omega⟩
    rw [List.length_append] at hJ
    rw [← List.append_assoc, copyTo_eq pre S J1 J2 hJ1]
    rw [Option.bind_some, putDigits]
    by_cases h0 : n = 0
    · rw [if_neg (by rw [hdz.mpr h0]; simp), if_pos h0]
      have h2 : J2.length = 1 := by rw [hdz.mpr h0] at hJ; simp at hJ; omega
      obtain ⟨j, rfl⟩ := List.length_eq_one_iff.mp h2
      have := copyTo_eq [48] (S ++ pre) [j] [] rfl
      simp only [copyTo, List.append_nil, List.length_append] at this
      show wr _ _ 48 = _
      rw [← this]
      push_cast
      cases wr (S ++ pre ++ [j]) (↑S.length + ↑pre.length) 48 <;> rfl
    · have hd : (digs B (f + 1) n.natAbs).length ≠ 0 := fun h => h0 (hdz.mp h)
      rw [if_pos hd, if_neg h0]
      have h2 : J2.length = (digs B (f + 1) n.natAbs).length := by omega
      have := writeDigits_eq hB hB' f n (S ++ pre) J2 [] h hn h2
      rw [List.append_nil, List.append_nil] at this
      rw [← this]
      congr 1
      rw [List.length_append, h2]
      push_cast
      omega
  by_cases hneg : n < 0
  · rw [if_pos hneg]
    have hd : (digs B (f + 1) n.natAbs).length ≠ 0 := fun h => by have := hdz.mp h; omega
    generalize hJ : (List.range ((digs B (f + 1) n.natAbs).length + (if n ≤ 0 then 1 else 0) + pre.length)).map junk = J
    have hJl : J.length = (digs B (f + 1) n.natAbs).length + 1 + pre.length := by
      rw [← hJ, if_pos (by omega)]; simp
    cases J with
    | nil => rw [List.length_nil] at hJl; omega
    | cons j J =>
      have hw : wr (j :: J) 0 45 = some (45 :: J) := by simp [wr]
      have hc : chars[16]? = some 45 := by decide
      have hp : putSign n (j :: J) = some (45 :: J, 1) := by
        unfold putSign
        rw [if_pos hneg, hc]
        show (do return (← wr (j :: J) 0 45, 1) : Option (Str × Int)) = _
        rw [hw]; rfl
      rw [hp, Option.bind_some]
      have := key [45] (by rw [if_pos (by omega)]; simp; omega) J (by simp at hJl; omega)
      exact this
  · have hp : ∀ J, putSign n J = some (J, 0) := fun J => by unfold putSign; rw [if_neg hneg]
    rw [if_neg hneg, hp, Option.bind_some]
    generalize hJ : (List.range ((digs B (f + 1) n.natAbs).length + (if n ≤ 0 then 1 else 0) + pre.length)).map junk = J
    have hJl : J.length = pre.length + max 1 (digs B (f + 1) n.natAbs).length := by
      rw [← hJ, List.length_map, List.length_range]
      by_cases h0 : n = 0
      · rw [hdz.mpr h0, if_pos (by omega)]; omega
      · have hd : (digs B (f + 1) n.natAbs).length ≠ 0 := fun h => h0 (hdz.mp h)
        rw [if_neg (by omega)]; omega
    have := key [] (by
      have := hJl
      rw [← hJ, List.length_map, List.length_range] at this
      simp; omega) J hJl
    exact this

/-! What the digits are. -/

theorem val_snoc (B : Nat) (xs : Str) (c : UInt8) : val B (xs ++ [c]) = val B xs * B + (digit c).getD 0 := by
  induction xs with
  | nil => simp [val]
  | cons x xs ih =>
    rw [List.cons_append, val, ih, val, List.length_append, List.length_singleton, Nat.pow_succ]
    ring

theorem chars_digit : ∀ k < 16, digit (chars.getD k 0) = some k ∧ chars.getD k 0 ∈ b "0123456789abcdef" := by decide +kernel

theorem digs_spec {B : Nat} (hB : 2 ≤ B) (hB' : B ≤ 16) (f : Nat) : ∀ m < 2 ^ f,
    (∀ c ∈ digs B (f + 1) m, c ∈ b "0123456789abcdef" ∧ IsDigit B c) ∧ val B (digs B (f + 1) m) = m ∧
    (digs B (f + 1) m).head? ≠ some 48 ∧ (digs B (f + 1) m = [] ↔ m = 0) := by
  induction f with
  | zero =>
    intro m hm
    have : m = 0 := by omega
    subst this
    simp [digs, val]
  | succ f ih =>
    intro m hm
    rw [digs]
    by_cases h0 : m = 0
    · subst h0; simp [val]
    · rw [if_neg h0]
      obtain ⟨i1, i2, i3, i4⟩ := ih (m / B) (div_lt hB hm)
      have hk : m % B < B := Nat.mod_lt _ (by omega)
      obtain ⟨d1, d2⟩ := chars_digit (m % B) (by omega)
      refine ⟨?_, ?_, ?_, by simp [h0]⟩
      · intro c hc
        rcases List.mem_append.mp hc with h | h
        · exact i1 c h
        · rw [List.mem_singleton] at h
          subst h
          exact ⟨d2, _, d1, hk⟩
      · rw [val_snoc, i2, d1]
        exact Nat.div_add_mod' m B
      · by_cases hz : digs B (f + 1) (m / B) = []
        · rw [hz, List.nil_append, List.head?_cons]
          have h1 : m / B = 0 := i4.mp hz
          have h2 : m % B = m := by
            have := Nat.div_add_mod' m B
            rw [h1] at this; omega
          intro h
          have h := Option.some.inj h
          rw [h] at d1
          have : digit 48 = some 0 := by decide
          rw [this] at d1
          have := Option.some.inj d1
          omega
        · rw [List.head?_append_of_ne_nil _ hz]
          exact i3

theorem isText {py : Bool} {B : Nat} (hB : 2 ≤ B) (hB' : B ≤ 16) {f : Nat} (junk : Nat → UInt8) {n : Int} (pre : Str)
    (h : py = false ∨ 0 ≤ n) (hn : n.natAbs < 2 ^ f) :
    ∃ t, intFormat py (f + 1) junk n B pre = some t ∧ IsText B pre n t := by
  refine ⟨_, intFormat_eq hB hB' junk pre h hn, _, rfl, ?_⟩
  obtain ⟨i1, i2, i3, i4⟩ := digs_spec hB hB' f n.natAbs hn
  by_cases h0 : n = 0
  · subst h0
    rw [if_pos rfl]
    refine ⟨by simp, ?_, by simp [val]; decide, fun _ => rfl⟩
    intro c hc
    rw [List.mem_singleton] at hc
    subst hc
    exact ⟨by decide, 0, by decide, by omega⟩
  · rw [if_neg h0]
    exact ⟨fun h => by have := i4.mp h; omega, i1, i2, fun h => absurd h i3⟩

end Codon.IntStr
