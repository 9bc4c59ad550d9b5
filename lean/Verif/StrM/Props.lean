import Verif.StrM.Lemmas

/-!
# C80: the remaining methods of `str`
-/

namespace Codon.StrM

open Codon.Str (Str len emit finish slice MAX b)
open Codon.Sort (rd wr)
open Codon.StrMSpec

/-! ## Indexing, slicing, repetition -/

/-- `s[i]` is the one-byte string at position `i`, negative indices counting from the end; outside it raises. -/
theorem c80_index (s : Str) (i : Int) : getItem s i = some ((Slice.pyGet s i).map fun c => [c]) := by
  have key : ∀ j : Int, (if ¬ (0 ≤ j ∧ j < len s) then some none else do return some [← rd s j])
      = some ((if 0 ≤ j then s[j.toNat]? else none).map fun c => [c]) := by
    intro j
    by_cases h : 0 ≤ j ∧ j < len s
    · have h2 : j < (s.length : Int) := h.2
      rw [if_neg (not_not.2 h), rd, if_pos h.1, List.getElem?_eq_getElem (by omega : j.toNat < s.length)]
      rfl
    · rw [if_pos h]
      by_cases h0 : 0 ≤ j
      · have h2 : ¬ j < (s.length : Int) := fun h2 => h ⟨h0, h2⟩
        rw [if_pos h0, List.getElem?_eq_none (by omega)]; rfl
      · rw [if_neg h0]; rfl
  rw [getItem, key, Slice.pyGet]
  by_cases hi : i < 0
  · by_cases h2 : 0 ≤ i + len s
    · simp [hi, h2, Int.not_le.2 hi]
    · simp [hi, h2, Int.not_le.2 hi]
  · simp [hi, Int.not_lt.1 hi]

/-- `s[start:stop:step]` consists of the bytes at the positions that Python selects, in Python's order; a step of
0 raises.  No byte outside the string is read. -/
theorem c80_slice (s : Str) (start stop step : Option Int) :
    getSlice s start stop step =
      some (if step = some 0 then none
        else some ((SliceSpec.positions s.length start stop (step.getD 1)).filterMap (s[·]?))) := by
  have hlt : ∀ x ∈ SliceSpec.positions s.length start stop (step.getD 1), x < s.length :=
    fun x hx => positions_lt hx
  have run : ∀ a, Slice.adjust (len s) start stop step = some a →
      makeFromRange s a.start a.stop a.step a.length
        = some ((SliceSpec.positions s.length start stop (step.getD 1)).filterMap (s[·]?)) := by
    intro a ha
    have h1 := Slice.c24_stop_agrees_with_length s.length start stop step a ha
    obtain ⟨h2, h3, -⟩ := Slice.c24_adjust_selects_python_positions s.length start stop step a ha
    have h4 := congrArg List.length h2
    simp only [List.length_map, List.length_range] at h4
    rw [makeFromRange, h1]
    simp only [Option.bind_eq_bind, Option.bind_some]
    rw [rangeLoop_spec s _ _ [] (by show (0 : Int) + _ ≤ _; omega) hlt]
    simp only [Option.bind_some, List.nil_append]
    exact finish_ok (by
      show (((_ : Str).length : Nat) : Int) = _
      rw [filterMap_length s _ hlt]; omega)
  have whole : (SliceSpec.positions s.length start stop 1).filterMap (s[·]?) = s ∨ ¬ (start = none ∧ stop = none) := by
    by_cases h : start = none ∧ stop = none
    · left
      obtain ⟨rfl, rfl⟩ := h
      have e : SliceSpec.positions s.length none none 1 = List.range s.length := by
        rw [SliceSpec.positions, if_pos (by omega)]
        refine List.filter_eq_self.2 fun x hx => ?_
        have hx := List.mem_range.1 hx
        simp [SliceSpec.Selected, SliceSpec.first, SliceSpec.last, hx]
      rw [e]
      apply List.ext_getElem?
      intro i
      have : ∀ n, n ≤ s.length → (List.range n).filterMap (s[·]?) = s.take n := by
        intro n
        induction n with
        | zero => intro _; rfl
        | succ n ih =>
          intro hn
          rw [List.range_succ, List.filterMap_append, ih (by omega), List.take_add_one]
          cases h : s[n]? <;> simp [h]
      rw [this _ (le_refl _), List.take_length]
    · right; exact h
  rw [getSlice]
  by_cases h0 : start = none ∧ stop = none ∧ step = none
  · obtain ⟨rfl, rfl, rfl⟩ := h0
    rw [if_pos ⟨rfl, rfl, rfl⟩, if_neg (by simp)]
    rcases whole with h | h
    · rw [Option.getD_none, h]
    · exact absurd ⟨rfl, rfl⟩ h
  · rw [if_neg h0]
    by_cases hs : step = some 0
    · rw [if_pos hs]
      have : Slice.adjust (len s) start stop step = none := (Slice.c24_zero_step_rejected s.length _ _ _).2 hs
      rw [this]
    · rw [if_neg hs]
      have hne : Slice.adjust (len s) start stop step ≠ none :=
        fun h => hs ((Slice.c24_zero_step_rejected s.length _ _ _).1 h)
      obtain ⟨a, ha⟩ := Option.ne_none_iff_exists'.1 hne
      rw [ha]
      simp only []
      by_cases hn : step = none
      · subst hn
        rw [if_pos rfl]
        -- a plain slice: the same bytes as walking over the range
        obtain ⟨h2, h3, h5⟩ := Slice.c24_adjust_selects_python_positions s.length start stop none a ha
        simp only [Option.getD_none] at h2 h5 hlt ⊢
        obtain ⟨n, hn⟩ : ∃ n : Nat, a.length = n := ⟨a.length.toNat, (Int.toNat_of_nonneg h3).symm⟩
        rw [hn, h5, Int.toNat_natCast] at h2
        -- bounds
        have hb : 0 ≤ a.start ∧ a.start + n ≤ s.length := by
          obtain ⟨-, h1, hs', he', hl⟩ := Slice.adjust_fields ha
          have b1 := Slice.first_bounds s.length start 1
          have b2 := Slice.last_bounds s.length stop 1
          rw [h5] at hl hs' he'
          by_cases hz : n = 0
          · subst hz
            have b3 := b1.1 (by omega)
            omega
          · have g : ∀ i : Nat, i < n → ∃ x ∈ SliceSpec.positions s.length start stop 1, (x : Int) = a.start + i * 1 := by
              intro i hi
              have hm : a.start + (i : Int) * 1 ∈ (List.range n).map (fun i : Nat => a.start + (i : Int) * 1) :=
                List.mem_map.2 ⟨i, List.mem_range.2 hi, rfl⟩
              rw [h2] at hm
              obtain ⟨x, hx, e⟩ := List.mem_map.1 hm
              exact ⟨x, hx, e⟩
            obtain ⟨x, hx, ex⟩ := g 0 (by omega)
            obtain ⟨y, hy, ey⟩ := g (n - 1) (by omega)
            have := hlt y hy
            omega
        have hpos : SliceSpec.positions s.length start stop 1 = (List.range n).map fun i => a.start.toNat + i := by
          have inj : Function.Injective (fun x : Nat => (x : Int)) := fun x y h => by simpa using h
          apply (List.map_injective_iff.2 inj)
          rw [← h2, List.map_map]
          refine List.map_congr_left fun i _ => ?_
          simp only [Function.comp]
          omega
        have hsl : slice s a.start (a.start + a.length) = some ((s.drop a.start.toNat).take n) := by
          rw [hn, slice, if_pos ⟨hb.1, by omega, hb.2⟩]
          congr 2; omega
        rw [hsl, hpos]
        simp only [Option.bind_eq_bind, Option.bind_some, Option.pure_def, Option.some.injEq]
        have hbn : a.start.toNat + n ≤ s.length := by omega
        clear * - hbn
        induction n with
        | zero => rfl
        | succ n ih =>
          rw [List.range_succ, List.map_append, List.filterMap_append, ← ih (by omega), List.take_add_one,
            List.getElem?_drop]
          cases h : s[a.start.toNat + n]? <;> simp [h]
      · rw [if_neg hn]
        have hrun := run a ha
        rw [hrun]
        rfl

example : getSlice (b "abcdefghij") (some 8) (some (-20)) (some (-3)) = some (some (b "ifc")) := by
  rw [c80_slice]; decide +kernel

/-- `s * x` for a non-negative `x` is `x` copies of `s`, if the result is shorter than 2^63 bytes. -/
theorem c80_repeat_partial (s : Str) (x : Nat) (h : (x : Int) * s.length < 2 ^ 63) :
    mul s x = some ⟨x * s.length, (List.replicate x s).flatten⟩ := by
  have e : mul64 x (len s) = x * s.length := by
    have p : 0 ≤ (x : Int) * s.length := by positivity
    show ((x : Int) * (s.length : Int)).bmod (2 ^ 64) = _
    exact Int.bmod_eq_of_le (by omega) (by omega)
  rw [mul, e, Int.toNat_natCast]
  show (do return Raw.mk _ (← mulLoop s _ x [])) = _
  rw [mulLoop_spec s _ x [] (by show (0 : Int) + (x : Int) * (s.length : Int) ≤ _; omega)]
  rfl

example : mul (b "ab") 3 = some ⟨6, b "ababab"⟩ := by decide +kernel

/-- For a negative number of copies Python gives the empty string; here the length of the result is negative. -/
theorem c80_violation_negative : mul (b "ab") (-1) = some ⟨-2, []⟩ := by decide +kernel

/-- The product of the number of copies and the length wraps around: 2^62 copies of four bytes are written to a
buffer of no bytes, where Python raises. -/
theorem c80_violation_wrap : mul (b "abcd") (2 ^ 62) = none := by
  have e : mul64 (2 ^ 62) (len (b "abcd")) = 0 := by decide +kernel
  have n : ((2 : Int) ^ 62).toNat = (2 ^ 62 - 1) + 1 := by decide +kernel
  rw [mul, e, n, mulLoop]
  have h : emit 0 [] (b "abcd") = none := by decide +kernel
  rw [h]
  rfl

/-! ## Predicates -/

/-- The predicates on the kinds of the characters. -/
theorem c80_kinds (s : Str) :
    (isdigit s = true ↔ s ≠ [] ∧ ∀ c ∈ s, Digit c) ∧
    (isdecimal s = true ↔ s ≠ [] ∧ ∀ c ∈ s, Digit c) ∧
    (isalpha s = true ↔ s ≠ [] ∧ ∀ c ∈ s, Letter c) ∧
    (isalnum s = true ↔ s ≠ [] ∧ ∀ c ∈ s, Letter c ∨ Digit c) ∧
    (isascii s = true ↔ ∀ c ∈ s, c.toNat < 128) := by
  have key : ∀ p : UInt8 → Bool, (if len s = 0 then false else allLoop p s) = true ↔ s ≠ [] ∧ ∀ c ∈ s, p c = true := by
    intro p
    have e : len s = 0 ↔ s = [] := by
      show ((s.length : Nat) : Int) = 0 ↔ _
      rw [← List.length_eq_zero_iff]; omega
    by_cases h : s = []
    · rw [if_pos (e.2 h)]; simp [h]
    · rw [if_neg (fun h' => h (e.1 h')), allLoop_iff]; simp [h]
  refine ⟨?_, ?_, ?_, ?_, ?_⟩
  · rw [isdigit, key]; simp only [cDigit_iff]
  · rw [isdecimal, key]; simp only [← cDigit_iff]; rfl
  · rw [isalpha, key]; simp only [cAlpha_iff]
  · rw [isalnum, key]; simp only [cAlnum, Bool.or_eq_true, cAlpha_iff, cDigit_iff]
  · rw [isascii, allLoop_iff]; simp

example : isalnum (b "ab1") = true ∧ isalpha (b "ab1") = false ∧ isdigit (b "") = false := by decide +kernel

/-- `islower`, `isupper`: there is a letter, and no letter of the other case. -/
theorem c80_cases (s : Str) :
    (∃ r, islower s = some r ∧ (r = true ↔ (∃ c ∈ s, Lower c) ∧ ∀ c ∈ s, ¬ Upper c)) ∧
    (∃ r, isupper s = some r ∧ (r = true ↔ (∃ c ∈ s, Upper c) ∧ ∀ c ∈ s, ¬ Lower c)) := by
  have loop : ∀ s : Str, (casedLoop cUpper cLower s false = true ↔ (∃ c ∈ s, Lower c) ∧ ∀ c ∈ s, ¬ Upper c) ∧
      (casedLoop cLower cUpper s false = true ↔ (∃ c ∈ s, Upper c) ∧ ∀ c ∈ s, ¬ Lower c) := by
    intro s
    constructor
    · rw [casedLoop_iff]; simp only [cLower_iff, ← Bool.not_eq_true, cUpper_iff]; simp
    · rw [casedLoop_iff]; simp only [cUpper_iff, ← Bool.not_eq_true, cLower_iff]; simp
  match s with
  | [] => exact ⟨⟨false, rfl, by simp⟩, false, rfl, by simp⟩
  | [c] =>
    refine ⟨⟨cLower c, rfl, ?_⟩, cUpper c, rfl, ?_⟩
    · rw [cLower_iff]; simp only [List.mem_singleton, exists_eq_left, forall_eq]
      exact ⟨fun h => ⟨h, fun h' => not_both c ⟨h', h⟩⟩, fun h => h.1⟩
    · rw [cUpper_iff]; simp only [List.mem_singleton, exists_eq_left, forall_eq]
      exact ⟨fun h => ⟨h, fun h' => not_both c ⟨h, h'⟩⟩, fun h => h.1⟩
  | c :: d :: r =>
    have h0 : ¬ len (c :: d :: r) = 0 := by show ¬ ((r.length + 2 : Nat) : Int) = 0; omega
    have h1 : ¬ len (c :: d :: r) = 1 := by show ¬ ((r.length + 2 : Nat) : Int) = 1; omega
    refine ⟨⟨_, by rw [islower, if_neg h0, if_neg h1], (loop _).1⟩, _, by rw [isupper, if_neg h0, if_neg h1], (loop _).2⟩

example : islower (b "a1b") = some true ∧ islower (b "1") = some false ∧ isupper (b "Ab") = some false := by
  decide +kernel

/-- `istitle` is Python's definition of a titlecased string. -/
theorem c80_istitle (s : Str) : ∃ r, istitle s = some r ∧ (r = true ↔ Titlecased s) := by
  match s with
  | [] => exact ⟨false, rfl, by simp [Titlecased]⟩
  | [c] =>
    refine ⟨cUpper c, rfl, ?_⟩
    rw [cUpper_iff]
    constructor
    · intro h
      refine ⟨⟨c, by simp, Or.inl h⟩, fun i d hd => ?_⟩
      cases i with
      | zero => cases hd; exact ⟨fun _ => afterLetter_zero _, fun h' => absurd ⟨h, h'⟩ (not_both c)⟩
      | succ i => simp at hd
    · rintro ⟨⟨d, hd, hl⟩, h⟩
      obtain rfl : d = c := by simpa using hd
      rcases hl with hl | hl
      · exact hl
      · exact absurd ((h 0 d rfl).2 hl) (afterLetter_zero _)
  | c :: d :: r =>
    have h0 : ¬ len (c :: d :: r) = 0 := by show ¬ ((r.length + 2 : Nat) : Int) = 0; omega
    have h1 : ¬ len (c :: d :: r) = 1 := by show ¬ ((r.length + 2 : Nat) : Int) = 1; omega
    refine ⟨_, by rw [istitle, if_neg h0, if_neg h1], ?_⟩
    rw [titleLoop_iff, Titlecased]
    simp

example : istitle (b "Ab 9Cd") = some true ∧ istitle (b "AB") = some false := by decide +kernel

/-- `isidentifier`: a letter or underscore, then letters, digits and underscores. -/
theorem c80_isidentifier (s : Str) : ∃ r, isidentifier s = some r ∧
    (r = true ↔ ∃ c t, s = c :: t ∧ (Letter c ∨ c = 95) ∧ ∀ d ∈ t, Letter d ∨ Digit d ∨ d = 95) := by
  match s with
  | [] => exact ⟨false, rfl, by simp⟩
  | c :: t =>
    have h0 : ¬ len (c :: t) = 0 := by show ¬ ((t.length + 1 : Nat) : Int) = 0; omega
    have h1 : isalpha [c] = cAlpha c := by
      show allLoop cAlpha [c] = _
      rw [allLoop, allLoop]; cases cAlpha c <;> rfl
    have hr : isidentifier (c :: t) = some (if cAlpha c = true ∨ c = 95 then identLoop t else false) := by
      rw [isidentifier, if_neg h0]
      show (if !isalpha [c] && decide ([c] ≠ [95]) then some false
        else if isalpha [c] || decide ([c] = [95]) then some (identLoop t) else some true) = _
      rw [h1]
      by_cases h2 : cAlpha c = true <;> by_cases h3 : c = 95 <;> simp [h2, h3]
    refine ⟨_, hr, ?_⟩
    by_cases h : cAlpha c = true ∨ c = 95
    · rw [if_pos h, identLoop_iff]
      rw [cAlpha_iff] at h
      constructor
      · intro h'; exact ⟨c, t, rfl, h, h'⟩
      · rintro ⟨c', t', e, -, h'⟩; cases e; exact h'
    · rw [if_neg h]
      rw [cAlpha_iff] at h
      simp only [Bool.false_eq_true, false_iff]
      rintro ⟨c', t', e, h', -⟩
      cases e
      exact h h'

example : isidentifier (b "_a1") = some true ∧ isidentifier (b "1a") = some false := by decide +kernel

/-- `isspace` agrees with Python for text without the control characters 28–31 and without bytes above 127. -/
theorem c80_space_partial (s : Str) (h : ∀ c ∈ s, c.toNat < 28 ∨ 31 < c.toNat ∧ c.toNat < 128) :
    isspace s = true ↔ s ≠ [] ∧ ∀ c ∈ s, Space c := by
  have e : len s = 0 ↔ s = [] := by
    show ((s.length : Nat) : Int) = 0 ↔ _
    rw [← List.length_eq_zero_iff]; omega
  rw [isspace]
  by_cases hs : s = []
  · rw [if_pos (e.2 hs)]; simp [hs]
  · rw [if_neg (fun h' => hs (e.1 h')), allLoop_iff]
    simp only [ne_eq, hs, not_false_eq_true, true_and]
    refine forall₂_congr fun c hc => ?_
    have := h c hc
    simp only [cSpace, decide_eq_true_eq, Space, List.mem_cons, List.not_mem_nil, or_false]
    omega

/-- `isprintable` agrees with Python for text without the delete character and without bytes above 127. -/
theorem c80_printable_partial (s : Str) (h : ∀ c ∈ s, c.toNat < 127) :
    isprintable s = true ↔ ∀ c ∈ s, Printable c := by
  rw [isprintable, allLoop_iff]
  refine forall₂_congr fun c hc => ?_
  have := h c hc
  have e1 : ' '.toNat = 32 := rfl
  have e2 : '~'.toNat = 126 := rfl
  simp only [decide_eq_true_eq, Printable, e1, e2]
  omega

example : isspace (b " \t") = true ∧ isprintable (b "a b") = true ∧ isprintable (b "a\nb") = false := by decide +kernel

/-- The delete character passes as printable, the separators 28–31 do not pass as white space. -/
theorem c80_violation_kinds :
    (isprintable [127] = true ∧ ¬ Printable 127) ∧ (isspace [28] = false ∧ Space 28) := by decide +kernel

/-! ## Changes of case -/

/-- `lower`, `upper`, `swapcase` change each letter to the same letter of the other case and nothing else. -/
theorem c80_lower_upper (s : Str) :
    (∃ t, lower s = some t ∧ Bytewise (fun _ => LowerOf) s t) ∧
    (∃ t, upper s = some t ∧ Bytewise (fun _ => UpperOf) s t) ∧
    (∃ t, swapcase s = some t ∧
      Bytewise (fun _ c d => (Lower c → UpperOf c d) ∧ (¬ Lower c → LowerOf c d)) s t ∧ swapcase t = some s) := by
  refine ⟨⟨_, lower_eq s, bytewise_map tolower_spec s⟩, ⟨_, upper_eq s, bytewise_map toupper_spec s⟩,
    _, swapcase_eq s, bytewise_map (fun c => ?_) s, ?_⟩
  · revert c; refine bytes ?_; decide +kernel
  · rw [swapcase_eq, List.map_map]
    congr 1
    have : ∀ c, swapByte (swapByte c) = c := by refine bytes ?_; decide +kernel
    calc s.map (swapByte ∘ swapByte) = s.map id := List.map_congr_left fun c _ => this c
      _ = s := List.map_id s

/-- `capitalize`: the first byte upper case, the others lower case. -/
theorem c80_capitalize (s : Str) : ∃ t, capitalize s = some t ∧
    Bytewise (fun i c d => (i = 0 → UpperOf c d) ∧ (i ≠ 0 → LowerOf c d)) s t := by
  refine ⟨_, capitalize_eq s, ?_⟩
  match s with
  | [] => exact ⟨rfl, by simp⟩
  | c :: r =>
    refine ⟨by simp, fun i x y hx hy => ?_⟩
    cases i with
    | zero => cases hx; cases hy; exact ⟨fun _ => toupper_spec c, fun h => absurd rfl h⟩
    | succ i =>
      simp only [List.getElem?_cons_succ] at hx hy
      rw [List.getElem?_map, hx] at hy
      cases hy
      exact ⟨fun h => by omega, fun _ => tolower_spec x⟩

/-- `title`: a letter after a letter becomes lower case, any other letter upper case; the result is titlecased as
soon as there is a letter. -/
theorem c80_title (s : Str) : ∃ t, title s = some t ∧
    Bytewise (fun i c d => (AfterLetter s i → LowerOf c d) ∧ (¬ AfterLetter s i → UpperOf c d)) s t ∧
    ((∃ c ∈ s, Letter c) → istitle t = some true) := by
  have hw : Bytewise (fun i c d => (AfterLetter s i → LowerOf c d) ∧ (¬ AfterLetter s i → UpperOf c d)) s
      (titleBytes s false) := by
    refine ⟨titleBytes_length s _, fun i c d hc hd => ?_⟩
    rw [titleBytes_get s false i c hc, Option.some.injEq] at hd
    subst hd
    have hh : ((i = 0 ∧ false = true) ∨ AfterLetter s i) ↔ AfterLetter s i := by simp
    by_cases h : AfterLetter s i
    · rw [if_pos (hh.2 h)]; exact ⟨fun _ => tolower_spec c, fun h' => absurd h h'⟩
    · rw [if_neg (fun h' => h (hh.1 h'))]; exact ⟨fun h' => absurd h' h, fun _ => toupper_spec c⟩
  refine ⟨_, title_eq s, hw, fun hl => ?_⟩
  obtain ⟨r, hr, hrt⟩ := c80_istitle (titleBytes s false)
  rw [hr, hrt.2 ?_]
  obtain ⟨hlen, hw⟩ := hw
  have lett : ∀ c d : UInt8, (LowerOf c d → (Letter d ↔ Letter c) ∧ ¬ Upper d) ∧
      (UpperOf c d → (Letter d ↔ Letter c) ∧ ¬ Lower d) := by
    intro c d
    constructor
    · rintro ⟨h1, h2⟩
      by_cases hu : Upper c
      · obtain ⟨h3, -⟩ := h1 hu
        exact ⟨⟨fun _ => Or.inl hu, fun _ => Or.inr h3⟩, fun h => not_both d ⟨h, h3⟩⟩
      · rw [h2 hu]; exact ⟨Iff.rfl, hu⟩
    · rintro ⟨h1, h2⟩
      by_cases hu : Lower c
      · obtain ⟨h3, -⟩ := h1 hu
        exact ⟨⟨fun _ => Or.inr hu, fun _ => Or.inl h3⟩, fun h => not_both d ⟨h3, h⟩⟩
      · rw [h2 hu]; exact ⟨Iff.rfl, hu⟩
  have other : ∀ (i : Nat) (d : UInt8), (titleBytes s false)[i]? = some d → ∃ c, s[i]? = some c := by
    intro i d hd
    have : i < s.length := by rw [← hlen]; exact (List.getElem?_eq_some_iff.1 hd).1
    exact ⟨s[i], List.getElem?_eq_getElem this⟩
  have fwd : ∀ (i : Nat) (c : UInt8), s[i]? = some c → ∃ d, (titleBytes s false)[i]? = some d := by
    intro i c hd
    have : i < (titleBytes s false).length := by rw [hlen]; exact (List.getElem?_eq_some_iff.1 hd).1
    exact ⟨_, List.getElem?_eq_getElem this⟩
  have same : ∀ (i : Nat) (c d : UInt8), s[i]? = some c → (titleBytes s false)[i]? = some d → (Letter d ↔ Letter c) := by
    intro i c d hc hd
    obtain ⟨g1, g2⟩ := hw i c d hc hd
    by_cases h : AfterLetter s i
    · exact ((lett c d).1 (g1 h)).1
    · exact ((lett c d).2 (g2 h)).1
  have hafter : ∀ i, AfterLetter (titleBytes s false) i ↔ AfterLetter s i := by
    intro i
    constructor
    · rintro ⟨j, d, e, hd, hl⟩
      obtain ⟨c, hc⟩ := other j d hd
      exact ⟨j, c, e, hc, (same j c d hc hd).1 hl⟩
    · rintro ⟨j, c, e, hc, hl⟩
      obtain ⟨d, hd⟩ := fwd j c hc
      exact ⟨j, d, e, hd, (same j c d hc hd).2 hl⟩
  constructor
  · obtain ⟨c, hc, hl⟩ := hl
    obtain ⟨i, hi⟩ := List.mem_iff_getElem?.1 hc
    obtain ⟨d, hd⟩ := fwd i c hi
    exact ⟨d, List.mem_iff_getElem?.2 ⟨i, hd⟩, (same i c d hi hd).2 hl⟩
  · intro i d hd
    obtain ⟨c, hc⟩ := other i d hd
    obtain ⟨g1, g2⟩ := hw i c d hc hd
    rw [hafter]
    by_cases h : AfterLetter s i
    · exact ⟨fun hu => absurd hu ((lett c d).1 (g1 h)).2, fun _ => h⟩
    · exact ⟨fun _ => h, fun hl => absurd hl ((lett c d).2 (g2 h)).2⟩

example : title (b "they're bILL's") = some (b "They'Re Bill'S") ∧ capitalize (b "aBC") = some (b "Abc")
    ∧ swapcase (b "aB1") = some (b "Ab1") := by decide +kernel

/-! ## Padding -/

/-- `ljust`, `rjust`: the text, padded to the width with the fill character on the right or left. -/
theorem c80_just (s : Str) (width : Int) (c : UInt8) :
    ljust s width [c] = some (some (s ++ List.replicate (width - s.length).toNat c)) ∧
    rjust s width [c] = some (some (List.replicate (width - s.length).toNat c ++ s)) := by
  have h1 : ¬ len [c] ≠ 1 := by simp [len]
  by_cases h : width ≤ len s
  · have e : (width - s.length).toNat = 0 := by have h : width ≤ (s.length : Int) := h; omega
    constructor
    · rw [ljust, if_neg h1, if_pos h, e]; simp
    · rw [rjust, if_neg h1, if_pos h, e]; simp
  · have h' : ¬ width ≤ (s.length : Int) := h
    obtain ⟨n, hn⟩ : ∃ n : Nat, width - len s = n := ⟨(width - s.length).toNat, by
      show width - (s.length : Int) = _; omega⟩
    have e : (width - s.length).toNat = n := by
      have hn : width - (s.length : Int) = n := hn
      omega
    constructor
    · rw [ljust, if_neg h1, if_neg h, hn, build_right, Int.toNat_natCast]; rfl
    · rw [rjust, if_neg h1, if_neg h, hn, build_left, Int.toNat_natCast]; rfl

/-- A fill text that is not one character is refused. -/
theorem c80_fill_error (s fill : Str) (width : Int) (h : fill.length ≠ 1) :
    ljust s width fill = some none ∧ rjust s width fill = some none ∧ center s width fill = some none := by
  have h1 : len fill ≠ 1 := by
    intro h'; have h' : (fill.length : Int) = 1 := h'; exact h (by omega)
  rw [ljust, rjust, center, if_pos h1, if_pos h1, if_pos h1]
  exact ⟨rfl, rfl, rfl⟩

/-- `center`: half of the padding on each side, an odd one out on the right; this is Python's result unless
padding and width are both odd. -/
theorem c80_center_partial (s : Str) (width : Int) (c : UInt8) : ∃ l r : Nat,
    center s width [c] = some (some (List.replicate l c ++ s ++ List.replicate r c)) ∧
    l + r = (width - s.length).toNat ∧ l ≤ r ∧ r ≤ l + 1 ∧
    (¬ ((width - s.length).toNat % 2 = 1 ∧ width.toNat % 2 = 1) →
      l = pyLeft (width - s.length).toNat width.toNat) := by
  have h1 : ¬ len [c] ≠ 1 := by simp [len]
  by_cases h : width ≤ len s
  · have h' : width ≤ (s.length : Int) := h
    refine ⟨0, 0, ?_, by omega, by omega, by omega, fun _ => ?_⟩
    · rw [center, if_neg h1, if_pos h]; simp
    · have e : (width - s.length).toNat = 0 := by omega
      rw [e]; rfl
  · have h' : ¬ width ≤ (s.length : Int) := h
    obtain ⟨n, hn⟩ : ∃ n : Nat, width - (s.length : Int) = n := ⟨(width - s.length).toNat, by omega⟩
    have e : (width - s.length).toNat = n := by omega
    refine ⟨n / 2, n - n / 2, ?_, by omega, by omega, by omega, fun hpy => ?_⟩
    · rw [center, if_neg h1, if_neg h]
      have hn : width - len s = n := hn
      have e1 : ((n : Int).tdiv 2) = ((n / 2 : Nat) : Int) := by
        rw [Int.tdiv_eq_ediv_of_nonneg (by omega)]; omega
      have e2 : (n : Int) - ((n / 2 : Nat) : Int) = ((n - n / 2 : Nat) : Int) := by omega
      simp only []
      rw [hn, e1, e2, build_pad]
      rfl
    · rw [e] at hpy ⊢
      rw [pyLeft, if_neg hpy]; omega

example : center (b "abc") 10 (b "*") = some (some (b "***abc****")) := by decide +kernel

/-- `"ab".center(5)` has one space on the left and two on the right; in Python it is the other way round. -/
theorem c80_violation_center :
    center (b "ab") 5 [32] = some (some (b " ab  ")) ∧ pyLeft 3 5 = 2 := by decide +kernel

/-- `zfill` pads with zeros to the width, after a sign if there is one. -/
theorem c80_zfill (s : Str) (width : Int) :
    zfill s width = some (some (if s.length < width then zfilled s width.toNat else s)) := by
  rw [zfill]
  by_cases h : len s ≥ width
  · have h' : (s.length : Int) ≥ width := h
    rw [if_pos h, if_neg (by omega)]
  · have h' : ¬ (s.length : Int) ≥ width := h
    rw [if_neg h, if_pos (by omega), (c80_just s width 48).2]
    obtain ⟨n, hn⟩ : ∃ n : Nat, width = (s.length : Int) + n := ⟨(width - s.length).toNat, by omega⟩
    have hn0 : 0 < n := by omega
    have e1 : (width - s.length).toNat = n := by omega
    have e2 : width - len s = n := by show width - (s.length : Int) = n; omega
    have e3 : width.toNat = s.length + n := by omega
    simp only [Option.bind_eq_bind, Option.bind_some]
    rw [e1, e2, e3]
    match s with
    | [] =>
      rw [if_neg (by show ¬ ((0 : Nat) : Int) > 0; omega)]
      simp [zfilled]
    | c :: r =>
      rw [if_pos (by show ((r.length + 1 : Nat) : Int) > 0; omega)]
      have hrd : rd (List.replicate n 48 ++ c :: r) (n : Int) = some c := by
        rw [rd, if_pos (by omega), Int.toNat_natCast, List.getElem?_append_right (by simp)]
        simp
      rw [hrd]
      simp only [Option.bind_some]
      have e4 : (c :: r).length + n - (c :: r).length = n := by omega
      simp only [zfilled, e4]
      by_cases hc : c = 43 ∨ c = 45
      · rw [if_pos hc, if_pos hc]
        obtain ⟨m, rfl⟩ : ∃ m, n = m + 1 := ⟨n - 1, by omega⟩
        rw [wr, if_pos ⟨by omega, by simp⟩]
        simp only [Option.bind_some]
        rw [wr, if_pos ⟨by omega, by rw [Int.toNat_natCast]; simp⟩]
        simp only [Option.bind_some, Option.pure_def, Option.some.injEq, Int.toNat_natCast, Int.toNat_zero]
        rw [List.replicate_succ, List.cons_append, List.set_cons_zero, List.set_cons_succ,
          List.set_append_right _ _ (by simp)]
        simp only [List.length_replicate, Nat.sub_self, List.set_cons_zero, List.cons.injEq, true_and]
        clear * -
        have e : ∀ m : Nat, List.replicate m (48 : UInt8) ++ 48 :: r = List.replicate (m + 1) 48 ++ r := by
          intro m; rw [List.replicate_succ']; simp
        rw [e, List.replicate_succ]
      · rw [if_neg hc, if_neg hc]
        rfl

example : zfill (b "-12") 6 = some (some (b "-00012")) ∧ zfill (b "") 2 = some (some (b "00")) := by decide +kernel

/-! ## `expandtabs` and `translate` -/

/-- `expandtabs` expands every tab to the next multiple of the tab size, for every text and tab size; it raises
`OverflowError` exactly if the result would have 2^63 bytes or more.  No 64-bit sum wraps and nothing is written
outside the buffer. -/
theorem c80_expandtabs (s : Str) (ts : Int) (h : ts < 2 ^ 63) : ∃ o, Expanded ts s o ∧
    expandtabs s ts = some (if (o.length : Int) < 2 ^ 63 then some o else none) := by
  have hts : ts ≤ MAX := by have : MAX = 2 ^ 63 - 1 := by decide
                            omega
  have hM : MAX = 2 ^ 63 - 1 := by decide
  refine ⟨expand ts s 0, ?_, ?_⟩
  · simpa [column_nil] using expand_spec ts s [] [] Expanded.nil
  · rw [expandtabs, measure_spec ts hts s 0 0 (by omega) (by decide) (by omega) (by decide)]
    by_cases hl : ((expand ts s 0).length : Int) < 2 ^ 63
    · rw [if_pos (by omega), if_pos hl]
      simp only [Option.bind_eq_bind, Option.bind_some]
      rw [fillTabs_spec ts _ hts (by omega) s 0 [] (by omega) (by show (0 : Int) ≤ 0; omega)
        (by show (0 : Int) + _ ≤ _; omega)]
      simp only [Option.bind_some, List.nil_append]
      rw [finish_ok (by show ((expand ts s 0).length : Int) = _; omega)]
      rfl
    · rw [if_neg (by omega), if_neg hl]
      rfl

example : expandtabs (b "ab\tc\n\td") 4 = some (some (b "ab  c\n    d")) ∧
    expandtabs (b "a\t") (2 ^ 63 - 1 : Int) ≠ none := by
  refine ⟨by decide +kernel, ?_⟩
  obtain ⟨o, -, h⟩ := c80_expandtabs (b "a\t") (2 ^ 63 - 1 : Int) (by decide)
  rw [h]; simp

/-- The expansion is unique, and contains no tab. -/
theorem c80_expanded (ts : Int) (s o : Str) (h : Expanded ts s o) :
    (9 : UInt8) ∉ o ∧ ∀ o', Expanded ts s o' → o' = o := by
  induction h with
  | nil =>
    refine ⟨by simp, fun o' h' => ?_⟩
    generalize hs : ([] : Str) = s' at h'
    cases h' <;> simp_all
  | @char s o c _ hc ih =>
    refine ⟨by simp [ih.1, Ne.symm hc], fun o' h' => ?_⟩
    generalize hs : s ++ [c] = s' at h'
    cases h' with
    | nil => simp at hs
    | char h1 _ => obtain ⟨e1, e2⟩ := List.append_inj' hs rfl; subst e1; rw [ih.2 _ h1, e2]
    | drop h1 _ => exact absurd (by simpa using (List.append_inj' hs rfl).2) hc
    | tab h1 _ _ _ _ => exact absurd (by simpa using (List.append_inj' hs rfl).2) hc
  | @drop s o _ ht ih =>
    refine ⟨ih.1, fun o' h' => ?_⟩
    generalize hs : s ++ [9] = s' at h'
    cases h' with
    | nil => simp at hs
    | char h1 hc => exact absurd (by simpa using (List.append_inj' hs rfl).2.symm) hc
    | drop h1 _ => obtain ⟨e1, -⟩ := List.append_inj' hs rfl; subst e1; exact ih.2 _ h1
    | tab h1 ht' _ _ _ => omega
  | @tab s o k _ ht hk hd hm ih =>
    refine ⟨by simp [ih.1, List.mem_replicate], fun o' h' => ?_⟩
    generalize hs : s ++ [9] = s' at h'
    cases h' with
    | nil => simp at hs
    | char h1 hc => exact absurd (by simpa using (List.append_inj' hs rfl).2.symm) hc
    | drop h1 ht' => omega
    | @tab s2 o2 k2 h1 _ hk2 hd2 hm2 =>
      obtain ⟨e1, -⟩ := List.append_inj' hs rfl
      subst e1
      have e := ih.2 _ h1
      subst e
      rcases Nat.lt_trichotomy k2 k with h | h | h
      · exact absurd hd2 (hm k2 hk2 h)
      · rw [h]
      · exact absurd hd (hm2 k hk h)

/-- `translate` replaces each character by its image in the table. -/
theorem c80_translate (s : Str) (map : Table) : translate s map = some (s.flatMap (image map)) := by
  rw [translate, transLen_spec, Int.zero_add]
  rw [transLoop_spec map _ s [] (by show (0 : Int) + _ ≤ _; omega)]
  exact finish_ok rfl

example : translate (b "abca") (fun k => if k = 97 then some (some (b "xy")) else if k = 98 then some none else none)
    = some (b "xycxy") := by decide +kernel

end Codon.StrM
