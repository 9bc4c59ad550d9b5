import Verif.RxT.Lemmas

/-!
# C96: templates of replacements
-/

namespace Codon.RxT

/-- A match with two groups, the second of which took no part; the first has a name. -/
def exM : M where
  spans := [some ['x', 'y'], some ['y'], none]
  name := fun w => if w = ['f', 'o'] then some 1 else none

/-- C96 (partial): a template made of characters, escapes, octal numbers and references expands to what
these stand for, in order; if a group does not exist the result is `IndexError`.  Missing: an octal
number before an octal digit, escaped quotes, a backslash at the end and octal numbers of 256 and more,
see the theorems below. -/
theorem c96_expand_partial (m : M) (ts : List Tok) (h : Good ts) :
    expand m (render ts) = match valueOf m ts with
      | some s => .ok s
      | none => .indexError := by
  rw [expand, split_parts ts [] h, List.nil_append, pieces_parts m ts h]
  cases valueOf m ts <;> rfl

example : Good [.lit 'a', .num ['1'], .keep '&', .esc 'n' '\n', .oct ['1', '0', '1'], .lit '9',
    .refNum ['0'], .ref ['f', 'o'], .num ['2']] := by
  refine ⟨by simp [Tok.Ok], trivial, ⟨by simp [Between], by simp, by simp⟩, ?_, ?_, trivial, by simp [Tok.Ok, escapes],
    trivial, ⟨by simp [Between], by simp, by decide⟩, ?_, by simp [Tok.Ok], trivial, ⟨by simp, by simp [Between]⟩, trivial,
    ⟨by simp [Word, Between], ⟨'f', by simp, by simp [Between]⟩⟩, trivial, ⟨by simp [Between], by simp, by simp⟩, ?_, trivial⟩
  · intro c hc; simp [render, Tok.show] at hc; subst hc; simp [Between]
  · left; simp [Word, Between]
  · intro c hc; simp [render, Tok.show] at hc; subst hc; simp [Between]
  · intro c hc; simp [render] at hc

example : expand exM "a\\1\\&\\n\\1019\\g<0>\\g<fo>\\2".toList = .ok "ay\\&\nA9xyy".toList := by decide +kernel
example : expand exM "a\\3".toList = .indexError := by decide +kernel

/-- C96: text without a backslash stands for itself. -/
theorem c96_plain (m : M) (w : List Char) (h : ∀ c ∈ w, c ≠ '\\') : expand m w = .ok w := by
  have hu : ∀ (w : List Char), (∀ c ∈ w, c ≠ '\\') → unesc w 0 = .ok w := by
    intro w
    induction w with
    | nil => intro _; rfl
    | cons c r ih =>
      intro h
      rw [unesc.eq_def]
      simp only [if_neg (h c (by simp))]
      rw [ih (fun d hd => h d (by simp [hd]))]
      rfl
  have := split_lits w [] [] h
  rw [List.append_nil] at this
  rw [expand, this, split, pieces]
  simp [hu w h, pieces, Out.pre]

/-- C96: backslash and a letter without meaning is an error, whatever follows. -/
theorem c96_bad_escape (m : M) (w s : List Char) (c : Char) (hw : ∀ d ∈ w, d ≠ '\\')
    (hc : Between 'a' 'z' c ∨ Between 'A' 'Z' c) (hg : c ≠ 'g') (he : ∀ v, (c, v) ∉ escapes) :
    expand m (w ++ '\\' :: c :: s) = .error := by
  have hal : isAlpha c = true := by simpa [isAlpha, Between] using hc
  have hnd : ∀ d, isAlpha d = false → c ≠ d := by
    intro d hd e; subst e; rw [hal] at hd; cases hd
  have hbig : 57 < c.toNat := by
    have ea : 'a'.toNat = 97 := rfl
    have eA : 'A'.toNat = 65 := rfl
    rcases hc with h | h
    · have := char_le.1 h.1; omega
    · have := char_le.1 h.1; omega
  have hdig : isDig c = false := by
    cases e : isDig c
    · rfl
    · have := char_le.1 ((isDig_iff c).1 e).2
      have e9 : '9'.toNat = 57 := rfl
      omega
  have hoct : isOct c = false := by
    cases e : isOct c
    · rfl
    · have := (isDig_iff c).2 (oct_dig ((isOct_iff c).1 e))
      rw [hdig] at this; cases this
  have hev : escVal c = none := by
    have hne : ∀ d v, (d, v) ∈ escapes → c ≠ d := by
      intro d v hd e; subst e; exact he v hd
    unfold escVal
    rw [if_neg (hne 'a' _ (by simp [escapes]; rfl)), if_neg (hne 'b' _ (by simp [escapes]; rfl)),
      if_neg (hne 'f' _ (by simp [escapes]; rfl)), if_neg (hne 'n' _ (by simp [escapes]; rfl)),
      if_neg (hne 'r' _ (by simp [escapes]; rfl)), if_neg (hne 't' _ (by simp [escapes]; rfl)),
      if_neg (hne 'v' _ (by simp [escapes]; rfl)), if_neg (hnd _ (by decide)),
      if_neg (hnd _ (by decide)), if_neg (hnd _ (by decide))]
  have hfirst : ∀ (s : List Char) (k : Nat) (cur : List Char),
      ∃ p rest, split s k cur = (cur ++ p) :: rest := by
    intro s
    induction s with
    | nil => intro k cur; exact ⟨[], [], by simp [split]⟩
    | cons x r ih =>
      intro k cur
      cases k with
      | succ k => rw [split]; exact ih k cur
      | zero =>
        rw [split.eq_def]
        simp only
        by_cases hx : x = '\\'
        · rw [if_pos hx]
          have h2 : ∃ p rest, split r 1 (cur ++ (x :: r).take 2) = (cur ++ p) :: rest := by
            obtain ⟨p, rest, h⟩ := ih 1 (cur ++ (x :: r).take 2)
            exact ⟨_, rest, by rw [h, List.append_assoc]⟩
          cases octalMatch r with
          | true => exact h2
          | false =>
            cases groupMatch r with
            | none => exact h2
            | some p => exact ⟨[], _, by rw [List.append_nil]⟩
        · rw [if_neg hx]
          obtain ⟨p, rest, h⟩ := ih 0 (cur ++ [x])
          exact ⟨_, rest, by rw [h, List.append_assoc]⟩
  have hun : ∀ (w p : List Char), (∀ d ∈ w, d ≠ '\\') → unesc (w ++ '\\' :: c :: p) 0 = .error := by
    intro w p
    induction w with
    | nil =>
      intro _
      rw [List.nil_append, unesc.eq_def]
      simp [hev, hoct, hal]
    | cons d r ih =>
      intro h
      rw [List.cons_append, unesc.eq_def]
      simp only [if_neg (h d (by simp))]
      rw [ih (fun x hx => h x (by simp [hx]))]
      rfl
  rw [expand, split_lits w _ _ hw, List.nil_append,
    split_two c s w (.inr (group_none s (.inl hdig) hg))]
  obtain ⟨p, rest, hp⟩ := hfirst s 0 (w ++ ['\\', c])
  rw [hp, pieces]
  have : w ++ ['\\', c] ++ p = w ++ '\\' :: c :: p := by simp
  simp [hun w p hw]

example : expand exM "ab\\q\\1".toList = .error := by decide +kernel

/-- C96, violated: an octal number has at most three digits in Python, so that `\1234` is `S4`; here the
fourth digit is taken too. -/
theorem c96_violation_octal : expand exM "\\1234".toList = .ok [Char.ofNat 156] := by decide +kernel

/-- C96, violated: Python keeps the backslash before a quote. -/
theorem c96_violation_quote : expand exM "\\\"".toList = .ok ['"'] ∧ expand exM "\\'".toList = .ok ['\''] := by
  decide +kernel

/-- C96, violated: a backslash at the end is an error in Python. -/
theorem c96_violation_end : expand exM "a\\".toList = .ok ['a', '\\'] := by decide +kernel

/-- C96, violated: an octal number above `\377` is an error in Python. -/
theorem c96_violation_octal_range : expand exM "\\501".toList = .ok ['A'] := by decide +kernel

end Codon.RxT
