import Verif.Inl.Tail

namespace Codon.Inl

variable {V W X : Type}

theorem exec_succ (M : Sem V W X) : ∀ (n : Nat) (s : S V) (σ : Store V) (w : W) (q : Flow V X × Store V × W),
    exec M n s σ w = some q → exec M (n + 1) s σ w = some q
  | 0, s, σ, w, q, h => by simp [exec] at h
  | n + 1, s, σ, w, q, h => by
    have ih := exec_succ M n
    generalize hk : n + 1 = k at ih ⊢
    cases s with
    | expr e => subst hk; simpa only [exec] using h
    | assign x e => subst hk; simpa only [exec] using h
    | brk id => subst hk; simpa only [exec] using h
    | cont id => subst hk; simpa only [exec] using h
    | ret e => subst hk; cases e <;> simpa only [exec] using h
    | series l =>
      cases l with
      | nil => subst hk; simpa only [exec] using h
      | cons s l =>
        subst hk
        rw [exec_cons] at h
        generalize n + 1 = k at ih ⊢
        rw [exec_cons]
        cases hs : exec M n s σ w with
        | none => rw [hs] at h; simp at h
        | some p =>
          obtain ⟨o, σ₁, w₁⟩ := p
          rw [hs] at h
          rw [ih s σ w _ hs]
          cases o with
          | normal => exact ih _ _ _ _ h
          | _ => exact h
    | ite c a b =>
      subst hk
      simp only [exec] at h
      generalize n + 1 = k at ih ⊢
      simp only [exec]
      cases he : eval M σ c w with
      | mk r w₁ =>
        rw [he] at h
        cases r with
        | ok v => exact ih _ _ _ _ h
        | _ => exact h
    | loop id c b =>
      subst hk
      simp only [exec] at h
      generalize n + 1 = k at ih ⊢
      simp only [exec]
      cases he : eval M σ c w with
      | mk r w₁ =>
        rw [he] at h
        cases r with
        | exc x => exact h
        | ub => exact h
        | ok v =>
          simp only at h ⊢
          by_cases ht : M.truth v = true
          case neg => rw [if_neg ht] at h ⊢; exact h
          rw [if_pos ht] at h ⊢
          cases hs : exec M n b σ w₁ with
          | none => rw [hs] at h; simp at h
          | some p =>
            obtain ⟨o, σ₁, w₂⟩ := p
            rw [hs] at h
            rw [ih b σ w₁ _ hs]
            cases o with
            | normal => exact ih _ _ _ _ h
            | cont i =>
              simp only at h ⊢
              by_cases hi : i = id
              · rw [if_pos hi] at h ⊢; exact ih _ _ _ _ h
              · rw [if_neg hi] at h ⊢; exact h
            | _ => exact h
    | «catch» a b =>
      subst hk
      simp only [exec] at h
      generalize n + 1 = k at ih ⊢
      simp only [exec]
      cases hs : exec M n a σ w with
      | none => rw [hs] at h; simp at h
      | some p =>
        obtain ⟨o, σ₁, w₁⟩ := p
        rw [hs] at h
        rw [ih a σ w _ hs]
        cases o with
        | exc x => exact ih _ _ _ _ h
        | _ => exact h
    | fin a b =>
      subst hk
      simp only [exec] at h
      generalize n + 1 = k at ih ⊢
      simp only [exec]
      cases hs : exec M n a σ w with
      | none => rw [hs] at h; simp at h
      | some p =>
        obtain ⟨o, σ₁, w₁⟩ := p
        rw [hs] at h
        rw [ih a σ w _ hs]
        have key : ∀ o' : Flow V X, (match exec M n b σ₁ w₁ with
            | some (.normal, σ, w) => some (o', σ, w)
            | r => r) = some q → (match exec M k b σ₁ w₁ with
            | some (.normal, σ, w) => some (o', σ, w)
            | r => r) = some q := by
          intro o' h
          cases hb : exec M n b σ₁ w₁ with
          | none => rw [hb] at h; simp at h
          | some p => rw [hb] at h; rw [ih b σ₁ w₁ _ hb]; exact h
        cases o with
        | ub => exact h
        | _ => exact key _ h

theorem exec_add (M : Sem V W X) (n : Nat) (s : S V) (σ : Store V) (w : W) (q : Flow V X × Store V × W)
    (h : exec M n s σ w = some q) : ∀ k, exec M (n + k) s σ w = some q
  | 0 => h
  | k + 1 => exec_succ M _ _ _ _ _ (exec_add M n s σ w q h k)

theorem exec_ge (M : Sem V W X) {n m : Nat} {s : S V} {σ : Store V} {w : W} {q : Flow V X × Store V × W}
    (h : exec M n s σ w = some q) (hm : n ≤ m) : exec M m s σ w = some q := by
  obtain ⟨k, rfl⟩ := Nat.exists_eq_add_of_le hm
  exact exec_add M n s σ w q h k

theorem exec_fun (M : Sem V W X) {n m : Nat} {s : S V} {σ : Store V} {w : W} {q q' : Flow V X × Store V × W}
    (h : exec M n s σ w = some q) (h' : exec M m s σ w = some q') : q = q' := by
  have h1 := exec_ge M h (Nat.le_max_left n m)
  have h2 := exec_ge M h' (Nat.le_max_right n m)
  rw [h1] at h2
  exact Option.some.inj h2

/-- If the body is not done after `n` steps, nor is the replaced body. -/
theorem back (M : Sem V W X) {ρ : Nat → Nat} {r lid : Nat} {void : Bool} (hρ : ∀ x y, ρ x = ρ y → x = y)
    (hr : ∀ x, ρ x ≠ r) :
    ∀ (n : Nat) (s : S V) (φ σ : Store V) (w : W), s.All (Good M void lid) → Le ρ φ σ → exec M n s φ w = none →
      exec M n ((s.ren ρ).repl (retVar void r) (some lid)) σ w = none
  | 0, s, φ, σ, w, hg, hl, h => by simp [exec]
  | n + 1, s, φ, σ, w, hg, hl, h => by
    have ih := back M (void := void) (lid := lid) hρ hr n
    -- a part that ended, and so ends in the same way
    have part : ∀ (s : S V) (φ σ : Store V) (w : W) (o : Flow V X) (φ₁ : Store V) (w₁ : W), s.All (Good M void lid) →
        Le ρ φ σ → exec M n s φ w = some (o, φ₁, w₁) → o ≠ .ub →
        exec M n ((s.ren ρ).repl (retVar void r) (some lid)) σ w = none ∨
          ∃ σ₁, exec M n ((s.ren ρ).repl (retVar void r) (some lid)) σ w = some (tr lid o, σ₁, w₁) ∧ Le ρ φ₁ σ₁ := by
      intro s φ σ w o φ₁ w₁ hg hl h hu
      obtain ⟨σ₁, e, p⟩ := sim M (void := void) (lid := lid) hρ hr n s φ σ w o φ₁ w₁ hg h hu hl
      cases hq : exec M n ((s.ren ρ).repl (retVar void r) (some lid)) σ w with
      | none => exact Or.inl rfl
      | some q => exact Or.inr ⟨σ₁, by rw [exec_fun M hq e], p.le⟩
    cases s with
    | expr e =>
      simp only [exec] at h
      cases he : eval M φ e w with
      | mk q w₁ => rw [he] at h; cases q <;> simp at h
    | assign x e =>
      simp only [exec] at h
      cases he : eval M φ e w with
      | mk q w₁ => rw [he] at h; cases q <;> simp at h
    | brk id => simp [exec] at h
    | cont id => simp [exec] at h
    | ret e =>
      cases e with
      | none => simp [exec] at h
      | some e =>
        simp only [exec] at h
        cases he : eval M φ e w with
        | mk q w₁ => rw [he] at h; cases q <;> simp at h
    | series l =>
      cases l with
      | nil => simp [exec] at h
      | cons s l =>
        obtain ⟨hgs, hgl⟩ := all_series_cons hg (good_series M void lid l)
        rw [exec_cons] at h
        simp only [S.ren, SL.ren, S.repl, SL.repl]
        rw [exec_cons]
        cases hs : exec M n s φ w with
        | none => rw [ih s φ σ w hgs hl hs]
        | some q =>
          obtain ⟨o, φ₁, w₁⟩ := q
          rw [hs] at h
          cases o with
          | normal =>
            rcases part s φ σ w _ φ₁ w₁ hgs hl hs (by simp) with e | ⟨σ₁, e, l₁⟩
            · rw [e]
            · rw [e]; exact ih (.series l) φ₁ σ₁ w₁ hgl l₁ h
          | _ => simp at h
    | ite c a b =>
      obtain ⟨-, hga, hgb⟩ := hg
      simp only [exec, S.ren, S.repl] at h ⊢
      cases he : eval M φ c w with
      | mk q w₁ =>
        rw [he] at h
        cases q with
        | ok v =>
          rw [eval_ren M hl c w _ _ he (by simp)]
          simp only at h ⊢
          by_cases ht : M.truth v = true
          · rw [if_pos ht] at h ⊢; exact ih a φ σ w₁ hga hl h
          · rw [if_neg ht] at h ⊢; exact ih b φ σ w₁ hgb hl h
        | _ => simp at h
    | loop id c b =>
      simp only [exec, S.ren, S.repl] at h ⊢
      cases he : eval M φ c w with
      | mk q w₁ =>
        rw [he] at h
        cases q with
        | exc x => simp at h
        | ub => simp at h
        | ok v =>
          rw [eval_ren M hl c w _ _ he (by simp)]
          simp only at h ⊢
          by_cases ht : M.truth v = true
          case neg => rw [if_neg ht] at h; simp at h
          rw [if_pos ht] at h ⊢
          cases hs : exec M n b φ w₁ with
          | none => rw [ih b φ σ w₁ hg.2 hl hs]
          | some q =>
            obtain ⟨o, φ₁, w₂⟩ := q
            rw [hs] at h
            cases o with
            | normal =>
              rcases part b φ σ w₁ _ φ₁ w₂ hg.2 hl hs (by simp) with e | ⟨σ₁, e, l₁⟩
              · rw [e]
              · rw [e]; exact ih (.loop id c b) φ₁ σ₁ w₂ hg l₁ h
            | cont i =>
              simp only at h
              by_cases hi : i = id
              · rw [if_pos hi] at h
                rcases part b φ σ w₁ _ φ₁ w₂ hg.2 hl hs (by simp) with e | ⟨σ₁, e, l₁⟩
                · rw [e]
                · rw [e]
                  simp only [tr]
                  rw [if_pos hi]
                  exact ih (.loop id c b) φ₁ σ₁ w₂ hg l₁ h
              · rw [if_neg hi] at h; simp at h
            | brk i =>
              simp only at h
              by_cases hi : i = id
              · rw [if_pos hi] at h; simp at h
              · rw [if_neg hi] at h; simp at h
            | _ => simp at h
    | «catch» a b =>
      obtain ⟨-, hga, hgb⟩ := hg
      simp only [exec, S.ren, S.repl] at h ⊢
      cases hs : exec M n a φ w with
      | none => rw [ih a φ σ w hga hl hs]
      | some q =>
        obtain ⟨o, φ₁, w₁⟩ := q
        rw [hs] at h
        cases o with
        | exc x =>
          rcases part a φ σ w _ φ₁ w₁ hga hl hs (by simp) with e | ⟨σ₁, e, l₁⟩
          · rw [e]
          · rw [e]; exact ih b φ₁ σ₁ w₁ hgb l₁ h
        | _ => simp at h
    | fin a b =>
      obtain ⟨-, hga, hgb⟩ := hg
      simp only [exec, S.ren, S.repl] at h ⊢
      cases hs : exec M n a φ w with
      | none => rw [ih a φ σ w hga hl hs]
      | some q =>
        obtain ⟨o, φ₁, w₁⟩ := q
        rw [hs] at h
        have key : o ≠ .ub → exec M n b φ₁ w₁ = none := by
          intro ho
          cases hb : exec M n b φ₁ w₁ with
          | none => rfl
          | some p =>
            obtain ⟨o', φ₂, w₂⟩ := p
            exfalso
            cases o with
            | ub => exact ho rfl
            | _ => simp only at h; rw [hb] at h; cases o' <;> simp at h
        by_cases hu : o = .ub
        · subst hu; simp at h
        rcases part a φ σ w _ φ₁ w₁ hga hl hs hu with e | ⟨σ₁, e, l₁⟩
        · rw [e]
        · rw [e]
          have hb := ih b φ₁ σ₁ w₁ hgb l₁ (key hu)
          cases o with
          | ub => exact absurd rfl hu
          | _ => simp only [tr]; rw [hb]

theorem backT (M : Sem V W X) {ρ : Nat → Nat} {r lid : Nat} {void : Bool} (hρ : ∀ x y, ρ x = ρ y → x = y)
    (hr : ∀ x, ρ x ≠ r) :
    ∀ (n : Nat) (s : S V) (φ σ : Store V) (w : W), s.All (Good M void lid) → s.need true = false → Le ρ φ σ →
      exec M n s φ w = none → exec M n ((s.ren ρ).repl (retVar void r) none) σ w = none
  | 0, s, φ, σ, w, hg, hn, hl, h => by simp [exec]
  | n + 1, s, φ, σ, w, hg, hn, hl, h => by
    have nr : s.NoRet → exec M (n + 1) ((s.ren ρ).repl (retVar void r) none) σ w = none := by
      intro hnr
      rw [repl_noRet ρ _ (some lid) s hnr]
      exact back M hρ hr (n + 1) s φ σ w hg hl h
    cases s with
    | expr e => exact nr (noRet_of_need _ rfl)
    | assign x e => exact nr (noRet_of_need _ rfl)
    | ite c a b => exact nr (noRet_of_need _ hn)
    | loop id c b => exact nr (noRet_of_need _ hn)
    | brk id => exact nr (noRet_of_need _ rfl)
    | cont id => exact nr (noRet_of_need _ rfl)
    | «catch» a b => exact nr (noRet_of_need _ hn)
    | fin a b => exact nr (noRet_of_need _ hn)
    | ret e =>
      cases e with
      | none => simp [exec] at h
      | some e =>
        simp only [exec] at h
        cases he : eval M φ e w with
        | mk q w₁ => rw [he] at h; cases q <;> simp at h
    | series l =>
      cases l with
      | nil => exact nr (noRet_of_need _ rfl)
      | cons s l =>
        obtain ⟨hgs, hgl⟩ := all_series_cons hg (good_series M void lid l)
        have ih := backT M (void := void) (lid := lid) hρ hr n
        clear nr
        rw [exec_cons] at h
        simp only [S.ren, SL.ren, S.repl, SL.repl]
        rw [exec_cons]
        cases l with
        | nil =>
          cases hs : exec M n s φ w with
          | none => rw [ih s φ σ w hgs hn hl hs]
          | some q =>
            obtain ⟨o, φ₁, w₁⟩ := q
            rw [hs] at h
            cases o with
            | normal =>
              cases n with
              | zero => simp [exec]
              | succ n => simp [exec] at h
            | _ => simp at h
        | cons s' l =>
          simp only [S.need, SL.need, Bool.or_eq_false_iff] at hn
          have hnr := noRet_of_need s hn.1
          rw [repl_noRet ρ _ (some lid) s hnr]
          cases hs : exec M n s φ w with
          | none => rw [back M hρ hr n s φ σ w hgs hl hs]
          | some q =>
            obtain ⟨o, φ₁, w₁⟩ := q
            rw [hs] at h
            cases o with
            | normal =>
              obtain ⟨σ₁, e, p⟩ := sim M (void := void) (lid := lid) hρ hr n s φ σ w _ φ₁ w₁ hgs hs (by simp) hl
              cases hq : exec M n ((s.ren ρ).repl (retVar void r) (some lid)) σ w with
              | none => rfl
              | some q =>
                rw [exec_fun M hq e]
                exact ih (.series (.cons s' l)) φ₁ σ₁ w₁ hgl (by simpa [S.need] using hn.2) p.le h
            | _ => simp at h

end Codon.Inl
