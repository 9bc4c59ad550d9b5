import Verif.Inl.Spec

namespace Codon.Inl

variable {V W X : Type}

def Le (ρ : Nat → Nat) (φ σ : Store V) : Prop := ∀ x v, φ x = some v → σ (ρ x) = some v

theorem eval_ren (M : Sem V W X) {ρ : Nat → Nat} {φ σ : Store V} (hl : Le ρ φ σ) :
    ∀ (e : E V) (w : W) (q : R V X) (w' : W), eval M φ e w = (q, w') → q ≠ .ub → eval M σ (e.ren ρ) w = (q, w')
  | .var x, w, q, w', h, hu => by
    simp only [eval, E.ren] at h ⊢
    cases hx : φ x with
    | none => rw [hx] at h; simp at h; exact absurd h.1.symm hu
    | some v => rw [hx] at h; rw [hl x v hx]; exact h
  | .con v, w, q, w', h, hu => by simpa only [eval, E.ren] using h
  | .prim p a b, w, q, w', h, hu => by
    simp only [eval, E.ren] at h ⊢
    cases ha : eval M φ a w with
    | mk qa wa =>
      rw [ha] at h
      cases qa with
      | ub => simp at h; exact absurd h.1.symm hu
      | exc x => rw [eval_ren M hl a w _ _ ha (by simp)]; exact h
      | ok u =>
        rw [eval_ren M hl a w _ _ ha (by simp)]
        simp only at h ⊢
        cases hb : eval M φ b wa with
        | mk qb wb =>
          rw [hb] at h
          cases qb with
          | ub => simp at h; exact absurd h.1.symm hu
          | exc x => rw [eval_ren M hl b wa _ _ hb (by simp)]; exact h
          | ok v => rw [eval_ren M hl b wa _ _ hb (by simp)]; exact h

/-- How the replaced body ends. -/
def tr (lid : Nat) : Flow V X → Flow V X
  | .ret _ => .brk lid
  | o => o

structure Post (ρ : Nat → Nat) (r : Nat) (void : Bool) (s : S V) (o : Flow V X) (σ φ' σ' : Store V) : Prop where
  le : Le ρ φ' σ'
  keep : Keeps ρ r σ σ'
  res : ∀ v, o = .ret v → void = false → ∃ u, v = some u ∧ σ' r = some u
  nor : s.NoRet → σ' r = σ r ∧ ∀ v, o ≠ .ret v

theorem le_set {ρ : Nat → Nat} (hρ : ∀ x y, ρ x = ρ y → x = y) {φ σ : Store V} (hl : Le ρ φ σ) (x : Nat) (v : V) :
    Le ρ (φ.set x v) (σ.set (ρ x) v) := by
  intro y u h
  simp only [Store.set] at h ⊢
  by_cases hy : y = x
  · rw [if_pos hy] at h; rw [if_pos (by rw [hy])]; exact h
  · rw [if_neg hy] at h; rw [if_neg fun e => hy (hρ _ _ e)]; exact hl y u h

theorem S.All.self {q : S V → Prop} : ∀ {s : S V}, s.All q → q s
  | .series _, h => h.1
  | .ite .., h => h.1
  | .loop .., h => h.1
  | .catch .., h => h.1
  | .fin .., h => h.1
  | .expr _, h => h
  | .assign .., h => h
  | .brk _, h => h
  | .cont _, h => h
  | .ret _, h => h

theorem all_series_cons {q : S V → Prop} {s : S V} {l : SL V} (h : (S.series (.cons s l)).All q)
    (hq : q (.series l)) : s.All q ∧ (S.series l).All q := ⟨h.2.1, hq, h.2.2⟩

theorem good_series (M : Sem V W X) (void : Bool) (lid : Nat) (l : SL V) : Good M void lid (.series l) :=
  ⟨fun _ h => (by cases h), ⟨by simp, by simp, by simp⟩, fun _ _ h => (by cases h)⟩

theorem noRet_cons {s : S V} {l : SL V} (h : (S.series (.cons s l)).NoRet) : s.NoRet ∧ (S.series l).NoRet :=
  all_series_cons h (by simp)

def retVar (void : Bool) (r : Nat) : Option Nat := if void then none else some r

theorem sim (M : Sem V W X) {ρ : Nat → Nat} {r lid : Nat} {void : Bool} (hρ : ∀ x y, ρ x = ρ y → x = y)
    (hr : ∀ x, ρ x ≠ r) :
    ∀ (n : Nat) (s : S V) (φ σ : Store V) (w : W) (o : Flow V X) (φ' : Store V) (w' : W), s.All (Good M void lid) →
      exec M n s φ w = some (o, φ', w') → o ≠ .ub → Le ρ φ σ →
      ∃ σ', exec M (n + 2) ((s.ren ρ).repl (retVar void r) (some lid)) σ w = some (tr lid o, σ', w') ∧
        Post ρ r void s o σ φ' σ'
  | 0, s, φ, σ, w, o, φ', w', hg, h, hu, hl => by simp [exec] at h
  | n + 1, s, φ, σ, w, o, φ', w', hg, h, hu, hl => by
    have keep0 : Keeps ρ r σ σ := fun _ _ _ => rfl
    have stay : ∀ (t : S V) (o : Flow V X), (∀ v, o ≠ .ret v) → Post ρ r void t o σ φ σ := fun t o ho =>
      ⟨hl, keep0, fun v e => absurd e (ho v), fun _ => ⟨rfl, ho⟩⟩
    show ∃ σ', exec M ((n + 2) + 1) _ σ w = _ ∧ _
    have ih := sim M (void := void) (lid := lid) hρ hr n
    generalize hk : n + 2 = k at ih ⊢
    cases s with
    | expr e =>
      simp only [exec, S.ren, S.repl] at h ⊢
      cases he : eval M φ e w with
      | mk q w₁ =>
        rw [he] at h
        cases q with
        | ub => simp at h; exact absurd h.1.symm hu
        | ok v =>
          rw [eval_ren M hl e w _ _ he (by simp)]
          simp at h
          obtain ⟨rfl, rfl, rfl⟩ := h
          exact ⟨σ, rfl, stay _ _ (by simp)⟩
        | exc x =>
          rw [eval_ren M hl e w _ _ he (by simp)]
          simp at h
          obtain ⟨rfl, rfl, rfl⟩ := h
          exact ⟨σ, rfl, stay _ _ (by simp)⟩
    | assign x e =>
      simp only [exec, S.ren, S.repl] at h ⊢
      cases he : eval M φ e w with
      | mk q w₁ =>
        rw [he] at h
        cases q with
        | ub => simp at h; exact absurd h.1.symm hu
        | ok v =>
          rw [eval_ren M hl e w _ _ he (by simp)]
          simp at h
          obtain ⟨rfl, rfl, rfl⟩ := h
          refine ⟨σ.set (ρ x) v, rfl, le_set hρ hl x v, ?_, by simp, fun _ => ⟨?_, by simp⟩⟩
          · intro y hy _
            simp only [Store.set]
            rw [if_neg fun e => hy x e.symm]
          · simp only [Store.set]
            rw [if_neg fun e => hr x e.symm]
        | exc x =>
          rw [eval_ren M hl e w _ _ he (by simp)]
          simp at h
          obtain ⟨rfl, rfl, rfl⟩ := h
          exact ⟨σ, rfl, stay _ _ (by simp)⟩
    | series l =>
      cases l with
      | nil =>
        simp only [exec, S.ren, S.repl, SL.ren, SL.repl] at h ⊢
        simp at h
        obtain ⟨rfl, rfl, rfl⟩ := h
        exact ⟨σ, rfl, stay _ _ (by simp)⟩
      | cons s l =>
        obtain ⟨hgs, hgl⟩ := all_series_cons hg (good_series M void lid l)
        simp only [exec, S.ren, SL.ren, S.repl, SL.repl] at h ⊢
        cases hs : exec M n s φ w with
        | none => rw [hs] at h; simp at h
        | some q =>
          obtain ⟨o₁, φ₁, w₁⟩ := q
          rw [hs] at h
          by_cases hu1 : o₁ = .ub
          · subst hu1; simp at h; exact absurd h.1.symm hu
          obtain ⟨σ₁, e₁, p₁⟩ := ih s φ σ w o₁ φ₁ w₁ hgs hs hu1 hl
          rw [e₁]
          cases o₁ with
          | ub => exact absurd rfl hu1
          | normal =>
            simp only at h
            obtain ⟨σ₂, e₂, p₂⟩ := ih (.series l) φ₁ σ₁ w₁ o φ' w' hgl h hu p₁.le
            refine ⟨σ₂, e₂, p₂.le, ?_, p₂.res, ?_⟩
            · intro y hy hyr
              rw [p₂.keep y hy hyr, p₁.keep y hy hyr]
            · intro hn
              obtain ⟨n1, n2⟩ := noRet_cons hn
              exact ⟨(p₂.nor n2).1.trans (p₁.nor n1).1, (p₂.nor n2).2⟩
          | brk i => simp at h; obtain ⟨rfl, rfl, rfl⟩ := h; exact ⟨σ₁, rfl, p₁.le, p₁.keep, p₁.res, fun hn => p₁.nor (noRet_cons hn).1⟩
          | cont i => simp at h; obtain ⟨rfl, rfl, rfl⟩ := h; exact ⟨σ₁, rfl, p₁.le, p₁.keep, p₁.res, fun hn => p₁.nor (noRet_cons hn).1⟩
          | ret v => simp at h; obtain ⟨rfl, rfl, rfl⟩ := h; exact ⟨σ₁, rfl, p₁.le, p₁.keep, p₁.res, fun hn => p₁.nor (noRet_cons hn).1⟩
          | exc x => simp at h; obtain ⟨rfl, rfl, rfl⟩ := h; exact ⟨σ₁, rfl, p₁.le, p₁.keep, p₁.res, fun hn => p₁.nor (noRet_cons hn).1⟩
    | ite c a b =>
      obtain ⟨-, hga, hgb⟩ := hg
      simp only [exec, S.ren, S.repl] at h ⊢
      cases he : eval M φ c w with
      | mk q w₁ =>
        rw [he] at h
        cases q with
        | ub => simp at h; exact absurd h.1.symm hu
        | ok v =>
          rw [eval_ren M hl c w _ _ he (by simp)]
          simp only at h ⊢
          by_cases ht : M.truth v = true
          · rw [if_pos ht] at h ⊢
            obtain ⟨σ', e', p⟩ := ih a φ σ w₁ o φ' w' hga h hu hl
            exact ⟨σ', e', p.le, p.keep, p.res, fun hn => p.nor hn.2.1⟩
          · rw [if_neg ht] at h ⊢
            obtain ⟨σ', e', p⟩ := ih b φ σ w₁ o φ' w' hgb h hu hl
            exact ⟨σ', e', p.le, p.keep, p.res, fun hn => p.nor hn.2.2⟩
        | exc x =>
          rw [eval_ren M hl c w _ _ he (by simp)]
          simp at h
          obtain ⟨rfl, rfl, rfl⟩ := h
          exact ⟨σ, rfl, stay _ _ (by simp)⟩
    | loop id c b =>
      have hid : id ≠ lid := fun e => hg.1.2.1.2.2 c b (by rw [e])
      simp only [exec, S.ren, S.repl] at h ⊢
      cases he : eval M φ c w with
      | mk q w₁ =>
        rw [he] at h
        cases q with
        | ub => simp at h; exact absurd h.1.symm hu
        | exc x =>
          rw [eval_ren M hl c w _ _ he (by simp)]
          simp at h
          obtain ⟨rfl, rfl, rfl⟩ := h
          exact ⟨σ, rfl, stay _ _ (by simp)⟩
        | ok v =>
          rw [eval_ren M hl c w _ _ he (by simp)]
          simp only at h ⊢
          by_cases ht : M.truth v = true
          case neg =>
            rw [if_neg ht] at h ⊢
            simp at h
            obtain ⟨rfl, rfl, rfl⟩ := h
            exact ⟨σ, rfl, stay _ _ (by simp)⟩
          rw [if_pos ht] at h ⊢
          cases hs : exec M n b φ w₁ with
          | none => rw [hs] at h; simp at h
          | some q =>
            obtain ⟨o₁, φ₁, w₂⟩ := q
            rw [hs] at h
            by_cases hu1 : o₁ = .ub
            · subst hu1; simp at h; exact absurd h.1.symm hu
            obtain ⟨σ₁, e₁, p₁⟩ := ih b φ σ w₁ o₁ φ₁ w₂ hg.2 hs hu1 hl
            rw [e₁]
            have again : exec M n (.loop id c b) φ₁ w₂ = some (o, φ', w') →
                ∃ σ', exec M k (.loop id (c.ren ρ) ((b.ren ρ).repl (retVar void r) (some lid))) σ₁ w₂ =
                  some (tr lid o, σ', w') ∧ Post ρ r void (.loop id c b) o σ φ' σ' := by
              intro h
              obtain ⟨σ₂, e₂, p₂⟩ := ih (.loop id c b) φ₁ σ₁ w₂ o φ' w' hg h hu p₁.le
              refine ⟨σ₂, e₂, p₂.le, ?_, p₂.res, ?_⟩
              · intro y hy hyr
                rw [p₂.keep y hy hyr, p₁.keep y hy hyr]
              · intro hn
                exact ⟨(p₂.nor hn).1.trans (p₁.nor hn.2).1, (p₂.nor hn).2⟩
            cases o₁ with
            | ub => exact absurd rfl hu1
            | normal => exact again h
            | brk i =>
              simp only [tr] at h ⊢
              by_cases hi : i = id
              · rw [if_pos hi] at h ⊢
                simp at h
                obtain ⟨rfl, rfl, rfl⟩ := h
                exact ⟨σ₁, rfl, p₁.le, p₁.keep, by simp, fun hn => ⟨(p₁.nor hn.2).1, by simp⟩⟩
              · rw [if_neg hi] at h ⊢
                simp at h
                obtain ⟨rfl, rfl, rfl⟩ := h
                exact ⟨σ₁, rfl, p₁.le, p₁.keep, by simp, fun hn => ⟨(p₁.nor hn.2).1, by simp⟩⟩
            | cont i =>
              simp only [tr] at h ⊢
              by_cases hi : i = id
              · rw [if_pos hi] at h ⊢
                exact again h
              · rw [if_neg hi] at h ⊢
                simp at h
                obtain ⟨rfl, rfl, rfl⟩ := h
                exact ⟨σ₁, rfl, p₁.le, p₁.keep, by simp, fun hn => ⟨(p₁.nor hn.2).1, by simp⟩⟩
            | ret u =>
              simp only [tr] at h ⊢
              rw [if_neg (Ne.symm hid)]
              simp at h
              obtain ⟨rfl, rfl, rfl⟩ := h
              exact ⟨σ₁, rfl, p₁.le, p₁.keep, p₁.res, fun hn => p₁.nor hn.2⟩
            | exc x =>
              simp at h
              obtain ⟨rfl, rfl, rfl⟩ := h
              exact ⟨σ₁, rfl, p₁.le, p₁.keep, by simp, fun hn => p₁.nor hn.2⟩
    | brk id =>
      simp only [exec, S.ren, S.repl] at h ⊢
      simp at h
      obtain ⟨rfl, rfl, rfl⟩ := h
      exact ⟨σ, rfl, stay _ _ (by simp)⟩
    | cont id =>
      simp only [exec, S.ren, S.repl] at h ⊢
      simp at h
      obtain ⟨rfl, rfl, rfl⟩ := h
      exact ⟨σ, rfl, stay _ _ (by simp)⟩
    | ret e =>
      subst hk
      have nor : ∀ (P : Prop), (S.ret e : S V).NoRet → P := fun P hn => absurd rfl (hn.self e)
      cases e with
      | none =>
        have hv : void = true := hg.1 none rfl
        subst hv
        simp only [exec] at h
        simp at h
        obtain ⟨rfl, rfl, rfl⟩ := h
        exact ⟨σ, by simp [exec, S.ren, S.repl, replRet, retVar, tr], hl, keep0, by simp, nor _⟩
      | some e =>
        have hge := hg.1 (some e) rfl
        simp only [exec] at h
        cases he : eval M φ e w with
        | mk q w₁ =>
          rw [he] at h
          have her := eval_ren M hl e w _ _ he
          cases hv : void with
          | true =>
            obtain ⟨u, hu'⟩ := hge hv φ w
            rw [he] at hu'
            simp at hu'
            obtain ⟨rfl, rfl⟩ := hu'
            simp at h
            obtain ⟨rfl, rfl, rfl⟩ := h
            exact ⟨σ, by simp [exec, S.ren, S.repl, replRet, retVar, tr], hl, keep0, by simp, nor _⟩
          | false =>
            cases q with
            | ub => simp at h; exact absurd h.1.symm hu
            | exc x =>
              simp at h
              obtain ⟨rfl, rfl, rfl⟩ := h
              refine ⟨σ, ?_, hl, keep0, by simp, nor _⟩
              simp [exec, S.ren, S.repl, replRet, retVar, tr, her (by simp)]
            | ok v =>
              simp at h
              obtain ⟨rfl, rfl, rfl⟩ := h
              refine ⟨σ.set r v, ?_, ?_, ?_, ?_, nor _⟩
              · simp [exec, S.ren, S.repl, replRet, retVar, tr, her (by simp)]
              · intro x u hx
                simp only [Store.set]
                rw [if_neg (hr x)]
                exact hl x u hx
              · intro y _ hy
                simp only [Store.set]
                rw [if_neg hy]
              · intro u hu' _
                simp at hu'
                exact ⟨v, hu'.symm, by simp [Store.set]⟩
    | «catch» a b =>
      obtain ⟨-, hga, hgb⟩ := hg
      simp only [exec, S.ren, S.repl] at h ⊢
      cases hs : exec M n a φ w with
      | none => rw [hs] at h; simp at h
      | some q =>
        obtain ⟨o₁, φ₁, w₁⟩ := q
        rw [hs] at h
        by_cases hu1 : o₁ = .ub
        · subst hu1; simp at h; exact absurd h.1.symm hu
        obtain ⟨σ₁, e₁, p₁⟩ := ih a φ σ w o₁ φ₁ w₁ hga hs hu1 hl
        rw [e₁]
        cases o₁ with
        | ub => exact absurd rfl hu1
        | exc x =>
          simp only [tr] at h ⊢
          obtain ⟨σ₂, e₂, p₂⟩ := ih b φ₁ σ₁ w₁ o φ' w' hgb h hu p₁.le
          refine ⟨σ₂, e₂, p₂.le, ?_, p₂.res, ?_⟩
          · intro y hy hyr
            rw [p₂.keep y hy hyr, p₁.keep y hy hyr]
          · intro hn
            exact ⟨(p₂.nor hn.2.2).1.trans (p₁.nor hn.2.1).1, (p₂.nor hn.2.2).2⟩
        | normal => simp at h; obtain ⟨rfl, rfl, rfl⟩ := h; exact ⟨σ₁, rfl, p₁.le, p₁.keep, p₁.res, fun hn => p₁.nor hn.2.1⟩
        | brk i => simp at h; obtain ⟨rfl, rfl, rfl⟩ := h; exact ⟨σ₁, rfl, p₁.le, p₁.keep, p₁.res, fun hn => p₁.nor hn.2.1⟩
        | cont i => simp at h; obtain ⟨rfl, rfl, rfl⟩ := h; exact ⟨σ₁, rfl, p₁.le, p₁.keep, p₁.res, fun hn => p₁.nor hn.2.1⟩
        | ret v => simp at h; obtain ⟨rfl, rfl, rfl⟩ := h; exact ⟨σ₁, rfl, p₁.le, p₁.keep, p₁.res, fun hn => p₁.nor hn.2.1⟩
    | fin a b =>
      have hfn : b.NoRet := hg.1.2.2 a b rfl
      obtain ⟨-, hga, hgb⟩ := hg
      simp only [exec, S.ren, S.repl] at h ⊢
      cases hs : exec M n a φ w with
      | none => rw [hs] at h; simp at h
      | some q =>
        obtain ⟨o₁, φ₁, w₁⟩ := q
        rw [hs] at h
        by_cases hu1 : o₁ = .ub
        · subst hu1; simp at h; exact absurd h.1.symm hu
        obtain ⟨σ₁, e₁, p₁⟩ := ih a φ σ w o₁ φ₁ w₁ hga hs hu1 hl
        have hfin' : (match exec M n b φ₁ w₁ with
              | some (.normal, σ, w) => some (o₁, σ, w)
              | r => r) = some (o, φ', w') := by
          rw [← h]; cases o₁ <;> first | rfl | exact absurd rfl hu1
        rw [e₁]
        suffices hsuf : ∃ σ', (match exec M k ((b.ren ρ).repl (retVar void r) (some lid)) σ₁ w₁ with
              | some (.normal, σ, w) => some (tr lid o₁, σ, w)
              | r => r) = some (tr lid o, σ', w') ∧ Post ρ r void (.fin a b) o σ φ' σ' by
          cases o₁ with
          | ub => exact absurd rfl hu1
          | normal => exact hsuf
          | brk i => exact hsuf
          | cont i => exact hsuf
          | ret v => exact hsuf
          | exc x => exact hsuf
        cases hb : exec M n b φ₁ w₁ with
        | none => rw [hb] at hfin'; simp at hfin'
        | some q =>
          obtain ⟨o₂, φ₂, w₂⟩ := q
          rw [hb] at hfin'
          by_cases hu2 : o₂ = .ub
          · subst hu2; simp at hfin'; exact absurd hfin'.1.symm hu
          obtain ⟨σ₂, e₂, p₂⟩ := ih b φ₁ σ₁ w₁ o₂ φ₂ w₂ hgb hb hu2 p₁.le
          have hr2 := (p₂.nor hfn).1
          have hn2 := (p₂.nor hfn).2
          rw [e₂]
          have kk : Keeps ρ r σ σ₂ := fun y hy hyr => by rw [p₂.keep y hy hyr, p₁.keep y hy hyr]
          cases o₂ with
          | ub => exact absurd rfl hu2
          | ret v => exact absurd rfl (hn2 v)
          | normal =>
            simp at hfin'
            obtain ⟨rfl, rfl, rfl⟩ := hfin'
            exact ⟨σ₂, rfl, p₂.le, kk, fun v hv hvd => by rw [hr2]; exact p₁.res v hv hvd,
              fun hn => ⟨hr2.trans (p₁.nor hn.2.1).1, (p₁.nor hn.2.1).2⟩⟩
          | brk i => simp at hfin'; obtain ⟨rfl, rfl, rfl⟩ := hfin'; exact ⟨σ₂, rfl, p₂.le, kk, by simp, fun hn => ⟨hr2.trans (p₁.nor hn.2.1).1, by simp⟩⟩
          | cont i => simp at hfin'; obtain ⟨rfl, rfl, rfl⟩ := hfin'; exact ⟨σ₂, rfl, p₂.le, kk, by simp, fun hn => ⟨hr2.trans (p₁.nor hn.2.1).1, by simp⟩⟩
          | exc x => simp at hfin'; obtain ⟨rfl, rfl, rfl⟩ := hfin'; exact ⟨σ₂, rfl, p₂.le, kk, by simp, fun hn => ⟨hr2.trans (p₁.nor hn.2.1).1, by simp⟩⟩

end Codon.Inl
