import Verif.Inl.Lemmas

namespace Codon.Inl

variable {V W X : Type}

mutual
theorem need_ren (ρ : Nat → Nat) : ∀ (t : Bool) (s : S V), (s.ren ρ).need t = s.need t
  | t, .expr e => rfl
  | t, .assign x e => rfl
  | t, .series l => by simp only [S.ren, S.need]; exact needL_ren ρ t l
  | t, .ite c a b => by simp only [S.ren, S.need, need_ren ρ false a, need_ren ρ false b]
  | t, .loop id c b => by simp only [S.ren, S.need, need_ren ρ false b]
  | t, .brk id => rfl
  | t, .cont id => rfl
  | t, .ret none => rfl
  | t, .ret (some e) => rfl
  | t, .catch a h => by simp only [S.ren, S.need, need_ren ρ false a, need_ren ρ false h]
  | t, .fin a f => by simp only [S.ren, S.need, need_ren ρ false a, need_ren ρ false f]
theorem needL_ren (ρ : Nat → Nat) : ∀ (t : Bool) (l : SL V), (l.ren ρ).need t = l.need t
  | t, .nil => rfl
  | t, .cons s .nil => by simp only [SL.ren, SL.need]; exact need_ren ρ t s
  | t, .cons s (.cons s' l) => by
    simp only [SL.ren, SL.need]
    rw [need_ren ρ false s]
    have := needL_ren ρ t (.cons s' l)
    simp only [SL.ren] at this
    rw [this]
end

mutual
theorem noRet_of_need : ∀ (s : S V), s.need false = false → s.NoRet
  | .expr e, _ => by simp [S.NoRet, S.All]
  | .assign x e, _ => by simp [S.NoRet, S.All]
  | .series l, h => ⟨by simp, noRetL_of_need l h⟩
  | .ite c a b, h => by
    simp only [S.need, Bool.or_eq_false_iff] at h
    exact ⟨by simp, noRet_of_need a h.1, noRet_of_need b h.2⟩
  | .loop id c b, h => ⟨by simp, noRet_of_need b h⟩
  | .brk id, _ => by simp [S.NoRet, S.All]
  | .cont id, _ => by simp [S.NoRet, S.All]
  | .ret e, h => by simp [S.need] at h
  | .catch a b, h => by
    simp only [S.need, Bool.or_eq_false_iff] at h
    exact ⟨by simp, noRet_of_need a h.1, noRet_of_need b h.2⟩
  | .fin a b, h => by
    simp only [S.need, Bool.or_eq_false_iff] at h
    exact ⟨by simp, noRet_of_need a h.1, noRet_of_need b h.2⟩
theorem noRetL_of_need : ∀ (l : SL V), l.need false = false → l.All fun t => ∀ e, t ≠ .ret e
  | .nil, _ => trivial
  | .cons s .nil, h => ⟨noRet_of_need s h, trivial⟩
  | .cons s (.cons s' l), h => by
    simp only [SL.need, Bool.or_eq_false_iff] at h
    exact ⟨noRet_of_need s h.1, noRetL_of_need (.cons s' l) h.2⟩
end

mutual
theorem need_of_noRet : ∀ (t : Bool) (s : S V), s.NoRet → s.need t = false
  | t, .expr e, _ => rfl
  | t, .assign x e, _ => rfl
  | t, .series l, h => needL_of_noRet t l h.2
  | t, .ite c a b, h => by simp only [S.need, need_of_noRet false a h.2.1, need_of_noRet false b h.2.2, Bool.or_self]
  | t, .loop id c b, h => need_of_noRet false b h.2
  | t, .brk id, _ => rfl
  | t, .cont id, _ => rfl
  | t, .ret e, h => absurd rfl (h.self e)
  | t, .catch a b, h => by simp only [S.need, need_of_noRet false a h.2.1, need_of_noRet false b h.2.2, Bool.or_self]
  | t, .fin a b, h => by simp only [S.need, need_of_noRet false a h.2.1, need_of_noRet false b h.2.2, Bool.or_self]
theorem needL_of_noRet : ∀ (t : Bool) (l : SL V), (l.All fun t => ∀ e, t ≠ .ret e) → l.need t = false
  | t, .nil, _ => rfl
  | t, .cons s .nil, h => need_of_noRet t s h.1
  | t, .cons s (.cons s' l), h => by
    simp only [SL.need, need_of_noRet false s h.1, needL_of_noRet t (.cons s' l) h.2, Bool.or_self]
end

theorem need_noRet (s : S V) : s.need false = false ↔ s.NoRet := ⟨noRet_of_need s, need_of_noRet false s⟩

mutual
theorem need_tail : ∀ (s : S V), s.need true = false ↔ s.TailRet
  | .expr e => by simp [S.need, S.TailRet, S.NoRet, S.All]
  | .assign x e => by simp [S.need, S.TailRet, S.NoRet, S.All]
  | .series l => needL_tail l
  | .ite c a b => need_noRet (.ite c a b)
  | .loop id c b => need_noRet (.loop id c b)
  | .brk id => by simp [S.need, S.TailRet, S.NoRet, S.All]
  | .cont id => by simp [S.need, S.TailRet, S.NoRet, S.All]
  | .ret e => by simp [S.need, S.TailRet]
  | .catch a b => need_noRet (.catch a b)
  | .fin a b => need_noRet (.fin a b)
theorem needL_tail : ∀ (l : SL V), l.need true = false ↔ l.TailRet
  | .nil => by simp [SL.need, SL.TailRet]
  | .cons s .nil => need_tail s
  | .cons s (.cons s' l) => by
    simp only [SL.need, SL.TailRet, Bool.or_eq_false_iff, need_noRet, needL_tail (.cons s' l)]
end

mutual
theorem repl_noRet (ρ : Nat → Nat) (a b : Option Nat) : ∀ (s : S V), s.NoRet → (s.ren ρ).repl a none = (s.ren ρ).repl a b
  | .expr e, _ => rfl
  | .assign x e, _ => rfl
  | .series l, h => by simp only [S.ren, S.repl]; rw [replL_noRet ρ a b l h.2]
  | .ite c s t, h => by simp only [S.ren, S.repl]; rw [repl_noRet ρ a b s h.2.1, repl_noRet ρ a b t h.2.2]
  | .loop id c s, h => by simp only [S.ren, S.repl]; rw [repl_noRet ρ a b s h.2]
  | .brk id, _ => rfl
  | .cont id, _ => rfl
  | .ret e, h => absurd rfl (h.self e)
  | .catch s t, h => by simp only [S.ren, S.repl]; rw [repl_noRet ρ a b s h.2.1, repl_noRet ρ a b t h.2.2]
  | .fin s t, h => by simp only [S.ren, S.repl]; rw [repl_noRet ρ a b s h.2.1, repl_noRet ρ a b t h.2.2]
theorem replL_noRet (ρ : Nat → Nat) (a b : Option Nat) : ∀ (l : SL V), (l.All fun t => ∀ e, t ≠ .ret e) →
    (l.ren ρ).repl a none = (l.ren ρ).repl a b
  | .nil, _ => rfl
  | .cons s l, h => by simp only [SL.ren, SL.repl]; rw [repl_noRet ρ a b s h.1, replL_noRet ρ a b l h.2]
end

/-- How the body ends without the implicit loop. -/
def tr' : Flow V X → Flow V X
  | .ret _ => .normal
  | o => o

structure PostT (ρ : Nat → Nat) (r : Nat) (void : Bool) (o : Flow V X) (σ σ' : Store V) : Prop where
  keep : Keeps ρ r σ σ'
  res : ∀ v, o = .ret v → void = false → ∃ u, v = some u ∧ σ' r = some u

theorem tr_noRet {o : Flow V X} (h : ∀ v, o ≠ .ret v) (lid : Nat) : tr lid o = tr' o := by
  cases o <;> first | rfl | exact absurd rfl (h _)

theorem simT (M : Sem V W X) {ρ : Nat → Nat} {r lid : Nat} {void : Bool} (hρ : ∀ x y, ρ x = ρ y → x = y)
    (hr : ∀ x, ρ x ≠ r) :
    ∀ (n : Nat) (s : S V) (φ σ : Store V) (w : W) (o : Flow V X) (φ' : Store V) (w' : W), s.All (Good M void lid) →
      s.need true = false → exec M n s φ w = some (o, φ', w') → o ≠ .ub → Le ρ φ σ →
      ∃ σ', exec M (n + 2) ((s.ren ρ).repl (retVar void r) none) σ w = some (tr' o, σ', w') ∧ PostT ρ r void o σ σ'
  | 0, s, φ, σ, w, o, φ', w', hg, hn, h, hu, hl => by simp [exec] at h
  | n + 1, s, φ, σ, w, o, φ', w', hg, hn, h, hu, hl => by
    have nr : s.NoRet → ∃ σ', exec M (n + 1 + 2) ((s.ren ρ).repl (retVar void r) none) σ w = some (tr' o, σ', w') ∧
        PostT ρ r void o σ σ' := by
      intro hnr
      obtain ⟨σ', e, p⟩ := sim M (void := void) (lid := lid) hρ hr (n + 1) s φ σ w o φ' w' hg h hu hl
      rw [repl_noRet ρ _ (some lid) s hnr, e, tr_noRet (p.nor hnr).2]
      exact ⟨σ', rfl, p.keep, p.res⟩
    have keep0 : Keeps ρ r σ σ := fun _ _ _ => rfl
    cases s with
    | expr e => exact nr (noRet_of_need _ rfl)
    | assign x e => exact nr (noRet_of_need _ rfl)
    | ite c a b => exact nr (noRet_of_need _ hn)
    | loop id c b => exact nr (noRet_of_need _ hn)
    | brk id => exact nr (noRet_of_need _ rfl)
    | cont id => exact nr (noRet_of_need _ rfl)
    | «catch» a b => exact nr (noRet_of_need _ hn)
    | fin a b => exact nr (noRet_of_need _ hn)
    | ret e =>
      cases e with
      | none =>
        have hv : void = true := hg.1 none rfl
        subst hv
        simp only [exec] at h
        simp at h
        obtain ⟨rfl, rfl, rfl⟩ := h
        exact ⟨σ, by simp [exec, S.ren, S.repl, replRet, retVar, tr'], keep0, by simp⟩
      | some e =>
        have hge := hg.1 (some e) rfl
        simp only [exec] at h
        cases he : eval M φ e w with
        | mk q w₁ =>
          rw [he] at h
          have her := eval_ren M hl e w _ _ he
          cases hv : void with
          | true =>
            obtain ⟨u, hu'⟩ := hge hv φ w
            rw [he] at hu'
            simp at hu'
            obtain ⟨rfl, rfl⟩ := hu'
            simp at h
            obtain ⟨rfl, rfl, rfl⟩ := h
            exact ⟨σ, by simp [exec, S.ren, S.repl, replRet, retVar, tr'], keep0, by simp⟩
          | false =>
            cases q with
            | ub => simp at h; exact absurd h.1.symm hu
            | exc x =>
              simp at h
              obtain ⟨rfl, rfl, rfl⟩ := h
              refine ⟨σ, ?_, keep0, by simp⟩
              simp [exec, S.ren, S.repl, replRet, retVar, tr', her (by simp)]
            | ok v =>
              simp at h
              obtain ⟨rfl, rfl, rfl⟩ := h
              refine ⟨σ.set r v, ?_, ?_, ?_⟩
              · simp [exec, S.ren, S.repl, replRet, retVar, tr', her (by simp)]
              · intro y _ hy
                simp only [Store.set]
                rw [if_neg hy]
              · intro u hu' _
                simp at hu'
                exact ⟨v, hu'.symm, by simp [Store.set]⟩
    | series l =>
      cases l with
      | nil => exact nr (noRet_of_need _ rfl)
      | cons s l =>
        obtain ⟨hgs, hgl⟩ := all_series_cons hg (good_series M void lid l)
        show ∃ σ', exec M ((n + 2) + 1) _ σ w = _ ∧ _
        have ih := simT M (void := void) (lid := lid) hρ hr n
        have ih' := sim M (void := void) (lid := lid) hρ hr n
        clear nr
        generalize hk : n + 2 = k at ih ih' ⊢
        simp only [exec, S.ren, SL.ren, S.repl, SL.repl] at h ⊢
        cases hs : exec M n s φ w with
        | none => rw [hs] at h; simp at h
        | some q =>
          obtain ⟨o₁, φ₁, w₁⟩ := q
          rw [hs] at h
          by_cases hu1 : o₁ = .ub
          · subst hu1; simp at h; exact absurd h.1.symm hu
          cases l with
          | nil =>
            obtain ⟨σ₁, e₁, p₁⟩ := ih s φ σ w o₁ φ₁ w₁ hgs hn hs hu1 hl
            rw [e₁]
            have hk' : ∃ j, k = j + 1 := ⟨n + 1, hk.symm⟩
            obtain ⟨j, rfl⟩ := hk'
            cases o₁ with
            | ub => exact absurd rfl hu1
            | normal =>
              simp only at h
              cases n with
              | zero => simp [exec] at h
              | succ n =>
                simp [exec] at h
                obtain ⟨rfl, rfl, rfl⟩ := h
                exact ⟨σ₁, rfl, p₁.keep, p₁.res⟩
            | ret v =>
              simp at h; obtain ⟨rfl, rfl, rfl⟩ := h
              exact ⟨σ₁, rfl, p₁.keep, p₁.res⟩
            | brk i => simp at h; obtain ⟨rfl, rfl, rfl⟩ := h; exact ⟨σ₁, rfl, p₁.keep, p₁.res⟩
            | cont i => simp at h; obtain ⟨rfl, rfl, rfl⟩ := h; exact ⟨σ₁, rfl, p₁.keep, p₁.res⟩
            | exc x => simp at h; obtain ⟨rfl, rfl, rfl⟩ := h; exact ⟨σ₁, rfl, p₁.keep, p₁.res⟩
          | cons s' l =>
            simp only [S.need, SL.need, Bool.or_eq_false_iff] at hn
            have hnr := noRet_of_need s hn.1
            obtain ⟨σ₁, e₁, p₁⟩ := ih' s φ σ w o₁ φ₁ w₁ hgs hs hu1 hl
            rw [repl_noRet ρ _ (some lid) s hnr, e₁]
            cases o₁ with
            | ub => exact absurd rfl hu1
            | ret v => exact absurd rfl ((p₁.nor hnr).2 v)
            | normal =>
              obtain ⟨σ₂, e₂, p₂⟩ := ih (.series (.cons s' l)) φ₁ σ₁ w₁ o φ' w' hgl (by simpa [S.need] using hn.2) h hu p₁.le
              refine ⟨σ₂, e₂, ?_, p₂.res⟩
              intro y hy hyr
              rw [p₂.keep y hy hyr, p₁.keep y hy hyr]
            | brk i => simp at h; obtain ⟨rfl, rfl, rfl⟩ := h; exact ⟨σ₁, rfl, p₁.keep, by simp⟩
            | cont i => simp at h; obtain ⟨rfl, rfl, rfl⟩ := h; exact ⟨σ₁, rfl, p₁.keep, by simp⟩
            | exc x => simp at h; obtain ⟨rfl, rfl, rfl⟩ := h; exact ⟨σ₁, rfl, p₁.keep, by simp⟩

/-! ## Arguments -/

theorem ren_same {g : Nat → Nat} : ∀ (e : E V), (∀ x, e.Has x → g x = x) → e.ren g = e
  | .var x, h => by simp only [E.ren]; rw [h x rfl]
  | .con v, _ => rfl
  | .prim p a b, h => by
    simp only [E.ren]
    rw [ren_same a fun x hx => h x (Or.inl hx), ren_same b fun x hx => h x (Or.inr hx)]

theorem eval_congr (M : Sem V W X) {σ σ' : Store V} : ∀ (e : E V) (w : W), (∀ x, e.Has x → σ' x = σ x) →
    eval M σ' e w = eval M σ e w
  | .var x, w, h => by simp only [eval]; rw [h x rfl]
  | .con v, w, _ => rfl
  | .prim p a b, w, h => by
    simp only [eval]
    rw [eval_congr M a w fun x hx => h x (Or.inl hx)]
    cases eval M σ a w with
    | mk q w₁ =>
      cases q with
      | ok u => simp only; rw [eval_congr M b w₁ fun x hx => h x (Or.inr hx)]
      | exc x => rfl
      | ub => rfl

theorem frame_nil (ps : List Nat) : frame ps ([] : List V) = fun _ => none := by cases ps <;> rfl

theorem exec_cons (M : Sem V W X) (n : Nat) (s : S V) (l : SL V) (σ : Store V) (w : W) :
    exec M (n + 1) (.series (.cons s l)) σ w =
      match exec M n s σ w with
      | some (.normal, σ, w) => exec M n (.series l) σ w
      | r => r := rfl

theorem bind_sim (M : Sem V W X) {ρ : Nat → Nat} (hρ : ∀ x y, ρ x = ρ y → x = y) (σ₀ : Store V) (rest : SL V)
    (F : Nat) :
    ∀ (done ps : List Nat) (as : List (E V)) (σ : Store V) (w w' : W) (q : R (List V) X), as.length = ps.length →
      ps.Nodup → (∀ a ∈ as, ∀ x, a.Has x → x ∉ done ∧ x ∉ ps ∧ ∀ y, ρ y ≠ x) → (∀ y, (∀ x, ρ x ≠ y) → σ y = σ₀ y) →
      evalArgs M σ₀ as w = (q, w') →
      ∃ σ', (∀ y, (∀ x ∈ ps, ρ x ≠ y) → σ' y = σ y) ∧
        match q with
        | .ok vs => exec M (F + ps.length + 1) (.series (bindArgs ρ done ps as rest)) σ w =
            exec M (F + 1) (.series rest) σ' w' ∧ Le ρ (frame ps vs) σ'
        | .exc x => exec M (F + ps.length + 1) (.series (bindArgs ρ done ps as rest)) σ w = some (.exc x, σ', w')
        | .ub => True
  | done, [], [], σ, w, w', q, _, _, _, _, h => by
    simp only [evalArgs] at h
    simp at h
    obtain ⟨rfl, rfl⟩ := h
    refine ⟨σ, fun _ _ => rfl, ?_⟩
    simp only [bindArgs]
    exact ⟨rfl, fun x v hx => by simp [frame] at hx⟩
  | done, p :: ps, a :: as, σ, w, w', q, hlen, hnd, ha, hσ, h => by
    have haa := ha a (List.mem_cons_self ..)
    have hren : a.ren (partMap ρ (p :: done)) = a := by
      refine ren_same a fun x hx => ?_
      obtain ⟨h1, h2, h3⟩ := haa x hx
      simp only [partMap]
      rw [if_neg]
      intro hm
      rcases List.mem_cons.mp hm with rfl | hm
      · exact h2 (List.mem_cons_self ..)
      · exact h1 hm
    have hev : ∀ w, eval M σ a w = eval M σ₀ a w := fun w => eval_congr M a w fun x hx => hσ x (haa x hx).2.2
    simp only [evalArgs] at h
    have hfu : F + (p :: ps).length + 1 = (F + ps.length + 1) + 1 := rfl
    rw [hfu]
    cases he : eval M σ₀ a w with
    | mk q₁ w₁ =>
      rw [he] at h
      have one : exec M (F + ps.length + 1) (.assign (ρ p) a) σ w =
          (match (q₁, w₁) with
          | (.ok v, w) => some (.normal, σ.set (ρ p) v, w)
          | (.exc x, w) => some (.exc x, σ, w)
          | (.ub, w) => some (.ub, σ, w)) := by
        simp only [exec]; rw [hev, he]; cases q₁ <;> rfl
      have two : exec M ((F + ps.length + 1) + 1) (.series (bindArgs ρ done (p :: ps) (a :: as) rest)) σ w =
          match exec M (F + ps.length + 1) (.assign (ρ p) a) σ w with
          | some (.normal, σ, w) => exec M (F + ps.length + 1) (.series (bindArgs ρ (p :: done) ps as rest)) σ w
          | r => r := by
        simp only [bindArgs, hren]
        exact exec_cons M ..
      rw [two, one]
      cases q₁ with
      | ub => simp at h; obtain ⟨rfl, rfl⟩ := h; exact ⟨σ, fun _ _ => rfl, trivial⟩
      | exc x => simp at h; obtain ⟨rfl, rfl⟩ := h; exact ⟨σ, fun _ _ => rfl, rfl⟩
      | ok v =>
        simp only at h ⊢
        cases hr : evalArgs M σ₀ as w₁ with
        | mk q₂ w₂ =>
          rw [hr] at h
          have hnd' := List.nodup_cons.mp hnd
          obtain ⟨σ', k', r'⟩ := bind_sim M hρ σ₀ rest F (p :: done) ps as (σ.set (ρ p) v) w₁ w₂ q₂ (by simpa using hlen)
            hnd'.2 (fun b hb x hx => by
              obtain ⟨h1, h2, h3⟩ := ha b (List.mem_cons_of_mem _ hb) x hx
              refine ⟨fun hm => ?_, fun hm => h2 (List.mem_cons_of_mem _ hm), h3⟩
              rcases List.mem_cons.mp hm with rfl | hm
              · exact h2 (List.mem_cons_self ..)
              · exact h1 hm)
            (fun y hy => by
              simp only [Store.set]
              rw [if_neg fun e => hy p e.symm]
              exact hσ y hy) hr
          have kk : ∀ y, (∀ x ∈ p :: ps, ρ x ≠ y) → σ' y = σ y := by
            intro y hy
            rw [k' y fun x hx => hy x (List.mem_cons_of_mem _ hx)]
            simp only [Store.set]
            rw [if_neg fun e => hy p (List.mem_cons_self ..) e.symm]
          refine ⟨σ', kk, ?_⟩
          cases q₂ with
          | ub => simp at h; obtain ⟨rfl, rfl⟩ := h; trivial
          | exc x => simp at h; obtain ⟨rfl, rfl⟩ := h; exact r'
          | ok vs =>
            simp at h
            obtain ⟨rfl, rfl⟩ := h
            refine ⟨r'.1, ?_⟩
            intro x u hx
            simp only [frame, Store.set] at hx
            by_cases hxp : x = p
            · rw [if_pos hxp] at hx
              rw [hxp, k' (ρ p) fun z hz e => hnd'.1 (hρ _ _ e ▸ hz)]
              simpa [Store.set] using hx
            · rw [if_neg hxp] at hx
              exact r'.2 x u hx

end Codon.Inl
