import Verif.Dce.Lemmas
/-! # The side-effect analysis is sound -/
namespace Codon.Dce

/-! ### Results of the analysis -/

theorem fstatus_upd (σ : An) (f s : Nat) (b : Nat → Option Node) (k g : Nat) :
    fstatus ⟨upd σ.res f s, b, k⟩ g = if g = f then s else fstatus σ g := by
  unfold fstatus upd
  by_cases h : g = f <;> simp [h]

theorem fstatus_le {I : VarInfo} {funcs : List Func} {σ : An} (h : Inv I funcs σ) (f : Nat) : fstatus σ f ≤ UNKNOWN := by
  unfold fstatus
  cases hr : σ.res f with
  | none => exact Nat.le_refl _
  | some s => exact (h.res f s hr).1

/-- A result for one more function. -/
theorem inv_upd {I : VarInfo} {funcs : List Func} {σ : An} (h : Inv I funcs σ) {f s : Nat} {fn : Func}
    (hf : funcs[f]? = some fn) (hs : s ≤ UNKNOWN) (hle : s ≤ fstatus σ f)
    (hj : ∀ F, (∀ g, F g ≤ fstatus σ g) → Just I F s fn) (k : Nat) : Inv I funcs ⟨upd σ.res f s, σ.bodies, k⟩ := by
  have hm : ∀ g, fstatus ⟨upd σ.res f s, σ.bodies, k⟩ g ≤ fstatus σ g := by
    intro g
    rw [fstatus_upd]
    by_cases hg : g = f
    · rw [if_pos hg, hg]; exact hle
    · rw [if_neg hg]
  constructor
  · intro g s' hg
    simp only [upd] at hg
    by_cases he : g = f
    · rw [if_pos he] at hg
      injection hg with hg
      subst hg he
      exact ⟨hs, fn, hf, hj _ hm⟩
    · rw [if_neg he] at hg
      obtain ⟨h1, fn', h2, h3⟩ := h.res g s' hg
      exact ⟨h1, fn', h2, just_mono hm h3⟩
  · intro g b' hg
    obtain ⟨attr, ps, body, h1, h2, h3⟩ := h.bodies g b' hg
    exact ⟨attr, ps, body, h1, h2, annOk_mono hm _ h3⟩

theorem procFn_ok (I : VarInfo) (funcs : List Func) (fuel : Nat) : FnOk I funcs (procFn I funcs fuel) := by
  induction fuel with
  | zero =>
    intro f σ h1 h2
    exact ⟨⟨h1, fun _ => Nat.le_refl _, Nat.le_refl _, h2, fun _ _ h => h⟩, fstatus_le h1 f, Nat.le_refl _⟩
  | succ fuel ih =>
    intro f σ h1 h2
    rw [procFn]
    cases hr : σ.res f with
    | some s =>
      refine ⟨⟨h1, fun _ => Nat.le_refl _, Nat.le_refl _, h2, fun _ _ h => h⟩, ?_, (h1.res f s hr).1⟩
      simp [fstatus, hr]
    | none =>
      have hU : fstatus σ f = UNKNOWN := by simp [fstatus, hr]
      cases hf : funcs[f]? with
      | none => exact ⟨⟨h1, fun _ => Nat.le_refl _, Nat.le_refl _, h2, fun _ _ h => h⟩, fstatus_le h1 f, Nat.le_refl _⟩
      | some fn =>
        have hm : ∀ s b k, s ≤ UNKNOWN → ∀ g, fstatus ⟨upd σ.res f s, b, k⟩ g ≤ fstatus σ g := by
          intro s b k hs g
          rw [fstatus_upd]
          by_cases hg : g = f
          · rw [if_pos hg, hg, hU]; exact hs
          · rw [if_neg hg]
        have hkeep : ∀ s g s', σ.res g = some s' → upd σ.res f s g = some s' := by
          intro s g s' hg
          unfold upd
          rw [if_neg]
          · exact hg
          · rintro rfl
            rw [hr] at hg
            cases hg
        cases fn with
        | internal sem =>
          refine ⟨⟨inv_upd h1 hf (Nat.zero_le _) (Nat.zero_le _) (fun _ _ => trivial) _, ?_, Nat.le_refl _, h2, hkeep _⟩, ?_,
            Nat.zero_le _⟩
          · exact hm _ _ _ (Nat.zero_le _)
          · simp only []; rw [fstatus_upd, if_pos rfl]
        | ext attr sem =>
          have ha := attr_le attr
          refine ⟨⟨inv_upd h1 hf ha (by rw [hU]; exact ha) (fun _ _ => .inl rfl) _, ?_, Nat.le_refl _, h2, hkeep _⟩, ?_, ha⟩
          · exact hm _ _ _ ha
          · simp only []; rw [fstatus_upd, if_pos rfl]
        | bodied attr ps body =>
          have ha := attr_le attr
          have hinv1 : Inv I funcs ⟨upd σ.res f (attrStatus attr), σ.bodies, PURE⟩ := by
            refine inv_upd h1 hf ha (by rw [hU]; exact ha) (fun _ _ => ?_) _
            cases attr with
            | none => exact .inl rfl
            | some a => exact .inr (.inl ⟨a, rfl, rfl⟩)
          obtain ⟨sg, kp⟩ := proc_ok ih body _ hinv1 (Nat.zero_le _)
          have hm1 := hm (attrStatus attr) σ.bodies PURE ha
          simp only []
          generalize hrr : proc I (procFn I funcs fuel) body ⟨upd σ.res f (attrStatus attr), σ.bodies, PURE⟩ = r at *
          obtain ⟨s, b', σ2⟩ := r
          simp only at sg kp ⊢
          have hs' : (if attr.isSome = true then attrStatus attr else σ2.fs) ≤ UNKNOWN := by
            split
            · exact ha
            · exact sg.fsle
          generalize hsd : (if attr.isSome = true then attrStatus attr else σ2.fs) = s' at *
          have hres : σ2.res f = some (attrStatus attr) := sg.keep f _ (by simp [upd])
          have hU2 : fstatus σ2 f = attrStatus attr := by simp [fstatus, hres]
          have hle : s' ≤ fstatus σ2 f := by
            rw [hU2, ← hsd]
            cases attr with
            | none => exact sg.fsle
            | some a => exact Nat.le_refl _
          have hm2 : ∀ b k g, fstatus ⟨upd σ2.res f s', b, k⟩ g ≤ fstatus σ2 g := by
            intro b k g
            rw [fstatus_upd]
            by_cases hg : g = f
            · rw [if_pos hg, hg]; exact hle
            · rw [if_neg hg]
          have hinv2 := inv_upd sg.inv hf hs' hle (fn := .bodied attr ps body) (fun F hF => by
            cases attr with
            | none =>
              refine .inr (.inr ⟨rfl, ?_⟩)
              have : s' = σ2.fs := by rw [← hsd]; rfl
              rw [this]
              exact Nat.le_trans (fstat_mono hF body) kp.fstat
            | some a => exact .inr (.inl ⟨a, rfl, by rw [← hsd]; rfl⟩)) (max σ.fs (attrStatus attr))
          refine ⟨⟨⟨fun g s hg => ?_, fun g b hg => ?_⟩, fun g => ?_, by simp only []; omega, by simp only []; omega, ?_⟩, ?_, hs'⟩
          · exact hinv2.res g s hg
          · simp only [upd] at hg
            by_cases he : g = f
            · rw [if_pos he] at hg
              injection hg with hg
              subst hg he
              exact ⟨attr, ps, body, hf, kp.er, annOk_mono (hm2 _ _) _ kp.ann⟩
            · rw [if_neg he] at hg
              exact hinv2.bodies g b hg
          · exact Nat.le_trans (hm2 _ _ g) (Nat.le_trans (sg.mono g) (hm1 g))
          · intro g s hg
            have h3 := sg.keep g s (hkeep _ g s hg)
            simp only [upd]
            rw [if_neg]
            · exact h3
            · rintro rfl
              rw [hr] at hg
              cases hg
          · rw [fstatus_upd, if_pos rfl]

theorem procAll_ok (I : VarInfo) (funcs : List Func) (l : List Nat) : ∀ σ, Inv I funcs σ → σ.fs ≤ UNKNOWN →
    Inv I funcs (procAll I funcs l σ) := by
  induction l with
  | nil => intro σ h _; exact h
  | cons f l ih =>
    intro σ h1 h2
    obtain ⟨sg, _⟩ := procFn_ok I funcs (funcs.length + 1) f σ h1 h2
    exact ih _ sg.inv sg.fsle

theorem analyze_inv (gash : Bool) (M : Module) : Inv (varInfo gash M) M.funcs (analyze gash M) := by
  refine procAll_ok _ _ _ _ ⟨?_, ?_⟩ (Nat.zero_le _)
  · intro f s h; cases h
  · intro f b h; cases h

end Codon.Dce
