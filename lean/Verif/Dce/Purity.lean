import Verif.Dce.Sound
/-! # Statements whose status is `PURE` have no effect -/
namespace Codon.Dce

variable {gash : Bool} {M : Module}

theorem sameObs_refl (s : St) : SameObs gash M s s := ⟨fun _ _ => rfl, fun _ _ => rfl, rfl, rfl⟩

theorem SameObs.trans {s t u : St} (h1 : SameObs gash M s t) (h2 : SameObs gash M t u) : SameObs gash M s u :=
  ⟨fun x hx => (h1.glob x hx).trans (h2.glob x hx), fun x hx => (h1.loc x hx).trans (h2.loc x hx),
    h1.gens.trans h2.gens, h1.trace.trans h2.trace⟩

theorem SameObs.symm {s t : St} (h : SameObs gash M s t) : SameObs gash M t s :=
  ⟨fun x hx => (h.glob x hx).symm, fun x hx => (h.loc x hx).symm, h.gens.symm, h.trace.symm⟩

/-- Nothing that outlives the running function changed. -/
structure GlobObs (gash : Bool) (M : Module) (s t : St) : Prop where
  glob : ∀ x, Observable gash M x → s.glob x = t.glob x
  gens : s.gens = t.gens
  trace : s.trace = t.trace

theorem globObs_refl (s : St) : GlobObs gash M s s := ⟨fun _ _ => rfl, rfl, rfl⟩

theorem GlobObs.trans {s t u : St} (h1 : GlobObs gash M s t) (h2 : GlobObs gash M t u) : GlobObs gash M s u :=
  ⟨fun x hx => (h1.glob x hx).trans (h2.glob x hx), h1.gens.trans h2.gens, h1.trace.trans h2.trace⟩

theorem SameObs.toGlob {s t : St} (h : SameObs gash M s t) : GlobObs gash M s t := ⟨h.glob, h.gens, h.trace⟩

theorem sameObs_set {x : Nat} (h : ¬ Observable gash M x) (s : St) (v : Val) :
    SameObs gash M s (setVar M.isGlobal s x v) := by
  unfold setVar
  split
  · refine ⟨fun y hy => ?_, fun _ _ => rfl, rfl, rfl⟩
    simp only []
    rw [if_neg (by rintro rfl; exact h hy)]
  · refine ⟨fun _ _ => rfl, fun y hy => ?_, rfl, rfl⟩
    simp only []
    rw [if_neg (by rintro rfl; exact h hy)]

theorem sameObs_set_expr {x : Nat} (h : (varAssignStatus (varInfo gash M) x).1 = PURE) (s : St) (v : Val) :
    SameObs gash M s (setVar M.isGlobal s x v) := sameObs_set (not_obs_expr h) s v

theorem globObs_set {x : Nat} (h : (varAssignStatus (varInfo gash M) x).2 = PURE) (s : St) (v : Val) :
    GlobObs gash M s (setVar M.isGlobal s x v) := by
  by_cases hg : M.isGlobal x = true
  · exact (sameObs_set (not_obs_func hg h) s v).toGlob
  · unfold setVar
    rw [if_neg hg]
    exact ⟨fun _ _ => rfl, rfl, rfl⟩

/-- No generator object has anything left to produce. -/
def NoGens (s : St) : Prop := s.gens = fun _ => []

theorem setVar_gens (g : Nat → Bool) (s : St) (x : Nat) (v : Val) : (setVar g s x v).gens = s.gens := by
  unfold setVar; split <;> rfl

theorem setOpt_gens (g : Nat → Bool) (s : St) (x : Option Nat) (v : Val) : (setOpt g s x v).gens = s.gens := by
  cases x with
  | none => rfl
  | some x => exact setVar_gens g s x v

theorem nextItem_noGens {v : Val} {s : St} (h : NoGens s) {i v' : Val} {s' : St} (hn : nextItem v s = some (i, v', s')) :
    s' = s := by
  unfold nextItem at hn
  split at hn
  · simp at hn; exact hn.2.2.symm
  · rw [show s.gens = fun _ => [] from h] at hn; simp at hn
  · cases hn

theorem exec_gens {F : Form} {s : St} {r : Res} {t : St} (hx : Exec M F s r t) : NoGens s → t.gens = s.gens := by
  unfold NoGens
  induction hx with
  | loopNext hn _ _ _ ih1 ih2 =>
    intro h
    have := nextItem_noGens h hn
    subst this
    rw [setVar_gens] at ih1
    rw [ih2 (by rw [ih1 h]; exact h), ih1 h]
  | loopB hn _ ih =>
    intro h
    have := nextItem_noGens h hn
    subst this
    rw [setVar_gens] at ih
    exact ih h
  | loopR hn _ _ ih =>
    intro h
    have := nextItem_noGens h hn
    subst this
    rw [setVar_gens] at ih
    exact ih h
  | _ => grind [setVar_gens, setOpt_gens]

/-- Status of what is executed. -/
def formStat (I : VarInfo) (F : Nat → Nat) : Form → Nat
  | .node n => stat I F n
  | .args n => stat I F n
  | .loop x _ b => max (varAssignStatus I x).1 (stat I F b)
  | .count x _ _ _ b => max (varAssignStatus I x).1 (stat I F b)
  | .core b cs e => max (stat I F b) (max (stat I F cs) (stat I F e))
  | .catches _ _ => UNKNOWN
  | .fn f _ => F f

def formFstat (I : VarInfo) (F : Nat → Nat) : Form → Nat
  | .node n => fstat I F n
  | .args n => fstat I F n
  | .loop x _ b => max (varAssignStatus I x).2 (fstat I F b)
  | .count x _ _ _ b => max (varAssignStatus I x).2 (fstat I F b)
  | .core b cs e => max (fstat I F b) (max (fstat I F cs) (fstat I F e))
  | .catches _ _ => UNKNOWN
  | .fn f _ => F f

/-- Statuses of functions that are right. -/
def Right (gash : Bool) (M : Module) (F : Nat → Nat) : Prop :=
  ∀ f, F f = PURE → ∃ fn, M.funcs[f]? = some fn ∧ Just (varInfo gash M) F PURE fn

theorem purity {F : Nat → Nat} (hF : Right gash M F) (ha : AttrsOk gash M) {G : Form} {s : St} {r : Res} {t : St}
    (hx : Exec M G s r t) : NoGens s →
    (formStat (varInfo gash M) F G = PURE → ¬ r.abrupt ∧ SameObs gash M s t) ∧
    (formFstat (varInfo gash M) F G = PURE → (∀ k, r ≠ .exc k) ∧ GlobObs gash M s t) := by
  have key : ∀ {F s r t}, Exec M F s r t → NoGens s → NoGens t := by
    intro F s r t h1 h2; unfold NoGens; rw [exec_gens h1 h2]; exact h2
  have p0 : PURE = 0 := rfl
  have n1 : NO_CAPTURE ≠ 0 := by decide
  have n2 : UNKNOWN ≠ 0 := by decide
  induction hx with
  | @fnRet f attr ps body vs s v t hf hb ih =>
    intro hs
    have hs' : NoGens { s with loc := bindParams ps vs } := hs
    have main : F f = 0 → SameObs gash M s { t with loc := s.loc } := by
      intro h0
      obtain ⟨fn, h1, h2⟩ := hF f h0
      rw [hf] at h1
      injection h1 with h1
      subst h1
      rcases h2 with h2 | ⟨a, h2, h3⟩ | ⟨h2, h3⟩
      · exact absurd h2 (by decide)
      · subst h2
        exact (ha.2 f _ ps body hf (congrArg some (Fin.ext h3.symm)) vs s _ _ (Exec.fnRet hf hb)).2
      · obtain ⟨-, h4⟩ := (ih hs').2 (Nat.le_zero.1 h3)
        exact ⟨h4.glob, fun _ _ => rfl, h4.gens, h4.trace⟩
    exact ⟨fun h => ⟨by simp [Res.abrupt], main h⟩, fun h => ⟨by simp, (main h).toGlob⟩⟩
  | @fnEnd f attr ps body vs s v t hf hb ih =>
    intro hs
    have hs' : NoGens { s with loc := bindParams ps vs } := hs
    have main : F f = 0 → SameObs gash M s { t with loc := s.loc } := by
      intro h0
      obtain ⟨fn, h1, h2⟩ := hF f h0
      rw [hf] at h1
      injection h1 with h1
      subst h1
      rcases h2 with h2 | ⟨a, h2, h3⟩ | ⟨h2, h3⟩
      · exact absurd h2 (by decide)
      · subst h2
        exact (ha.2 f _ ps body hf (congrArg some (Fin.ext h3.symm)) vs s _ _ (Exec.fnEnd hf hb)).2
      · obtain ⟨-, h4⟩ := (ih hs').2 (Nat.le_zero.1 h3)
        exact ⟨h4.glob, fun _ _ => rfl, h4.gens, h4.trace⟩
    exact ⟨fun h => ⟨by simp [Res.abrupt], main h⟩, fun h => ⟨by simp, (main h).toGlob⟩⟩
  | @fnExc f attr ps body vs s k t hf hb ih =>
    intro hs
    have hs' : NoGens { s with loc := bindParams ps vs } := hs
    have main : F f = 0 → False := by
      intro h0
      obtain ⟨fn, h1, h2⟩ := hF f h0
      rw [hf] at h1
      injection h1 with h1
      subst h1
      rcases h2 with h2 | ⟨a, h2, h3⟩ | ⟨h2, h3⟩
      · exact absurd h2 (by decide)
      · subst h2
        obtain ⟨v, hv⟩ := (ha.2 f _ ps body hf (congrArg some (Fin.ext h3.symm)) vs s _ _ (Exec.fnExc hf hb)).1
        cases hv
      · exact ((ih hs').2 (Nat.le_zero.1 h3)).1 k rfl
    exact ⟨fun h => (main h).elim, fun h => (main h).elim⟩
  | @fnExt f attr sem vs s evs v hf hsem =>
    intro hs
    have main : F f = 0 → SameObs gash M s { s with trace := s.trace ++ evs } := by
      intro h0
      obtain ⟨fn, h1, h2⟩ := hF f h0
      rw [hf] at h1
      injection h1 with h1
      subst h1
      rcases h2 with h2 | h2
      · cases attr with
        | none => exact absurd h2 (by decide)
        | some a =>
          obtain ⟨v', hv⟩ := ha.1 f _ sem hf (congrArg some (Fin.ext h2.symm)) s.trace vs
          rw [hsem] at hv
          injection hv with hv1 hv2
          subst hv1
          exact ⟨fun _ _ => rfl, fun _ _ => rfl, rfl, by simp⟩
      · exact absurd h2 (by decide)
    exact ⟨fun h => ⟨by simp [Res.abrupt], main h⟩, fun h => ⟨by simp, (main h).toGlob⟩⟩
  | @fnExtX f attr sem vs s evs k hf hsem =>
    intro hs
    have main : F f = 0 → False := by
      intro h0
      obtain ⟨fn, h1, h2⟩ := hF f h0
      rw [hf] at h1
      injection h1 with h1
      subst h1
      rcases h2 with h2 | h2
      · cases attr with
        | none => exact absurd h2 (by decide)
        | some a =>
          obtain ⟨v', hv⟩ := ha.1 f _ sem hf (congrArg some (Fin.ext h2.symm)) s.trace vs
          rw [hsem] at hv
          injection hv with hv1 hv2
          cases hv2
      · exact absurd h2 (by decide)
    exact ⟨fun h => (main h).elim, fun h => (main h).elim⟩
  | fnInternal hf =>
    intro hs
    exact ⟨fun _ => ⟨by simp [Res.abrupt], sameObs_refl _⟩, fun _ => ⟨by simp, globObs_refl _⟩⟩
  | @loopNext x v b s i v' s' r1 s1 r t hn hb hr hl ih1 ih2 =>
    intro hs
    have := nextItem_noGens hs hn
    subst this
    have hs1 : NoGens (setVar M.isGlobal s' x i) := by unfold NoGens; rw [setVar_gens]; exact hs
    have i1 := ih1 hs1
    have i2 := ih2 (key hb hs1)
    simp only [formStat, formFstat, p0, Nat.max_eq_zero_iff] at *
    refine ⟨fun ⟨h1, h2⟩ => ?_, fun ⟨h1, h2⟩ => ?_⟩
    · exact ⟨(i2.1 ⟨h1, h2⟩).1, ((sameObs_set_expr h1 _ _).trans (i1.1 h2).2).trans (i2.1 ⟨h1, h2⟩).2⟩
    · exact ⟨(i2.2 ⟨h1, h2⟩).1, ((globObs_set h1 _ _).trans (i1.2 h2).2).trans (i2.2 ⟨h1, h2⟩).2⟩
  | @loopB x v b s i v' s' t hn hb ih1 =>
    intro hs
    have := nextItem_noGens hs hn
    subst this
    have hs1 : NoGens (setVar M.isGlobal s' x i) := by unfold NoGens; rw [setVar_gens]; exact hs
    have i1 := ih1 hs1
    simp only [formStat, formFstat, p0, Nat.max_eq_zero_iff, Res.abrupt] at *
    refine ⟨fun ⟨h1, h2⟩ => ?_, fun ⟨h1, h2⟩ => ?_⟩
    · exact absurd trivial (i1.1 h2).1
    · exact ⟨by simp, (globObs_set h1 _ _).trans (i1.2 h2).2⟩
  | @loopR x v b s i v' s' r t hn hb hr ih1 =>
    intro hs
    have := nextItem_noGens hs hn
    subst this
    have hs1 : NoGens (setVar M.isGlobal s' x i) := by unfold NoGens; rw [setVar_gens]; exact hs
    have i1 := ih1 hs1
    simp only [formStat, formFstat, p0, Nat.max_eq_zero_iff] at *
    refine ⟨fun ⟨h1, h2⟩ => ?_, fun ⟨h1, h2⟩ => ?_⟩
    · exact ⟨(i1.1 h2).1, (sameObs_set_expr h1 _ _).trans (i1.1 h2).2⟩
    · exact ⟨(i1.2 h2).1, (globObs_set h1 _ _).trans (i1.2 h2).2⟩
  | @assign x a s v s1 hx ih =>
    intro hs
    have i1 := ih hs
    simp only [formStat, formFstat, stat, fstat, p0, Nat.max_eq_zero_iff] at *
    refine ⟨fun ⟨h1, h2⟩ => ⟨by simp [Res.abrupt], ?_⟩, fun ⟨h1, h2⟩ => ⟨by simp, ?_⟩⟩
    · exact (i1.1 h2).2.trans (sameObs_set_expr h1 _ _)
    · exact (i1.2 h2).2.trans (globObs_set h1 _ _)
  | @countNext x i d j c s r1 s1 r t hn hb hr hl ih1 ih2 =>
    intro hs
    have hs1 : NoGens (setVar M.isGlobal s x (.int i)) := by unfold NoGens; rw [setVar_gens]; exact hs
    have i1 := ih1 hs1
    have i2 := ih2 (key hb hs1)
    simp only [formStat, formFstat, p0, Nat.max_eq_zero_iff] at *
    refine ⟨fun ⟨h1, h2⟩ => ?_, fun ⟨h1, h2⟩ => ?_⟩
    · exact ⟨(i2.1 ⟨h1, h2⟩).1, ((sameObs_set_expr h1 _ _).trans (i1.1 h2).2).trans (i2.1 ⟨h1, h2⟩).2⟩
    · exact ⟨(i2.2 ⟨h1, h2⟩).1, ((globObs_set h1 _ _).trans (i1.2 h2).2).trans (i2.2 ⟨h1, h2⟩).2⟩
  | @countB x i d j c s t hn hb ih1 =>
    intro hs
    have hs1 : NoGens (setVar M.isGlobal s x (.int i)) := by unfold NoGens; rw [setVar_gens]; exact hs
    have i1 := ih1 hs1
    simp only [formStat, formFstat, p0, Nat.max_eq_zero_iff, Res.abrupt] at *
    refine ⟨fun ⟨h1, h2⟩ => ?_, fun ⟨h1, h2⟩ => ?_⟩
    · exact absurd trivial (i1.1 h2).1
    · exact ⟨by simp, (globObs_set h1 _ _).trans (i1.2 h2).2⟩
  | @countR x i d j c s r t hn hb hr ih1 =>
    intro hs
    have hs1 : NoGens (setVar M.isGlobal s x (.int i)) := by unfold NoGens; rw [setVar_gens]; exact hs
    have i1 := ih1 hs1
    simp only [formStat, formFstat, p0, Nat.max_eq_zero_iff] at *
    refine ⟨fun ⟨h1, h2⟩ => ?_, fun ⟨h1, h2⟩ => ?_⟩
    · exact ⟨(i1.1 h2).1, (sameObs_set_expr h1 _ _).trans (i1.1 h2).2⟩
    · exact ⟨(i1.2 h2).1, (globObs_set h1 _ _).trans (i1.2 h2).2⟩
  | catchYes | catchNo => intro hs; exact ⟨fun h => absurd h n2, fun h => absurd h n2⟩
  | _ =>
    intro hs
    simp only [formStat, formFstat, stat, fstat, p0, Nat.max_eq_zero_iff, Res.abrupt] at * <;>
    grind [SameObs.trans, GlobObs.trans, sameObs_refl, globObs_refl]

end Codon.Dce
