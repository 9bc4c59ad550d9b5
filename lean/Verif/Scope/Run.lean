import Verif.Scope.Sim

/-!
# Name resolution: the simulation
-/

namespace Verif.Scope

section
variable {V : Type} {T : Name → St} {τ : Name → Ctx} {Λ : Name → List Lop} {cur : List Blk}
  {U c LB : List Nat} {loc : Name → Bool} {l : Name → Option Bnd} {st : Name → St}

theorem evP_norm {W : Type} {gl : Name → V} {σ : PS V} {rs : List Rd} {f : List V → Option W}
    {e : Out V} (h : evP loc gl σ rs f = .error e) : e ≠ .norm := by
  have hr : ∀ (rs : List Rd) e, readsP loc gl σ rs = .error e → e ≠ .norm := by
    intro rs
    induction rs with
    | nil => intro e h; cases h
    | cons r rs ih =>
      intro e h
      rw [readsP] at h
      split at h
      · rename_i e' he
        cases h
        rw [readP] at he
        split at he
        · split at he
          · cases he; simp
          · cases he
        · cases he
      · split at h
        · rename_i e' he
          cases h
          exact ih _ he
        · cases h
  rw [evP] at h
  split at h
  · rename_i e' he
    cases h
    exact hr rs _ he
  · split at h
    · cases h; simp
    · cases h

theorem ctx_first {P : List Nat → Prop} {x : Name} {Λ : List Lop} {st T : St} {s : Stmt V}
    {b : Nat} {k : Bool} {τ : Ctx} (hT : Fin T) (hG : Good cur U st) (hb : b ∉ U)
    (v1 : Vis x Λ (cur ++ [⟨b, true, k⟩]) (b :: U) s st T)
    (hf : Fut P (grp (visit x (cur ++ [⟨b, true, k⟩]) s st).items) (grp T.items))
    (hP : ∀ c, P c → b ∉ c) (h : CtxOK (grp T.items) (grp st.items) (ids cur) τ) :
    CtxOK (grp T.items) (grp (visit x (cur ++ [⟨b, true, k⟩]) s st).items) (ids cur)
      (ctxAfter x T s (enterCtx T b τ)) := by
  have h1 := h.enter hT hG.inv hb v1.at0.fut
  rw [← ids_concat cur b true k] at h1
  have h2 := ctx_visit hT s v1 h1
  rw [ids_concat] at h2
  exact h2.leave hf hP

theorem Pt.enter {P : List Nat → Prop} {x : Name} {Λ : List Lop} {st : St} {b : Nat} {k : Bool}
    {τ : Ctx} {v : NS V} {l : Option Bnd} {lo : Bool} (hW : Whole (T x) lo) (hG : Good cur U st)
    (hb : b ∉ U) (hf : Fut P (grp st.items) (grp (T x).items)) (hΛ : ∀ L ∈ Λ, b ∈ LB)
    (h : Pt LB Λ cur (ids cur) τ st (T x) v l) :
    Pt LB Λ (cur ++ [⟨b, true, k⟩]) (ids (cur ++ [⟨b, true, k⟩])) (enterCtx (T x) b τ) st (T x)
      (enterN b (pro T b x) v) l := by
  refine ⟨?_, ?_, ?_, fun _ C _ h => h⟩
  · rw [ids_concat]
    exact h.dyn.enter (pro_iff x hW.fin b) hG.inv hb hf hΛ
  · rw [ids_concat]
    exact h.just.enter hG.inv hb
  · rw [ids_concat]
    exact h.ctx.enter hW.fin hG.inv hb hf

/-- Past a block that was executed in part or not at all. -/
theorem Pt.over {x : Name} {Λ : List Lop} {st T : St} {s : Stmt V} {b : Nat} {k : Bool}
    {τ τ' : Ctx} {v v' : NS V} {l l' : Option Bnd}
    (v1 : Vis x Λ (cur ++ [⟨b, true, k⟩]) (b :: U) s st T)
    (h : Pt LB Λ cur (ids cur) τ st T v l)
    (hc : Chg (grp T.items) LB (ids cur) (sites x s) v l v' l')
    (hx : CtxOK (grp T.items) (grp (visit x (cur ++ [⟨b, true, k⟩]) s st).items) (ids cur) τ') :
    Pt LB Λ cur (ids cur) τ' (visit x (cur ++ [⟨b, true, k⟩]) s st) T v' l' := by
  refine ⟨h.dyn.chg hc v1.res.keep v1.res.has, ?_, hx, fun _ C _ h => h⟩
  exact h.just.after v1.res.fut (fun c hc => strict_ext hc) hc v1.sfr v1.res.has

/-- The hypotheses of the simulation at a statement. -/
structure Here (T : Name → St) (LB : List Nat) (Λ : Name → List Lop) (cur : List Blk)
    (U : List Nat) (τ : Name → Ctx) (s : Stmt V) (st : Name → St) (l : Name → Option Bnd)
    (σC : CS V) (σP : PS V) : Prop where
  vis : ∀ x, Vis x (Λ x) cur U s (st x) (T x)
  pt : ∀ x, Pt LB (Λ x) cur (ids cur) (τ x) (st x) (T x) (ns σP σC x) (l x)
  lop : ∀ x, ∀ L ∈ Λ x, ∀ u ∈ L.B, u ∈ LB
  lb : ∀ u ∈ loopBlocks s, u ∈ LB
  out : σC.out = σP.out

/-- The simulation, for a number of steps. -/
def SimAt (gl : Name → V) (loc : Name → Bool) (T : Name → St) (LB : List Nat) (n : Nat) : Prop :=
  ∀ (s : Stmt V) (cur : List Blk) (U : List Nat) (Λ : Name → List Lop) (τ : Name → Ctx)
    (st : Name → St) (l : Name → Option Bnd) (σC : CS V) (σP : PS V),
    Here T LB Λ cur U τ s st l σC σP →
    Sim (fun x => NoLoop (grp (T x).items) LB) (runC gl n (elab_ T s τ) σC)
      (runP loc gl n s σP) (Post T LB Λ cur s st l σC σP)

variable {gl : Name → V} {n : Nat} {σC : CS V} {σP : PS V}

theorem sim_out (hW : ∀ x, Whole (T x) (loc x)) {rs : List Rd} {f : List V → Option V}
    (h : Here T LB Λ cur U τ (.out rs f) st l σC σP) :
    Sim (fun x => NoLoop (grp (T x).items) LB) (runC gl (n + 1) (elab_ T (.out rs f) τ) σC)
      (runP loc gl (n + 1) (.out rs f) σP) (Post T LB Λ cur (.out rs f) st l σC σP) := by
  have hJ : ∀ x, Just (Λ x) (grp (visit x cur (.out rs f) (st x)).items) (ids cur) (l x) := fun x =>
    ((h.pt x).reads (hW x) rs (h.vis x).out).just
  have hm := (runP_out loc gl (n + 1)).1 (.out rs f) σP
  rw [elab_, runC]
  rcases ev_sim gl hW h.lop σC σP rs f (fun x => (h.vis x).out) h.pt with e | ⟨x, e, hx⟩
  · rw [e, runP]
    cases evP loc gl σP rs f with
    | error e => exact .inl ⟨h.out, rfl, l, fun x => .refl _, fun _ => hJ⟩
    | ok a =>
      refine .inl ⟨by simp [h.out], rfl, l, fun x => ?_, fun _ => hJ⟩
      exact .inl ⟨rfl, rfl, rfl, fun _ _ _ => rfl⟩
  · rw [e]
    exact .inr ⟨x, rfl, hx, by rw [h.out]; exact hm⟩

theorem sim_ret (hW : ∀ x, Whole (T x) (loc x)) {rs : List Rd} {f : List V → Option V}
    (h : Here T LB Λ cur U τ (.ret rs f) st l σC σP) :
    Sim (fun x => NoLoop (grp (T x).items) LB) (runC gl (n + 1) (elab_ T (.ret rs f) τ) σC)
      (runP loc gl (n + 1) (.ret rs f) σP) (Post T LB Λ cur (.ret rs f) st l σC σP) := by
  have hJ : ∀ x, Just (Λ x) (grp (visit x cur (.ret rs f) (st x)).items) (ids cur) (l x) := fun x =>
    ((h.pt x).reads (hW x) rs (h.vis x).ret).just
  have hm := (runP_out loc gl (n + 1)).1 (.ret rs f) σP
  rw [elab_, runC]
  rcases ev_sim gl hW h.lop σC σP rs f (fun x => (h.vis x).ret) h.pt with e | ⟨x, e, hx⟩
  · rw [e, runP]
    cases evP loc gl σP rs f with
    | error e => exact .inl ⟨h.out, rfl, l, fun x => .refl _, fun _ => hJ⟩
    | ok a => exact .inl ⟨h.out, rfl, l, fun x => .refl _, fun _ => hJ⟩
  · rw [e]
    exact .inr ⟨x, rfl, hx, by rw [h.out]; exact hm⟩

theorem Vis.asg {x : Name} {Λ : List Lop} {st T : St} {i : Nat} {y : Name} {rs : List Rd}
    {f : List V → Option V} (h : Vis x Λ cur U (.asg i y rs f) st T) : VisR x Λ cur U rs st T := by
  by_cases hy : y = x
  · subst hy; exact h.asg_eq.1
  · exact h.asg_ne hy

theorem sim_asg (hW : ∀ x, Whole (T x) (loc x)) {i : Nat} {y : Name} {rs : List Rd}
    {f : List V → Option V} (h : Here T LB Λ cur U τ (.asg i y rs f) st l σC σP) :
    Sim (fun x => NoLoop (grp (T x).items) LB) (runC gl (n + 1) (elab_ T (.asg i y rs f) τ) σC)
      (runP loc gl (n + 1) (.asg i y rs f) σP) (Post T LB Λ cur (.asg i y rs f) st l σC σP) := by
  have hm := (runP_out loc gl (n + 1)).1 (.asg i y rs f) σP
  have hR := fun x => (h.pt x).reads (hW x) rs (h.vis x).asg
  rw [elab_, runC]
  rcases ev_sim gl hW h.lop σC σP rs f (fun x => (h.vis x).asg) h.pt with e | ⟨x, e, hx⟩
  · rw [e, runP]
    cases hev : evP loc gl σP rs f with
    | error e => exact .inl ⟨h.out, rfl, l, fun x => .refl _, fun hn => absurd hn (evP_norm hev)⟩
    | ok a =>
      obtain ⟨v1, v2, v3, v4⟩ := (h.vis y).asg_eq
      have hg := (visitAdd_spec i v1.res.good (visitAdd_cap v4) v2).1
      have hf := v3.fut
      rw [hg] at hf
      obtain ⟨u, hb, hu⟩ := bind_one (hW y).fin (hR y).ctx hf y a σC
      dsimp only
      rw [hb]
      refine .inl ⟨h.out, rfl, fun x => if x = y then some (.site i) else l x, ?_, ?_⟩
      · intro x
        by_cases hx : x = y
        · subst hx
          dsimp only
          rw [if_pos rfl, ns_bind_eq, sites, if_pos rfl]
          exact chg_bind a (hR x).dyn hu
        · dsimp only
          rw [if_neg hx, ns_bind_ne σP σC _ u a hx]
          exact .refl _
      · intro _ x
        by_cases hx : x = y
        · subst hx
          dsimp only
          rw [if_pos rfl, visit]
          rw [if_pos rfl, hg]
          exact Just.bind v2
        · dsimp only
          rw [if_neg hx, visit]
          rw [if_neg (fun h => hx h.symm)]
          exact (hR x).just
  · rw [e]
    exact .inr ⟨x, rfl, hx, by rw [h.out]; exact hm⟩

theorem sim_seq (hW : ∀ x, Whole (T x) (loc x)) (ih : SimAt gl loc T LB n) {s t : Stmt V}
    (h : Here T LB Λ cur U τ (.seq s t) st l σC σP) :
    Sim (fun x => NoLoop (grp (T x).items) LB) (runC gl (n + 1) (elab_ T (.seq s t) τ) σC)
      (runP loc gl (n + 1) (.seq s t) σP) (Post T LB Λ cur (.seq s t) st l σC σP) := by
  have hlb := h.lb
  simp only [loopBlocks] at hlb
  have h1 := ih s cur U Λ τ st l σC σP ⟨fun x => (h.vis x).seq.1, h.pt, h.lop,
    fun u hu => hlb u (List.mem_append_left _ hu), h.out⟩
  rw [elab_, runC, runP]
  rcases hc : runC gl n (elab_ T s τ) σC with ⟨σC', oC⟩
  rcases hp : runP loc gl n s σP with ⟨σP', oP⟩
  rw [hc, hp] at h1
  rcases h1 with ⟨e1, e2, l', e3, e4⟩ | ⟨x, e1, e2, e3⟩
  · simp only at e1 e2 e3 e4
    subst e2
    by_cases hn : oC = .norm
    · subst hn
      have h2 := ih t cur (blocks s ++ U) Λ (fun x => ctxAfter x (T x) s (τ x))
        (fun x => visit x cur s (st x)) l' σC' σP' ⟨fun x => (h.vis x).seq.2, fun x => ?_, h.lop,
          fun u hu => hlb u (List.mem_append_right _ hu), e1⟩
      · dsimp only
        refine h2.imp ?_
        rintro ⟨l'', k1, k2⟩
        refine ⟨l'', fun x => ?_, k2⟩
        rw [sites]
        exact ((e3 x).mono fun i hi => List.mem_append_left _ hi).trans
          ((k1 x).mono fun i hi => List.mem_append_right _ hi)
      · have v1 := (h.vis x).seq.1
        exact ⟨(h.pt x).dyn.chg (e3 x) v1.res.keep v1.res.has, e4 rfl x,
          ctx_visit (hW x).fin s v1 (h.pt x).ctx, fun _ C _ h => h⟩
    · have hfin : Sim (fun x => NoLoop (grp (T x).items) LB) (σC', oC) (σP', oC)
          (Post T LB Λ cur (.seq s t) st l σC σP) := by
        refine .inl ⟨e1, rfl, l', fun x => ?_, fun h => absurd h hn⟩
        rw [sites]
        exact (e3 x).mono fun i hi => List.mem_append_left _ hi
      cases oC <;> first | exact hfin | exact absurd rfl hn
  · simp only at e1 e3
    subst e1
    refine .inr ⟨x, rfl, e2, ?_⟩
    dsimp only
    split
    · rename_i σ he
      cases he
      exact e3.trans ((runP_out loc gl n).1 t _)
    · exact e3

end

end Verif.Scope
