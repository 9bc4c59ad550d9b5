import Verif.Scope.Run

/-!
# Name resolution: the simulation of `if`, `try` and loops
-/

namespace Verif.Scope

section
variable {V : Type} {T : Name → St} {τ : Name → Ctx} {Λ : Name → List Lop} {cur : List Blk}
  {U c LB : List Nat} {loc : Name → Bool} {l : Name → Option Bnd} {st : Name → St}
  {gl : Name → V} {n : Nat} {σC : CS V} {σP : PS V}

theorem two_just {x : Name} {Λ : List Lop} {st T : St} {s₁ s₂ : Stmt V} {b₁ b₂ : Nat}
    {U₁ U₂ : List Nat} {k₁ k₂ : Bool} {v v' : NS V} {l l' : Option Bnd} {F : List Grp}
    (v1 : Vis x Λ (cur ++ [⟨b₁, true, k₁⟩]) U₁ s₁ st T)
    (v2 : Vis x Λ (cur ++ [⟨b₂, true, k₂⟩]) U₂ s₂ (visit x (cur ++ [⟨b₁, true, k₁⟩]) s₁ st) T)
    (h : Just Λ (grp st.items) (ids cur) l)
    (hc : Chg F LB c (sites x s₁ ++ sites x s₂) v l v' l') :
    Just Λ (grp (visit x (cur ++ [⟨b₂, true, k₂⟩]) s₂
      (visit x (cur ++ [⟨b₁, true, k₁⟩]) s₁ st)).items) (ids cur) l' := by
  refine h.after (P := fun c => ids cur <+: c ∧ c ≠ ids cur)
    ((v1.res.fut.mono fun c hc => strict_ext hc).trans
      (v2.res.fut.mono fun c hc => strict_ext hc)) (fun c hc => hc) hc ?_ ?_
  · intro i hi hm
    rcases List.mem_append.1 hi with hi | hi
    · exact v1.sfr i hi hm
    · exact v2.sfr i hi (v1.res.keep _ hm)
  · intro i hi
    rcases List.mem_append.1 hi with hi | hi
    · exact v2.res.keep _ (v1.res.has i hi)
    · exact v2.res.has i hi

theorem Pt.second {x : Name} {Λ : List Lop} {st T : St} {s₁ s₂ : Stmt V} {b₁ b₂ : Nat}
    {τ : Ctx} {v v' : NS V} {l l' : Option Bnd} (hT : Fin T) (hG : Good cur U st) (hb : b₁ ∉ U)
    (hne : b₁ ≠ b₂)
    (v1 : Vis x Λ (cur ++ [⟨b₁, true, false⟩]) (b₁ :: U) s₁ st T)
    (v2 : Vis x Λ (cur ++ [⟨b₂, true, false⟩]) (b₂ :: (b₁ :: blocks s₁ ++ U)) s₂
      (visit x (cur ++ [⟨b₁, true, false⟩]) s₁ st) T)
    (h : Pt LB Λ cur (ids cur) τ st T v l)
    (hc : Chg (grp T.items) LB (ids cur) (sites x s₁) v l v' l') :
    Pt LB Λ cur (ids cur) (ctxAfter x T s₁ (enterCtx T b₁ τ))
      (visit x (cur ++ [⟨b₁, true, false⟩]) s₁ st) T v' l' := by
  refine h.over v1 hc (ctx_first hT hG hb v1 v2.at0.fut ?_ h.ctx)
  intro c hc hm
  rcases hc _ hm with h | h
  · rw [ids_concat, List.mem_append, List.mem_singleton] at h
    rcases h with h | h
    · exact hb (hG.inv.curSub _ h)
    · exact hne h
  · exact h (by simp)

theorem sim_ite (hW : ∀ x, Whole (T x) (loc x)) (ih : SimAt gl loc T LB n) {k : Bool}
    {rs : List Rd} {p : List V → Option Bool} {b₁ b₂ : Nat} {s₁ s₂ : Stmt V}
    (h : Here T LB Λ cur U τ (.ite k rs p b₁ s₁ b₂ s₂) st l σC σP) :
    Sim (fun x => NoLoop (grp (T x).items) LB)
      (runC gl (n + 1) (elab_ T (.ite k rs p b₁ s₁ b₂ s₂) τ) σC)
      (runP loc gl (n + 1) (.ite k rs p b₁ s₁ b₂ s₂) σP)
      (Post T LB Λ cur (.ite k rs p b₁ s₁ b₂ s₂) st l σC σP) := by
  have hk : k = true := (h.vis 0).ite.2.2.2
  subst hk
  have hm := (runP_out loc gl (n + 1)).1 (.ite true rs p b₁ s₁ b₂ s₂) σP
  have hlb := h.lb
  simp only [loopBlocks] at hlb
  have hbU := (h.vis 0).bU
  have hbn := (h.vis 0).bn
  simp only [blocks] at hbU hbn
  have hb1 : b₁ ∉ U := hbU b₁ (by simp)
  have hb2 : b₂ ∉ U := hbU b₂ (by simp)
  rw [List.cons_append, List.nodup_cons, List.nodup_append, List.nodup_cons] at hbn
  obtain ⟨n1, n2, ⟨n3, n4⟩, n5⟩ := hbn
  have hne : b₁ ≠ b₂ := fun h => n1 (by simp [h])
  have hc1 : b₁ ∉ ids cur := fun hm => hb1 ((h.vis 0).good.inv.curSub b₁ hm)
  have hc2 : b₂ ∉ ids cur := fun hm => hb2 ((h.vis 0).good.inv.curSub b₂ hm)
  have hbL : ∀ x, ∀ L ∈ Λ x, ∀ b ∈ b₁ :: blocks s₁ ++ b₂ :: blocks s₂, b ∈ LB :=
    fun x L hL b hb => h.lop x L hL b ((h.vis x).lb L hL b (by simpa [blocks] using hb))
  have hR := fun x => (h.pt x).reads (hW x) rs (h.vis x).ite.1
  have hJ : ∀ (σC' : CS V) (σP' : PS V) (l' : Name → Option Bnd),
      (∀ x, Chg (grp (T x).items) LB (ids cur) (sites x s₁ ++ sites x s₂) (ns σP σC x) (l x)
        (ns σP' σC' x) (l' x)) → ∀ x, Just (Λ x)
      (grp (visit x cur (.ite true rs p b₁ s₁ b₂ s₂) (st x)).items) (ids cur) (l' x) := by
    intro σC' σP' l' hc x
    obtain ⟨v0, v1, v2, _⟩ := (h.vis x).ite
    exact two_just v1 v2 (hR x).just (hc x)
  rw [elab_, runC]
  rcases ev_sim gl hW h.lop σC σP rs p (fun x => (h.vis x).ite.1) h.pt with e | ⟨x, e, hx⟩
  · rw [e, runP]
    cases hev : evP loc gl σP rs p with
    | error e => exact .inl ⟨h.out, rfl, l, fun x => .refl _, fun hn => absurd hn (evP_norm hev)⟩
    | ok t =>
      cases t with
      | true =>
        dsimp only
        refine (ih s₁ (cur ++ [⟨b₁, true, false⟩]) (b₁ :: U) Λ
          (fun x => enterCtx (T x) b₁ (τ x)) (fun x => visitReads x cur rs (st x)) l
          (enterC b₁ (pro T b₁) σC) σP
          ⟨fun x => (h.vis x).ite.2.1, fun x => ?_, h.lop,
            fun u hu => hlb u (List.mem_append_left _ hu), h.out⟩).imp ?_
        · rw [ns_enter]
          exact (hR x).enter (hW x) (h.vis x).ite.1.res.good hb1 (h.vis x).ite.2.1.at0.fut
            fun L hL => hbL x L hL b₁ (by simp)
        · rintro ⟨l', k1, k2⟩
          have hc : ∀ x, Chg (grp (T x).items) LB (ids cur) (sites x s₁ ++ sites x s₂) (ns σP σC x)
              (l x) (ns (runP loc gl n s₁ σP).1 (runC gl n (elab_ T s₁ fun x => enterCtx (T x) b₁ (τ x))
                (enterC b₁ (pro T b₁) σC)).1 x) (l' x) := by
            intro x
            have := k1 x
            rw [ns_enter, ids_concat] at this
            exact (this.leave hc1).mono fun i hi => List.mem_append_left _ hi
          exact ⟨l', hc, fun _ => hJ _ _ l' hc⟩
      | false =>
        dsimp only
        have hS : ∀ x, Pt LB (Λ x) cur (ids cur) (ctxAfter x (T x) s₁ (enterCtx (T x) b₁ (τ x)))
            (visit x (cur ++ [⟨b₁, true, false⟩]) s₁ (visitReads x cur rs (st x))) (T x)
            (ns σP σC x) (l x) := fun x =>
          (hR x).second (hW x).fin (h.vis x).ite.1.res.good hb1 hne (h.vis x).ite.2.1
            (h.vis x).ite.2.2.1 (.refl _)
        have hb2' : b₂ ∉ b₁ :: blocks s₁ ++ U := by
          intro hm
          simp only [List.cons_append, List.mem_cons, List.mem_append] at hm
          rcases hm with rfl | hm | hm
          · exact hne rfl
          · exact n5 _ hm b₂ (by simp) rfl
          · exact hb2 hm
        refine (ih s₂ (cur ++ [⟨b₂, true, false⟩]) (b₂ :: (b₁ :: blocks s₁ ++ U)) Λ
          (fun x => enterCtx (T x) b₂ (ctxAfter x (T x) s₁ (enterCtx (T x) b₁ (τ x))))
          (fun x => visit x (cur ++ [⟨b₁, true, false⟩]) s₁ (visitReads x cur rs (st x))) l
          (enterC b₂ (pro T b₂) σC) σP
          ⟨fun x => (h.vis x).ite.2.2.1, fun x => ?_, h.lop,
            fun u hu => hlb u (List.mem_append_right _ hu), h.out⟩).imp ?_
        · rw [ns_enter]
          exact (hS x).enter (hW x)
            ((h.vis x).ite.2.1.res.enter (h.vis x).ite.1.res.good).good hb2'
            (h.vis x).ite.2.2.1.at0.fut fun L hL => hbL x L hL b₂ (by simp)
        · rintro ⟨l', k1, k2⟩
          have hc : ∀ x, Chg (grp (T x).items) LB (ids cur) (sites x s₁ ++ sites x s₂) (ns σP σC x)
              (l x) (ns (runP loc gl n s₂ σP).1 (runC gl n (elab_ T s₂ fun x =>
                enterCtx (T x) b₂ (ctxAfter x (T x) s₁ (enterCtx (T x) b₁ (τ x))))
                (enterC b₂ (pro T b₂) σC)).1 x) (l' x) := by
            intro x
            have := k1 x
            rw [ns_enter, ids_concat] at this
            exact (this.leave hc2).mono fun i hi => List.mem_append_right _ hi
          exact ⟨l', hc, fun _ => hJ _ _ l' hc⟩
  · rw [e]
    exact .inr ⟨x, rfl, hx, by rw [h.out]; exact hm⟩

theorem sim_try (hW : ∀ x, Whole (T x) (loc x)) (ih : SimAt gl loc T LB n)
    {b₁ b₂ : Nat} {s₁ s₂ : Stmt V}
    (h : Here T LB Λ cur U τ (.try_ b₁ s₁ b₂ s₂) st l σC σP) :
    Sim (fun x => NoLoop (grp (T x).items) LB)
      (runC gl (n + 1) (elab_ T (.try_ b₁ s₁ b₂ s₂) τ) σC)
      (runP loc gl (n + 1) (.try_ b₁ s₁ b₂ s₂) σP)
      (Post T LB Λ cur (.try_ b₁ s₁ b₂ s₂) st l σC σP) := by
  have hlb := h.lb
  simp only [loopBlocks] at hlb
  have hbU := (h.vis 0).bU
  have hbn := (h.vis 0).bn
  simp only [blocks] at hbU hbn
  have hb1 : b₁ ∉ U := hbU b₁ (by simp)
  have hb2 : b₂ ∉ U := hbU b₂ (by simp)
  rw [List.cons_append, List.nodup_cons, List.nodup_append, List.nodup_cons] at hbn
  obtain ⟨n1, n2, ⟨n3, n4⟩, n5⟩ := hbn
  have hne : b₁ ≠ b₂ := fun h => n1 (by simp [h])
  have hc1 : b₁ ∉ ids cur := fun hm => hb1 ((h.vis 0).good.inv.curSub b₁ hm)
  have hc2 : b₂ ∉ ids cur := fun hm => hb2 ((h.vis 0).good.inv.curSub b₂ hm)
  have hbL : ∀ x, ∀ L ∈ Λ x, ∀ b ∈ b₁ :: blocks s₁ ++ b₂ :: blocks s₂, b ∈ LB :=
    fun x L hL b hb => h.lop x L hL b ((h.vis x).lb L hL b (by simpa [blocks] using hb))
  have hJ : ∀ (σC' : CS V) (σP' : PS V) (l' : Name → Option Bnd),
      (∀ x, Chg (grp (T x).items) LB (ids cur) (sites x s₁ ++ sites x s₂) (ns σP σC x) (l x)
        (ns σP' σC' x) (l' x)) → ∀ x, Just (Λ x)
      (grp (visit x cur (.try_ b₁ s₁ b₂ s₂) (st x)).items) (ids cur) (l' x) := by
    intro σC' σP' l' hc x
    obtain ⟨v1, v2⟩ := (h.vis x).try_
    exact two_just v1 v2 (h.pt x).just (hc x)
  have h1 := ih s₁ (cur ++ [⟨b₁, true, false⟩]) (b₁ :: U) Λ
    (fun x => enterCtx (T x) b₁ (τ x)) st l (enterC b₁ (pro T b₁) σC) σP
    ⟨fun x => (h.vis x).try_.1, fun x => by
      rw [ns_enter]
      exact (h.pt x).enter (hW x) (h.vis x).good hb1 (h.vis x).try_.1.at0.fut
        fun L hL => hbL x L hL b₁ (by simp), h.lop,
      fun u hu => hlb u (List.mem_append_left _ hu), h.out⟩
  rw [elab_, runC, runP]
  rcases hrc : runC gl n (elab_ T s₁ fun x => enterCtx (T x) b₁ (τ x)) (enterC b₁ (pro T b₁) σC)
    with ⟨σC', oC⟩
  rcases hrp : runP loc gl n s₁ σP with ⟨σP', oP⟩
  rw [hrc, hrp] at h1
  rcases h1 with ⟨e1, e2, l', e3, e4⟩ | ⟨x, e1, e2, e3⟩
  · simp only at e1 e2 e3 e4
    subst e2
    have hc : ∀ x, Chg (grp (T x).items) LB (ids cur) (sites x s₁) (ns σP σC x)
        (l x) (ns σP' σC' x) (l' x) := by
      intro x
      have := e3 x
      rw [ns_enter, ids_concat] at this
      exact this.leave hc1
    by_cases hn : oC = .exc
    · subst hn
      have hS : ∀ x, Pt LB (Λ x) cur (ids cur) (ctxAfter x (T x) s₁ (enterCtx (T x) b₁ (τ x)))
          (visit x (cur ++ [⟨b₁, true, false⟩]) s₁ (st x)) (T x) (ns σP' σC' x) (l' x) := fun x =>
        (h.pt x).second (hW x).fin (h.vis x).good hb1 hne (h.vis x).try_.1 (h.vis x).try_.2 (hc x)
      have hb2' : b₂ ∉ b₁ :: blocks s₁ ++ U := by
        intro hm
        simp only [List.cons_append, List.mem_cons, List.mem_append] at hm
        rcases hm with rfl | hm | hm
        · exact hne rfl
        · exact n5 _ hm b₂ (by simp) rfl
        · exact hb2 hm
      have h2 := ih s₂ (cur ++ [⟨b₂, true, false⟩]) (b₂ :: (b₁ :: blocks s₁ ++ U)) Λ
        (fun x => enterCtx (T x) b₂ (ctxAfter x (T x) s₁ (enterCtx (T x) b₁ (τ x))))
        (fun x => visit x (cur ++ [⟨b₁, true, false⟩]) s₁ (st x)) l'
        (enterC b₂ (pro T b₂) σC') σP'
        ⟨fun x => (h.vis x).try_.2, fun x => by
          rw [ns_enter]
          exact (hS x).enter (hW x) ((h.vis x).try_.1.res.enter (h.vis x).good).good hb2'
            (h.vis x).try_.2.at0.fut fun L hL => hbL x L hL b₂ (by simp), h.lop,
          fun u hu => hlb u (List.mem_append_right _ hu), e1⟩
      dsimp only
      refine h2.imp ?_
      rintro ⟨l'', k1, k2⟩
      have hc' : ∀ x, Chg (grp (T x).items) LB (ids cur) (sites x s₁ ++ sites x s₂) (ns σP σC x)
          (l x) (ns (runP loc gl n s₂ σP').1 (runC gl n (elab_ T s₂ fun x =>
            enterCtx (T x) b₂ (ctxAfter x (T x) s₁ (enterCtx (T x) b₁ (τ x))))
            (enterC b₂ (pro T b₂) σC')).1 x) (l'' x) := by
        intro x
        have := k1 x
        rw [ns_enter, ids_concat] at this
        exact ((hc x).mono fun i hi => List.mem_append_left _ hi).trans
          ((this.leave hc2).mono fun i hi => List.mem_append_right _ hi)
      exact ⟨l'', hc', fun _ => hJ _ _ l'' hc'⟩
    · have hc' := fun x => (hc x).mono (S' := sites x s₁ ++ sites x s₂)
        fun i hi => List.mem_append_left _ hi
      have hfin : Sim (fun x => NoLoop (grp (T x).items) LB) (σC', oC) (σP', oC)
          (Post T LB Λ cur (.try_ b₁ s₁ b₂ s₂) st l σC σP) :=
        .inl ⟨e1, rfl, l', hc', fun _ => hJ _ _ l' hc'⟩
      cases oC <;> first | exact hfin | exact absurd rfl hn
  · simp only at e1 e3
    subst e1
    refine .inr ⟨x, rfl, e2, ?_⟩
    dsimp only
    split
    · rename_i σ he
      cases he
      exact e3.trans ((runP_out loc gl n).1 s₂ _)
    · exact e3

end

end Verif.Scope
