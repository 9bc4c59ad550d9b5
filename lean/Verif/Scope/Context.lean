import Verif.Scope.Loops

/-!
# Name resolution: the declarations the type checker finds
-/

namespace Verif.Scope

/-- The final state of the visitor. -/
structure Fin (T : St) : Prop where
  tabs : Tabs T
  inv : ∃ c W, Inv (grp T.items) c W

theorem Fin.nodup {T : St} (h : Fin T) : (allG (grp T.items)).Nodup := by
  obtain ⟨_, _, h⟩ := h.inv; exact h.nodup

/-- The declarations found at a point: the variable of the most recent group, and the
control variable. -/
structure CtxOK (F gs : List Grp) (cur : List Nat) (τ : Ctx) : Prop where
  var : ∀ g q, gs = g :: q → ∀ b ∈ g.all, τ.var = some (rep F b)
  varNil : gs = [] → ∀ C, suiteOf F = some C → C ∈ cur → τ.var = some (.suite C)
  varNone : gs = [] → (∀ C, suiteOf F = some C → C ∉ cur) → τ.var = none
  used : ∀ C, suiteOf F = some C → C ∈ cur → τ.used = some C

theorem hit_front {c : List Nat} {gs gs' : List Grp} (h : Step c gs gs')
    (honly : ∀ i, Bnd.site i ∈ allG gs' → Bnd.site i ∈ allG gs) :
    ∃ g q g' q', gs = g :: q ∧ gs' = g' :: q' ∧ ∀ b ∈ g.all, b ∈ g'.all := by
  cases h with
  | add i _ hi => exact absurd (honly i (by rw [allG_cons]; simp [Grp.all])) hi
  | hitD gs₁ g gs₂ _ _ _ =>
    cases gs₁ with
    | nil =>
      refine ⟨g, gs₂, _, gs₂, rfl, rfl, ?_⟩
      intro b hb
      rw [all_merge]; exact List.mem_append_right _ hb
    | cons a p =>
      refine ⟨a, p ++ g :: gs₂, _, gs₂, rfl, rfl, ?_⟩
      intro b hb
      rw [all_merge]
      exact List.mem_append_left _ (mem_allG.2 ⟨a, by simp, hb⟩)
  | hitN _ sc C k hne _ _ _ _ _ _ _ =>
    cases gs with
    | nil => exact absurd rfl hne
    | cons a p =>
      refine ⟨a, p, _, [], rfl, rfl, ?_⟩
      intro b hb
      rw [Grp.all]
      exact List.mem_append_left _ (mem_allG.2 ⟨a, by simp, hb⟩)

theorem CtxOK.hit {P : List Nat → Prop} {F gs gs' : List Grp} {cur c : List Nat} {τ : Ctx}
    (h : CtxOK F gs cur τ) (hs : Step c gs gs')
    (honly : ∀ i, Bnd.site i ∈ allG gs' → Bnd.site i ∈ allG gs) (hf : Fut P gs' F)
    (hn : (allG F).Nodup) : CtxOK F gs' cur τ := by
  obtain ⟨g, q, g', q', rfl, rfl, hsub⟩ := hit_front hs honly
  refine ⟨?_, by simp, by simp, h.used⟩
  intro k r he b hb
  simp only [List.cons.injEq] at he
  obtain ⟨rfl, rfl⟩ := he
  have hl : g.lead ∈ g.all := by simp [Grp.all]
  rw [h.var g q rfl g.lead hl]
  congr 1
  exact (same_fut hf ⟨g', by simp, hsub _ hl, hb⟩).rep hn

theorem CtxOK.bind {P : List Nat → Prop} {T : St} {gs : List Grp} {cur : List Nat} {τ : Ctx}
    {i : Nat} (hT : Fin T) (h : CtxOK (grp T.items) gs cur τ)
    (hf : Fut P (⟨[], .site i, cur, []⟩ :: gs) (grp T.items)) :
    CtxOK (grp T.items) (⟨[], .site i, cur, []⟩ :: gs) cur (bindCtx T i τ) := by
  obtain ⟨c, W, hF⟩ := hT.inv
  have hall : Bnd.site i ∈ allG (grp T.items) :=
    fut_keep hf _ (by rw [allG_cons]; simp [Grp.all])
  have hused : ∀ C, suiteOf (grp T.items) = some C → C ∈ cur → (bindCtx T i τ).used = some C := by
    intro C h1 h2
    rw [bindCtx]
    split <;> exact h.used C h1 h2
  suffices hv : (bindCtx T i τ).var = some (rep (grp T.items) (.site i)) by
    refine ⟨?_, by simp, by simp, hused⟩
    intro g q he b hb
    simp only [List.cons.injEq] at he
    obtain ⟨rfl, rfl⟩ := he
    simp only [Grp.all, List.nil_append, List.mem_singleton] at hb
    subst hb
    exact hv
  obtain ⟨G, hG, hi⟩ := mem_allG.1 hall
  rw [rep_of_mem hF.nodup hG hi]
  by_cases hl : ∃ G' ∈ grp T.items, G'.lead = .site i
  · obtain ⟨G', hG', hl⟩ := hl
    have h1 : rep (grp T.items) (.site i) = .site i := by
      rw [rep_of_mem hF.nodup hG' (by rw [Grp.all, hl]; simp), hl]
    rw [← rep_of_mem hF.nodup hG hi, h1, bindCtx, hT.tabs.attrLead G' hG' i hl]
    simp
  · have hmem : Bnd.site i ∈ G.mem := by
      rw [Grp.all, List.mem_append, List.mem_singleton] at hi
      rcases hi with hi | hi
      · exact hi
      · exact absurd ⟨G, hG, hi.symm⟩ hl
    have hattr : ((T.attr i).dom || (T.attr i).used) = true := by
      by_cases hsu : ∃ C, G.lead = .suite C
      · obtain ⟨C, hC⟩ := hsu
        rw [hT.tabs.attrSuite G hG i hmem C hC]; simp
      · rw [hT.tabs.attrMem G hG i hmem fun C hC => hsu ⟨C, hC⟩]; rfl
    rw [bindCtx, if_pos hattr]
    cases gs with
    | nil =>
      have hsg : Single [(⟨[], .site i, cur, []⟩ : Grp)] (.site i) := ⟨[], _, rfl, .inl rfl⟩
      obtain ⟨p, g, e1, e2⟩ := single_fut hf hsg
      have hgF : g ∈ grp T.items := by rw [e1]; simp
      rcases e2 with e2 | ⟨e2, C, hC⟩
      · exact absurd ⟨g, hgF, e2⟩ hl
      · have hsu : suiteOf (grp T.items) = some C := (suiteOf_iff hF).2 ⟨g, hgF, hC⟩
        have hrep : G.lead = .suite C := by
          rw [← rep_of_mem hF.nodup hG hi, rep_of_mem hF.nodup hgF e2, hC]
        have hw : Within [(⟨[], .site i, cur, []⟩ : Grp)] (.site i) cur :=
          ⟨⟨[], .site i, cur, []⟩, by simp, by simp [Grp.all], List.prefix_refl _⟩
        obtain ⟨g', k1, k2, k3⟩ := within_fut hf hw
        have hg'C : g'.lead = .suite C := by
          rw [← rep_of_mem hF.nodup k1 k2, rep_of_mem hF.nodup hG hi, hrep]
        rw [hrep]
        exact h.varNil rfl C hsu
          (prefix_mem k3 (List.mem_of_getLast? (hF.scopeLast g' k1 C hg'C)))
    | cons k q =>
      have hadj : Adj (⟨[], .site i, cur, []⟩ :: k :: q) (.site i) k.lead :=
        .inl ⟨[], _, k, q, rfl, rfl, by simp [Grp.all]⟩
      rcases adj_fut hf hadj with ⟨G', hG', hl'⟩ | hsame
      · exact absurd ⟨G', hG', hl'⟩ hl
      · rw [h.var k q rfl k.lead (by simp [Grp.all]), ← hsame.rep hF.nodup,
          rep_of_mem hF.nodup hG hi]

/-- A block entered after the first binding is not the one that declares the variable. -/
theorem not_suite_of_bound {P : List Nat → Prop} {gs F : List Grp} {cur U : List Nat} {b : Nat}
    (hI : Inv gs cur U) (hb : b ∉ U) (hf : Fut P gs F) (hne : gs ≠ []) : suiteOf F ≠ some b := by
  refine suiteOf_ne (.inr (apart_fut hf ?_))
  rcases List.eq_nil_or_concat gs with h | ⟨p, g, h⟩
  · exact absurd h hne
  · have hg : g ∈ gs := by rw [h]; simp
    have hs : b ∉ g.scope := fun hm => hb (hI.sub g hg b hm)
    refine ⟨p, g, by simpa using h, hs, ?_⟩
    intro hl
    exact hs (List.mem_of_getLast? (hI.scopeLast g hg b hl))

theorem sdecl_iff {T : St} (hT : Fin T) (b : Nat) :
    (suiteOf (grp T.items) = some b → T.sdecl b = some 1) ∧
    (suiteOf (grp T.items) ≠ some b → T.sdecl b = none) := by
  obtain ⟨c, W, hF⟩ := hT.inv
  constructor
  · intro h
    obtain ⟨G, hG, hl⟩ := (suiteOf_iff hF).1 h
    exact hT.tabs.sdeclLead G hG b hl
  · intro h
    exact hT.tabs.sdeclNone b fun G hG hl => h ((suiteOf_iff hF).2 ⟨G, hG, hl⟩)

theorem CtxOK.enter {P : List Nat → Prop} {T : St} {gs : List Grp} {cur U : List Nat} {τ : Ctx}
    {b : Nat} (hT : Fin T) (h : CtxOK (grp T.items) gs cur τ) (hI : Inv gs cur U) (hb : b ∉ U)
    (hf : Fut P gs (grp T.items)) :
    CtxOK (grp T.items) gs (cur ++ [b]) (enterCtx T b τ) := by
  by_cases hs : suiteOf (grp T.items) = some b
  · have hgs : gs = [] := Classical.byContradiction fun hne => not_suite_of_bound hI hb hf hne hs
    subst hgs
    have e : enterCtx T b τ = ⟨some (.suite b), some b⟩ := by
      rw [enterCtx, (sdecl_iff hT b).1 hs]; rfl
    rw [e]
    refine ⟨by simp, ?_, ?_, ?_⟩
    · intro _ C hC _
      rw [hs] at hC; cases hC; rfl
    · intro _ hn
      exact absurd (by simp) (hn b hs)
    · intro C hC _
      rw [hs] at hC; cases hC; rfl
  · have e : enterCtx T b τ = τ := by
      rw [enterCtx, (sdecl_iff hT b).2 hs]
    rw [e]
    have hcur : ∀ C, suiteOf (grp T.items) = some C → C ∈ cur ++ [b] → C ∈ cur := by
      intro C hC hm
      rcases List.mem_append.1 hm with hm | hm
      · exact hm
      · rw [List.mem_singleton] at hm
        subst hm
        exact absurd hC hs
    refine ⟨h.var, fun hg C hC hm => h.varNil hg C hC (hcur C hC hm), ?_,
      fun C hC hm => h.used C hC (hcur C hC hm)⟩
    intro hg hn
    exact h.varNone hg fun C hC hm => hn C hC (List.mem_append_left _ hm)

theorem CtxOK.leave {P : List Nat → Prop} {F gs : List Grp} {cur : List Nat} {τ : Ctx} {b : Nat}
    (h : CtxOK F gs (cur ++ [b]) τ) (hf : Fut P gs F) (hP : ∀ c, P c → b ∉ c) :
    CtxOK F gs cur τ := by
  refine ⟨h.var, fun hg C hC hm => h.varNil hg C hC (List.mem_append_left _ hm), ?_,
    fun C hC hm => h.used C hC (List.mem_append_left _ hm)⟩
  intro hg hn
  refine h.varNone hg fun C hC hm => ?_
  rcases List.mem_append.1 hm with hm | hm
  · exact hn C hC hm
  · rw [List.mem_singleton] at hm
    subst hm
    exact suiteOf_ne (apart_nil hf hP hg) hC

theorem ids_concat (cur : List Blk) (b : Nat) (k l : Bool) :
    ids (cur ++ [⟨b, k, l⟩]) = ids cur ++ [b] := by simp [ids]

section
variable {V : Type} {x : Name} {Λ : List Lop} {cur : List Blk} {U : List Nat} {st T : St}

theorem VisR.cons_ne {r : Rd} {rs : List Rd} (hx : r.x ≠ x) (h : VisR x Λ cur U (r :: rs) st T) :
    VisR x Λ cur U rs st T ∧ visitReads x cur (r :: rs) st = visitReads x cur rs st := by
  have hv : visitReads x cur (r :: rs) st = visitReads x cur rs st := by
    rw [visitReads, List.foldl_cons, if_neg hx]; rfl
  refine ⟨⟨h.good, ?_, fun q hq => h.chk0 q (List.mem_cons_of_mem _ hq), hv ▸ h.err, ?_⟩, hv⟩
  · have := h.rn
    rw [List.map_cons, List.nodup_cons] at this
    exact this.2
  · have := h.fin
    rw [hv] at this
    exact this.weaken fun q hq => List.mem_cons_of_mem _ hq

theorem VisR.cons_eq {r : Rd} {rs : List Rd} (hx : r.x = x) (h : VisR x Λ cur U (r :: rs) st T) :
    VisR x Λ cur U rs (visitRead cur r.id st) T ∧ At [r.id] Λ cur U (visitRead cur r.id st) T ∧
      visitReads x cur (r :: rs) st = visitReads x cur rs (visitRead cur r.id st) := by
  have hv : visitReads x cur (r :: rs) st = visitReads x cur rs (visitRead cur r.id st) := by
    rw [visitReads, List.foldl_cons, if_pos hx]; rfl
  have he := h.err
  have hf := h.fin
  have hn := h.rn
  rw [hv] at he hf
  rw [List.map_cons, List.nodup_cons] at hn
  have he1 := err_false (visitReads_err x cur rs _) he
  have h1 := (res_read r.id h.good he1).1
  refine ⟨⟨h1.good, hn.2, ?_, he, hf.weaken fun q hq => List.mem_cons_of_mem _ hq⟩, ?_, hv⟩
  · intro q hq
    rw [h1.chk q.id ?_]
    · exact h.chk0 q (List.mem_cons_of_mem _ hq)
    · simp only [List.mem_singleton]
      intro he
      exact hn.1 (he ▸ List.mem_map_of_mem hq)
  · refine At.back (B := []) hf (res_reads x rs h1.good he).1 h1.good (by simp) ?_
    intro q hq
    rw [List.mem_singleton] at hq
    subst hq
    exact ⟨by simp, hn.1⟩

theorem CtxOK.read {R : List Nat} {r : Nat} {τ : Ctx} {c : List Nat} (hT : Fin T)
    (hG : Good cur U st)
    (hA : At R Λ cur U (visitRead cur r st) T) (h : CtxOK (grp T.items) (grp st.items) c τ) :
    CtxOK (grp T.items) (grp (visitRead cur r st).items) c τ := by
  by_cases hne : st.items = []
  · rw [visitRead_nil r hne]; exact h
  · obtain ⟨g, gs, h1, h2, _, _, _, _, h6, _⟩ := visitRead_spec r hG hne
    have hf := hA.fut
    rw [h1] at hf ⊢
    exact h.hit h2 h6 hf hT.nodup

theorem CtxOK.reads {τ : Ctx} {c : List Nat} (hT : Fin T) (rs : List Rd) : ∀ {st : St},
    VisR x Λ cur U rs st T → CtxOK (grp T.items) (grp st.items) c τ →
    CtxOK (grp T.items) (grp (visitReads x cur rs st).items) c τ := by
  induction rs with
  | nil => intro st _ h; exact h
  | cons r rs ih =>
    intro st hV h
    by_cases hx : r.x = x
    · obtain ⟨v1, v2, v3⟩ := hV.cons_eq hx
      rw [v3]
      exact ih v1 (h.read hT hV.good v2)
    · obtain ⟨v1, v2⟩ := hV.cons_ne hx
      rw [v2]
      exact ih v1 h

theorem CtxOK.endLoop {R : List Nat} {b : Nat} {τ : Ctx} {c : List Nat} (hT : Fin T)
    (hG : Good cur U st) (hA : At R Λ cur U (endLoop cur b st) T)
    (h : CtxOK (grp T.items) (grp st.items) c τ) :
    CtxOK (grp T.items) (grp (Verif.Scope.endLoop cur b st).items) c τ := by
  by_cases hs : st.seen.contains b = true
  · by_cases hne : st.items = []
    · rw [Verif.Scope.endLoop, if_pos hs, find_nil cur st hne]; exact h
    · obtain ⟨st', v, g, gs, hf, F⟩ := find_spec cur st U hG.suite hG.tabs hG.inv hne
      have he : Verif.Scope.endLoop cur b st = st' := by
        rw [Verif.Scope.endLoop, if_pos hs, hf]
      have hfu := hA.fut
      rw [he] at hfu ⊢
      have hst := F.step
      rw [← F.grps] at hst
      exact h.hit hst F.only hfu hT.nodup
  · rw [Verif.Scope.endLoop, if_neg hs]; exact h

theorem forVar_items {rs : List Rd} {b i : Nat} (hG : Good cur U st) (hb : b ∉ U)
    (hV : VisR x Λ cur U rs st T) (hcap : (visitReads x cur rs st).cap = false)
    (hi : Bnd.site i ∉ allG (grp (visitReads x cur rs st).items)) :
    grp (forVar x cur rs b i x st).items =
      ⟨[], .site i, ids cur ++ [b], []⟩ :: grp (visitReads x cur rs st).items := by
  rw [forVar, if_pos rfl]
  have := (visitAdd_spec i (hV.res.good.enter true hb) hcap hi).1
  rw [ids_concat] at this
  exact this

/-- The block of a `for` loop over the name does not declare it. -/
theorem for_not_suite {P : List Nat → Prop} {gs F : List Grp} {c : List Nat} {b i : Nat}
    (hI : Inv gs c U) (hb : b ∉ U) (hf : Fut P (⟨[], .site i, c ++ [b], []⟩ :: gs) F)
    (hi : Bnd.site i ∉ allG gs) : suiteOf F ≠ some b := by
  by_cases hne : gs = []
  · subst hne
    obtain ⟨p, g, e1, e2⟩ := near_fut hf (B := b) (q := c) (fun hm => hb (hI.curSub b hm))
      (p := []) (g := ⟨[], .site i, c ++ [b], []⟩) rfl rfl (by simp)
    rw [e1, suiteOf]
    simp only [List.getLast?_append, List.getLast?_singleton, Option.some_or]
    cases hl : g.lead with
    | suite C =>
      rintro ⟨⟩
      exact e2 hl
    | _ => simp
  · have : Fut (fun _ => True) gs F :=
      .step trivial (Step.add (cur := c ++ [b]) i gs hi) (hf.mono fun _ _ => trivial)
    exact not_suite_of_bound hI hb this hne

theorem enterCtx_id {b : Nat} (hT : Fin T) (h : suiteOf (grp T.items) ≠ some b) (τ : Ctx) :
    enterCtx T b τ = τ := by
  rw [enterCtx, (sdecl_iff hT b).2 h]

/-- Two blocks one after the other. -/
theorem ctx_two {s₁ s₂ : Stmt V} {b₁ b₂ : Nat} {τ : Ctx} {Λ' : List Lop} {st' : St} (hT : Fin T)
    (hG : Good cur U st) (hbn : (b₁ :: blocks s₁ ++ b₂ :: blocks s₂).Nodup)
    (hbU : ∀ b ∈ b₁ :: blocks s₁ ++ b₂ :: blocks s₂, b ∉ U)
    (v1 : Vis x Λ (cur ++ [⟨b₁, true, false⟩]) (b₁ :: U) s₁ st T)
    (v2 : Vis x Λ' (cur ++ [⟨b₂, true, false⟩]) (b₂ :: (b₁ :: blocks s₁ ++ U)) s₂
      (visit x (cur ++ [⟨b₁, true, false⟩]) s₁ st) T)
    (hf : Fut (Pf (ids cur) (b₁ :: blocks s₁ ++ b₂ :: blocks s₂ ++ U)) (grp st'.items)
      (grp T.items))
    (h : CtxOK (grp T.items) (grp st.items) (ids cur) τ)
    (ih1 : ∀ {τ}, CtxOK (grp T.items) (grp st.items) (ids (cur ++ [⟨b₁, true, false⟩])) τ →
      CtxOK (grp T.items) (grp (visit x (cur ++ [⟨b₁, true, false⟩]) s₁ st).items)
        (ids (cur ++ [⟨b₁, true, false⟩])) (ctxAfter x T s₁ τ))
    (ih2 : ∀ {τ}, CtxOK (grp T.items) (grp (visit x (cur ++ [⟨b₁, true, false⟩]) s₁ st).items)
        (ids (cur ++ [⟨b₂, true, false⟩])) τ →
      CtxOK (grp T.items) (grp st'.items) (ids (cur ++ [⟨b₂, true, false⟩])) (ctxAfter x T s₂ τ)) :
    CtxOK (grp T.items) (grp st'.items) (ids cur)
      (ctxAfter x T s₂ (enterCtx T b₂ (ctxAfter x T s₁ (enterCtx T b₁ τ)))) := by
  have hb1 : b₁ ∉ U := hbU b₁ (by simp)
  have hb2 : b₂ ∉ U := hbU b₂ (by simp)
  have hc1 : b₁ ∉ ids cur := fun hm => hb1 (hG.inv.curSub b₁ hm)
  have hc2 : b₂ ∉ ids cur := fun hm => hb2 (hG.inv.curSub b₂ hm)
  rw [List.cons_append, List.nodup_cons, List.nodup_append, List.nodup_cons] at hbn
  obtain ⟨n1, n2, ⟨n3, n4⟩, n5⟩ := hbn
  rw [ids_concat] at ih1 ih2
  have h1 := ih1 (h.enter hT hG.inv hb1 v1.at0.fut)
  have hf2 := v2.at0.fut
  have h2 := h1.leave hf2 (by
    intro c hc hm
    rcases hc _ hm with h | h
    · rw [ids_concat, List.mem_append, List.mem_singleton] at h
      rcases h with h | rfl
      · exact hc1 h
      · exact n1 (by simp)
    · exact h (by simp))
  have r1 := v1.res.enter hG
  have hb2' : b₂ ∉ b₁ :: blocks s₁ ++ U := by
    intro hm
    simp only [List.cons_append, List.mem_cons, List.mem_append] at hm
    rcases hm with rfl | hm | hm
    · exact n1 (by simp)
    · exact n5 _ hm b₂ (by simp) rfl
    · exact hb2 hm
  have h3 := ih2 (h2.enter hT r1.good.inv hb2' hf2)
  exact h3.leave hf (by
    intro c hc hm
    rcases hc _ hm with h | h
    · exact hc2 h
    · exact h (by simp))

/-- The context after a statement is right. -/
theorem ctx_visit (hT : Fin T) (s : Stmt V) : ∀ {Λ : List Lop} {cur : List Blk} {U : List Nat}
    {st : St} {τ : Ctx}, Vis x Λ cur U s st T → CtxOK (grp T.items) (grp st.items) (ids cur) τ →
    CtxOK (grp T.items) (grp (visit x cur s st).items) (ids cur) (ctxAfter x T s τ) := by
  induction s with
  | skip => intro Λ cur U st τ _ h; exact h
  | brk => intro Λ cur U st τ _ h; exact h
  | cont => intro Λ cur U st τ _ h; exact h
  | out rs f => intro Λ cur U st τ hV h; exact h.reads hT rs hV.out
  | ret rs f => intro Λ cur U st τ hV h; exact h.reads hT rs hV.ret
  | asg i y rs f =>
    intro Λ cur U st τ hV h
    rw [visit, ctxAfter]
    by_cases hy : y = x
    · subst hy
      obtain ⟨v1, v2, v3, v4⟩ := hV.asg_eq
      rw [if_pos rfl, if_pos rfl]
      have e := (visitAdd_spec i v1.res.good (visitAdd_cap v4) v2).1
      have hf := v3.fut
      rw [e] at hf ⊢
      exact (h.reads hT rs v1).bind hT hf
    · rw [if_neg hy, if_neg hy]
      exact h.reads hT rs (hV.asg_ne hy)
  | seq s t ihs iht =>
    intro Λ cur U st τ hV h
    obtain ⟨v1, v2⟩ := hV.seq
    exact iht v2 (ihs v1 h)
  | ite k rs p b₁ s₁ b₂ s₂ ih1 ih2 =>
    intro Λ cur U st τ hV h
    obtain ⟨v0, v1, v2, rfl⟩ := hV.ite
    have hbU := hV.bU
    have hbn := hV.bn
    simp only [blocks] at hbU hbn
    exact ctx_two hT v0.res.good hbn hbU v1 v2 hV.fin.fut (h.reads hT rs v0) (ih1 v1) (ih2 v2)
  | try_ b₁ s₁ b₂ s₂ ih1 ih2 =>
    intro Λ cur U st τ hV h
    obtain ⟨v1, v2⟩ := hV.try_
    have hbU := hV.bU
    have hbn := hV.bn
    simp only [blocks] at hbU hbn
    exact ctx_two hT hV.good hbn hbU v1 v2 hV.fin.fut h (ih1 v1) (ih2 v2)
  | whl rs p b s ih =>
    intro Λ cur U st τ hV h
    obtain ⟨v0, v1⟩ := hV.whl hT.inv
    have hb : b ∉ U := hV.bU b (by simp [blocks])
    have hbc : b ∉ ids cur := fun hm => hb (hV.good.inv.curSub b hm)
    have he := hV.err
    have hfin := hV.fin
    simp only [visit] at he hfin ⊢
    rw [ctxAfter]
    have h1 : CtxOK (grp T.items) (grp st.items) (ids (cur ++ [⟨b, true, true⟩])) (enterCtx T b τ) := by
      rw [ids_concat]; exact h.enter hT hV.good.inv hb v0.at0.fut
    have h2 := ih v1 (h1.reads hT rs v0)
    have hGE := v1.res.good.leave hV.good
    have hend := (res_end b hGE he).1
    rw [ids_concat] at h2
    have h3 := h2.leave (P := fun c => b ∉ c)
      ((hend.fut.mono (by
        rintro c ⟨e, rfl, he⟩ hm
        rcases List.mem_append.1 hm with hm | hm
        · exact hbc hm
        · exact absurd (he _ hm) (by simp))).trans (hfin.fut.mono (by
        intro c hc hm
        rcases hc _ hm with h | h
        · exact hbc h
        · exact h (by simp [blocks])))) (fun c hc => hc)
    refine CtxOK.endLoop hT hGE (At.mono (U := blocks (V := V) (.whl rs p b s) ++ U) hfin ?_) h3
    intro u
    simp only [blocks, List.cons_append, List.mem_cons, List.mem_append]
    constructor
    · rintro (h | h | h) <;> simp [h]
    · rintro (h | h | h) <;> simp [h]
  | forr rs f b i y s ih =>
    intro Λ cur U st τ hV h
    obtain ⟨v0, v1, v2, v3, v4, v5⟩ := hV.forr hT.inv rfl
    have hb : b ∉ U := hV.bU b (by simp [blocks])
    have hbc : b ∉ ids cur := fun hm => hb (hV.good.inv.curSub b hm)
    obtain ⟨hv, _⟩ := visit_forr (f := f) (s := s) hV.good hb (fun hy => hV.sfr i (by simp [sites, hy])) hV.err
    have he := hV.err
    have hfin := hV.fin
    rw [hv] at he hfin ⊢
    rw [ctxAfter]
    have h0 := h.reads hT rs v0
    have h1 : CtxOK (grp T.items) (grp (forVar x cur rs b i y st).items)
        (ids (cur ++ [⟨b, true, true⟩])) (enterCtx T b (if y = x then bindCtx T i τ else τ)) := by
      rw [ids_concat]
      by_cases hy : y = x
      · subst hy
        have e := forVar_items (b := b) hV.good hb v0 (v2 rfl) (v3 rfl)
        have hf := v5.at0.fut
        rw [e] at hf ⊢
        have hns := for_not_suite v0.res.good.inv hb hf (v3 rfl)
        have h1 := h0.enter hT v0.res.good.inv hb v4.fut
        rw [enterCtx_id hT hns] at h1
        rw [if_pos rfl, enterCtx_id hT hns]
        exact h1.bind hT hf
      · rw [if_neg hy, forVar, if_neg hy]
        exact h0.enter hT v0.res.good.inv hb v4.fut
    have h2 := ih v5 h1
    have hGE := v5.res.good.leave hV.good
    have hend := (res_end b hGE he).1
    rw [ids_concat] at h2
    have h3 := h2.leave (P := fun c => b ∉ c)
      ((hend.fut.mono (by
        rintro c ⟨e, rfl, he⟩ hm
        rcases List.mem_append.1 hm with hm | hm
        · exact hbc hm
        · exact absurd (he _ hm) (by simp))).trans (hfin.fut.mono (by
        intro c hc hm
        rcases hc _ hm with h | h
        · exact hbc h
        · exact h (by simp [blocks])))) (fun c hc => hc)
    refine CtxOK.endLoop hT hGE (At.mono (U := blocks (V := V) (.forr rs f b i y s) ++ U) hfin ?_) h3
    intro u
    simp only [blocks, List.cons_append, List.mem_cons, List.mem_append]
    constructor
    · rintro (h | h | h) <;> simp [h]
    · rintro (h | h | h) <;> simp [h]

end

end Verif.Scope
