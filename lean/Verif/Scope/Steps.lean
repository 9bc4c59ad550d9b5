import Verif.Scope.Groups

/-!
# Name resolution: the steps of the analysis on groups
-/

namespace Verif.Scope

/-- One operation of the visitor for a name, in the scope `cur`. -/
inductive Step (cur : List Nat) : List Grp → List Grp → Prop where
  | add (i : Nat) (gs : List Grp) : Bnd.site i ∉ allG gs →
      Step cur gs (⟨[], .site i, cur, []⟩ :: gs)
  | hitD (gs₁ : List Grp) (g : Grp) (gs₂ : List Grp) : g.scope <+: cur →
      (∀ h ∈ gs₁, ¬ h.scope <+: cur) → (∀ h ∈ gs₁, g.scope <+: h.scope) →
      Step cur (gs₁ ++ g :: gs₂) (⟨allG gs₁ ++ g.mem, g.lead, g.scope, g.acc⟩ :: gs₂)
  | hitN (gs : List Grp) (sc : List Nat) (C : Nat) (k : Grp) : gs ≠ [] →
      (∀ h ∈ gs, ¬ h.scope <+: cur) → (∀ h ∈ gs, sc <+: h.scope) → sc <+: cur →
      sc.getLast? = some C → Bnd.suite C ∉ allG gs → k ∈ gs →
      (∀ p, p <+: cur → (∀ h ∈ gs, p <+: h.scope) → p <+: sc) →
      Step cur gs [⟨allG gs, .suite C, sc, [k.scope]⟩]

/-- What holds of the groups when the visitor is in the scope `cur` and has entered the
blocks `U`. -/
structure Inv (gs : List Grp) (cur U : List Nat) : Prop where
  nodup : (allG gs).Nodup
  suiteLast : ∀ p g q, gs = p ++ g :: q → ∀ C, g.lead = .suite C → q = []
  suiteLead : ∀ C, Bnd.suite C ∈ allG gs → ∃ p g C', gs = p ++ [g] ∧ g.lead = .suite C'
  scopeLast : ∀ g ∈ gs, ∀ C, g.lead = .suite C → g.scope.getLast? = some C
  scope0 : ∀ g ∈ gs, g.scope[0]? = some 0
  coh : ∀ g ∈ gs, Coh g.scope cur
  sub : ∀ g ∈ gs, ∀ u ∈ g.scope, u ∈ U
  cur0 : cur[0]? = some 0
  curNodup : cur.Nodup
  curSub : ∀ u ∈ cur, u ∈ U
  nest : gs.Pairwise fun a b => ∀ p, p <+: b.scope → p <+: cur → p <+: a.scope
  acc : ∀ g ∈ gs, ∀ C, g.lead = .suite C → g.acc ≠ [] ∧
    ∀ a ∈ g.acc, a ≠ [] ∧ ¬ a <+: cur ∧ Coh a cur ∧ ∀ u ∈ a, u ∈ U
  acc0 : ∀ g ∈ gs, (∀ C, g.lead ≠ .suite C) → g.acc = []
  param : ∀ g ∈ gs, Bnd.param ∈ g.all → g.lead = .param ∧ g.scope = [0]
  suitePath : ∀ g ∈ gs, ∀ C, Bnd.suite C ∈ g.all →
    ∃ sc, sc.getLast? = some C ∧ g.scope <+: sc ∧ Coh sc cur ∧ ∀ u ∈ sc, u ∈ U

theorem ne_nil_of_zero {s : List Nat} (h : s[0]? = some 0) : s ≠ [] := by
  rintro rfl; simp at h

theorem prefix_of_concat {p t : List Nat} {b : Nat} (h : p <+: t ++ [b]) (hb : b ∉ p) :
    p <+: t := by
  rcases List.prefix_concat_iff.1 h with rfl | h
  · exact absurd (by simp) hb
  · exact h

theorem prefix_mem {p t : List Nat} (h : p <+: t) {u : Nat} (hu : u ∈ p) : u ∈ t :=
  h.subset hu

theorem Coh.of_prefix {s s' t : List Nat} (h : Coh s t) (hs : s' <+: s) : Coh s' t := by
  obtain ⟨r, rfl⟩ := hs
  intro p u q p' q' h1 h2
  exact h p u (q ++ r) p' q' (by rw [h1]; simp) h2

theorem Inv.enter {gs : List Grp} {cur U : List Nat} {b : Nat} (h : Inv gs cur U) (hb : b ∉ U) :
    Inv gs (cur ++ [b]) (b :: U) where
  nodup := h.nodup
  suiteLast := h.suiteLast
  suiteLead := h.suiteLead
  scopeLast := h.scopeLast
  scope0 := h.scope0
  coh := fun g hg => (h.coh g hg).fresh fun hm => hb (h.sub g hg b hm)
  sub := fun g hg u hu => List.mem_cons_of_mem _ (h.sub g hg u hu)
  cur0 := by
    have := h.cur0
    cases cur with
    | nil => simp at this
    | cons a c => simpa using this
  curNodup := by
    rw [List.nodup_append]
    refine ⟨h.curNodup, by simp, ?_⟩
    intro a ha c hc
    simp only [List.mem_singleton] at hc
    subst hc
    rintro rfl
    exact hb (h.curSub _ ha)
  curSub := by
    intro u hu
    rcases List.mem_append.1 hu with hu | hu
    · exact List.mem_cons_of_mem _ (h.curSub u hu)
    · simp only [List.mem_singleton] at hu; subst hu; simp
  nest := by
    refine h.nest.imp_of_mem ?_
    intro x y hx hy hxy p hp1 hp2
    exact hxy p hp1 (prefix_of_concat hp2 fun hm => hb (h.sub y hy b (prefix_mem hp1 hm)))
  acc := by
    intro g hg C hC
    refine ⟨(h.acc g hg C hC).1, ?_⟩
    intro a ha
    obtain ⟨h1, h2, h3, h4⟩ := (h.acc g hg C hC).2 a ha
    exact ⟨h1, fun hp => h2 (prefix_of_concat hp fun hm => hb (h4 b hm)),
      h3.fresh fun hm => hb (h4 b hm), fun u hu => List.mem_cons_of_mem _ (h4 u hu)⟩
  acc0 := h.acc0
  param := h.param
  suitePath := by
    intro g hg C hC
    obtain ⟨sc, h1, h2, h3, h4⟩ := h.suitePath g hg C hC
    exact ⟨sc, h1, h2, h3.fresh fun hm => hb (h4 b hm), fun u hu => List.mem_cons_of_mem _ (h4 u hu)⟩

theorem Inv.leave {gs : List Grp} {cur U : List Nat} {b : Nat} (h : Inv gs (cur ++ [b]) U)
    (h0 : cur[0]? = some 0) : Inv gs cur U where
  nodup := h.nodup
  suiteLast := h.suiteLast
  suiteLead := h.suiteLead
  scopeLast := h.scopeLast
  scope0 := h.scope0
  coh := fun g hg => (h.coh g hg).left
  sub := h.sub
  cur0 := h0
  curNodup := (List.nodup_append.1 h.curNodup).1
  curSub := fun u hu => h.curSub u (List.mem_append_left _ hu)
  nest := h.nest.imp fun hxy p hp1 hp2 => hxy p hp1 (hp2.trans (List.prefix_append _ _))
  acc := by
    intro g hg C hC
    refine ⟨(h.acc g hg C hC).1, ?_⟩
    intro a ha
    obtain ⟨h1, h2, h3, h4⟩ := (h.acc g hg C hC).2 a ha
    exact ⟨h1, fun hp => h2 (hp.trans (List.prefix_append _ _)), h3.left, h4⟩
  acc0 := h.acc0
  param := h.param
  suitePath := by
    intro g hg C hC
    obtain ⟨sc, h1, h2, h3, h4⟩ := h.suitePath g hg C hC
    exact ⟨sc, h1, h2, h3.left, h4⟩

theorem Inv.mono {gs : List Grp} {cur U U' : List Nat} (h : Inv gs cur U) (hU : ∀ u ∈ U, u ∈ U') :
    Inv gs cur U' where
  nodup := h.nodup
  suiteLast := h.suiteLast
  suiteLead := h.suiteLead
  scopeLast := h.scopeLast
  scope0 := h.scope0
  coh := h.coh
  sub := fun g hg u hu => hU u (h.sub g hg u hu)
  cur0 := h.cur0
  curNodup := h.curNodup
  curSub := fun u hu => hU u (h.curSub u hu)
  nest := h.nest
  acc := by
    intro g hg C hC
    refine ⟨(h.acc g hg C hC).1, ?_⟩
    intro a ha
    obtain ⟨h1, h2, h3, h4⟩ := (h.acc g hg C hC).2 a ha
    exact ⟨h1, h2, h3, fun u hu => hU u (h4 u hu)⟩
  acc0 := h.acc0
  param := h.param
  suitePath := by
    intro g hg C hC
    obtain ⟨sc, h1, h2, h3, h4⟩ := h.suitePath g hg C hC
    exact ⟨sc, h1, h2, h3, fun u hu => hU u (h4 u hu)⟩

/-- The merged group has the bindings of the groups merged. -/
theorem all_merge (gs₁ : List Grp) (g : Grp) :
    Grp.all ⟨allG gs₁ ++ g.mem, g.lead, g.scope, g.acc⟩ = allG gs₁ ++ g.all := by
  simp [Grp.all]

theorem Inv.step {gs gs' : List Grp} {cur U : List Nat} (h : Inv gs cur U)
    (hs : Step cur gs gs') : Inv gs' cur U := by
  have hne := ne_nil_of_zero h.cur0
  cases hs with
  | add i _ hi =>
    refine ⟨?_, ?_, ?_, ?_, ?_, ?_, ?_, h.cur0, h.curNodup, h.curSub, ?_, ?_, ?_, ?_, ?_⟩
    · simp only [allG_cons, Grp.all, List.nil_append, List.singleton_append, List.nodup_cons]
      exact ⟨hi, h.nodup⟩
    · intro p g q he C hC
      cases p with
      | nil =>
        simp only [List.nil_append, List.cons.injEq] at he
        rw [← he.1] at hC; cases hC
      | cons a p =>
        simp only [List.cons_append, List.cons.injEq] at he
        exact h.suiteLast p g q he.2 C hC
    · intro C hC
      simp only [allG_cons, Grp.all, List.nil_append, List.singleton_append, List.mem_cons,
        reduceCtorEq, false_or] at hC
      obtain ⟨p, g, C', he, hl⟩ := h.suiteLead C hC
      exact ⟨_ :: p, g, C', by rw [he]; rfl, hl⟩
    · intro g hg C hC
      rcases List.mem_cons.1 hg with rfl | hg
      · cases hC
      · exact h.scopeLast g hg C hC
    · intro g hg
      rcases List.mem_cons.1 hg with rfl | hg
      · exact h.cur0
      · exact h.scope0 g hg
    · intro g hg
      rcases List.mem_cons.1 hg with rfl | hg
      · exact coh_self h.curNodup
      · exact h.coh g hg
    · intro g hg
      rcases List.mem_cons.1 hg with rfl | hg
      · exact h.curSub
      · exact h.sub g hg
    · rw [List.pairwise_cons]
      exact ⟨fun g _ p _ hp => hp, h.nest⟩
    · intro g hg C hC
      rcases List.mem_cons.1 hg with rfl | hg
      · cases hC
      · exact h.acc g hg C hC
    · intro g hg hC
      rcases List.mem_cons.1 hg with rfl | hg
      · rfl
      · exact h.acc0 g hg hC
    · intro g hg hp
      rcases List.mem_cons.1 hg with rfl | hg
      · simp [Grp.all] at hp
      · exact h.param g hg hp
    · intro g hg C hC
      rcases List.mem_cons.1 hg with rfl | hg
      · simp [Grp.all] at hC
      · exact h.suitePath g hg C hC
  | hitD gs₁ g gs₂ hdom hnd hpre =>
    have hg : g ∈ gs₁ ++ g :: gs₂ := by simp
    have h2 : ∀ k ∈ gs₂, k ∈ gs₁ ++ g :: gs₂ := fun k hk => by simp [hk]
    refine ⟨?_, ?_, ?_, ?_, ?_, ?_, ?_, h.cur0, h.curNodup, h.curSub, ?_, ?_, ?_, ?_, ?_⟩
    · have := h.nodup
      rw [allG_append, allG_cons] at this
      rw [allG_cons, all_merge, List.append_assoc]
      exact this
    · intro p k q he C hC
      cases p with
      | nil =>
        simp only [List.nil_append, List.cons.injEq] at he
        obtain ⟨rfl, rfl⟩ := he
        exact h.suiteLast gs₁ g gs₂ rfl C hC
      | cons a p =>
        simp only [List.cons_append, List.cons.injEq] at he
        exact h.suiteLast (gs₁ ++ g :: p) k q (by rw [he.2]; simp) C hC
    · intro C hC
      have hC' : Bnd.suite C ∈ allG (gs₁ ++ g :: gs₂) := by
        rw [allG_cons, all_merge] at hC
        rw [allG_append, allG_cons]
        simpa [or_assoc] using hC
      obtain ⟨p, k, C', he, hl⟩ := h.suiteLead C hC'
      rcases List.eq_nil_or_concat gs₂ with rfl | ⟨q, z, rfl⟩
      · have : g = k := by
          have := congrArg List.getLast? he
          simpa using this
        subst this
        exact ⟨[], _, C', rfl, hl⟩
      · have : z = k := by
          have := congrArg List.getLast? he
          simpa [List.getLast?_cons] using this
        subst this
        exact ⟨(⟨allG gs₁ ++ g.mem, g.lead, g.scope, g.acc⟩ : Grp) :: q, z, C', by simp, hl⟩
    · intro k hk C hC
      rcases List.mem_cons.1 hk with rfl | hk
      · exact h.scopeLast g hg C hC
      · exact h.scopeLast k (h2 k hk) C hC
    · intro k hk
      rcases List.mem_cons.1 hk with rfl | hk
      · exact h.scope0 g hg
      · exact h.scope0 k (h2 k hk)
    · intro k hk
      rcases List.mem_cons.1 hk with rfl | hk
      · exact h.coh g hg
      · exact h.coh k (h2 k hk)
    · intro k hk
      rcases List.mem_cons.1 hk with rfl | hk
      · exact h.sub g hg
      · exact h.sub k (h2 k hk)
    · have hp := (List.pairwise_append.1 h.nest).2.1
      rw [List.pairwise_cons] at hp ⊢
      exact hp
    · intro k hk C hC
      rcases List.mem_cons.1 hk with rfl | hk
      · exact h.acc g hg C hC
      · exact h.acc k (h2 k hk) C hC
    · intro k hk hC
      rcases List.mem_cons.1 hk with rfl | hk
      · exact h.acc0 g hg hC
      · exact h.acc0 k (h2 k hk) hC
    · intro k hk hC
      rcases List.mem_cons.1 hk with rfl | hk
      · rw [all_merge, List.mem_append] at hC
        rcases hC with hC | hC
        · obtain ⟨k', hk', hk''⟩ := mem_allG.1 hC
          have := (h.param k' (by simp [hk']) hk'').2
          exact absurd (by
            rw [this]
            cases hc : cur with
            | nil => exact absurd hc hne
            | cons a c =>
              have := h.cur0
              rw [hc] at this
              simp only [List.length_cons, Nat.zero_lt_succ, getElem?_pos, List.getElem_cons_zero,
                Option.some.injEq] at this
              subst this
              exact ⟨c, rfl⟩) (hnd k' hk')
        · exact h.param g hg hC
      · exact h.param k (h2 k hk) hC
    · intro k hk C hC
      rcases List.mem_cons.1 hk with rfl | hk
      · rw [all_merge, List.mem_append] at hC
        rcases hC with hC | hC
        · obtain ⟨k', hk', hk''⟩ := mem_allG.1 hC
          obtain ⟨sc, s1, s2, s3, s4⟩ := h.suitePath k' (by simp [hk']) C hk''
          exact ⟨sc, s1, (hpre k' hk').trans s2, s3, s4⟩
        · exact h.suitePath g hg C hC
      · exact h.suitePath k (h2 k hk) C hC
  | hitN _ sc C k hgs hnd hpre hsc hlast hfresh hk _ =>
    have hscne : sc ≠ [] := by rintro rfl; simp at hlast
    have hmem : ∀ {P : Grp → Prop}, P ⟨allG gs, .suite C, sc, [k.scope]⟩ →
        ∀ g ∈ [(⟨allG gs, .suite C, sc, [k.scope]⟩ : Grp)], P g := by
      intro P hP g hg
      rw [List.mem_singleton] at hg
      subst hg; exact hP
    refine ⟨?_, ?_, ?_, ?_, ?_, ?_, ?_, h.cur0, h.curNodup, h.curSub, by simp, ?_, ?_, ?_, ?_⟩
    · simp only [allG_cons, allG_nil, Grp.all, List.append_nil]
      rw [List.nodup_append]
      refine ⟨h.nodup, by simp, ?_⟩
      intro a ha b hb
      simp only [List.mem_singleton] at hb
      subst hb
      rintro rfl
      exact hfresh ha
    · intro p g q he C' hC'
      cases p with
      | nil => simp at he; exact he.2
      | cons a p => simp at he
    · intro C' _
      exact ⟨[], _, C, rfl, rfl⟩
    · exact hmem fun C' hC' => by cases hC'; exact hlast
    · refine hmem ?_
      show sc[0]? = some 0
      obtain ⟨r, hr⟩ := hsc
      have := h.cur0
      rw [← hr] at this
      cases sc with
      | nil => exact absurd rfl hscne
      | cons a s => simpa using this
    · exact hmem ((coh_self h.curNodup).of_prefix hsc)
    · exact hmem fun u hu => h.curSub u (prefix_mem hsc hu)
    · refine hmem fun C' _ => ⟨by simp, ?_⟩
      intro a ha
      rw [List.mem_singleton] at ha
      subst ha
      exact ⟨ne_nil_of_zero (h.scope0 k hk), hnd k hk, h.coh k hk, h.sub k hk⟩
    · exact hmem fun hC' => absurd rfl (hC' C)
    · refine hmem fun hp => ?_
      exfalso
      simp only [Grp.all, List.mem_append, List.mem_singleton, reduceCtorEq, or_false] at hp
      obtain ⟨k', hk', hk''⟩ := mem_allG.1 hp
      have := (h.param k' hk' hk'').2
      exact absurd (by
        rw [this]
        cases hc : cur with
        | nil => exact absurd hc hne
        | cons a c =>
          have := h.cur0
          rw [hc] at this
          simp only [List.length_cons, Nat.zero_lt_succ, getElem?_pos, List.getElem_cons_zero,
            Option.some.injEq] at this
          subst this
          exact ⟨c, rfl⟩) (hnd k' hk')
    · refine hmem fun C' hC' => ?_
      simp only [Grp.all, List.mem_append, List.mem_singleton] at hC'
      rcases hC' with hC' | hC'
      · obtain ⟨k', hk', hk''⟩ := mem_allG.1 hC'
        obtain ⟨s, s1, s2, s3, s4⟩ := h.suitePath k' hk' C' hk''
        exact ⟨s, s1, (hpre k' hk').trans s2, s3, s4⟩
      · cases hC'
        exact ⟨sc, hlast, List.prefix_refl _, (coh_self h.curNodup).of_prefix hsc,
          fun u hu => h.curSub u (prefix_mem hsc hu)⟩

/-! ## The tables of the visitor -/

/-- The tables of the visitor describe its groups. -/
structure Tabs (st : St) : Prop where
  bnds : st.items.map Item.bnd = allG (grp st.items)
  attrOut : ∀ i, Bnd.site i ∉ allG (grp st.items) → st.attr i = ⟨false, false⟩
  attrLead : ∀ g ∈ grp st.items, ∀ i, g.lead = .site i → st.attr i = ⟨false, false⟩
  attrMem : ∀ g ∈ grp st.items, ∀ i, Bnd.site i ∈ g.mem → (∀ C, g.lead ≠ .suite C) →
    st.attr i = ⟨true, false⟩
  attrSuite : ∀ g ∈ grp st.items, ∀ i, Bnd.site i ∈ g.mem → ∀ C, g.lead = .suite C →
    (st.attr i).used = true
  sdeclLead : ∀ g ∈ grp st.items, ∀ C, g.lead = .suite C → st.sdecl C = some 1
  sdeclNone : ∀ C, (∀ g ∈ grp st.items, g.lead ≠ .suite C) → st.sdecl C = none

/-- The item found is the first group, which dominates the scope. -/
structure Found (cur : List Blk) (st st' : St) (v : Item) (g : Grp) (gs : List Grp) : Prop where
  grps : grp st'.items = g :: gs
  step : Step (ids cur) (grp st.items) (g :: gs)
  scope : v.scope = g.scope
  acc : v.acc = g.acc
  dom : g.scope <+: ids cur
  tabs : Tabs st'
  cap : st'.cap = st.cap
  seen : st'.seen = st.seen
  chk : st'.chk = st.chk
  err : st'.err = st.err
  only : ∀ i, Bnd.site i ∈ allG (grp st'.items) → Bnd.site i ∈ allG (grp st.items)

theorem find_nil (cur : List Blk) (st : St) (h : st.items = []) : find cur st = (st, none) := by
  rw [find, h]; rfl

theorem siLoop_suite (cur : List Blk) (hs : ∀ b ∈ cur, b.suite = true) (c : Nat) (h1 : 1 ≤ c)
    (hc : c ≤ cur.length) :
    ∃ C, siLoop cur c = some C ∧ ((ids cur).take c).getLast? = some C := by
  cases c with
  | zero => omega
  | succ c =>
    have hlt : c < cur.length := by omega
    refine ⟨cur[c].id, ?_, ?_⟩
    · have hs' := hs _ (List.getElem_mem hlt)
      cases c with
      | zero => rw [siLoop, List.getElem?_eq_getElem hlt]; simp [hs']
      | succ c => rw [siLoop, List.getElem?_eq_getElem hlt]; simp [hs']
    · rw [List.take_add_one, List.getElem?_eq_getElem (by simpa [ids] using hlt)]
      simp [ids]

theorem find_spec (cur : List Blk) (st : St) (U : List Nat)
    (hsuite : ∀ b ∈ cur, b.suite = true) (hT : Tabs st)
    (hI : Inv (grp st.items) (ids cur) U) (hne : st.items ≠ []) :
    ∃ st' v g gs, find cur st = (st', some v) ∧ Found cur st st' v g gs := by
  have hcur := ne_nil_of_zero hI.cur0
  have hlen : cur.length = (ids cur).length := by simp [ids]
  have h1 : 1 ≤ cur.length := by
    rw [hlen]
    cases h : ids cur with
    | nil => exact absurd h hcur
    | cons => simp
  have hlive : ∀ a ∈ st.items, a.ignore = false →
      a.scope ≠ [] ∧ Coh a.scope (ids cur) ∧ a.scope[0]? = (ids cur)[0]? := by
    intro a ha hl
    obtain ⟨g, hg, _, hgs⟩ := grp_lead ha hl
    rw [← hgs]
    exact ⟨ne_nil_of_zero (hI.scope0 g hg), hI.coh g hg, by rw [hI.scope0 g hg, hI.cur0]⟩
  rcases scan_spec (ids cur) st.items cur.length (by omega) h1 hlive with
    ⟨ha, _⟩ | ⟨m, d, r, he, hd, hdom, hm, hs⟩ | ⟨m, d, r, c, he, hd, hr, hall, hc1, hc2, hc3, hs⟩
  · exfalso
    -- all items ignored: the groups lose them
    have hg : ∀ l : List Item, (∀ a ∈ l, a.ignore = true) → grp l = [] := by
      intro l
      induction l with
      | nil => intro _; rfl
      | cons a l ih =>
        intro h
        rw [grp_ignored (h a (by simp)), ih fun b hb => h b (List.mem_cons_of_mem _ hb)]
    have := hT.bnds
    rw [hg _ ha, allG_nil, List.map_eq_nil_iff] at this
    exact hne this
  · -- a binding dominates the scope
    obtain ⟨gs, g, hgrp, hlead, hscope, hacc, hmem, hgs⟩ := grp_split m d r hd
    rw [← he] at hgrp
    have hgI : g ∈ grp st.items := by rw [hgrp]; simp
    have hndom : ∀ k ∈ gs, ¬ k.scope <+: ids cur := by
      intro k hk
      obtain ⟨a, ha, hal, _, has⟩ := hgs k hk
      rw [← has]; exact hm a ha hal
    have hgdom : g.scope <+: ids cur := hscope ▸ hdom
    have hpre : ∀ k ∈ gs, g.scope <+: k.scope := by
      intro k hk
      have hn := hI.nest
      rw [hgrp] at hn
      exact (List.pairwise_append.1 hn).2.2 k hk g (by simp) _ (List.prefix_refl _) hgdom
    -- the parameter is not among the items before
    have hpar : Bnd.param ∉ m.map Item.bnd := by
      intro hp
      rw [← hmem, List.mem_append] at hp
      rcases hp with hp | hp
      · obtain ⟨k, hk, hk'⟩ := mem_allG.1 hp
        have h2 := hI.param k (by rw [hgrp]; simp [hk]) hk'
        refine hndom k hk ?_
        rw [h2.2]
        cases hc : ids cur with
        | nil => exact absurd hc hcur
        | cons a c =>
          have := hI.cur0
          rw [hc] at this
          simp only [List.length_cons, Nat.zero_lt_succ, getElem?_pos, List.getElem_cons_zero,
            Option.some.injEq] at this
          subst this
          exact ⟨c, rfl⟩
      · have h2 := hI.param g hgI (by simp [Grp.all, hp])
        have hnd := hI.nodup
        rw [hgrp, allG_append, allG_cons] at hnd
        have := (List.nodup_append.1 (List.nodup_append.1 hnd).2.1).1
        rw [Grp.all, h2.1, List.nodup_append] at this
        exact this.2.2 _ hp _ (by simp) rfl
    obtain ⟨used, hused, hfind⟩ : ∃ used : Bool,
        (used = true ↔ ∃ C, d.bnd = .suite C) ∧ find cur st = finish used m d r st := by
      refine ⟨match d.bnd with
        | .suite b => decide (0 < (st.sdecl b).getD 0)
        | _ => false, ?_, ?_⟩
      · cases hb : d.bnd with
        | param => simp
        | site i => simp
        | suite C =>
          have := hT.sdeclLead g hgI C (by rw [hlead, hb])
          simp [this]
      · rw [find, hs]
        simp only [ne_eq, not_true_eq_false, if_false]
        cases d.bnd <;> rfl
    obtain ⟨f1, f2, f3, f4, f5, f6, f7⟩ := foldl_switch used m st
    have hfin : finish used m d r st =
        ({ (m.foldl (switch used) st) with items := m.map (absorb d.scope) ++ d :: r }, some d) := by
      rw [finish]
      cases hb : d.bnd with
      | param => simp
      | site i => simp
      | suite C =>
        have hu : used = true := hused.2 ⟨C, hb⟩
        subst hu
        simp
    refine ⟨{ (m.foldl (switch used) st) with items := m.map (absorb d.scope) ++ d :: r }, d,
      ⟨allG gs ++ g.mem, g.lead, g.scope, g.acc⟩, grp r, by rw [hfind, hfin], ?_⟩
    have hgrp' : grp (m.map (absorb d.scope) ++ d :: r) =
        ⟨allG gs ++ g.mem, g.lead, g.scope, g.acc⟩ :: grp r := by
      rw [grp_absorb _ _ _ _ hd, hmem, hlead, hscope, hacc]
    have hallG : allG (⟨allG gs ++ g.mem, g.lead, g.scope, g.acc⟩ :: grp r) =
        allG (grp st.items) := by
      rw [allG_cons, all_merge, hgrp, allG_append, allG_cons, List.append_assoc]
    have hmap : (m.map (absorb d.scope) ++ d :: r).map Item.bnd = st.items.map Item.bnd := by
      rw [he]; simp [absorb, Function.comp_def]
    have hnd := hI.nodup
    refine ⟨hgrp', ?_, hscope.symm, hacc.symm, hgdom, ?_, f2, f3, f4, ?_, ?_⟩
    · rw [hgrp]
      exact Step.hitD gs g (grp r) hgdom hndom hpre
    · constructor
      · show List.map Item.bnd (m.map (absorb d.scope) ++ d :: r) = _
        rw [hmap, hT.bnds]
        show _ = allG (grp (m.map (absorb d.scope) ++ d :: r))
        rw [hgrp', hallG]
      · intro i hi
        change Bnd.site i ∉ allG (grp (m.map (absorb d.scope) ++ d :: r)) at hi
        rw [hgrp', hallG] at hi
        show (m.foldl (switch used) st).attr i = _
        rw [f5, if_neg, hT.attrOut i hi]
        rw [← hT.bnds, he] at hi
        exact fun h => hi (by rw [List.map_append]; exact List.mem_append_left _ h)
      · intro k hk i hi
        change k ∈ grp (m.map (absorb d.scope) ++ d :: r) at hk
        show (m.foldl (switch used) st).attr i = _
        rw [hgrp'] at hk
        have hnotin : Bnd.site i ∉ m.map Item.bnd := by
          rw [← hmem]
          rw [hgrp, allG_append, allG_cons, Grp.all] at hnd
          intro hin
          have hk2 : Bnd.site i ∈ [g.lead] ++ allG (grp r) := by
            rcases List.mem_cons.1 hk with rfl | hk
            · simp only at hi; rw [hi]; simp
            · refine List.mem_append_right _ (mem_allG.2 ⟨k, hk, ?_⟩)
              rw [Grp.all, hi]; simp
          have h3 : (allG gs ++ g.mem ++ ([g.lead] ++ allG (grp r))).Nodup := by
            simpa [List.append_assoc] using hnd
          exact (List.nodup_append.1 h3).2.2 _ hin _ hk2 rfl
        rw [f5, if_neg hnotin]
        rcases List.mem_cons.1 hk with rfl | hk
        · exact hT.attrLead g hgI i hi
        · exact hT.attrLead k (by rw [hgrp]; simp [hk]) i hi
      · intro k hk i hi hns
        change k ∈ grp (m.map (absorb d.scope) ++ d :: r) at hk
        show (m.foldl (switch used) st).attr i = _
        rw [hgrp'] at hk
        rcases List.mem_cons.1 hk with rfl | hk
        · have hin : Bnd.site i ∈ m.map Item.bnd := by rw [← hmem]; exact hi
          have hu : used = false := by
            cases hu : used with
            | false => rfl
            | true =>
              obtain ⟨C, hC⟩ := hused.1 hu
              exact absurd (hlead.trans hC) (hns C)
          rw [f5, if_pos hin, hu]; simp
        · have hnotin : Bnd.site i ∉ m.map Item.bnd := by
            rw [← hmem]
            rw [hgrp, allG_append, allG_cons, Grp.all] at hnd
            intro hin
            have hk2 : Bnd.site i ∈ [g.lead] ++ allG (grp r) :=
              List.mem_append_right _ (mem_allG.2 ⟨k, hk, by rw [Grp.all]; simp [hi]⟩)
            have h3 : (allG gs ++ g.mem ++ ([g.lead] ++ allG (grp r))).Nodup := by
              simpa [List.append_assoc] using hnd
            exact (List.nodup_append.1 h3).2.2 _ hin _ hk2 rfl
          rw [f5, if_neg hnotin]
          exact hT.attrMem k (by rw [hgrp]; simp [hk]) i hi hns
      · intro k hk i hi C hC
        change k ∈ grp (m.map (absorb d.scope) ++ d :: r) at hk
        show ((m.foldl (switch used) st).attr i).used = _
        rw [hgrp'] at hk
        rcases List.mem_cons.1 hk with rfl | hk
        · have hin : Bnd.site i ∈ m.map Item.bnd := by rw [← hmem]; exact hi
          have hu : used = true := hused.2 ⟨C, by rw [← hlead]; exact hC⟩
          rw [f5, if_pos hin, hu]; simp
        · have hnotin : Bnd.site i ∉ m.map Item.bnd := by
            rw [← hmem]
            rw [hgrp, allG_append, allG_cons, Grp.all] at hnd
            intro hin
            have hk2 : Bnd.site i ∈ [g.lead] ++ allG (grp r) :=
              List.mem_append_right _ (mem_allG.2 ⟨k, hk, by rw [Grp.all]; simp [hi]⟩)
            have h3 : (allG gs ++ g.mem ++ ([g.lead] ++ allG (grp r))).Nodup := by
              simpa [List.append_assoc] using hnd
            exact (List.nodup_append.1 h3).2.2 _ hin _ hk2 rfl
          rw [f5, if_neg hnotin]
          exact hT.attrSuite k (by rw [hgrp]; simp [hk]) i hi C hC
      · intro k hk C hC
        change k ∈ grp (m.map (absorb d.scope) ++ d :: r) at hk
        show (m.foldl (switch used) st).sdecl C = _
        rw [hgrp'] at hk
        have hnotin : Bnd.suite C ∉ m.map Item.bnd := by
          rw [← hmem]
          rw [hgrp, allG_append, allG_cons, Grp.all] at hnd
          intro hin
          have hk2 : Bnd.suite C ∈ [g.lead] ++ allG (grp r) := by
            rcases List.mem_cons.1 hk with rfl | hk
            · simp only at hC; rw [hC]; simp
            · exact List.mem_append_right _ (mem_allG.2 ⟨k, hk, by rw [Grp.all, hC]; simp⟩)
          have h3 : (allG gs ++ g.mem ++ ([g.lead] ++ allG (grp r))).Nodup := by
            simpa [List.append_assoc] using hnd
          exact (List.nodup_append.1 h3).2.2 _ hin _ hk2 rfl
        rw [f6, if_neg hnotin]
        rcases List.mem_cons.1 hk with rfl | hk
        · exact hT.sdeclLead g hgI C hC
        · exact hT.sdeclLead k (by rw [hgrp]; simp [hk]) C hC
      · intro C hC
        change ∀ k ∈ grp (m.map (absorb d.scope) ++ d :: r), k.lead ≠ .suite C at hC
        show (m.foldl (switch used) st).sdecl C = _
        rw [hgrp'] at hC
        rw [f6]
        by_cases hin : Bnd.suite C ∈ m.map Item.bnd
        · rw [if_pos hin]
        · rw [if_neg hin]
          refine hT.sdeclNone C ?_
          intro k hk hk'
          rw [hgrp, List.mem_append, List.mem_cons] at hk
          rcases hk with hk | rfl | hk
          · refine hin ?_
            rw [← hmem]
            exact List.mem_append_left _ (mem_allG.2 ⟨k, hk, by rw [Grp.all, hk']; simp⟩)
          · exact hC ⟨allG gs ++ k.mem, k.lead, k.scope, k.acc⟩ (by simp) hk'
          · exact hC k (List.mem_cons_of_mem _ hk) hk'
    · show (m.foldl (switch used) st).err = _
      rw [f7, decide_eq_false hpar, Bool.or_false]
    · intro i hi
      change Bnd.site i ∈ allG (grp (m.map (absorb d.scope) ++ d :: r)) at hi
      rw [hgrp', hallG] at hi
      exact hi
  · -- a new declaration
    have hrnil : r = [] := by
      obtain ⟨gs, g, hgrp, hlead, _, _, hmem, _⟩ := grp_split m d r hd
      have hb := hT.bnds
      have hg : ∀ l : List Item, (∀ a ∈ l, a.ignore = true) → grp l = [] := by
        intro l
        induction l with
        | nil => intro _; rfl
        | cons a l ih =>
          intro h
          rw [grp_ignored (h a (by simp)), ih fun b hb => h b (List.mem_cons_of_mem _ hb)]
      rw [he, hgrp, hg _ hr, List.map_append, List.map_cons, allG_append, allG_cons, allG_nil,
        Grp.all, List.append_nil, ← List.append_assoc, hmem, hlead] at hb
      have := congrArg List.length hb
      simp at this
      exact this
    subst hrnil
    obtain ⟨C, hsi, hClast⟩ := siLoop_suite cur hsuite c hc1 hc2
    have hitems : m ++ [d] = st.items := he.symm
    have hgrpne : grp st.items ≠ [] := by
      obtain ⟨g, hg, _⟩ := grp_lead (items := st.items) (a := d) (by rw [he]; simp) hd
      rintro h; rw [h] at hg; simp at hg
    have hndom : ∀ k ∈ grp st.items, ¬ k.scope <+: ids cur ∧ (ids cur).take c <+: k.scope := by
      intro k hk
      obtain ⟨gs, g, hgrp, hlead, hscope, _, _, hgs⟩ := grp_split m d [] hd
      rw [← he] at hgrp
      rw [hgrp, List.mem_append, List.mem_cons] at hk
      rcases hk with hk | rfl | hk
      · obtain ⟨a, ha, hal, _, has⟩ := hgs k hk
        rw [← has]
        exact hall a (by rw [he]; simp [ha]) hal
      · rw [hscope]
        exact hall d (by rw [he]; simp) hd
      · simp [grp] at hk
    have hscdom : (ids cur).take c <+: ids cur := List.take_prefix _ _
    -- the suite is new
    have hfresh : Bnd.suite C ∉ allG (grp st.items) := by
      intro hin
      obtain ⟨k, hk, hk'⟩ := mem_allG.1 hin
      obtain ⟨sc, s1, s2, s3, _⟩ := hI.suitePath k hk C hk'
      have hCcur : C ∈ ids cur := prefix_mem hscdom (List.mem_of_getLast? hClast)
      exact (hndom k hk).1 (s2.trans (s3.prefix_of_last s1 hCcur))
    have hpar : Bnd.param ∉ (m ++ [d]).map Item.bnd := by
      intro hp
      rw [hitems, hT.bnds] at hp
      obtain ⟨k, hk, hk'⟩ := mem_allG.1 hp
      have h2 := hI.param k hk hk'
      refine (hndom k hk).1 ?_
      rw [h2.2]
      cases hc : ids cur with
      | nil => exact absurd hc hcur
      | cons a c =>
        have := hI.cur0
        rw [hc] at this
        simp only [List.length_cons, Nat.zero_lt_succ, getElem?_pos, List.getElem_cons_zero,
          Option.some.injEq] at this
        subst this
        exact ⟨c, rfl⟩
    obtain ⟨k, hk, hkl, hks⟩ := grp_lead (items := st.items) (a := d) (by rw [he]; simp) hd
    let n : Item := ⟨(ids cur).take c, .suite C, false, [d.scope]⟩
    let st1 : St := { st with sdecl := fun c => if c = C then some 1 else st.sdecl c }
    have hfind : find cur st = finish true (m ++ [d]) n [] st1 := by
      rw [find, hs]
      simp only
      rw [if_pos (by omega), hsi]
    obtain ⟨f1, f2, f3, f4, f5, f6, f7⟩ := foldl_switch true (m ++ [d]) st1
    have hfin : finish true (m ++ [d]) n [] st1 =
        ({ ((m ++ [d]).foldl (switch true) st1) with
            items := (m ++ [d]).map (absorb n.scope) ++ n :: [] }, some n) := by
      rw [finish]; simp
    refine ⟨_, n, ⟨allG (grp st.items), .suite C, (ids cur).take c, [k.scope]⟩, [],
      by rw [hfind, hfin], ?_⟩
    have hgrp' : grp ((m ++ [d]).map (absorb n.scope) ++ n :: []) =
        [⟨allG (grp st.items), .suite C, (ids cur).take c, [k.scope]⟩] := by
      rw [grp_absorb n.scope (m ++ [d]) n [] rfl, hitems, hT.bnds, hks]
      rfl
    have hallG : allG [(⟨allG (grp st.items), .suite C, (ids cur).take c, [k.scope]⟩ : Grp)] =
        allG (grp st.items) ++ [.suite C] := by
      simp [Grp.all]
    refine ⟨hgrp', ?_, rfl, by simp [n, hks], hscdom, ?_, f2, f3, f4, ?_, ?_⟩
    · exact Step.hitN _ _ C k hgrpne (fun h hh => (hndom h hh).1) (fun h hh => (hndom h hh).2)
        hscdom hClast hfresh hk (by
          intro p hp hpall
          have hle := scan_max (ids cur) p hp st.items cur.length _
            (by rw [hlen]; exact hp.length_le)
            (by
              intro a ha hal
              obtain ⟨g, hg, _, hgs⟩ := grp_lead ha hal
              rw [← hgs]; exact hpall g hg) hs
          exact List.prefix_of_prefix_length_le hp hscdom (by
            rw [List.length_take]
            have := hp.length_le
            exact Nat.le_min.2 ⟨hle, this⟩))
    · constructor
      · show List.map Item.bnd ((m ++ [d]).map (absorb n.scope) ++ n :: []) =
          allG (grp ((m ++ [d]).map (absorb n.scope) ++ n :: []))
        rw [hgrp', hallG, ← hT.bnds, ← hitems]
        simp [absorb, Function.comp_def, n]
      · intro i hi
        change Bnd.site i ∉ allG (grp ((m ++ [d]).map (absorb n.scope) ++ n :: [])) at hi
        rw [hgrp', hallG] at hi
        show ((m ++ [d]).foldl (switch true) st1).attr i = _
        have hi' : Bnd.site i ∉ allG (grp st.items) := fun h => hi (List.mem_append_left _ h)
        rw [f5, if_neg, hT.attrOut i hi']
        rw [hitems, hT.bnds]; exact hi'
      · intro g hg i hi
        change g ∈ grp ((m ++ [d]).map (absorb n.scope) ++ n :: []) at hg
        rw [hgrp', List.mem_singleton] at hg
        subst hg
        cases hi
      · intro g hg i hi hns
        change g ∈ grp ((m ++ [d]).map (absorb n.scope) ++ n :: []) at hg
        rw [hgrp', List.mem_singleton] at hg
        subst hg
        exact absurd rfl (hns C)
      · intro g hg i hi C' _
        change g ∈ grp ((m ++ [d]).map (absorb n.scope) ++ n :: []) at hg
        rw [hgrp', List.mem_singleton] at hg
        subst hg
        show (((m ++ [d]).foldl (switch true) st1).attr i).used = true
        rw [f5, if_pos]
        · simp
        · rw [hitems, hT.bnds]; exact hi
      · intro g hg C' hC'
        change g ∈ grp ((m ++ [d]).map (absorb n.scope) ++ n :: []) at hg
        rw [hgrp', List.mem_singleton] at hg
        subst hg
        cases hC'
        show ((m ++ [d]).foldl (switch true) st1).sdecl C = some 1
        rw [f6, if_neg]
        · simp [st1]
        · rw [hitems, hT.bnds]; exact hfresh
      · intro C' hC'
        change ∀ g ∈ grp ((m ++ [d]).map (absorb n.scope) ++ n :: []), g.lead ≠ .suite C' at hC'
        rw [hgrp'] at hC'
        have hne' : C' ≠ C := by
          rintro rfl
          exact hC' _ (List.mem_singleton_self _) rfl
        show ((m ++ [d]).foldl (switch true) st1).sdecl C' = none
        rw [f6]
        by_cases hin : Bnd.suite C' ∈ (m ++ [d]).map Item.bnd
        · rw [if_pos hin]
        · rw [if_neg hin]
          show (if C' = C then some 1 else st.sdecl C') = none
          rw [if_neg hne']
          refine hT.sdeclNone C' ?_
          intro g hg hg'
          rw [hitems, hT.bnds] at hin
          exact hin (mem_allG.2 ⟨g, hg, by rw [Grp.all, hg']; simp⟩)
    · show ((m ++ [d]).foldl (switch true) st1).err = _
      rw [f7, decide_eq_false hpar, Bool.or_false]
    · intro i hi
      change Bnd.site i ∈ allG (grp ((m ++ [d]).map (absorb n.scope) ++ n :: [])) at hi
      rw [hgrp', hallG] at hi
      simpa using hi

end Verif.Scope
