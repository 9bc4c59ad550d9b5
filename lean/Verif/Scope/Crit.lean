import Verif.Scope.Whole

/-!
# Name resolution: when a declaration is put into a loop, and when a function is rejected
-/

namespace Verif.Scope

section
variable {V : Type} {x : Name} {Λ : List Lop} {cur : List Blk} {U : List Nat} {st T : St}

theorem tabs_nil {st : St} (h : Tabs st) (hg : grp st.items = []) : st.items = [] := by
  have := h.bnds
  rw [hg] at this
  simpa [allG] using this

theorem grp_ne {i : Bnd} (h : i ∈ allG (grp st.items)) : grp st.items ≠ [] := by
  intro he; rw [he] at h; simp [allG] at h

/-- The blocks of a statement that starts after the first binding. -/
theorem Vis.late {s : Stmt V} (h : Vis x Λ cur U s st T) (hne : grp st.items ≠ []) :
    ∀ u ∈ blocks s, suiteOf (grp T.items) ≠ some u :=
  fun u hu => not_suite_of_bound h.good.inv (h.bU u hu) h.at0.fut hne

/-- The blocks of a statement that does not bind the name. -/
theorem Vis.none {s : Stmt V} (h : Vis x Λ cur U s st T) (hs : sites x s = []) :
    ∀ u ∈ blocks s, suiteOf (grp T.items) ≠ some u := by
  intro u hu
  by_cases hne : grp st.items = []
  · have h1 := visit_nil x s cur hs (tabs_nil h.good.tabs hne)
    refine suiteOf_ne (apart_nil h.fin.fut ?_ (by rw [h1]; rfl))
    intro c hc hm
    rcases hc u hm with hm | hm
    · exact h.bU u hu (h.good.inv.curSub u hm)
    · exact hm (List.mem_append_left _ hu)
  · exact h.late hne u hu

theorem Vis.top {s : Stmt V} : ∀ {cur : List Blk} {U : List Nat} {st : St} {b : Nat},
    Vis x Λ (cur ++ [⟨b, true, true⟩]) U s st T → b ∉ ids cur → grp st.items = [] →
    topFirst x s = true →
    suiteOf (grp T.items) ≠ some b ∧ ∀ u ∈ blocks s, suiteOf (grp T.items) ≠ some u := by
  induction s with
  | asg i y rs f =>
    intro cur U st b h hb hg ht
    simp only [topFirst, decide_eq_true_eq] at ht
    subst ht
    obtain ⟨v1, v2, v3, v4⟩ := h.asg_eq
    have he := (visitAdd_spec i v1.res.good (visitAdd_cap v4) v2).1
    have hf := v3.fut
    have h0 : (visitReads y (cur ++ [⟨b, true, true⟩]) rs st).items = [] :=
      visitReads_nil y _ rs (tabs_nil h.good.tabs hg)
    have hg0 : grp (visitReads y (cur ++ [⟨b, true, true⟩]) rs st).items = [] := by rw [h0]; rfl
    rw [he, hg0] at hf
    obtain ⟨p, g, e1, e2⟩ := near_fut hf (B := b) (q := ids cur) hb
      (p := []) rfl (ids_concat cur b true true) (by simp)
    refine ⟨?_, by simp [blocks]⟩
    rw [e1, suiteOf]
    simp only [List.getLast?_append, List.getLast?_singleton, Option.some_or]
    cases hl : g.lead with
    | suite C =>
      rintro ⟨⟩
      exact e2 hl
    | _ => simp
  | seq s t hs ht =>
    intro cur U st b h hb hg hk
    obtain ⟨v1, v2⟩ := h.seq
    simp only [topFirst, Bool.or_eq_true, Bool.and_eq_true, List.isEmpty_iff] at hk
    simp only [blocks, List.mem_append]
    rcases hk with hk | ⟨hk, hk'⟩
    · obtain ⟨h1, h2⟩ := hs v1 hb hg hk
      refine ⟨h1, ?_⟩
      rintro u (hu | hu)
      · exact h2 u hu
      · have hne : ∃ i, i ∈ sites x s := by
          clear hs ht v1 v2 h h2 hg
          induction s with
          | asg i y rs f => simp only [topFirst, decide_eq_true_eq] at hk; exact ⟨i, by simp [sites, hk]⟩
          | seq s t ih1 ih2 =>
            simp only [topFirst, Bool.or_eq_true, Bool.and_eq_true] at hk
            simp only [sites, List.mem_append]
            rcases hk with hk | hk
            · obtain ⟨i, hi⟩ := ih1 hk; exact ⟨i, .inl hi⟩
            · obtain ⟨i, hi⟩ := ih2 hk.2; exact ⟨i, .inr hi⟩
          | _ => simp [topFirst] at hk
        obtain ⟨i, hi⟩ := hne
        exact v2.late (grp_ne (v1.res.has i hi)) u hu
    · have h0 : (visit x (cur ++ [⟨b, true, true⟩]) s st).items = [] :=
        visit_nil x s _ hk (tabs_nil h.good.tabs hg)
      obtain ⟨h1, h2⟩ := ht v2 hb (by rw [h0]; rfl) hk'
      refine ⟨h1, ?_⟩
      rintro u (hu | hu)
      · exact v1.none hk u hu
      · exact h2 u hu
  | _ => intro cur U st b _ _ _ hk; simp [topFirst] at hk

theorem not_empty {l : List Nat} (h : (!l.isEmpty) = true) : ∃ i, i ∈ l := by
  cases l with
  | nil => simp at h
  | cons a l => exact ⟨a, by simp⟩

theorem settled_loops (hT : Fin T) (s : Stmt V) : ∀ {cur : List Blk} {U : List Nat} {st : St}
    {bnd : Bool}, Vis x Λ cur U s st T → (bnd = true → grp st.items ≠ []) →
    settled x bnd s = true → ∀ u ∈ loopBlocks s, suiteOf (grp T.items) ≠ some u := by
  induction s generalizing Λ with
  | seq s t hs ht =>
    intro cur U st bnd h hb hk u hu
    obtain ⟨v1, v2⟩ := h.seq
    rw [settled, Bool.and_eq_true] at hk
    rcases List.mem_append.1 hu with hu | hu
    · exact hs v1 hb hk.1 u hu
    · refine ht v2 ?_ hk.2 u hu
      rw [Bool.or_eq_true]
      rintro (h0 | h0)
      · obtain ⟨g, q, hg⟩ := List.exists_cons_of_ne_nil (hb h0)
        exact grp_ne (v1.res.keep g.lead (by rw [hg, allG_cons]; simp [Grp.all]))
      · obtain ⟨i, hi⟩ := not_empty h0
        exact grp_ne (v1.res.has i hi)
  | ite k rs p b₁ s₁ b₂ s₂ hs ht =>
    intro cur U st bnd h hb hk u hu
    obtain ⟨v0, v1, v2, _⟩ := h.ite
    rw [settled, Bool.and_eq_true] at hk
    have hb' : bnd = true → grp (visitReads x cur rs st).items ≠ [] := by
      intro h0
      obtain ⟨g, q, hg⟩ := List.exists_cons_of_ne_nil (hb h0)
      exact grp_ne (v0.res.keep g.lead (by rw [hg, allG_cons]; simp [Grp.all]))
    rcases List.mem_append.1 hu with hu | hu
    · exact hs v1 hb' hk.1 u hu
    · refine ht v2 ?_ hk.2 u hu
      rw [Bool.or_eq_true]
      rintro (h0 | h0)
      · obtain ⟨g, q, hg⟩ := List.exists_cons_of_ne_nil (hb' h0)
        exact grp_ne (v1.res.keep g.lead (by rw [hg, allG_cons]; simp [Grp.all]))
      · obtain ⟨i, hi⟩ := not_empty h0
        exact grp_ne (v1.res.has i hi)
  | try_ b₁ s₁ b₂ s₂ hs ht =>
    intro cur U st bnd h hb hk u hu
    obtain ⟨v1, v2⟩ := h.try_
    rw [settled, Bool.and_eq_true] at hk
    rcases List.mem_append.1 hu with hu | hu
    · exact hs v1 hb hk.1 u hu
    · refine ht v2 ?_ hk.2 u hu
      rw [Bool.or_eq_true]
      rintro (h0 | h0)
      · obtain ⟨g, q, hg⟩ := List.exists_cons_of_ne_nil (hb h0)
        exact grp_ne (v1.res.keep g.lead (by rw [hg, allG_cons]; simp [Grp.all]))
      · obtain ⟨i, hi⟩ := not_empty h0
        exact grp_ne (v1.res.has i hi)
  | whl rs p b s _ =>
    intro cur U st bnd h hb hk u hu
    have hu' : u ∈ blocks (.whl rs p b s) := hu
    by_cases hne : grp st.items = []
    · simp only [settled, Bool.or_eq_true, List.isEmpty_iff] at hk
      rcases hk with (hk | hk) | hk
      · exact absurd hne (hb hk)
      · exact h.none hk u hu'
      · obtain ⟨v0, v1⟩ := h.whl hT.inv
        have hbU : b ∉ U := h.bU b (by simp [blocks])
        have h0 : (visitReads x (cur ++ [⟨b, true, true⟩]) rs st).items = [] :=
          visitReads_nil x _ rs (tabs_nil h.good.tabs hne)
        obtain ⟨h1, h2⟩ := v1.top (fun hm => hbU (h.good.inv.curSub b hm)) (by rw [h0]; rfl) hk
        rcases List.mem_cons.1 hu with rfl | hu
        · exact h1
        · exact h2 u hu
    · exact h.late hne u hu'
  | forr rs f b i y s _ =>
    intro cur U st bnd h hb hk u hu
    have hu' : u ∈ blocks (.forr rs f b i y s) := hu
    by_cases hne : grp st.items = []
    · have hbU : b ∉ U := h.bU b (by simp [blocks])
      by_cases hy : y = x
      · subst hy
        obtain ⟨v0, v1, v2, v3, v4, v5⟩ := h.forr hT.inv rfl
        have ey := forVar_items (b := b) h.good hbU v0 (v2 rfl) (v3 rfl)
        have hfy := v5.at0.fut
        rw [ey] at hfy
        rcases List.mem_cons.1 hu with rfl | hu
        · exact for_not_suite v0.res.good.inv hbU hfy (v3 rfl)
        · exact v5.late (by rw [ey]; simp) u hu
      · simp only [settled, Bool.or_eq_true, List.isEmpty_iff, decide_eq_true_eq] at hk
        rcases hk with ((hk | hk) | hk) | hk
        · exact absurd hne (hb hk)
        · exact absurd hk hy
        · exact h.none (by simp [sites, hy, hk]) u hu'
        · obtain ⟨v0, v1, v2, v3, v4, v5⟩ := h.forr hT.inv rfl
          have he : forVar x cur rs b i y st = visitReads x cur rs st := by
            rw [forVar, if_neg hy]
          rw [he] at v5
          have h0 : (visitReads x cur rs st).items = [] :=
            visitReads_nil x _ rs (tabs_nil h.good.tabs hne)
          obtain ⟨h1, h2⟩ := v5.top (fun hm => hbU (h.good.inv.curSub b hm)) (by rw [h0]; rfl) hk
          rcases List.mem_cons.1 hu with rfl | hu
          · exact h1
          · exact h2 u hu
    · exact h.late hne u hu'
  | _ => intro cur U st bnd _ _ _ u hu; simp [loopBlocks] at hu

/-! ## When a function is rejected -/

/-- What the visitor knows of a name: nothing, bound, read before it was bound, error. -/
def qOf (st : St) : Nat :=
  if st.err then 3 else if st.cap then 2 else if st.items.isEmpty then 0 else 1

/-- The effect of an occurrence. -/
def qStep : Nat → Bool → Nat
  | 0, true => 1
  | 0, false => 2
  | 1, _ => 1
  | 2, true => 3
  | 2, false => 2
  | _, _ => 3

theorem q_three (l : List Bool) : l.foldl qStep 3 = 3 := by
  induction l with
  | nil => rfl
  | cons a l ih => exact ih

theorem q_err (h : st.err = true) : qOf st = 3 := by rw [qOf, if_pos h]

theorem q_eq {st st' : St} (h1 : st'.err = st.err) (h2 : st'.cap = st.cap)
    (h3 : st'.items = [] ↔ st.items = []) : qOf st' = qOf st := by
  rw [qOf, qOf, h1, h2]
  have : st'.items.isEmpty = st.items.isEmpty := by
    rw [Bool.eq_iff_iff, List.isEmpty_iff, List.isEmpty_iff]; exact h3
  rw [this]

theorem Good.nocap (hG : Good cur U st) (h : st.items ≠ []) : st.cap = false := by
  cases hc : st.cap with
  | false => rfl
  | true => exact absurd (hG.cap hc) h

theorem q_bound (hG : Good cur U st) (he : st.err = false) (h : st.items ≠ []) : qOf st = 1 := by
  have hi : st.items.isEmpty = false := by
    rw [← Bool.not_eq_true, List.isEmpty_iff]; exact h
  rw [qOf, he, hG.nocap h, hi]; rfl

theorem q_read (r : Nat) (hG : Good cur U st) :
    qOf (visitRead cur r st) = qStep (qOf st) false ∧
      ((visitRead cur r st).err = false → Good cur U (visitRead cur r st)) := by
  refine ⟨?_, fun h => by simpa using (res_read r hG h).1.good⟩
  cases he : st.err with
  | true => rw [q_err he, q_err (visitRead_err cur r st he)]; rfl
  | false =>
    by_cases hne : st.items = []
    · rw [visitRead_nil r hne]
      cases hc : st.cap <;> simp [qOf, he, hc, hne, qStep]
    · obtain ⟨g, gs, h1, _, _, h4, h5, _⟩ := visitRead_spec r hG hne
      rw [q_bound hG he hne, q_bound h4 (by rw [h5, he]) (by
        intro h; rw [h] at h1; cases h1)]
      rfl

theorem q_reads (x : Name) (rs : List Rd) : ∀ {st : St}, Good cur U st →
    qOf (visitReads x cur rs st) = (occs.readsOf x rs).foldl qStep (qOf st) := by
  induction rs with
  | nil => intro st _; rfl
  | cons r rs ih =>
    intro st hG
    rw [visitReads, List.foldl_cons]
    by_cases hx : r.x = x
    · have e : occs.readsOf x (r :: rs) = false :: occs.readsOf x rs := by
        simp [occs.readsOf, hx]
      rw [if_pos hx, e, List.foldl_cons, ← (q_read r.id hG).1]
      cases he : (visitRead cur r.id st).err with
      | true => rw [q_err he, q_three]; exact q_err (visitReads_err x cur rs _ he)
      | false => exact ih ((q_read r.id hG).2 he)
    · have e : occs.readsOf x (r :: rs) = occs.readsOf x rs := by
        simp [occs.readsOf, hx]
      rw [if_neg hx, e]
      exact ih hG

theorem q_add (i : Nat) (hG : Good cur U st) (hi : Bnd.site i ∉ allG (grp st.items)) :
    qOf (visitAdd cur i st) = qStep (qOf st) true := by
  cases he : st.err with
  | true => rw [q_err he, q_err (visitAdd_err cur i st he)]; rfl
  | false =>
    cases hc : st.cap with
    | true => rw [visitAdd, if_pos hc]; simp [qOf, he, hc, qStep]
    | false =>
      obtain ⟨h1, h2, h3, _⟩ := visitAdd_spec i hG hc hi
      have hne : (visitAdd cur i st).items ≠ [] := by intro h; rw [h] at h1; cases h1
      rw [q_bound h2 (by rw [h3, he]) hne, qOf, he, hc]
      cases st.items.isEmpty <;> rfl

theorem q_end (b : Nat) (hG : Good cur U st) : qOf (endLoop cur b st) = qOf st := by
  cases he : st.err with
  | true => rw [q_err he, q_err (endLoop_err cur b st he)]
  | false =>
    rw [endLoop]
    split
    · by_cases hne : st.items = []
      · rw [find_nil cur st hne]
      · obtain ⟨st', v, g, gs, hf, F⟩ := find_spec cur st U hG.suite hG.tabs hG.inv hne
        rw [hf]
        refine q_eq F.err F.cap ⟨fun h => ?_, fun h => absurd h hne⟩
        have := F.grps
        dsimp only at h
        rw [h] at this
        cases this
    · rfl

theorem q_then {st st₁ st₂ : St} {l₁ l₂ : List Bool} (h1 : qOf st₁ = l₁.foldl qStep (qOf st))
    (h2 : st₁.err = true → st₂.err = true)
    (h3 : st₁.err = false → qOf st₂ = l₂.foldl qStep (qOf st₁)) :
    qOf st₂ = (l₁ ++ l₂).foldl qStep (qOf st) := by
  rw [List.foldl_append, ← h1]
  cases he : st₁.err with
  | true => rw [q_err he, q_three, q_err (h2 he)]
  | false => exact h3 he

theorem q_two {x : Name} {s₁ s₂ : Stmt V} {b₁ b₂ : Nat}
    (ih1 : ∀ {cur : List Blk} {U : List Nat} {st : St},
      Scope.plain s₁ = true → Good cur U st → (blocks s₁).Nodup → (∀ b ∈ blocks s₁, b ∉ U) →
      (sites x s₁).Nodup → (∀ i ∈ sites x s₁, Bnd.site i ∉ allG (grp st.items)) →
      qOf (visit x cur s₁ st) = (occs x s₁).foldl qStep (qOf st))
    (ih2 : ∀ {cur : List Blk} {U : List Nat} {st : St},
      Scope.plain s₂ = true → Good cur U st → (blocks s₂).Nodup → (∀ b ∈ blocks s₂, b ∉ U) →
      (sites x s₂).Nodup → (∀ i ∈ sites x s₂, Bnd.site i ∉ allG (grp st.items)) →
      qOf (visit x cur s₂ st) = (occs x s₂).foldl qStep (qOf st))
    (hp1 : Scope.plain s₁ = true) (hp2 : Scope.plain s₂ = true) (hG : Good cur U st)
    (hb : (b₁ :: blocks s₁ ++ b₂ :: blocks s₂).Nodup)
    (hbU : ∀ b ∈ b₁ :: blocks s₁ ++ b₂ :: blocks s₂, b ∉ U)
    (hs : (sites x s₁ ++ sites x s₂).Nodup)
    (hfr : ∀ i ∈ sites x s₁ ++ sites x s₂, Bnd.site i ∉ allG (grp st.items)) :
    qOf (visit x (cur ++ [⟨b₂, true, false⟩]) s₂ (visit x (cur ++ [⟨b₁, true, false⟩]) s₁ st)) =
      (occs x s₁ ++ occs x s₂).foldl qStep (qOf st) := by
  rw [List.nodup_append] at hs
  rw [List.cons_append, List.nodup_cons, List.nodup_append, List.nodup_cons] at hb
  obtain ⟨hb1, hb2, ⟨hb3, hb4⟩, hb5⟩ := hb
  have d1 : ∀ b ∈ blocks s₁, b ∉ b₁ :: U := fun b h hm => by
    rcases List.mem_cons.1 hm with rfl | hm
    · exact hb1 (by simp [h])
    · exact hbU b (by simp [h]) hm
  have hG1 := hG.enter false (hbU b₁ (by simp))
  refine q_then (ih1 hp1 hG1 hb2 d1 hs.1 (fun i h => hfr i (by simp [h]))) (visit_err x s₂ _ _) ?_
  intro he
  have h1 := (visit_spec x s₁ _ _ _ hp1 hG1 hb2 d1 hs.1 (fun i h => hfr i (by simp [h])) he).enter hG
  refine ih2 hp2 (h1.good.enter false ?_) hb4 ?_ hs.2.1 ?_
  · intro hm
    rcases List.mem_append.1 hm with hm | hm
    · rcases List.mem_cons.1 hm with rfl | hm
      · exact hb1 (by simp)
      · exact hb5 _ hm b₂ (by simp) rfl
    · exact hbU b₂ (by simp) hm
  · intro b h hm
    rcases List.mem_cons.1 hm with rfl | hm
    · exact hb3 h
    · rcases List.mem_append.1 hm with hm | hm
      · rcases List.mem_cons.1 hm with rfl | hm
        · exact hb1 (by simp [h])
        · exact hb5 _ hm b (by simp [h]) rfl
      · exact hbU b (by simp [h]) hm
  · intro i h hm
    rcases h1.only i hm with hm | hm
    · exact hfr i (by simp [h]) hm
    · exact hs.2.2 i hm i h rfl

theorem reads_fresh {rs : List Rd} {S : List Nat} (hG : Good cur U st)
    (he : (visitReads x cur rs st).err = false)
    (h : ∀ i ∈ S, Bnd.site i ∉ allG (grp st.items)) :
    ∀ i ∈ S, Bnd.site i ∉ allG (grp (visitReads x cur rs st).items) := by
  intro i hi hm
  rcases (res_reads x rs hG he).1.only i hm with hm | hm
  · exact h i hi hm
  · simp at hm

theorem q_visit (x : Name) (s : Stmt V) : ∀ {cur : List Blk} {U : List Nat} {st : St},
    Scope.plain s = true → Good cur U st → (blocks s).Nodup → (∀ b ∈ blocks s, b ∉ U) →
    (sites x s).Nodup → (∀ i ∈ sites x s, Bnd.site i ∉ allG (grp st.items)) →
    qOf (visit x cur s st) = (occs x s).foldl qStep (qOf st) := by
  induction s with
  | skip => intro cur U st _ _ _ _ _ _; rfl
  | brk => intro cur U st _ _ _ _ _ _; rfl
  | cont => intro cur U st _ _ _ _ _ _; rfl
  | out rs f => intro cur U st _ hG _ _ _ _; exact q_reads x rs hG
  | ret rs f => intro cur U st _ hG _ _ _ _; exact q_reads x rs hG
  | asg i y rs f =>
    intro cur U st _ hG _ _ _ hfr
    by_cases hy : y = x
    · simp only [visit, sites, if_pos hy, occs] at hfr ⊢
      refine q_then (q_reads x rs hG) (visitAdd_err cur i _) fun he => ?_
      exact q_add i (by simpa using (res_reads x rs hG he).1.good)
        (reads_fresh hG he hfr i (by simp))
    · simp only [visit, sites, if_neg hy, occs, List.append_nil] at hfr ⊢
      exact q_reads x rs hG
  | seq s t ihs iht =>
    intro cur U st hp hG hb hbU hs hfr
    simp only [Scope.plain, Bool.and_eq_true] at hp
    simp only [blocks, sites] at hb hbU hs hfr
    rw [List.nodup_append] at hb hs
    have hb1 : ∀ b ∈ blocks s, b ∉ U := fun b h => hbU b (by simp [h])
    have hf1 : ∀ i ∈ sites x s, Bnd.site i ∉ allG (grp st.items) := fun i h => hfr i (by simp [h])
    refine q_then (ihs hp.1 hG hb.1 hb1 hs.1 hf1) (visit_err x t cur _) fun he => ?_
    have h1 := visit_spec x s cur U st hp.1 hG hb.1 hb1 hs.1 hf1 he
    refine iht hp.2 h1.good hb.2.1 ?_ hs.2.1 ?_
    · intro b hbt hm
      rcases List.mem_append.1 hm with hm | hm
      · exact hb.2.2 b hm b hbt rfl
      · exact hbU b (by simp [hbt]) hm
    · intro i hi hm
      rcases h1.only i hm with hm | hm
      · exact hfr i (by simp [hi]) hm
      · exact hs.2.2 i hm i hi rfl
  | ite k rs p b₁ s₁ b₂ s₂ ih1 ih2 =>
    intro cur U st hp hG hb hbU hs hfr
    simp only [Scope.plain, Bool.and_eq_true] at hp
    obtain ⟨⟨rfl, hp1⟩, hp2⟩ := hp
    rw [occs, List.append_assoc]
    refine q_then (q_reads x rs hG)
      (fun h => visit_err x s₂ _ _ (visit_err x s₁ _ _ h)) fun he => ?_
    exact q_two ih1 ih2 hp1 hp2 (by simpa using (res_reads x rs hG he).1.good) hb hbU hs
      (reads_fresh hG he hfr)
  | try_ b₁ s₁ b₂ s₂ ih1 ih2 =>
    intro cur U st hp hG hb hbU hs hfr
    simp only [Scope.plain, Bool.and_eq_true] at hp
    exact q_two ih1 ih2 hp.1 hp.2 hG hb hbU hs hfr
  | whl rs p b s ih =>
    intro cur U st hp hG hb hbU hs hfr
    simp only [Scope.plain] at hp
    simp only [blocks, sites] at hb hbU hs hfr
    rw [List.nodup_cons] at hb
    have hG1 := hG.enter true (hbU b (by simp))
    have d1 : ∀ c ∈ blocks s, c ∉ b :: U := fun c h hm => by
      rcases List.mem_cons.1 hm with rfl | hm
      · exact hb.1 h
      · exact hbU c (by simp [h]) hm
    have hq : qOf (visit x (cur ++ [⟨b, true, true⟩]) s
        (visitReads x (cur ++ [⟨b, true, true⟩]) rs st)) =
        (occs x (.whl rs p b s)).foldl qStep (qOf st) := by
      rw [occs]
      refine q_then (q_reads x rs hG1) (visit_err x s _ _) fun he => ?_
      exact ih hp (by simpa using (res_reads x rs hG1 he).1.good) hb.2 d1 hs
        (reads_fresh hG1 he hfr)
    rw [← hq]
    simp only [visit]
    cases he : (visit x (cur ++ [⟨b, true, true⟩]) s
        (visitReads x (cur ++ [⟨b, true, true⟩]) rs st)).err with
    | true => rw [q_err he, q_err (endLoop_err cur b _ he)]
    | false =>
      have he1 := err_false (visit_err x s _ _) he
      have h0 := (res_reads x rs hG1 he1).1
      have h1 := visit_spec x s _ _ _ hp h0.good hb.2 d1 hs (reads_fresh hG1 he1 hfr) he
      exact q_end b ((h0.trans h1).enter hG).good
  | forr rs f b i y s ih =>
    intro cur U st hp hG hb hbU hs hfr
    simp only [Scope.plain] at hp
    simp only [blocks, sites] at hb hbU hs hfr
    rw [List.nodup_cons] at hb
    rw [List.nodup_append] at hs
    have hbU' : b ∉ U := hbU b (by simp)
    have d1 : ∀ c ∈ blocks s, c ∉ b :: U := fun c h hm => by
      rcases List.mem_cons.1 hm with rfl | hm
      · exact hb.1 h
      · exact hbU c (by simp [h]) hm
    simp only [visit]
    generalize hst1 : (if y = x then visitAdd (cur ++ [⟨b, true, true⟩]) i (visitReads x cur rs st)
      else visitReads x cur rs st) = st1
    have hE1 : (visitReads x cur rs st).err = true → st1.err = true := by
      intro h
      rw [← hst1]
      split
      · exact visitAdd_err _ i _ h
      · exact h
    have hq1 : qOf st1 = (occs.readsOf x rs ++ if y = x then [true] else []).foldl qStep (qOf st) := by
      refine q_then (q_reads x rs hG) hE1 fun he => ?_
      have h0 := (res_reads x rs hG he).1
      rw [← hst1]
      by_cases hy : y = x
      · simp only [if_pos hy] at hfr ⊢
        exact q_add i (h0.good.enter true hbU') (reads_fresh hG he hfr i (by simp))
      · simp only [if_neg hy]; rfl
    have hR1 : st1.err = false → Good cur U st → Res (cur ++ [⟨b, true, true⟩]) []
        (if y = x then [i] else []) [] (b :: U) (visitReads x cur rs st) st1 := by
      intro he _
      have h0 := (res_reads x rs hG (err_false hE1 he)).1
      rw [← hst1] at he ⊢
      split at he
      · rename_i hy
        simp only [if_pos hy] at hfr ⊢
        exact (res_add i (h0.good.enter true hbU')
          (reads_fresh hG (err_false (visitAdd_err _ i _) he) hfr i (by simp)) he).1
      · rename_i hy
        simp only [if_neg hy]
        exact Res.refl (h0.good.enter true hbU')
    have hst : qOf { st1 with seen := st1.seen.filter (· != b) } = qOf st1 := rfl
    have hG2 : st1.err = false →
        Good (cur ++ [⟨b, true, true⟩]) (b :: U) { st1 with seen := st1.seen.filter (· != b) } := by
      intro he
      have hg := (hR1 he hG).good
      exact hg.congr rfl rfl rfl hg.cap fun u hu => hg.seen u ((List.mem_filter.1 hu).1)
    have hf2 : st1.err = false → ∀ j ∈ sites x s, Bnd.site j ∉ allG (grp st1.items) := by
      intro he j hj hm
      rcases (hR1 he hG).only j hm with hm | hm
      · exact reads_fresh hG (err_false hE1 he) hfr j (by simp [hj]) hm
      · exact hs.2.2 j hm j hj rfl
    have hq2 : qOf (visit x (cur ++ [⟨b, true, true⟩]) s
        { st1 with seen := st1.seen.filter (· != b) }) =
        (occs x (.forr rs f b i y s)).foldl qStep (qOf st) := by
      rw [occs]
      refine q_then (st₁ := { st1 with seen := st1.seen.filter (· != b) }) hq1 (visit_err x s _ _) fun he => ?_
      exact ih hp (hG2 he) hb.2 d1 hs.2.1 (hf2 he)
    rw [← hq2]
    split
    · rfl
    · cases he : (visit x (cur ++ [⟨b, true, true⟩]) s
          { st1 with seen := st1.seen.filter (· != b) }).err with
      | true => rw [q_err he, q_err (endLoop_err cur b _ he)]
      | false =>
        have he1 : st1.err = false :=
          err_false (visit_err x s _ { st1 with seen := st1.seen.filter (· != b) }) he
        have h2 := visit_spec x s _ _ _ hp (hG2 he1) hb.2 d1 hs.2.1 (hf2 he1) he
        exact q_end b (h2.enter hG).good

theorem q_fold (l : List Bool) :
    (l.foldl qStep 2 = 3 ↔ true ∈ l) ∧ (l.foldl qStep 1 = 1) ∧
    (l.foldl qStep 0 = 3 ↔ ∃ t, l = false :: t ∧ true ∈ t) := by
  have h1 : ∀ l : List Bool, l.foldl qStep 1 = 1 := by
    intro l
    induction l with
    | nil => rfl
    | cons a l ih => exact ih
  have h2 : ∀ l : List Bool, l.foldl qStep 2 = 3 ↔ true ∈ l := by
    intro l
    induction l with
    | nil => simp
    | cons a l ih =>
      cases a with
      | true => simp [qStep, q_three]
      | false => simpa [qStep] using ih
  refine ⟨h2 l, h1 l, ?_⟩
  cases l with
  | nil => simp
  | cons a l =>
    cases a with
    | true => simp [qStep, h1]
    | false => simp [qStep, h2]

/-- A function is rejected exactly if some name that is not a parameter is read, in the
order of the text, before it is first bound. -/
theorem err_iff {params : List Name} {body : Stmt V} (hL : Labelled body)
    (hp : Scope.plain body = true) (x : Name) :
    (analyse params body x).err = true ↔
      x ∉ params ∧ ∃ t, occs x body = false :: t ∧ true ∈ t := by
  obtain ⟨h1, h2, h3⟩ := hL
  rw [List.nodup_cons] at h1
  have hn : (sites x body).Nodup := h2.sublist (sites_sub x body)
  have hb : ∀ b ∈ blocks body, b ∉ [0] := by
    intro b hb h
    rw [List.mem_singleton] at h
    subst h
    exact h1.1 hb
  have hq := q_visit x body hp (start_good params x) h1.2 hb hn (fun i _ => start_fresh params x i)
  have he : (analyse params body x).err = true ↔ qOf (analyse params body x) = 3 := by
    constructor
    · exact q_err
    · intro h
      rw [qOf] at h
      split at h
      · assumption
      · split at h
        · cases h
        · split at h <;> cases h
  rw [he, analyse_start, hq]
  by_cases hx : x ∈ params
  · have : qOf (start params x) = 1 := by simp [qOf, start, hx]
    rw [this, (q_fold _).2.1]
    simp [hx]
  · have : qOf (start params x) = 0 := by simp [qOf, start, hx]
    rw [this, (q_fold _).2.2]
    simp [hx]

theorem settled_noLoop {params : List Name} {body : Stmt V} (hL : Labelled body)
    (hp : Scope.plain body = true) {x : Name} (he : (analyse params body x).err = false)
    (hs : settled x (params.contains x) body = true) :
    ∀ b ∈ loopBlocks body, (analyse params body x).sdecl b = none := by
  have hW := (analyse_whole hL hp he).fin
  intro b hb
  refine (sdecl_iff hW b).2 (settled_loops hW body (analyse_vis hL hp he) ?_ hs b hb)
  intro h
  rw [List.contains_iff_mem] at h
  rw [start_grp, if_pos h]
  simp

theorem accept_iff {params : List Name} {body : Stmt V} (hL : Labelled body)
    (hp : Scope.plain body = true) :
    (∀ x, (analyse params body x).err = false) ↔ BoundFirst params body := by
  constructor
  · intro h x hx t ht hm
    have := (err_iff hL hp x).2 ⟨hx, t, ht, hm⟩
    rw [h x] at this
    cases this
  · intro h x
    cases he : (analyse params body x).err with
    | false => rfl
    | true =>
      obtain ⟨hx, t, ht, hm⟩ := (err_iff hL hp x).1 he
      exact absurd hm (h x hx t ht)

/-- Python neither reads a variable that was never set nor fails to resolve a name. -/
def Clean : Out V → Prop
  | .ub => False
  | .bad => False
  | _ => True

theorem readsP_clean (loc : Name → Bool) (gl : Name → V) (σ : PS V) (rs : List Rd) :
    ∀ e, readsP loc gl σ rs = .error e → Clean e := by
  induction rs with
  | nil => intro e h; simp [readsP] at h
  | cons r rs ih =>
    intro e h
    simp only [readsP] at h
    cases hr : readP loc gl σ r with
    | error e' =>
      rw [hr] at h
      cases h
      simp only [readP] at hr
      split at hr
      · split at hr
        · cases hr; trivial
        · cases hr
      · cases hr
    | ok a =>
      rw [hr] at h
      simp only at h
      split at h
      · rename_i h'
        cases h
        exact ih _ h'
      · cases h

theorem evP_clean {W : Type} (loc : Name → Bool) (gl : Name → V) (σ : PS V) (rs : List Rd)
    (f : List V → Option W) : ∀ e, evP loc gl σ rs f = .error e → Clean e := by
  intro e h
  simp only [evP] at h
  split at h
  · rename_i h'
    cases h
    exact readsP_clean loc gl σ rs _ h'
  · split at h
    · cases h; trivial
    · cases h

theorem runP_clean (loc : Name → Bool) (gl : Name → V) : ∀ n,
    (∀ (s : Stmt V) σ, Clean (runP loc gl n s σ).2) ∧
    (∀ vs x (s : Stmt V) σ, Clean (forP loc gl n vs x s σ).2) := by
  intro n
  induction n with
  | zero =>
    constructor
    · intro s σ; unfold runP; trivial
    · intro vs x s σ; unfold forP; trivial
  | succ n ih =>
    obtain ⟨ih1, ih2⟩ := ih
    constructor
    · intro s σ
      cases s with
      | skip => rw [runP]; trivial
      | brk => rw [runP]; trivial
      | cont => rw [runP]; trivial
      | out rs f =>
        rw [runP]
        split
        · exact evP_clean _ _ _ _ _ _ ‹_›
        · trivial
      | ret rs f =>
        rw [runP]
        split
        · exact evP_clean _ _ _ _ _ _ ‹_›
        · trivial
      | asg i x rs f =>
        rw [runP]
        split
        · exact evP_clean _ _ _ _ _ _ ‹_›
        · trivial
      | seq s t =>
        rw [runP]
        have h := ih1 s σ
        split
        · exact ih1 _ _
        · exact h
      | ite k rs p b₁ s₁ b₂ s₂ =>
        rw [runP]
        split
        · exact evP_clean _ _ _ _ _ _ ‹_›
        · exact ih1 _ _
        · exact ih1 _ _
      | try_ b₁ s₁ b₂ s₂ =>
        rw [runP]
        have h := ih1 s₁ σ
        split
        · exact ih1 _ _
        · exact h
      | whl rs p b s =>
        rw [runP]
        split
        · exact evP_clean _ _ _ _ _ _ ‹_›
        · trivial
        · have h := ih1 s σ
          split
          · exact ih1 _ _
          · exact ih1 _ _
          · trivial
          · exact h
      | forr rs f b i x s =>
        rw [runP]
        split
        · exact evP_clean _ _ _ _ _ _ ‹_›
        · exact ih2 _ _ _ _
    · intro vs x s σ
      cases vs with
      | nil => rw [forP]; trivial
      | cons a vs =>
        rw [forP]
        have h := ih1 s (setP x a σ)
        split
        · exact ih2 _ _ _ _
        · exact ih2 _ _ _ _
        · trivial
        · exact h

end

end Verif.Scope
