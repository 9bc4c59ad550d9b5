import Verif.Scope.RunLoops

/-!
# Name resolution: the analysis of a whole function
-/

namespace Verif.Scope

section
variable {V : Type}

/-- The state of the visitor before the body. -/
def start (params : List Name) (x : Name) : St :=
  { items := if x ∈ params then [⟨[0], .param, false, []⟩] else []
    cap := false, seen := [], attr := fun _ => ⟨false, false⟩, sdecl := fun _ => none,
    chk := fun _ => false, err := false }

theorem analyse_start (params : List Name) (body : Stmt V) (x : Name) :
    analyse params body x = visit x [root] body (start params x) := rfl

theorem coh_zero : Coh [0] [0] := by
  intro p u q p' q' h1 h2
  cases p with
  | nil =>
    cases p' with
    | nil => rfl
    | cons a p' => simp at h2
  | cons a p => simp at h1

theorem start_grp (params : List Name) (x : Name) :
    grp (start params x).items = if x ∈ params then [⟨[], .param, [0], []⟩] else [] := by
  rw [start]
  dsimp only
  split <;> simp [grp]

theorem start_good (params : List Name) (x : Name) : Good [root] [0] (start params x) := by
  by_cases hx : x ∈ params
  · have e := start_grp params x
    rw [if_pos hx] at e
    refine ⟨⟨?_, ?_, ?_, ?_, ?_, ?_, ?_⟩, ⟨?_, ?_, ?_, ?_, ?_, ?_, ?_, ?_, ?_, ?_, ?_, ?_, ?_, ?_, ?_⟩,
      ?_, ?_, ?_⟩ <;> (try rw [e]) <;> (try simp [allG, Grp.all, start, root, ids, coh_zero])
    · simp [hx]
    intro p g q h
    rcases List.append_eq_singleton_iff.1 h.symm with ⟨_, h⟩ | ⟨_, h⟩
    · cases h; simp
    · cases h
  · have e := start_grp params x
    rw [if_neg hx] at e
    refine ⟨⟨?_, ?_, ?_, ?_, ?_, ?_, ?_⟩, ⟨?_, ?_, ?_, ?_, ?_, ?_, ?_, ?_, ?_, ?_, ?_, ?_, ?_, ?_, ?_⟩,
      ?_, ?_, ?_⟩ <;> (try rw [e]) <;> (try simp [allG, Grp.all, start, root, ids, coh_zero])
    exact hx

theorem start_fresh (params : List Name) (x : Name) (i : Nat) :
    Bnd.site i ∉ allG (grp (start params x).items) := by
  rw [start_grp]
  split <;> simp [allG, Grp.all]

theorem sites_sub (x : Name) (s : Stmt V) : (sites x s).Sublist (allSites s) := by
  induction s with
  | asg i y rs f => rw [sites, allSites]; split <;> simp
  | forr rs f b i y s ih =>
    rw [sites, allSites]
    split
    · exact ih.cons_cons i
    · exact ih.cons i
  | seq s t h1 h2 => exact h1.append h2
  | ite k rs p b₁ s₁ b₂ s₂ h1 h2 => exact h1.append h2
  | try_ b₁ s₁ b₂ s₂ h1 h2 => exact h1.append h2
  | whl rs p b s ih => exact ih
  | _ => exact List.Sublist.refl _

theorem analyse_vis {params : List Name} {body : Stmt V} (hL : Labelled body)
    (hp : plain body = true) {x : Name} (he : (analyse params body x).err = false) :
    Vis x [] [root] [0] body (start params x) (analyse params body x) := by
  obtain ⟨h1, h2, h3⟩ := hL
  rw [List.nodup_cons] at h1
  have hn : (sites x body).Nodup := h2.sublist (sites_sub x body)
  have hb : ∀ b ∈ blocks body, b ∉ [0] := by
    intro b hb h
    rw [List.mem_singleton] at h
    subst h
    exact h1.1 hb
  have hr := visit_spec x body [root] [0] (start params x) hp (start_good params x) h1.2 hb hn
    (fun i _ => start_fresh params x i) he
  refine ⟨hp, start_good params x, h1.2, hb, hn, fun i _ => start_fresh params x i, h3,
    fun r _ => rfl, he, by simp, hr.good, .refl _, fun h => h, fun r _ => rfl, ?_⟩
  exact ⟨by simp, by simp, by simp⟩

theorem visitReads_nil (x : Name) (cur : List Blk) (rs : List Rd) : ∀ {st : St}, st.items = [] →
    (visitReads x cur rs st).items = [] := by
  induction rs with
  | nil => intro st h; exact h
  | cons r rs ih =>
    intro st h
    rw [visitReads, List.foldl_cons]
    refine ih ?_
    split
    · rw [visitRead_nil r.id h]; exact h
    · exact h

theorem endLoop_nil (cur : List Blk) (b : Nat) {st : St} (h : st.items = []) :
    (endLoop cur b st).items = [] := by
  rw [endLoop]
  split
  · rw [find_nil cur st h]; exact h
  · exact h

theorem visit_nil (x : Name) (s : Stmt V) : ∀ (cur : List Blk) {st : St}, sites x s = [] →
    st.items = [] → (visit x cur s st).items = [] := by
  induction s with
  | out rs f => intro cur st _ h; exact visitReads_nil x cur rs h
  | ret rs f => intro cur st _ h; exact visitReads_nil x cur rs h
  | asg i y rs f =>
    intro cur st hs h
    by_cases hy : y = x
    · simp [sites, hy] at hs
    · simp only [visit, if_neg hy]; exact visitReads_nil x cur rs h
  | seq s t h1 h2 =>
    intro cur st hs h
    rw [sites, List.append_eq_nil_iff] at hs
    exact h2 cur hs.2 (h1 cur hs.1 h)
  | ite k rs p b₁ s₁ b₂ s₂ h1 h2 =>
    intro cur st hs h
    rw [sites, List.append_eq_nil_iff] at hs
    exact h2 _ hs.2 (h1 _ hs.1 (visitReads_nil x cur rs h))
  | try_ b₁ s₁ b₂ s₂ h1 h2 =>
    intro cur st hs h
    rw [sites, List.append_eq_nil_iff] at hs
    exact h2 _ hs.2 (h1 _ hs.1 h)
  | whl rs p b s ih =>
    intro cur st hs h
    exact endLoop_nil cur b (ih _ hs (visitReads_nil x _ rs h))
  | forr rs f b i y s ih =>
    intro cur st hs h
    rw [sites] at hs
    by_cases hy : y = x
    · simp [hy] at hs
    · simp only [if_neg hy] at hs
      simp only [visit, if_neg hy]
      have := ih (cur ++ [⟨b, true, true⟩]) (st := { visitReads x cur rs st with
        seen := (visitReads x cur rs st).seen.filter (· != b) }) hs (visitReads_nil x cur rs h)
      split
      · exact this
      · exact endLoop_nil cur b this
  | _ => intro cur st _ h; exact h

theorem analyse_whole {params : List Name} {body : Stmt V} (hL : Labelled body)
    (hp : plain body = true) {x : Name} (he : (analyse params body x).err = false) :
    Whole (analyse params body x) (isLocal params body x) := by
  have hv := analyse_vis hL hp he
  have hr := hv.res
  have hg := hv.fin.good
  refine ⟨⟨hg.tabs, _, _, hg.inv⟩, hg.cap, ?_, ?_⟩
  · intro hc
    have hi := hg.cap hc
    have h0 : grp (analyse params body x).items = [] := by
      rw [analyse_start, hi]; rfl
    have hno : ∀ b, b ∉ allG (grp (analyse params body x).items) := by
      intro b; rw [h0]; simp [allG]
    rw [isLocal, Bool.or_eq_false_iff]
    constructor
    · rw [← Bool.not_eq_true, List.contains_iff_mem]
      intro hm
      refine hno .param (hr.keep _ ?_)
      rw [start_grp, if_pos hm]
      simp [allG, Grp.all]
    · rw [Bool.not_eq_false', List.isEmpty_iff]
      rcases hs : sites x body with _ | ⟨i, S⟩
      · rfl
      · exact absurd (hr.has i (by rw [hs]; simp)) (hno _)
  · intro hl
    rw [isLocal, Bool.or_eq_false_iff, Bool.not_eq_false', List.isEmpty_iff, ← Bool.not_eq_true,
      List.contains_iff_mem] at hl
    refine visit_nil x body [root] hl.2 ?_
    simp [hl.1]

/-- The parameter is the last of the groups. -/
theorem param_last {P : List Nat → Prop} (hP : ∀ c, P c → [0] <+: c) {gs F : List Grp}
    (hf : Fut P gs F) :
    (∃ p g, gs = p ++ [g] ∧ g.lead = .param ∧ g.scope = [0]) →
    ∃ p g, F = p ++ [g] ∧ g.lead = .param ∧ g.scope = [0] := by
  induction hf with
  | refl gs => exact fun h => h
  | step hc hs _ ih =>
    rintro ⟨p, g, he, hl, hsc⟩
    refine ih ?_
    cases hs with
    | add i _ _ => exact ⟨_ :: p, g, by rw [he]; rfl, hl, hsc⟩
    | hitD gs₁ d gs₂ h1 h2 h3 =>
      rcases List.eq_nil_or_concat gs₂ with h | ⟨q, e, h⟩
      · subst h
        obtain ⟨rfl, h⟩ := List.append_inj' he rfl
        cases h
        exact ⟨[], _, rfl, hl, hsc⟩
      · subst h
        have he' : (gs₁ ++ d :: q) ++ [e] = p ++ [g] := by rw [← he]; simp
        obtain ⟨_, h⟩ := List.append_inj' he' rfl
        cases h
        exact ⟨_ :: q, g, by rw [List.concat_eq_append]; rfl, hl, hsc⟩
    | hitN _ sc C k hne h1 _ _ _ _ _ _ =>
      exact absurd (hsc ▸ hP _ hc) (h1 g (by rw [he]; simp))

theorem analyse_param {params : List Name} {body : Stmt V} (hL : Labelled body)
    (hp : plain body = true) {x : Name} (he : (analyse params body x).err = false)
    (hx : x ∈ params) : suiteOf (grp (analyse params body x).items) = none := by
  have hv := analyse_vis hL hp he
  obtain ⟨p, g, h1, h2, _⟩ := param_last (P := Ext [0] (blocks body)) (by
    rintro c ⟨e, rfl, _⟩; exact List.prefix_append _ _) hv.res.fut
    ⟨[], ⟨[], .param, [0], []⟩, by rw [start_grp, if_pos hx]; rfl, rfl, rfl⟩
  rw [analyse_start, suiteOf, h1]
  simp [h2]

/-- The binding in force at the start of the body. -/
def bnd0 (params : List Name) (x : Name) : Option Bnd := if x ∈ params then some .param else none

theorem start_here {params : List Name} {body : Stmt V} (hL : Labelled body)
    (hp : plain body = true) (he : ∀ x, (analyse params body x).err = false)
    {args : Name → Option V} (ha : ∀ x, (args x).isSome ↔ x ∈ params) :
    Here (analyse params body) (loopBlocks body) (fun _ => []) [root] [0]
      (ctx0 params (analyse params body)) body (start params) (bnd0 params)
      (initC args (pro (analyse params body) 0)) ⟨args, []⟩ := by
  refine ⟨fun x => analyse_vis hL hp (he x), ?_, by simp, fun u h => h, rfl⟩
  intro x
  have hW := analyse_whole hL hp (he x)
  have hro : ids [root] = [0] := rfl
  rw [hro]
  by_cases hx : x ∈ params
  · have hs := analyse_param hL hp (he x) hx
    have hl : bnd0 params x = some .param := if_pos hx
    obtain ⟨a, hav⟩ := Option.isSome_iff_exists.1 ((ha x).2 hx)
    have hpm : Bnd.param ∈ allG (grp (start params x).items) := by
      rw [start_grp, if_pos hx]; simp [allG, Grp.all]
    obtain ⟨G, hG, hGm⟩ : ∃ G ∈ grp (analyse params body x).items, Bnd.param ∈ G.all := by
      have := (analyse_vis hL hp (he x)).res.keep _ hpm
      rw [← analyse_start] at this
      simpa [allG] using this
    have hrep : rep (grp (analyse params body x).items) .param = .param := by
      obtain ⟨c, U, hI⟩ := hW.fin.inv
      rw [rep_of_mem hI.nodup hG hGm]
      exact (hI.param G hG hGm).1
    rw [hl]
    refine ⟨⟨by simp, ?_, ?_, ?_⟩, ?_, ⟨?_, ?_, ?_, ?_⟩, fun _ C hC h => by rw [hs] at hC; cases hC⟩
    · intro b hb
      cases hb
      refine ⟨a, hav, ?_⟩
      rw [hrep]
      simp [ns, initC, enterC, hav]
    · intro b hb
      cases hb
      exact .inl hpm
    · intro C hC; rw [hs] at hC; cases hC
    · intro D post hf _
      obtain ⟨pre, hf, _⟩ := hf
      rw [start_grp, if_pos hx] at hf
      rcases List.append_eq_singleton_iff.1 hf.symm with ⟨_, h⟩ | ⟨_, h⟩
      · cases h
        exact ⟨_, rfl, by simp [allG], .inl hpm⟩
      · cases h
    · intro g q hg b hb
      rw [start_grp, if_pos hx] at hg
      cases hg
      have : b = .param := by simpa [Grp.all] using hb
      subst this
      rw [hrep, ctx0, enterCtx, (sdecl_iff hW.fin 0).2 (by rw [hs]; simp)]
      simp [hx]
    · intro h; rw [start_grp, if_pos hx] at h; cases h
    · intro h; rw [start_grp, if_pos hx] at h; cases h
    · intro C hC; rw [hs] at hC; cases hC
  · have hl : bnd0 params x = none := if_neg hx
    have hav : args x = none := by
      cases h : args x with
      | none => rfl
      | some a => exact absurd ((ha x).1 (by rw [h]; rfl)) hx
    have hg : grp (start params x).items = [] := by rw [start_grp, if_neg hx]
    rw [hl]
    refine ⟨⟨fun _ => hav, by simp, by simp, ?_⟩, ?_, ⟨?_, ?_, ?_, ?_⟩, fun h => absurd hg h⟩
    · intro C hC hm
      rw [List.mem_singleton] at hm
      subst hm
      refine ⟨false, ?_, by simp, by simp⟩
      simp [ns, initC, enterC, (pro_iff x hW.fin 0).2 hC]
    · intro D post hf
      obtain ⟨pre, hf, _⟩ := hf
      rw [hg] at hf
      simp at hf
    · intro g q h; rw [hg] at h; cases h
    · intro _ C hC hm
      rw [List.mem_singleton] at hm
      subst hm
      rw [ctx0, enterCtx, (sdecl_iff hW.fin 0).1 hC]; rfl
    · intro _ hn
      rw [ctx0, enterCtx, (sdecl_iff hW.fin 0).2 (fun h => hn 0 h (by simp))]
      simp [hx]
    · intro C hC hm
      rw [List.mem_singleton] at hm
      subst hm
      rw [ctx0, enterCtx, (sdecl_iff hW.fin 0).1 hC]; rfl

/-- The compiled function follows the Python function, except that it may raise
`NameError` for a name with a declaration inside a loop. -/
theorem call_sim {params : List Name} {body : Stmt V} (hL : Labelled body)
    (hp : plain body = true) (he : ∀ x, (analyse params body x).err = false)
    {args : Name → Option V} (ha : ∀ x, (args x).isSome ↔ x ∈ params) (gl : Name → V) (n : Nat) :
    ((callC gl params body args n).1.out = (callP gl params body args n).1.out ∧
      (callC gl params body args n).2 = (callP gl params body args n).2) ∨
    ∃ x, (callC gl params body args n).2 = .nameErr x ∧
      (∃ b ∈ loopBlocks body, (analyse params body x).sdecl b ≠ none) ∧
      (callC gl params body args n).1.out <+: (callP gl params body args n).1.out := by
  have hW := fun x => analyse_whole hL hp (he x)
  rcases (sim_all gl hW (loopBlocks body) n).1 body [root] [0] (fun _ => [])
    (ctx0 params (analyse params body)) (start params) (bnd0 params)
    (initC args (pro (analyse params body) 0)) ⟨args, []⟩ (start_here hL hp he ha)
    with ⟨h1, h2, _⟩ | ⟨x, h1, h2, h3⟩
  · exact .inl ⟨h1, h2⟩
  · refine .inr ⟨x, h1, ?_, h3⟩
    refine Classical.byContradiction fun hn => h2 fun C hC hm => hn ⟨C, hm, ?_⟩
    rw [(sdecl_iff (hW x).fin C).1 hC]
    simp

end

end Verif.Scope
