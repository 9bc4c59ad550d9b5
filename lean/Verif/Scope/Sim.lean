import Verif.Scope.Read

/-!
# Name resolution: the compiled function and the Python function side by side
-/

namespace Verif.Scope

/-! ## Output only grows -/

theorem runP_out {V : Type} (loc : Name → Bool) (gl : Name → V) : ∀ n,
    (∀ (s : Stmt V) (σ : PS V), σ.out <+: (runP loc gl n s σ).1.out) ∧
    (∀ (vs : List V) (x : Name) (s : Stmt V) (σ : PS V),
      σ.out <+: (forP loc gl n vs x s σ).1.out) := by
  intro n
  induction n with
  | zero =>
    constructor
    · intro s σ
      have : runP loc gl 0 s σ = (σ, .fuel) := by unfold runP; rfl
      rw [this]
      exact List.prefix_refl _
    · intro vs x s σ
      have : forP loc gl 0 vs x s σ = (σ, .fuel) := by unfold forP; rfl
      rw [this]
      exact List.prefix_refl _
  | succ n ih =>
    obtain ⟨ih1, ih2⟩ := ih
    constructor
    · intro s σ
      cases s with
      | skip => rw [runP]; exact List.prefix_refl _
      | brk => rw [runP]; exact List.prefix_refl _
      | cont => rw [runP]; exact List.prefix_refl _
      | out rs f =>
        rw [runP]
        split
        · exact List.prefix_refl _
        · exact List.prefix_append _ _
      | ret rs f =>
        rw [runP]
        split <;> exact List.prefix_refl _
      | asg i x rs f =>
        rw [runP]
        split <;> exact List.prefix_refl _
      | seq s t =>
        rw [runP]
        have h := ih1 s σ
        split
        · rename_i σ' he
          rw [he] at h
          exact h.trans (ih1 t σ')
        · exact h
      | ite k rs p b₁ s₁ b₂ s₂ =>
        rw [runP]
        split
        · exact List.prefix_refl _
        · exact ih1 _ _
        · exact ih1 _ _
      | whl rs p b s =>
        rw [runP]
        split
        · exact List.prefix_refl _
        · exact List.prefix_refl _
        · have h := ih1 s σ
          split
          · rename_i σ' he
            rw [he] at h
            exact h.trans (ih1 _ σ')
          · rename_i σ' he
            rw [he] at h
            exact h.trans (ih1 _ σ')
          · rename_i σ' he
            rw [he] at h
            exact h
          · exact h
      | forr rs f b i x s =>
        rw [runP]
        split
        · exact List.prefix_refl _
        · exact ih2 _ _ _ _
      | try_ b₁ s₁ b₂ s₂ =>
        rw [runP]
        have h := ih1 s₁ σ
        split
        · rename_i σ' he
          rw [he] at h
          exact h.trans (ih1 _ σ')
        · exact h
    · intro vs x s σ
      cases vs with
      | nil => rw [forP]; exact List.prefix_refl _
      | cons a vs =>
        rw [forP]
        have h := ih1 s (setP x a σ)
        split
        · rename_i σ' he
          rw [he] at h
          exact List.IsPrefix.trans h (ih2 _ _ _ σ')
        · rename_i σ' he
          rw [he] at h
          exact List.IsPrefix.trans h (ih2 _ _ _ σ')
        · rename_i σ' he
          rw [he] at h
          exact h
        · exact h

/-! ## Expressions -/

section
variable {V : Type} {T : Name → St} {τ : Name → Ctx} {Λ : Name → List Lop} {cur : List Blk}
  {U c LB : List Nat} {loc : Name → Bool} {l : Name → Option Bnd} {st : Name → St}

theorem reads_sim (gl : Name → V) (hW : ∀ x, Whole (T x) (loc x))
    (hΛ : ∀ x, ∀ L ∈ Λ x, ∀ u ∈ L.B, u ∈ LB) (σC : CS V) (σP : PS V) (rs : List Rd) :
    ∀ {st : Name → St}, (∀ x, VisR x (Λ x) cur U rs (st x) (T x)) →
    (∀ x, Pt LB (Λ x) cur c (τ x) (st x) (T x) (ns σP σC x) (l x)) →
    readsC gl σC (rs.map (resRead T τ)) = readsP loc gl σP rs ∨
    ∃ x, readsC gl σC (rs.map (resRead T τ)) = .error (.nameErr x) ∧
      ¬ NoLoop (grp (T x).items) LB := by
  induction rs with
  | nil => intro st _ _; exact .inl rfl
  | cons r rs ih =>
    intro st hV hP
    have ih' : readsC gl σC (rs.map (resRead T τ)) = readsP loc gl σP rs ∨
        ∃ x, readsC gl σC (rs.map (resRead T τ)) = .error (.nameErr x) ∧
          ¬ NoLoop (grp (T x).items) LB := by
      refine ih (st := fun x => if r.x = x then visitRead cur r.id (st x) else st x) ?_ ?_
      · intro x
        split
        · rename_i hx; exact ((hV x).cons_eq hx).1
        · rename_i hx; exact ((hV x).cons_ne hx).1
      · intro x
        split
        · rename_i hx; exact (hP x).read (hW x) (hV x).good ((hV x).cons_eq hx).2.1
        · exact hP x
    have h1 : readC gl σC (resRead T τ r) = readP loc gl σP r ∨
        readC gl σC (resRead T τ r) = .error (.nameErr r.x) ∧
          ¬ NoLoop (grp (T r.x).items) LB := by
      rcases read_one (hW r.x) (hV r.x) rfl (hP r.x) (hΛ r.x) with
        ⟨e1, e2, e3⟩ | ⟨e1, w, a, e2, e3, ⟨e4, e5⟩ | ⟨C, e4, e5, e6, e7⟩⟩ | ⟨e1, C, e2, e3, e4, e5⟩
      · left
        rw [readC, readP, resRead, e1, e2, e3]; rfl
      · left
        simp only [ns] at e3 e4
        rw [readC, readP, resRead, e1, e2, e5]
        simp [e3, e4]
      · left
        simp only [ns] at e3 e6 e7
        rw [readC, readP, resRead, e1, e2, e4, e5]
        simp [e3, e6, e7]
      · simp only [ns] at e4 e5
        have hc : readC gl σC (resRead T τ r) = .error (.nameErr r.x) := by
          rw [readC, resRead, e2, e3]
          simp [e4]
        rcases e5 with e5 | e5
        · left
          rw [hc, readP, e1, e5]; rfl
        · exact .inr ⟨hc, e5⟩
    rw [List.map_cons, readsC, readsP]
    rcases h1 with h1 | ⟨h1, h2⟩
    · rw [h1]
      cases hp : readP loc gl σP r with
      | error e => exact .inl rfl
      | ok a =>
        dsimp only
        rcases ih' with h | ⟨x, h, hx⟩
        · rw [h]; exact .inl rfl
        · rw [h]; exact .inr ⟨x, rfl, hx⟩
    · rw [h1]; exact .inr ⟨r.x, rfl, h2⟩

theorem ev_sim {W : Type} (gl : Name → V) (hW : ∀ x, Whole (T x) (loc x))
    (hΛ : ∀ x, ∀ L ∈ Λ x, ∀ u ∈ L.B, u ∈ LB) (σC : CS V) (σP : PS V) (rs : List Rd)
    (f : List V → Option W) (hV : ∀ x, VisR x (Λ x) cur U rs (st x) (T x))
    (hP : ∀ x, Pt LB (Λ x) cur c (τ x) (st x) (T x) (ns σP σC x) (l x)) :
    evC gl σC (rs.map (resRead T τ)) f = evP loc gl σP rs f ∨
    ∃ x, evC gl σC (rs.map (resRead T τ)) f = .error (.nameErr x) ∧
      ¬ NoLoop (grp (T x).items) LB := by
  rcases reads_sim gl hW hΛ σC σP rs hV hP with h | ⟨x, h, hx⟩
  · rw [evC, evP, h]; exact .inl rfl
  · rw [evC, h]; exact .inr ⟨x, rfl, hx⟩

/-! ## Binding occurrences -/

/-- The effect of a binding occurrence on the state of the name. -/
def bindN (w : Bnd) (u : Option Nat) (a : V) (v : NS V) : NS V :=
  ⟨some a, fun z => if z = w then some a else v.store z,
    fun C => if u = some C then some true else v.flags C⟩

theorem chg_bind {F gs : List Grp} {Λ : List Lop} {v : NS V} {l : Option Bnd} {i : Nat}
    {u : Option Nat} (a : V) (h : Dyn F LB Λ gs c v l)
    (hu : ∀ C, rep F (.site i) = .suite C → u = some C) :
    Chg F LB c [i] v l (bindN (rep F (.site i)) u a v) (some (.site i)) := by
  refine .inr ⟨i, by simp, rfl, ⟨a, rfl, by simp [bindN]⟩, ?_⟩
  intro C hC hm
  obtain ⟨f, k1, _⟩ := h.fl C hC hm
  by_cases he : u = some C
  · exact ⟨true, by simp [bindN, he], fun _ _ => rfl⟩
  · refine ⟨f, by simp [bindN, he, k1], ?_⟩
    intro _ hr
    exact absurd (hu C hr) he

theorem bind_one {P : List Nat → Prop} {T : St} {gs : List Grp} {cur : List Nat} {τ : Ctx}
    {i : Nat} (hT : Fin T) (h : CtxOK (grp T.items) gs cur τ)
    (hf : Fut P (⟨[], .site i, cur, []⟩ :: gs) (grp T.items)) (y : Name) (a : V) (σ : CS V) :
    ∃ u, bindC y (resVar T i τ) (resUsed T i τ) a σ =
        .ok (setC y (rep (grp T.items) (.site i)) u a σ) ∧
      ∀ C, rep (grp T.items) (.site i) = .suite C → u = some C := by
  have hv : resVar T i τ = some (rep (grp T.items) (.site i)) :=
    (h.bind hT hf).var _ _ rfl _ (by simp [Grp.all])
  obtain ⟨c, W, hF⟩ := hT.inv
  obtain ⟨G, hG, hi, hsc⟩ := within_fut hf (b := .site i) (sc := cur)
    ⟨⟨[], .site i, cur, []⟩, by simp, by simp [Grp.all], List.prefix_refl _⟩
  have hr := rep_of_mem hF.nodup hG hi
  rw [hv, hr, resUsed]
  by_cases hsu : ∃ C, G.lead = .suite C
  · obtain ⟨C, hC⟩ := hsu
    have hmem : Bnd.site i ∈ G.mem := by
      rw [Grp.all, List.mem_append, List.mem_singleton, hC] at hi
      rcases hi with hi | hi
      · exact hi
      · cases hi
    rw [hT.tabs.attrSuite G hG i hmem C hC,
      h.used C ((suiteOf_iff hF).2 ⟨G, hG, hC⟩)
        (prefix_mem hsc (List.mem_of_getLast? (hF.scopeLast G hG C hC)))]
    refine ⟨some C, rfl, ?_⟩
    intro C' hC'
    rw [hC] at hC'
    cases hC'
    rfl
  · have hu : (T.attr i).used = false := by
      rw [Grp.all, List.mem_append, List.mem_singleton] at hi
      rcases hi with hi | hi
      · rw [hT.tabs.attrMem G hG i hi fun C hC => hsu ⟨C, hC⟩]
      · rw [hT.tabs.attrLead G hG i hi.symm]
    rw [hu]
    exact ⟨none, rfl, fun C hC => absurd ⟨C, hC⟩ hsu⟩

theorem ns_bind_eq (σP : PS V) (σC : CS V) (x : Name) (w : Bnd) (u : Option Nat) (a : V) :
    ns (setP x a σP) (setC x w u a σC) x = bindN w u a (ns σP σC x) := by
  simp [ns, setP, setC, bindN]

theorem ns_bind_ne (σP : PS V) (σC : CS V) {x y : Name} (w : Bnd) (u : Option Nat) (a : V)
    (h : x ≠ y) : ns (setP y a σP) (setC y w u a σC) x = ns σP σC x := by
  simp [ns, setP, setC, h]

theorem ns_enter (σP : PS V) (σC : CS V) (x : Name) (b : Nat) (p : Name → Bool) :
    ns σP (enterC b p σC) x = enterN b (p x) (ns σP σC x) := rfl

theorem enterN_false (b : Nat) (v : NS V) : enterN b false v = v := by
  simp [enterN]

theorem pro_iff {T : Name → St} (x : Name) (hT : Fin (T x)) (b : Nat) :
    pro T b x = true ↔ suiteOf (grp (T x).items) = some b := by
  obtain ⟨h1, h2⟩ := sdecl_iff hT b
  rw [pro]
  by_cases h : suiteOf (grp (T x).items) = some b
  · rw [h1 h]; simp [h]
  · rw [h2 h]; simp [h]

/-! ## The simulation -/

/-- The two runs agree, or the compiled function stops with a `NameError` for a name
that a suite inside a loop declares. -/
def Sim (nl : Name → Prop) (rC : CS V × Out V) (rP : PS V × Out V)
    (Q : CS V → PS V → Out V → Prop) : Prop :=
  (rC.1.out = rP.1.out ∧ rC.2 = rP.2 ∧ Q rC.1 rP.1 rP.2) ∨
  ∃ x, rC.2 = .nameErr x ∧ ¬ nl x ∧ rC.1.out <+: rP.1.out

theorem Sim.imp {nl : Name → Prop} {rC : CS V × Out V} {rP : PS V × Out V}
    {Q Q' : CS V → PS V → Out V → Prop} (h : Sim nl rC rP Q)
    (hQ : Q rC.1 rP.1 rP.2 → Q' rC.1 rP.1 rP.2) : Sim nl rC rP Q' := by
  rcases h with ⟨h1, h2, h3⟩ | h
  · exact .inl ⟨h1, h2, hQ h3⟩
  · exact .inr h

/-- What is known after a statement. -/
def Post (T : Name → St) (LB : List Nat) (Λ : Name → List Lop) (cur : List Blk) (s : Stmt V)
    (st : Name → St) (l : Name → Option Bnd) (σC : CS V) (σP : PS V) (σC' : CS V) (σP' : PS V)
    (o : Out V) : Prop :=
  ∃ l' : Name → Option Bnd,
    (∀ x, Chg (grp (T x).items) LB (ids cur) (sites x s) (ns σP σC x) (l x) (ns σP' σC' x) (l' x)) ∧
    (o = .norm → ∀ x, Just (Λ x) (grp (visit x cur s (st x)).items) (ids cur) (l' x))

theorem loopBlocks_sub (s : Stmt V) : ∀ u ∈ loopBlocks s, u ∈ blocks s := by
  induction s with
  | seq s t ih1 ih2 =>
    intro u hu
    simp only [loopBlocks, blocks, List.mem_append] at hu ⊢
    exact hu.imp (ih1 u) (ih2 u)
  | ite k rs p b₁ s₁ b₂ s₂ ih1 ih2 =>
    intro u hu
    simp only [loopBlocks, blocks, List.mem_append, List.mem_cons] at hu ⊢
    rcases hu with hu | hu
    · exact .inl (.inr (ih1 u hu))
    · exact .inr (.inr (ih2 u hu))
  | try_ b₁ s₁ b₂ s₂ ih1 ih2 =>
    intro u hu
    simp only [loopBlocks, blocks, List.mem_append, List.mem_cons] at hu ⊢
    rcases hu with hu | hu
    · exact .inl (.inr (ih1 u hu))
    · exact .inr (.inr (ih2 u hu))
  | whl rs p b s ih => intro u hu; exact hu
  | forr rs f b i x s ih => intro u hu; exact hu
  | _ => intro u hu; simp [loopBlocks] at hu

theorem Just.endLoop {Λ : List Lop} {st : St} {b : Nat} {l : Option Bnd} (hG : Good cur U st)
    (h : Just Λ (grp st.items) (ids cur) l) :
    Just Λ (grp (Verif.Scope.endLoop cur b st).items) (ids cur) l := by
  by_cases hs : st.seen.contains b = true
  · by_cases hne : st.items = []
    · rw [Verif.Scope.endLoop, if_pos hs, find_nil cur st hne]; exact h
    · obtain ⟨st', v, g, gs, hf, F⟩ := find_spec cur st U hG.suite hG.tabs hG.inv hne
      rw [Verif.Scope.endLoop, if_pos hs, hf]
      have hst := F.step
      rw [← F.grps] at hst
      exact h.keepHit hst F.only
  · rw [Verif.Scope.endLoop, if_neg hs]; exact h

end

end Verif.Scope
