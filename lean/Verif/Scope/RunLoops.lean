import Verif.Scope.RunBlocks

/-!
# Name resolution: the simulation of loops, and of whole functions
-/

namespace Verif.Scope

section
variable {V : Type} {T : Name → St} {τ : Name → Ctx} {Λ : Name → List Lop} {cur : List Blk}
  {U c LB : List Nat} {loc : Name → Bool} {l : Name → Option Bnd} {st : Name → St}
  {gl : Name → V} {n : Nat} {σC : CS V} {σP : PS V}

/-- The loop, for the name `x`. -/
def lopOf (cur : List Blk) (b : Nat) (S B : List Nat) : Lop := ⟨cur, b, S, b :: B⟩

/-- The changes made by a loop. -/
def Chgs (T : Name → St) (LB : List Nat) (cur : List Blk) (S : Name → List Nat)
    (l : Name → Option Bnd) (σC : CS V) (σP : PS V) (σC' : CS V) (σP' : PS V) (_ : Out V) : Prop :=
  ∃ l' : Name → Option Bnd, ∀ x,
    Chg (grp (T x).items) LB (ids cur) (S x) (ns σP σC x) (l x) (ns σP' σC' x) (l' x)

/-- The state at the start of an iteration of a loop. -/
structure Head (T : Name → St) (LB : List Nat) (Λ : Name → List Lop) (cur : List Blk)
    (b : Nat) (S : Name → List Nat) (B : List Nat) (st : Name → St) (l : Name → Option Bnd)
    (σC : CS V) (σP : PS V) : Prop where
  dyn : ∀ x, Dyn (grp (T x).items) LB (lopOf cur b (S x) B :: Λ x) (grp (st x).items) (ids cur)
    (ns σP σC x) (l x)
  just : ∀ x, Just (lopOf cur b (S x) B :: Λ x) (grp (st x).items) (ids cur ++ [b]) (l x)
  out : σC.out = σP.out

theorem Head.next {b : Nat} {S : Name → List Nat} {B : List Nat} {σC' : CS V} {σP' : PS V}
    {l' : Name → Option Bnd}
    (h : Head T LB Λ cur b S B st l σC σP)
    (hc : ∀ x, Chg (grp (T x).items) LB (ids cur) (S x) (ns σP σC x) (l x) (ns σP' σC' x) (l' x))
    (hfr : ∀ x, ∀ i ∈ S x, Bnd.site i ∉ allG (grp (st x).items))
    (hb : ∀ x, ∀ g ∈ grp (st x).items, b ∉ g.scope) (ho : σC'.out = σP'.out) :
    Head T LB Λ cur b S B st l' σC' σP' where
  dyn := fun x => (h.dyn x).loop (hc x) fun C hC => hC
  just := fun x => (h.just x).loop (hc x) (hfr x) (hb x)
  out := ho

def WhileAt (gl : Name → V) (loc : Name → Bool) (T : Name → St) (LB : List Nat) (n : Nat) : Prop :=
  ∀ (rs : List Rd) (p : List V → Option Bool) (b : Nat) (s : Stmt V) (cur : List Blk)
    (U : List Nat) (Λ : Name → List Lop) (τ : Name → Ctx)
    (st : Name → St) (l : Name → Option Bnd) (σC : CS V) (σP : PS V),
    (∀ x, Vis x (Λ x) cur U (.whl rs p b s) (st x) (T x)) →
    (∀ x, CtxOK (grp (T x).items) (grp (st x).items) (ids cur) (τ x)) →
    (∀ x, ∀ L ∈ Λ x, ∀ u ∈ L.B, u ∈ LB) → (∀ u ∈ b :: blocks s, u ∈ LB) →
    Head T LB Λ cur b (fun x => sites x s) (blocks s) st l σC σP →
    Sim (fun x => NoLoop (grp (T x).items) LB) (runC gl n (elab_ T (.whl rs p b s) τ) σC)
      (runP loc gl n (.whl rs p b s) σP) (Chgs T LB cur (fun x => sites x s) l σC σP)

theorem lop_cons {b : Nat} {S : Name → List Nat} {B : List Nat}
    (hΛ : ∀ x, ∀ L ∈ Λ x, ∀ u ∈ L.B, u ∈ LB) (hlb : ∀ u ∈ b :: B, u ∈ LB) :
    ∀ x, ∀ L ∈ lopOf cur b (S x) B :: Λ x, ∀ u ∈ L.B, u ∈ LB := by
  intro x L hL u hu
  rcases List.mem_cons.1 hL with rfl | hL
  · exact hlb u hu
  · exact hΛ x L hL u hu

theorem while_step (hW : ∀ x, Whole (T x) (loc x)) (ihA : SimAt gl loc T LB n)
    (ihB : WhileAt gl loc T LB n) : WhileAt gl loc T LB (n + 1) := by
  intro rs p b s cur U Λ τ st l σC σP hV hX hΛ hlb hH
  have hm := (runP_out loc gl (n + 1)).1 (.whl rs p b s) σP
  have hb : b ∉ U := (hV 0).bU b (by simp [blocks])
  have hbc : b ∉ ids cur := fun hm => hb ((hV 0).good.inv.curSub b hm)
  have hv := fun x => (hV x).whl (hW x).fin.inv
  have hsc : ∀ x, ∀ g ∈ grp (st x).items, b ∉ g.scope :=
    fun x g hg hm => hb ((hV x).good.inv.sub g hg b hm)
  have hΛ' := lop_cons (cur := cur) (S := fun x => sites x s) hΛ hlb
  have hP : ∀ x, Pt LB (lopOf cur b (sites x s) (blocks s) :: Λ x) (cur ++ [⟨b, true, true⟩])
      (ids cur) (τ x) (st x) (T x) (ns σP σC x) (l x) := by
    intro x
    refine ⟨hH.dyn x, ?_, hX x, ?_⟩
    · rw [ids_concat]; exact hH.just x
    · intro hne C hC hm
      rw [ids_concat, List.mem_append, List.mem_singleton] at hm
      rcases hm with hm | rfl
      · exact hm
      · exact absurd hC (not_suite_of_bound (hV x).good.inv hb (hv x).1.at0.fut hne)
  rw [elab_, runC]
  rcases ev_sim gl hW hΛ' σC σP rs p (fun x => (hv x).1) hP with e | ⟨x, e, hx⟩
  · rw [e, runP]
    cases hev : evP loc gl σP rs p with
    | error e => exact .inl ⟨hH.out, rfl, l, fun x => .refl _⟩
    | ok t =>
      cases t with
      | false => exact .inl ⟨hH.out, rfl, l, fun x => .refl _⟩
      | true =>
        have h1 := ihA s (cur ++ [Blk.mk b true true]) (b :: U)
          (fun x => lopOf cur b (sites x s) (blocks s) :: Λ x)
          (fun x => enterCtx (T x) b (τ x))
          (fun x => visitReads x (cur ++ [Blk.mk b true true]) rs (st x)) l
          (enterC b (pro T b) σC) σP
          ⟨fun x => (hv x).2, fun x => by
            rw [ns_enter]
            refine ⟨?_, ((hP x).reads (hW x) rs (hv x).1).just, ?_, fun _ C _ h => h⟩
            · rw [ids_concat]
              exact ((hH.dyn x).enter (pro_iff x (hW x).fin b) (hV x).good.inv hb (hv x).1.at0.fut
                (fun _ _ => hlb b (by simp))).keep (hv x).1.res.keep
            · refine CtxOK.reads (hW x).fin rs (hv x).1 ?_
              rw [ids_concat]
              exact (hX x).enter (hW x).fin (hV x).good.inv hb (hv x).1.at0.fut, hΛ',
            fun u hu => hlb u (List.mem_cons_of_mem _ (loopBlocks_sub s u hu)), hH.out⟩
        dsimp only
        rcases hrc : runC gl n (elab_ T s fun x => enterCtx (T x) b (τ x)) (enterC b (pro T b) σC)
          with ⟨σC', oC⟩
        rcases hrp : runP loc gl n s σP with ⟨σP', oP⟩
        rw [hrc, hrp] at h1
        rcases h1 with ⟨e1, e2, l', e3, e4⟩ | ⟨x, e1, e2, e3⟩
        · simp only at e1 e2 e3 e4
          subst e2
          have hc : ∀ x, Chg (grp (T x).items) LB (ids cur) (sites x s) (ns σP σC x)
              (l x) (ns σP' σC' x) (l' x) := by
            intro x
            have := e3 x
            rw [ns_enter, ids_concat] at this
            exact this.leave hbc
          have h2 := ihB rs p b s cur U Λ τ st l' σC' σP' hV hX hΛ hlb
            (hH.next hc (fun x => (hV x).sfr) hsc e1)
          have h3 : Sim (fun x => NoLoop (grp (T x).items) LB)
              (runC gl n (elab_ T (.whl rs p b s) τ) σC')
              (runP loc gl n (.whl rs p b s) σP') (Chgs T LB cur (fun x => sites x s) l σC σP) := by
            refine h2.imp ?_
            rintro ⟨l'', k⟩
            exact ⟨l'', fun x => (hc x).trans (k x)⟩
          rw [elab_] at h3
          have hfin : ∀ o, Sim (fun x => NoLoop (grp (T x).items) LB) (σC', o) (σP', o)
              (Chgs T LB cur (fun x => sites x s) l σC σP) := fun o => .inl ⟨e1, rfl, l', hc⟩
          cases oC <;> first | exact h3 | exact hfin _
        · simp only at e1 e3
          subst e1
          refine .inr ⟨x, rfl, e2, ?_⟩
          dsimp only
          split
          · rename_i σ he
            cases he
            exact e3.trans ((runP_out loc gl n).1 _ _)
          · rename_i σ he
            cases he
            exact e3.trans ((runP_out loc gl n).1 _ _)
          · rename_i σ he
            cases he
            exact e3
          · exact e3
  · rw [e]
    exact .inr ⟨x, rfl, hx, by rw [hH.out]; exact hm⟩

theorem sim_whl (hB : WhileAt gl loc T LB n) (hW : ∀ x, Whole (T x) (loc x)) {rs : List Rd}
    {p : List V → Option Bool} {b : Nat} {s : Stmt V}
    (h : Here T LB Λ cur U τ (.whl rs p b s) st l σC σP) :
    Sim (fun x => NoLoop (grp (T x).items) LB) (runC gl n (elab_ T (.whl rs p b s) τ) σC)
      (runP loc gl n (.whl rs p b s) σP) (Post T LB Λ cur (.whl rs p b s) st l σC σP) := by
  have hb : b ∉ U := (h.vis 0).bU b (by simp [blocks])
  refine (hB rs p b s cur U Λ τ st l σC σP h.vis (fun x => (h.pt x).ctx) h.lop h.lb
    ⟨fun x => (h.pt x).dyn.push _, fun x => ((h.pt x).just.enter (h.vis x).good.inv hb).push _,
      h.out⟩).imp ?_
  rintro ⟨l', hc⟩
  refine ⟨l', hc, fun _ x => ?_⟩
  obtain ⟨v0, v1⟩ := (h.vis x).whl (hW x).fin.inv
  refine Just.endLoop (U := blocks s ++ b :: U) (v1.res.good.leave (h.vis x).good) ?_
  refine (h.pt x).just.after (P := fun c => ids cur <+: c ∧ c ≠ ids cur)
    ((v0.res.fut.mono fun c hc => strict_ext hc).trans
      (v1.res.fut.mono fun c hc => strict_ext hc)) (fun c hc => hc) (hc x) (h.vis x).sfr v1.res.has

/-- The binding occurrences of a `for` loop. -/
def forSites (i : Nat) (y : Name) (s : Stmt V) (x : Name) : List Nat :=
  (if y = x then [i] else []) ++ sites x s

def ForAt (gl : Name → V) (loc : Name → Bool) (T : Name → St) (LB : List Nat) (n : Nat) : Prop :=
  ∀ (vs : List V) (rs : List Rd) (f : List V → Option (List V)) (b i : Nat) (y : Name)
    (s : Stmt V) (cur : List Blk)
    (U : List Nat) (Λ : Name → List Lop) (τ : Name → Ctx)
    (st : Name → St) (l : Name → Option Bnd) (σC : CS V) (σP : PS V),
    (∀ x, Vis x (Λ x) cur U (.forr rs f b i y s) (st x) (T x)) →
    (∀ x, CtxOK (grp (T x).items) (grp (visitReads x cur rs (st x)).items) (ids cur) (τ x)) →
    (∀ x, ∀ L ∈ Λ x, ∀ u ∈ L.B, u ∈ LB) → (∀ u ∈ b :: blocks s, u ∈ LB) →
    Head T LB Λ cur b (forSites i y s) (blocks s) (fun x => visitReads x cur rs (st x)) l σC σP →
    Sim (fun x => NoLoop (grp (T x).items) LB)
      (forC gl n vs y (resVar (T y) i (τ y)) (resUsed (T y) i (τ y)) b (pro T b)
        (elab_ T s fun x => enterCtx (T x) b (if y = x then bindCtx (T x) i (τ x) else τ x)) σC)
      (forP loc gl n vs y s σP) (Chgs T LB cur (forSites i y s) l σC σP)

theorem for_step (hW : ∀ x, Whole (T x) (loc x)) (ihA : SimAt gl loc T LB n)
    (ihC : ForAt gl loc T LB n) : ForAt gl loc T LB (n + 1) := by
  intro vs rs f b i y s cur U Λ τ st l σC σP hV hX hΛ hlb hH
  have hb : b ∉ U := (hV 0).bU b (by simp [blocks])
  have hbc : b ∉ ids cur := fun hm => hb ((hV 0).good.inv.curSub b hm)
  have hv := fun x => (hV x).forr (hW x).fin.inv (S := forSites i y s x) rfl
  have hI := fun x => (hv x).1.res.good
  have hsc : ∀ x, ∀ g ∈ grp (visitReads x cur rs (st x)).items, b ∉ g.scope :=
    fun x g hg hm => hb ((hI x).inv.sub g hg b hm)
  have hΛ' := lop_cons (cur := cur) (S := forSites i y s) hΛ hlb
  have hfr : ∀ x, ∀ j ∈ forSites i y s x,
      Bnd.site j ∉ allG (grp (visitReads x cur rs (st x)).items) := by
    intro x j hj hm
    rcases (hv x).1.res.only j hm with hm | hm
    · exact (hV x).sfr j hj hm
    · simp at hm
  -- the loop variable
  have ey := forVar_items (b := b) (hV y).good hb (hv y).1 ((hv y).2.2.1 rfl) ((hv y).2.2.2.1 rfl)
  have hfy := (hv y).2.2.2.2.2.at0.fut
  rw [ey] at hfy
  have hns : suiteOf (grp (T y).items) ≠ some b := for_not_suite (hI y).inv hb hfy ((hv y).2.2.2.1 rfl)
  have hpy : pro T b y = false := by
    cases hp : pro T b y with
    | false => rfl
    | true => exact absurd ((pro_iff y (hW y).fin b).1 hp) hns
  have hXy := (hX y).enter (hW y).fin (hI y).inv hb (hv y).2.2.2.2.1.fut
  rw [enterCtx_id (hW y).fin hns] at hXy
  cases vs with
  | nil =>
    rw [forC, forP]
    exact .inl ⟨hH.out, rfl, l, fun x => .refl _⟩
  | cons a vs =>
    obtain ⟨u, hbd, hu⟩ := bind_one (hW y).fin hXy hfy y a σC
    rw [forC, forP, hbd]
    dsimp only
    -- the state after the loop variable is set
    let l₁ : Name → Option Bnd := fun x => if x = y then some (.site i) else l x
    let w := rep (grp (T y).items) (.site i)
    have hDy : Dyn (grp (T y).items) LB (lopOf cur b (forSites i y s y) (blocks s) :: Λ y)
        (grp (visitReads y cur rs (st y)).items) (ids cur ++ [b]) (ns σP σC y) (l y) := by
      have := (hH.dyn y).enter (pro_iff y (hW y).fin b) (hI y).inv hb (hv y).2.2.2.2.1.fut
        (fun _ _ => hlb b (by simp))
      rwa [hpy, enterN_false] at this
    have hcy := chg_bind a hDy hu
    have hPt : ∀ x, Pt LB (lopOf cur b (forSites i y s x) (blocks s) :: Λ x)
        (cur ++ [⟨b, true, true⟩]) (ids (cur ++ [⟨b, true, true⟩]))
        (enterCtx (T x) b (if y = x then bindCtx (T x) i (τ x) else τ x))
        (forVar x cur rs b i y (st x)) (T x)
        (ns (setP y a σP) (enterC b (pro T b) (setC y w u a σC)) x) (l₁ x) := by
      intro x
      rw [ns_enter]
      by_cases hx : x = y
      · subst hx
        have hl : l₁ x = some (.site i) := if_pos rfl
        rw [hl, if_pos rfl, enterCtx_id (hW x).fin hns, hpy, enterN_false, ns_bind_eq, ids_concat]
        refine ⟨?_, ?_, ?_, fun _ C _ h => by rw [ids_concat] at h; exact h⟩
        · exact hDy.chg hcy (hv x).2.1.keep fun j hj => (hv x).2.1.has j (by simpa using hj)
        · rw [ey, ids_concat]; exact Just.bind ((hv x).2.2.2.1 rfl)
        · rw [ey]; exact hXy.bind (hW x).fin hfy
      · have hl : l₁ x = l x := if_neg hx
        have hyx : ¬ y = x := fun h => hx h.symm
        have he : forVar x cur rs b i y (st x) = visitReads x cur rs (st x) := by
          rw [forVar, if_neg hyx]
        rw [hl, if_neg hyx, ns_bind_ne σP σC w u a hx, he, ids_concat]
        refine ⟨?_, ?_, ?_, fun _ C _ h => by rw [ids_concat] at h; exact h⟩
        · exact (hH.dyn x).enter (pro_iff x (hW x).fin b) (hI x).inv hb (hv x).2.2.2.2.1.fut
            (fun _ _ => hlb b (by simp))
        · rw [ids_concat]; exact hH.just x
        · exact (hX x).enter (hW x).fin (hI x).inv hb (hv x).2.2.2.2.1.fut
    have h1 := ihA s (cur ++ [Blk.mk b true true]) (b :: U)
      (fun x => lopOf cur b (forSites i y s x) (blocks s) :: Λ x) _
      (fun x => forVar x cur rs b i y (st x)) l₁
      (enterC b (pro T b) (setC y w u a σC)) (setP y a σP)
      ⟨fun x => (hv x).2.2.2.2.2, hPt, hΛ',
        fun u hu => hlb u (List.mem_cons_of_mem _ (loopBlocks_sub s u hu)), hH.out⟩
    rcases hrc : runC gl n (elab_ T s fun x => enterCtx (T x) b
      (if y = x then bindCtx (T x) i (τ x) else τ x)) (enterC b (pro T b) (setC y w u a σC))
      with ⟨σC', oC⟩
    rcases hrp : runP loc gl n s (setP y a σP) with ⟨σP', oP⟩
    rw [hrc, hrp] at h1
    rcases h1 with ⟨e1, e2, l', e3, e4⟩ | ⟨x, e1, e2, e3⟩
    · simp only at e1 e2 e3 e4
      subst e2
      have hc : ∀ x, Chg (grp (T x).items) LB (ids cur) (forSites i y s x) (ns σP σC x)
          (l x) (ns σP' σC' x) (l' x) := by
        intro x
        have hk := e3 x
        rw [ns_enter, ids_concat] at hk
        have hk' := (hk.leave hbc).mono (S' := forSites i y s x)
          fun j hj => List.mem_append_right _ hj
        by_cases hx : x = y
        · subst hx
          rw [ns_bind_eq] at hk'
          have hl : l₁ x = some (.site i) := if_pos rfl
          rw [hl] at hk'
          refine Chg.trans ((hcy.sub fun C hC => List.mem_append_left _ hC).mono ?_) hk'
          intro j hj
          exact List.mem_append_left _ (by simpa using hj)
        · rw [ns_bind_ne σP σC w u a hx] at hk'
          have hl : l₁ x = l x := if_neg hx
          rw [hl] at hk'
          exact hk'
      have h2 := ihC vs rs f b i y s cur U Λ τ st l' σC' σP' hV hX hΛ hlb
        (hH.next hc hfr hsc e1)
      have h3 : Sim (fun x => NoLoop (grp (T x).items) LB)
          (forC gl n vs y (resVar (T y) i (τ y)) (resUsed (T y) i (τ y)) b (pro T b)
            (elab_ T s fun x => enterCtx (T x) b (if y = x then bindCtx (T x) i (τ x) else τ x)) σC')
          (forP loc gl n vs y s σP') (Chgs T LB cur (forSites i y s) l σC σP) := by
        refine h2.imp ?_
        rintro ⟨l'', k⟩
        exact ⟨l'', fun x => (hc x).trans (k x)⟩
      have hfin : ∀ o, Sim (fun x => NoLoop (grp (T x).items) LB) (σC', o) (σP', o)
          (Chgs T LB cur (forSites i y s) l σC σP) := fun o => .inl ⟨e1, rfl, l', hc⟩
      cases oC <;> first | exact h3 | exact hfin _
    · simp only at e1 e3
      subst e1
      refine .inr ⟨x, rfl, e2, ?_⟩
      dsimp only
      split
      · rename_i σ he
        cases he
        exact e3.trans ((runP_out loc gl n).2 _ _ _ _)
      · rename_i σ he
        cases he
        exact e3.trans ((runP_out loc gl n).2 _ _ _ _)
      · rename_i σ he
        cases he
        exact e3
      · exact e3

theorem sim_forr (hW : ∀ x, Whole (T x) (loc x)) (hC : ForAt gl loc T LB n) {rs : List Rd}
    {f : List V → Option (List V)} {b i : Nat} {y : Name} {s : Stmt V}
    (h : Here T LB Λ cur U τ (.forr rs f b i y s) st l σC σP) :
    Sim (fun x => NoLoop (grp (T x).items) LB)
      (runC gl (n + 1) (elab_ T (.forr rs f b i y s) τ) σC)
      (runP loc gl (n + 1) (.forr rs f b i y s) σP)
      (Post T LB Λ cur (.forr rs f b i y s) st l σC σP) := by
  have hb : b ∉ U := (h.vis 0).bU b (by simp [blocks])
  have hm := (runP_out loc gl (n + 1)).1 (.forr rs f b i y s) σP
  have hv := fun x => (h.vis x).forr (hW x).fin.inv (S := forSites i y s x) rfl
  have hR := fun x => (h.pt x).reads (hW x) rs (hv x).1
  have hI := fun x => (hv x).1.res.good
  have hJ : ∀ (σC' : CS V) (σP' : PS V) (l' : Name → Option Bnd),
      (∀ x, Chg (grp (T x).items) LB (ids cur) (forSites i y s x) (ns σP σC x) (l x)
        (ns σP' σC' x) (l' x)) → ∀ x, Just (Λ x)
      (grp (visit x cur (.forr rs f b i y s) (st x)).items) (ids cur) (l' x) := by
    intro σC' σP' l' hc x
    obtain ⟨v0, v1, v2, v3, v4, v5⟩ := hv x
    rw [(visit_forr (f := f) (s := s) (h.vis x).good hb
      (fun hy => (h.vis x).sfr i (by simp [sites, hy])) (h.vis x).err).1]
    refine Just.endLoop (U := blocks s ++ b :: U) (v5.res.good.leave (h.vis x).good) ?_
    refine (hR x).just.after (P := fun c => ids cur <+: c ∧ c ≠ ids cur)
      ((v1.fut.mono fun c hc => strict_ext hc).trans
        (v5.res.fut.mono fun c hc => strict_ext hc)) (fun c hc => hc) (hc x) ?_ ?_
    · intro j hj hm
      rcases v0.res.only j hm with hm | hm
      · exact (h.vis x).sfr j hj hm
      · simp at hm
    · intro j hj
      rcases List.mem_append.1 hj with hj | hj
      · exact v5.res.keep _ (v1.has j hj)
      · exact v5.res.has j hj
  rw [elab_, runC]
  rcases ev_sim gl hW h.lop σC σP rs f (fun x => (hv x).1) h.pt with e | ⟨x, e, hx⟩
  · rw [e, runP]
    cases hev : evP loc gl σP rs f with
    | error e => exact .inl ⟨h.out, rfl, l, fun x => .refl _, fun hn => absurd hn (evP_norm hev)⟩
    | ok vs =>
      dsimp only
      refine (hC vs rs f b i y s cur U Λ τ st l σC σP h.vis (fun x => (hR x).ctx) h.lop h.lb
        ⟨fun x => (hR x).dyn.push _, fun x => ((hR x).just.enter (hI x).inv hb).push _,
          h.out⟩).imp ?_
      rintro ⟨l', hc⟩
      exact ⟨l', hc, fun _ => hJ _ _ l' hc⟩
  · rw [e]
    exact .inr ⟨x, rfl, hx, by rw [h.out]; exact hm⟩

/-- The compiled function follows the Python function. -/
theorem sim_all (gl : Name → V) (hW : ∀ x, Whole (T x) (loc x)) (LB : List Nat) : ∀ n,
    SimAt gl loc T LB n ∧ WhileAt gl loc T LB n ∧ ForAt gl loc T LB n := by
  intro n
  induction n with
  | zero =>
    refine ⟨?_, ?_, ?_⟩
    · intro s cur U Λ τ st l σC σP h
      have h1 : runC gl 0 (elab_ T s τ) σC = (σC, .fuel) := by unfold runC; rfl
      have h2 : runP loc gl 0 s σP = (σP, .fuel) := by unfold runP; rfl
      rw [h1, h2]
      exact .inl ⟨h.out, rfl, l, fun x => .refl _, fun h => by cases h⟩
    · intro rs p b s cur U Λ τ st l σC σP _ _ _ _ hH
      have h1 : runC gl 0 (elab_ T (.whl rs p b s) τ) σC = (σC, .fuel) := by unfold runC; rfl
      have h2 : runP loc gl 0 (.whl rs p b s) σP = (σP, .fuel) := by unfold runP; rfl
      rw [h1, h2]
      exact .inl ⟨hH.out, rfl, l, fun x => .refl _⟩
    · intro vs rs f b i y s cur U Λ τ st l σC σP _ _ _ _ hH
      have h2 : forP loc gl 0 vs y s σP = (σP, .fuel) := by unfold forP; rfl
      rw [h2]
      unfold forC
      exact .inl ⟨hH.out, rfl, l, fun x => .refl _⟩
  | succ n ih =>
    obtain ⟨ihA, ihB, ihC⟩ := ih
    have hB := while_step hW ihA ihB
    have hC := for_step hW ihA ihC
    refine ⟨?_, hB, hC⟩
    intro s cur U Λ τ st l σC σP h
    cases s with
    | skip =>
      rw [elab_, runC, runP]
      exact .inl ⟨h.out, rfl, l, fun x => .refl _, fun _ x => (h.pt x).just⟩
    | brk =>
      rw [elab_, runC, runP]
      exact .inl ⟨h.out, rfl, l, fun x => .refl _, fun _ x => (h.pt x).just⟩
    | cont =>
      rw [elab_, runC, runP]
      exact .inl ⟨h.out, rfl, l, fun x => .refl _, fun _ x => (h.pt x).just⟩
    | out rs f => exact sim_out hW h
    | ret rs f => exact sim_ret hW h
    | asg i y rs f => exact sim_asg hW h
    | seq s t => exact sim_seq hW ihA h
    | ite k rs p b₁ s₁ b₂ s₂ => exact sim_ite hW ihA h
    | try_ b₁ s₁ b₂ s₂ => exact sim_try hW ihA h
    | whl rs p b s => exact sim_whl hB hW h
    | forr rs f b i y s => exact sim_forr hW ihC h

end

end Verif.Scope
