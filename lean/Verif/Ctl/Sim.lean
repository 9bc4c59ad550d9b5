import Verif.Ctl.Unroll
/-!
# The lowered statement does what the statement does
-/

namespace Verif.Ctl

/-- What the code for a pattern that fails leaves. -/
def J0 : Fail := fun p v s => (semP (fun s => (s, .norm)) p v s).1

theorem J0_ok : FailOk J0 := by
  intro p v s
  obtain ⟨s1, h1, h2⟩ := fall p v (fun s => (s, .norm)) [] (fun s => ⟨s, rfl, .refl _ _⟩) s
  rw [List.append_nil] at h2
  simp only [J0, h1]
  exact h2

/-- The end of a case. -/
def fin (r : St × Out) : St × Out :=
  match r with
  | (s, .norm) => (s, .brk)
  | r => r

theorem fin_ne (r) : (fin r).2 ≠ .norm := by
  obtain ⟨s, o⟩ := r
  cases o <;> simp [fin]

/-- The suite of a case with its guard. -/
def suite (B : St → St × Out) (g : Guard) (s : St) : St × Out :=
  match g with
  | none => fin (B s)
  | some g => if (g s).1 then fin (B (g s).2) else ((g s).2, .norm)

/-- A case and those after it. -/
theorem case_eq (N : Nat) (p : Pat) (g : Guard) (body : Src) (rest : Cases) (v : Val) (s : St)
    (hp : p.even) (hg : GuardOk p g) :
    (match semP (suite (runS J0 N body) g) p v s with
      | (s, .norm) => fin (runCases J0 N rest v s)
      | r => r) = fin (runCases J0 N (.cons p g body rest) v s) := by
  simp only [runCases]
  cases hm : matches? p v with
  | none =>
    obtain ⟨s1, h1, _⟩ := fails p v hm s
    simp only [h1, J0]
  | some bs =>
    simp only
    cases g with
    | none =>
      have := succeeds p v bs (suite (runS J0 N body) none) s hp hm (fin_ne _)
      rw [this]
      simp only [suite]
      have := fin_ne (runS J0 N body (s.bindAll bs))
      generalize fin (runS J0 N body (s.bindAll bs)) = r at *
      obtain ⟨a, o⟩ := r
      cases o <;> simp_all
    | some g =>
      have key : semP (suite (runS J0 N body) (some g)) p v s =
          suite (runS J0 N body) (some g) (s.bindAll bs) := by
        rcases hg with hg | ⟨hc, hpure⟩
        · exact single p v bs _ s hg hm
        · have hb := caps_nil p v bs hc hm
          subst hb
          simp only [St.bindAll]
          cases hgs : (g s).1 with
          | true =>
            refine succeeds p v [] _ s hp hm ?_
            simp only [St.bindAll, suite, hgs, if_true]
            exact fin_ne _
          | false =>
            have : suite (runS J0 N body) (some g) s = (s, .norm) := by
              simp [suite, hgs, hpure s]
            rw [inert p v _ s hc this, this]
      rw [key]
      simp only [suite]
      cases hgs : (g (s.bindAll bs)).1 with
      | true =>
        simp only [if_true]
        have := fin_ne (runS J0 N body (g (s.bindAll bs)).2)
        generalize fin (runS J0 N body (g (s.bindAll bs)).2) = r at *
        obtain ⟨a, o⟩ := r
        cases o <;> simp_all
      | false => simp

/-- The context fits what the statement may contain. -/
structure Compat (b c : Bool) (V : Ctx) (k : Nat) : Prop where
  b : b = true → V.bv ≠ none ∧ V.sl ≠ none
  c : c = true → V.bv ≠ none ∧ V.sl ≠ none
  v : ∀ v, V.bv = some (some v) → v < k
  g : ∀ g, V.sl = some (some g) → g < k

theorem Compat.mono {b c V k l} (h : Compat b c V k) (hl : k ≤ l) : Compat b c V l :=
  ⟨h.b, h.c, fun v e => Nat.lt_of_lt_of_le (h.v v e) hl,
    fun v e => Nat.lt_of_lt_of_le (h.g v e) hl⟩

theorem tr_ne (sl o) (h : o ≠ .cont) : tr sl o = o := by
  unfold tr
  split
  · exact absurd rfl h
  · rfl

theorem tr_none (o) : tr (some none) o = o := by cases o <;> rfl

theorem tr_norm (sl o) : tr sl o = .norm ↔ o = .norm := by
  unfold tr
  split <;> simp

theorem SimV.seq {N V he k0 F G mk mk'} (h : SimV N V he k0 F mk) (h' : SimV N V he k0 G mk') :
    SimV N V he k0 (fun s => match F s with
      | (s, .norm) => G s
      | r => r)
      (fun k => do let (a, k) ← mk k; let (b, k) ← mk' k; .ok (.seq a b, k)) := by
  intro k1 hk
  obtain ⟨t, k2, t', a1, a2, a3, a4⟩ := h k1 hk
  obtain ⟨u, k3, u', b1, b2, b3, b4⟩ := h' k2 (by omega)
  refine ⟨.seq t u, k3, .seq t' u', by simp [a1, b1, bind, Except.bind], by omega,
    by simp [revisit, a3, b3, bind, Except.bind], fun s τ => ?_⟩
  obtain ⟨τ1, c1, c2⟩ := a4 s τ
  simp only [runT, c1]
  generalize F s = r at *
  obtain ⟨s1, o⟩ := r
  by_cases ho : o = .norm
  · subst ho
    obtain ⟨τ2, d1, d2⟩ := b4 s1 τ1
    exact ⟨τ2, by simp only [(tr_norm V.sl .norm).2 rfl, d1],
      (c2.agreeNorm (.inl rfl)).relTrans (d2.mono a2)⟩
  · refine ⟨τ1, ?_, ?_⟩
    · have : tr V.sl o ≠ .norm := fun e => ho ((tr_norm _ _).1 e)
      cases hto : tr V.sl o <;> cases o <;> simp_all
    · cases o <;> first | exact c2 | exact absurd rfl ho

mutual
theorem visit_sim (n : Nat) : ∀ (s : Src) (b c he : Bool) (V : Ctx) (k0 : Nat), Good b c he s →
    Compat b c V k0 → SimV (n + 2) V he k0 (runS J0 (n + 2) s) (visit V s)
  | .skip, b, c, he, V, k0, _, hV => fun k1 hk =>
    ⟨.skip, k1, .skip, rfl, Nat.le_refl _, rfl, fun s τ =>
      ⟨τ, by simp [runT, runS, tr_ne], (AgreeAll.refl _ _).rel (by simp [runS])⟩⟩
  | .act f, b, c, he, V, k0, _, hV => fun k1 hk =>
    ⟨.act f, k1, .act f, rfl, Nat.le_refl _, rfl, fun s τ => by
      refine ⟨τ, ?_, (AgreeAll.refl _ _).rel ?_⟩
      · simp only [runT, runS]
        cases (f s).2 <;> simp [tr_ne]
      · simp only [runS]
        cases (f s).2 <;> simp⟩
  | .seq x y, b, c, he, V, k0, h, hV =>
    (visit_sim n x b c he V k0 h.1 hV).seq (visit_sim n y b c he V k0 h.2 hV)
  | .ite f x y, b, c, he, V, k0, h, hV => fun k1 hk => by
    obtain ⟨t, k2, t', a1, a2, a3, a4⟩ := visit_sim n x b c he V k0 h.1 hV k1 hk
    obtain ⟨u, k3, u', b1, b2, b3, b4⟩ := visit_sim n y b c he V k0 h.2 hV k2 (by omega)
    refine ⟨.ite f t u, k3, .ite f t' u', by simp [visit, a1, b1, bind, Except.bind], by omega,
      by simp [revisit, a3, b3, bind, Except.bind], fun s τ => ?_⟩
    simp only [runT, runS]
    split
    · exact a4 _ τ
    · obtain ⟨τ', c1, c2⟩ := b4 (f s).2 τ
      exact ⟨τ', c1, c2.mono a2⟩
  | .loop f x, b, c, he, V, k0, h, hV => fun k1 hk => by
    obtain ⟨t, k2, t', a1, a2, a3, a4⟩ := visit_sim n x true true false ⟨some none, some none⟩ k0
      h ⟨by simp, by simp, by simp, by simp⟩ k1 hk
    simp only at a3
    refine ⟨.loop none (.usr f) t, k2, .loop none (.usr f) t',
      by simp [visit, a1, bind, Except.bind], a2,
      by simp [revisit, a3, bind, Except.bind], fun s τ => ?_⟩
    obtain ⟨τ', c1, c2, c3⟩ := loop_sim f (runS J0 (n + 2) x) (runT (n + 2) t')
      (AgreeAll k1 τ) (fun _ => AgreeAll k1 τ) (fun _ h => h)
      (fun s τ1 hI => by
        obtain ⟨τ2, d1, d2⟩ := a4 s τ1
        rw [tr_none] at d1
        have := hI.trans (d2.agree (by simp) (by simp))
        exact ⟨τ2, d1, fun _ => this, fun _ _ => this⟩) (n + 2) s τ (.refl _ _)
    have hag : AgreeAll k1 τ τ' := by
      by_cases e : (loopS f (runS J0 (n + 2) x) (n + 2) s).2 = .norm
      · exact c2 e
      · exact c3 e
    have hc := loopS_out f (runS J0 (n + 2) x) (n + 2) s
    simp only [runT, runS, c1]
    generalize loopS f (runS J0 (n + 2) x) (n + 2) s = r at *
    obtain ⟨s1, o⟩ := r
    refine ⟨τ', ?_, hag.rel ?_⟩
    · cases o <;> simp_all [tr_ne]
    · cases o <;> simp_all
  | .loopElse f x y, b, c, he, V, k0, h, hV => fun k1 hk => by
    obtain ⟨t, k2, t', a1, a2, a3, a4⟩ := visit_sim n x true true true
      ⟨some (some k1), some none⟩ (k1 + 1) h.1
      ⟨by simp, by simp, by simp, by simp⟩ (k1 + 1) (Nat.le_refl _)
    obtain ⟨u, k3, u', b1, b2, b3, b4⟩ := visit_sim n y (b && !he) c false
      ⟨some (some k1), V.sl⟩ (k1 + 1) h.2
      ⟨fun e => ⟨by simp, (hV.b (by simp at e; exact e.1)).2⟩, fun e => ⟨by simp, (hV.c e).2⟩,
        by simp, fun g e => by have := hV.g g e; omega⟩ k2 a2
    simp only at a3 b3
    refine ⟨.seq (.setFlag k1 true) (.seq (.loop none (.usr f) t') (.ifFlag k1 u)), k3,
      .seq (.setFlag k1 true) (.seq (.loop none (.usr f) t') (.ifFlag k1 u')),
      by simp [visit, a1, a3, b1, bind, Except.bind], by omega,
      by simp [revisit, revisit_done _ _ _ _ a3, b3, bind, Except.bind], fun s τ => ?_⟩
    obtain ⟨τ', c1, c2, c3⟩ := loop_sim f (runS J0 (n + 2) x) (runT (n + 2) t')
      (AgreeAll (k1 + 1) { τ with fl := upd τ.fl k1 true })
      (fun o τ' => AgreeAll k1 τ τ' ∧ (o = .brk → τ'.fl k1 = false))
      (fun τ1 h => ⟨fun i hi => by
        have := h i (by omega)
        simpa [upd, show i ≠ k1 by omega] using this, by simp⟩)
      (fun s τ1 hI => by
        obtain ⟨τ2, d1, d2⟩ := a4 s τ1
        rw [tr_none] at d1
        refine ⟨τ2, d1, fun e => hI.trans (d2.agreeNorm e), fun _ _ => ⟨fun i hi => ?_, ?_⟩⟩
        · have h1 := hI i (by omega)
          have h2 := d2 i (by omega)
          refine ⟨h2.1.trans h1.1, h2.2.1.trans h1.2.1, ?_⟩
          rw [h2.2.2.1 (by simp; omega) (by simp), h1.2.2]
          simp [upd, show i ≠ k1 by omega]
        · intro e
          exact (d2 k1 (by omega)).2.2.2.2.2 e rfl rfl) (n + 2) s
      { τ with fl := upd τ.fl k1 true } (.refl _ _)
    have hc := loopS_out f (runS J0 (n + 2) x) (n + 2) s
    simp only [runT, runS, c1]
    generalize loopS f (runS J0 (n + 2) x) (n + 2) s = r at *
    obtain ⟨s1, o⟩ := r
    cases o
    case norm =>
      have hI := c2 rfl
      have hk1 : τ'.fl k1 = true := by
        rw [(hI k1 (by omega)).2.2]; simp [upd]
      have hag : AgreeAll k1 τ τ' := fun i hi => by
        have := hI i (by omega)
        simpa [upd, show i ≠ k1 by omega] using this
      obtain ⟨τ2, e1, e2⟩ := b4 s1 τ'
      have hout := good_out J0 (n + 2) y (b && !he) c false s1 h.2
      refine ⟨τ2, by simp [hk1, e1], hag.relTrans fun i hi => ?_⟩
      have := e2 i (by omega)
      refine ⟨this.1, this.2.1, fun e e' => this.2.2.1 (by simp; omega) e', this.2.2.2.1,
        this.2.2.2.2.1, fun e e' => ?_⟩
      subst e'
      exact absurd e (hout.1 (by simp))
    case brk =>
      have := c3 (by simp)
      refine ⟨τ', by simp [this.2 rfl, tr_ne], this.1.rel (by simp)⟩
    case cont => exact absurd rfl hc
    all_goals
      have := c3 (by simp)
      exact ⟨τ', by simp [tr_ne], this.1.rel (by simp)⟩
  | .tfor m it x y, b, c, he, V, k0, h, hV => by
    refine unroll_sim n V he m it x (runS J0 (n + 2) y) _ k0 ?_ ?_
    · rintro i rfl s
      exact keeps J0 (n + 2) J0_ok i y s h.2
    · intro g k1 hg
      exact visit_sim n y true true false ⟨some none, some (some g)⟩ k1 h.1
        ⟨by simp, by simp, by simp, by simpa using hg⟩
  | .tforElse _ _ _ _ _, b, c, he, V, k0, h, hV => by simp [Good] at h
  | .mtch e cs, b, c, he, V, k0, h, hV => fun k1 hk => by
    have hsim := fun v0 => cases_sim n cs (k1 + 1) k1 v0 h (by omega) (k1 + 1) (Nat.le_refl _)
    obtain ⟨t, k2, t', a1, a2, a3, _⟩ := hsim (.int 0)
    refine ⟨.loop none .tt (.seq (.setVal k1 e) t), k2, .loop none .tt (.seq (.setVal k1 e) t'),
      by simp [visit, a1, bind, Except.bind], by omega,
      by simp [revisit, a3, bind, Except.bind], fun s τ => ?_⟩
    obtain ⟨u, k2', u', b1, b2, b3, b4⟩ := hsim (e s).1
    rw [a1] at b1; cases b1
    rw [a3] at b3; cases b3
    obtain ⟨τ', c1, c2⟩ := b4 (e s).2 { τ with va := upd τ.va k1 (e s).1 } (by simp [upd])
    have hag : AgreeAll k1 τ τ' := fun i hi => by
      have := c2 i (by omega)
      simpa [upd, show i ≠ k1 by omega] using this
    have hout := goodC_out J0 (n + 2) cs (e s).1 (e s).2 h
    simp only [runT, runS, loopT, TCond.run, c1]
    generalize runCases J0 (n + 2) cs (e s).1 (e s).2 = r at *
    obtain ⟨s1, o⟩ := r
    refine ⟨τ', ?_, hag.rel hout.1⟩
    cases o <;> simp_all [fin, tr_ne]
  | .brk, b, c, he, V, k0, h, hV => fun k1 hk => by
    simp only [Good] at h
    obtain ⟨h1, h2⟩ := hV.b h
    obtain ⟨bv, sl⟩ := V
    have hv := hV.v
    have hg := hV.g
    rcases bv with _ | _ | v
    · exact absurd rfl h1
    · rcases sl with _ | _ | g
      · exact absurd rfl h2
      · refine ⟨.brk true, k1, .brk true, rfl, Nat.le_refl _, rfl, fun s τ => ⟨τ, rfl, ?_⟩⟩
        intro i hi; simp [runS]
      · refine ⟨.seq (.setFlag g false) (.brk true), k1, .seq (.setFlag g false) (.brk true),
          rfl, Nat.le_refl _, rfl, fun s τ => ⟨{ τ with fl := upd τ.fl g false }, rfl, ?_⟩⟩
        intro i hi
        simp only [runS, upd]
        refine ⟨trivial, trivial, fun _ e => ?_, by simp, ?_, by simp⟩
        · rw [if_neg (by simpa using fun e' => e (by rw [e']))]
        · intro _ e; simp at e; simp [e]
    · rcases sl with _ | _ | g
      · exact absurd rfl h2
      · refine ⟨.seq (.setFlag v false) (.brk false), k1, .seq (.setFlag v false) (.brk true),
          rfl, Nat.le_refl _, rfl, fun s τ => ⟨{ τ with fl := upd τ.fl v false }, rfl, ?_⟩⟩
        intro i hi
        simp only [runS, upd]
        refine ⟨trivial, trivial, fun e _ => ?_, by simp, by simp, ?_⟩
        · rw [if_neg (by simpa using fun e' => e (by rw [e']))]
        · intro _ _ e; simp at e; simp [e]
      · refine ⟨.seq (.setFlag v false) (.brk false), k1,
          .seq (.setFlag v false) (.seq (.setFlag g false) (.brk true)),
          rfl, Nat.le_refl _, rfl,
          fun s τ => ⟨{ τ with fl := upd (upd τ.fl v false) g false }, rfl, ?_⟩⟩
        intro i hi
        simp only [runS, upd]
        refine ⟨trivial, trivial, fun e e' => ?_, by simp, ?_, ?_⟩
        · rw [if_neg (by simpa using fun e2 => e' (by rw [e2])),
            if_neg (by simpa using fun e2 => e (by rw [e2]))]
        · intro _ e; simp at e; simp [e]
        · intro _ _ e; simp at e; simp [e]
  | .cont, b, c, he, V, k0, h, hV => fun k1 hk => by
    simp only [Good] at h
    obtain ⟨h1, h2⟩ := hV.c h
    obtain ⟨bv, sl⟩ := V
    rcases bv with _ | bv
    · exact absurd rfl h1
    · rcases sl with _ | _ | g
      · exact absurd rfl h2
      · exact ⟨.cont, k1, .cont, rfl, Nat.le_refl _, rfl,
          fun s τ => ⟨τ, rfl, (AgreeAll.refl _ _).rel (by simp [runS])⟩⟩
      · exact ⟨.brk true, k1, .brk true, rfl, Nat.le_refl _, rfl,
          fun s τ => ⟨τ, rfl, (AgreeAll.refl _ _).rel (by simp [runS])⟩⟩
theorem cases_sim (n : Nat) : ∀ (cs : Cases) (k0 m : Nat) (v0 : Val), GoodC cs → m < k0 →
    SimM (n + 2) k0 m v0 (fun s => fin (runCases J0 (n + 2) cs v0 s)) (visitCases m cs)
  | .nil, k0, m, v0, _, hm => fun k1 hk =>
    ⟨.brk true, k1, .brk true, rfl, Nat.le_refl _, rfl, fun s τ _ => ⟨τ, rfl, .refl _ _⟩⟩
  | .cons p g body rest, k0, m, v0, h, hm => fun k1 hk => by
    have hbody : ∀ k1, k0 ≤ k1 → ∃ t k2 t', visit ⟨some none, some none⟩ body k1 = .ok (t, k2) ∧
        k1 ≤ k2 ∧ revisit (some none) t = .ok t' ∧ ∀ s τ, ∃ τ',
          runT (n + 2) t' (s, τ) =
            (((runS J0 (n + 2) body s).1, τ'), (runS J0 (n + 2) body s).2) ∧
          AgreeAll k0 τ τ' := by
      intro k1 hk
      obtain ⟨t, k2, t', a1, a2, a3, a4⟩ := visit_sim n body false false false
        ⟨some none, some none⟩ k0 h.2.2.1 ⟨by simp, by simp, by simp, by simp⟩ k1 hk
      refine ⟨t, k2, t', a1, a2, a3, fun s τ => ?_⟩
      obtain ⟨τ', c1, c2⟩ := a4 s τ
      rw [tr_none] at c1
      exact ⟨τ', c1, (c2.agree (by simp) (by simp)).mono hk⟩
    have hfin : ∀ (t' : Tgt) (s : St) (τ τ' : Tm),
        runT (n + 2) t' (s, τ) =
          (((runS J0 (n + 2) body s).1, τ'), (runS J0 (n + 2) body s).2) →
        runT (n + 2) (.seq t' (.brk true)) (s, τ) =
          (((fin (runS J0 (n + 2) body s)).1, τ'), (fin (runS J0 (n + 2) body s)).2) := by
      intro t' s τ τ' e
      simp only [runT, e]
      generalize runS J0 (n + 2) body s = r
      obtain ⟨s1, o⟩ := r
      cases o <;> rfl
    have hsuite : SimM (n + 2) k0 m v0 (suite (runS J0 (n + 2) body) g)
        (fun k => do
          let (s, k) ← visit ⟨some none, some none⟩ body k
          .ok (guarded g (.seq s (.brk true)), k)) := by
      intro k1 hk
      obtain ⟨t, k2, t', a1, a2, a3, a4⟩ := hbody k1 hk
      cases g with
      | none =>
        refine ⟨.seq t (.brk true), k2, .seq t' (.brk true), by simp [a1, guarded, bind, Except.bind], a2,
          by simp [revisit, a3, bind, Except.bind], fun s τ _ => ?_⟩
        obtain ⟨τ', c1, c2⟩ := a4 s τ
        exact ⟨τ', hfin t' s τ τ' c1, c2⟩
      | some g =>
        refine ⟨.ite g (.seq t (.brk true)) .skip, k2, .ite g (.seq t' (.brk true)) .skip,
          by simp [a1, guarded, bind, Except.bind], a2,
          by simp [revisit, a3, bind, Except.bind], fun s τ _ => ?_⟩
        rw [runT]
        simp only [suite]
        split
        · obtain ⟨τ', c1, c2⟩ := a4 (g s).2 τ
          exact ⟨τ', hfin t' _ τ τ' c1, c2⟩
        · exact ⟨τ, rfl, .refl _ _⟩
    obtain ⟨t, k2, t', a1, a2, a3, a4⟩ :=
      tp_sim (n + 2) k0 m v0 hm p ⟨m, []⟩ v0 _ _ rfl rfl hsuite k1 hk
    obtain ⟨u, k3, u', b1, b2, b3, b4⟩ := cases_sim n rest k0 m v0 h.2.2.2 hm k2 (by omega)
    refine ⟨.seq t u, k3, .seq t' u', by rw [visitCases, a1]; simp [b1, bind, Except.bind],
      by omega, by simp [revisit, a3, b3, bind, Except.bind], fun s τ hτ => ?_⟩
    obtain ⟨τ1, c1, c2⟩ := a4 s τ hτ
    simp only []
    rw [← case_eq (n + 2) p g body rest v0 s h.1 h.2.1]
    rw [runT, c1]
    generalize semP (suite (runS J0 (n + 2) body) g) p v0 s = r at *
    obtain ⟨s1, o⟩ := r
    cases o <;> try exact ⟨τ1, rfl, c2⟩
    obtain ⟨τ2, d1, d2⟩ := b4 s1 τ1 (by rw [(c2 m hm).1, hτ])
    exact ⟨τ2, d1, c2.trans d2⟩
end

end Verif.Ctl
