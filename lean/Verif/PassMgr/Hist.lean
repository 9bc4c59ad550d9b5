import Verif.PassMgr.Run
/-! # Histories of a pass manager -/
namespace Codon.PassMgr

variable {σ ρ : Type}

/-- What holds throughout. -/
structure Good (Valid : String → ρ → σ → List Ev → Prop) (rank : String → Nat) (w : World σ ρ) : Prop where
  tables : Tables w.m rank
  valid : ∀ k r, (k, r) ∈ w.m.results → Valid k r w.ir w.hist
  calls : ∀ c ∈ w.calls, ∃ p, w.m.passes c.key = some p ∧
    (∀ q ∈ p.reqs, ∃ r, look c.results q = some r ∧ Valid q r c.ir c.hist) ∧
    ∃ rest, w.hist = c.hist ++ .ran c.key p.invalidates :: rest

theorem tables_results {m : Mgr σ ρ} {rank : String → Nat} (T : Tables m rank) {res : List (String × ρ)}
    (h : Closed m.analyses res) : Tables { m with results := res } rank :=
  ⟨T.issuedA, T.issuedP, T.issuedD, T.depsA, T.aDeps, T.edge, T.back, T.rankLt, T.rankReq, T.passReq, T.orderP, h⟩

variable {Valid : String → ρ → σ → List Ev → Prop} {req : String → List String} {rank : String → Nat}

theorem foldNew_of {f : List (String × ρ) × List Ev → String → Option (List (String × ρ) × List Ev)} (qs : List String)
    (hf : ∀ q st st', f st q = some st' → ∀ k r, (k, r) ∈ st'.1 → (k, r) ∈ st.1 ∨ Dep req q k) :
    ∀ st st', qs.foldlM f st = some st' → ∀ k r, (k, r) ∈ st'.1 → (k, r) ∈ st.1 ∨ ∃ q ∈ qs, Dep req q k := by
  induction qs with
  | nil => intro st st' h k r hk; cases h; exact .inl hk
  | cons q qs ih =>
    intro st st' h k r hk
    rw [List.foldlM_cons, Option.bind_eq_bind, Option.bind_eq_some_iff] at h
    obtain ⟨st1, h1, h2⟩ := h
    rcases ih st1 st' h2 k r hk with h3 | ⟨q', h3, h4⟩
    · rcases hf q st st1 h1 k r h3 with h5 | h5
      · exact .inl h5
      · exact .inr ⟨q, List.mem_cons_self, h5⟩
    · exact .inr ⟨q', List.mem_cons_of_mem _ h3, h4⟩

theorem runAnalysis_new {an : String → Option (Analysis σ ρ)} (hreq : ∀ k a, an k = some a → a.reqs = req k) {ir : σ}
    (fuel : Nat) : ∀ name st st', runAnalysis an ir fuel name st = some st' →
    ∀ k r, (k, r) ∈ st'.1 → (k, r) ∈ st.1 ∨ Dep req name k := by
  induction fuel with
  | zero => intro name st st' h; cases h
  | succ fuel ih =>
    intro name st st' h k r hk
    rw [runAnalysis] at h
    split at h
    · cases h; exact .inl hk
    · split at h
      · cases h
      · rename_i a ha
        split at h
        · cases h
        · rename_i st1 h1
          cases h
          rcases List.mem_cons.1 hk with hk | hk
          · injection hk with h2 h3
            subst h2
            exact .inr (.self k)
          · rcases foldNew_of a.reqs ih st st1 h1 k r hk with h2 | ⟨q, h2, h3⟩
            · exact .inl h2
            · exact .inr (.step (by rw [← hreq name a ha]; exact h2) h3)

theorem foldNew {an : String → Option (Analysis σ ρ)} (hreq : ∀ k a, an k = some a → a.reqs = req k) (ir : σ)
    (fuel : Nat) (qs : List String) (st st' : List (String × ρ) × List Ev)
    (h : qs.foldlM (fun st q => runAnalysis an ir fuel q st) st = some st') :
    ∀ k r, (k, r) ∈ st'.1 → (k, r) ∈ st.1 ∨ ∃ q ∈ qs, Dep req q k :=
  foldNew_of qs (runAnalysis_new hreq fuel) st st' h

/-- One iteration of a pass, and what it leaves cached. -/
theorem passOnce_gen {w : World σ ρ} (G : Good Valid rank w) (hreq : ∀ k a, w.m.analyses k = some a → a.reqs = req k)
    (hA : ∀ k a, w.m.analyses k = some a → ∀ ir h lk, (∀ q ∈ a.reqs, ∃ r, lk q = some r ∧ Valid q r ir h) →
      Valid k (a.run ir lk) ir (h ++ [.computed k]))
    (hO : ∀ k j r ir h, Valid k r ir h → Valid k r ir (h ++ [.computed j]))
    {key : String} {p : Pass σ ρ} (hp : w.m.passes key = some p)
    (hP : ∀ lk h, (∀ q ∈ p.reqs, ∃ r, lk q = some r ∧ Valid q r w.ir h) →
      ∀ k r a, Valid k r w.ir h → w.m.analyses k = some a → (∀ i ∈ p.invalidates, ¬ Dep req k i) →
      ((k, r) ∈ w.m.results ∨ ∃ q ∈ p.reqs, Dep req q k) →
      Valid k r (p.run w.ir lk).1 (h ++ [.ran key p.invalidates])) :
    ∃ (w' : World σ ρ) (b : Bool) (res' : List (String × ρ)), passOnce key p w = some (w', b) ∧ Good Valid rank w' ∧ (∃ res, w'.m = { w.m with results := res }) ∧
      (∀ k r, (k, r) ∈ res' → (k, r) ∈ w.m.results ∨ ∃ q ∈ p.reqs, Dep req q k) ∧
      (∀ k r, (k, r) ∈ w'.m.results ↔ (k, r) ∈ res' ∧ ∀ i ∈ p.invalidates, ¬ Dep req k i) := by
  have T := G.tables
  have hreg : ∀ k a q, w.m.analyses k = some a → q ∈ a.reqs → ∃ b, w.m.analyses q = some b := by
    intro k a q ha hq
    obtain ⟨l, hl, _⟩ := T.edge k a q ha hq
    exact T.depsA q l hl
  -- results that were there, or that are needed by the pass
  let V : String → ρ → List Ev → Prop := fun k r h => Valid k r w.ir h
  obtain ⟨st, e1, s1⟩ := fold_ok (an := w.m.analyses) (V := V)
    (f := fun st q => runAnalysis w.m.analyses w.ir (w.m.numAnalyses + 1) q st) p.reqs
    (fun q hq st h1 h2 => by
      obtain ⟨a, ha⟩ := T.passReq key p q hp hq
      exact runAnalysis_ok (an := w.m.analyses) (V := V) (ir := w.ir) (rank := rank) hreg T.rankReq
        (fun k a h lk ha hq => hA k a ha w.ir h lk hq)
        (fun k j r h hv => hO k j r w.ir h hv) (w.m.numAnalyses + 1) q st
        (by have := T.rankLt q a ha; omega) ⟨a, ha⟩ h1 h2) (w.m.results, w.hist) T.closed G.valid
  have hnew := foldNew hreq w.ir (w.m.numAnalyses + 1) p.reqs (w.m.results, w.hist) st e1
  have hreqs : ∀ q ∈ p.reqs, ∃ r, look st.1 q = some r ∧ Valid q r w.ir st.2 := by
    intro q hq
    obtain ⟨r, hr⟩ := s1.found q hq
    obtain ⟨r', hr'⟩ := mem_look hr
    exact ⟨r', hr', s1.valid q r' (look_mem hr')⟩
  obtain ⟨c1, c2⟩ := invalidateAll_ok hreq T.edge T.back p.invalidates st.1 s1.closed
  refine ⟨{ m := { w.m with results := p.invalidates.foldl (fun r k => invalidate w.m.deps k r) st.1 }
            ir := (p.run w.ir (look st.1)).1
            hist := st.2 ++ [.ran key p.invalidates]
            calls := w.calls ++ [⟨key, w.ir, st.1, st.2⟩] }, (p.run w.ir (look st.1)).2, st.1, ?_, ?_, ⟨_, rfl⟩, hnew, c2⟩
  · unfold passOnce; rw [e1]
  · refine ⟨tables_results T c1, ?_, ?_⟩
    · intro k r h
      obtain ⟨h1, h2⟩ := (c2 k r).1 h
      obtain ⟨a, ha, _⟩ := s1.closed k r h1
      exact hP (look st.1) st.2 hreqs k r a (s1.valid k r h1) ha h2 (hnew k r h1)
    · intro c hc
      rcases List.mem_append.1 hc with hc | hc
      · obtain ⟨q, h1, h2, rest, h3⟩ := G.calls c hc
        obtain ⟨more, h4⟩ := s1.hist
        refine ⟨q, h1, h2, rest ++ more ++ [.ran key p.invalidates], ?_⟩
        simp only at h4 ⊢
        rw [← h4, h3]
        simp
      · rw [List.mem_singleton] at hc
        subst hc
        exact ⟨p, hp, hreqs, [], rfl⟩

theorem passOnce_ok {w : World σ ρ} (G : Good Valid rank w) (hreq : ∀ k a, w.m.analyses k = some a → a.reqs = req k)
    (hC : Contracts Valid req w.m) {key : String} {p : Pass σ ρ} (hp : w.m.passes key = some p) :
    ∃ (w' : World σ ρ) (b : Bool), passOnce key p w = some (w', b) ∧ Good Valid rank w' ∧
      (∃ res, w'.m = { w.m with results := res }) := by
  obtain ⟨w', b, _, h1, h2, h3, _⟩ := passOnce_gen G hreq hC.analysis hC.other hp
    (fun lk h hq k r _ hv _ hi _ => hC.pass key p hp w.ir h lk hq k r hv hi)
  exact ⟨w', b, h1, h2, h3⟩

theorem passLoop_ok {key : String} {p : Pass σ ρ} (n : Nat) : ∀ {w : World σ ρ}, Good Valid rank w →
    (∀ k a, w.m.analyses k = some a → a.reqs = req k) → Contracts Valid req w.m → w.m.passes key = some p →
    ∃ w', passLoop key p n w = some w' ∧ Good Valid rank w' ∧ (∃ res, w'.m = { w.m with results := res }) := by
  induction n with
  | zero =>
    intro w G hreq hC hp
    obtain ⟨w', b, h1, h2, h3⟩ := passOnce_ok G hreq hC hp
    exact ⟨w', by rw [passLoop, h1], h2, h3⟩
  | succ n ih =>
    intro w G hreq hC hp
    obtain ⟨w', b, h1, h2, ⟨res, h3⟩⟩ := passOnce_ok G hreq hC hp
    rw [passLoop, h1]
    simp only
    cases b with
    | false => exact ⟨w', rfl, h2, res, h3⟩
    | true =>
      obtain ⟨w2, h4, h5, res2, h6⟩ := ih h2 (by rw [h3]; exact hreq)
        (by rw [h3]; exact ⟨hC.analysis, hC.other, hC.pass⟩) (by rw [h3]; exact hp)
      exact ⟨w2, h4, h5, res2, by rw [h6, h3]⟩

theorem runKeys_ok (keys : List String) : ∀ {w : World σ ρ}, Good Valid rank w →
    (∀ k a, w.m.analyses k = some a → a.reqs = req k) → Contracts Valid req w.m →
    (∀ k ∈ keys, ∃ p, w.m.passes k = some p) →
    ∃ w', keys.foldlM (fun w key => runPass key w) w = some w' ∧ Good Valid rank w' ∧
      (∃ res, w'.m = { w.m with results := res }) := by
  induction keys with
  | nil => intro w G _ _ _; exact ⟨w, rfl, G, w.m.results, rfl⟩
  | cons key keys ih =>
    intro w G hreq hC hk
    obtain ⟨p, hp⟩ := hk key List.mem_cons_self
    obtain ⟨w1, h1, h2, res, h3⟩ := passLoop_ok (p.limit - 1) G hreq hC hp
    obtain ⟨w2, h4, h5, res2, h6⟩ := ih h2 (by rw [h3]; exact hreq)
        (by rw [h3]; exact ⟨hC.analysis, hC.other, hC.pass⟩)
        (fun k hk' => by rw [h3]; exact hk k (List.mem_cons_of_mem _ hk'))
    refine ⟨w2, ?_, h5, res2, by rw [h6, h3]⟩
    rw [List.foldlM_cons, runPass, hp]
    simp only [h1, Option.bind_eq_bind, Option.bind_some]
    exact h4

theorem run_ok {w : World σ ρ} (G : Good Valid rank w) (hreq : ∀ k a, w.m.analyses k = some a → a.reqs = req k)
    (hC : Contracts Valid req w.m) : ∃ w', run w = some w' ∧ Good Valid rank w' ∧
      (∃ res, w'.m = { w.m with results := res }) :=
  runKeys_ok w.m.order G hreq hC G.tables.orderP

theorem good_pass {w : World σ ρ} (G : Good Valid rank w) {raw before key : String} {p : Pass σ ρ} {m' : Mgr σ ρ}
    (h : registerPass w.m raw p before = some (key, m')) : Good Valid rank { w with m := m' } := by
  rcases registerPass_cases h with rfl | ⟨keys, deps, order, h1, h2, h3, rfl⟩
  · exact G
  · refine ⟨tables_pass G.tables h1 h2 h3, G.valid, fun c hc => ?_⟩
    obtain ⟨q, h4, h5⟩ := G.calls c hc
    refine ⟨q, ?_, h5⟩
    simp only
    rw [set_ne]
    · exact h4
    · intro he
      exact (uniqueKey_ok h1).1 (he ▸ G.tables.issuedP _ _ h4)

theorem good_analysis {w : World σ ρ} (G : Good Valid rank w) {raw key : String} {a : Analysis σ ρ} {m' : Mgr σ ρ}
    (h : registerAnalysis w.m raw a = some (key, m')) : (∃ rank', Good Valid rank' { w with m := m' }) ∧
      ∀ k b, w.m.analyses k = some b → m'.analyses k = some b := by
  rcases registerAnalysis_cases h with rfl | ⟨keys, deps, h1, h2, rfl⟩
  · exact ⟨⟨rank, G⟩, fun _ _ h => h⟩
  · refine ⟨⟨_, tables_analysis G.tables h1 h2, G.valid, G.calls⟩, fun k b hb => ?_⟩
    simp only
    rw [set_ne]
    · exact hb
    · rintro rfl
      exact (uniqueKey_ok h1).1 (G.tables.issuedA _ _ hb)

/-- The tables are in order whatever the analyses and passes do. -/
theorem good_true {C : Mgr σ ρ → Prop} {w : World σ ρ} (h : History C w) :
    ∃ rank, Good (fun _ _ _ _ => True) rank w := by
  induction h with
  | init disabled ir => exact ⟨_, tables_init disabled, fun _ _ _ => trivial, by simp⟩
  | pass _ h2 ih => obtain ⟨rank, G⟩ := ih; exact ⟨rank, good_pass G h2⟩
  | analysis _ h2 ih => obtain ⟨rank, G⟩ := ih; exact (good_analysis G h2).1
  | @run w w' _ _ h3 ih =>
    obtain ⟨rank, G⟩ := ih
    obtain ⟨w2, h4, h5, _⟩ := run_ok (req := w.m.req) G (fun k a h => by simp [Mgr.req, h])
      ⟨fun _ _ _ _ _ _ _ => trivial, fun _ _ _ _ _ _ => trivial, fun _ _ _ _ _ _ _ _ _ _ _ => trivial⟩
    rw [h3] at h4
    cases h4
    exact ⟨rank, h5⟩
  | edit ir _ h2 ih =>
    obtain ⟨rank, G⟩ := ih
    exact ⟨rank, G.tables, fun _ _ _ => trivial, G.calls⟩

theorem good_valid {C : Mgr σ ρ → Prop} (hC : ∀ m, C m → Contracts Valid req m) {w : World σ ρ} (h : History C w) :
    (∀ k a, w.m.analyses k = some a → a.reqs = req k) → ∃ rank, Good Valid rank w := by
  induction h with
  | init disabled ir => intro _; exact ⟨_, tables_init disabled, by simp [Mgr.init], by simp⟩
  | @pass w raw p before key m' h1 h2 ih =>
    intro hreq
    have he : ∀ k, m'.analyses k = w.m.analyses k := by
      intro k
      rcases registerPass_cases h2 with rfl | ⟨keys, deps, order, _, _, _, rfl⟩ <;> rfl
    obtain ⟨rank, G⟩ := ih (fun k a h => hreq k a (by rw [he]; exact h))
    exact ⟨rank, good_pass G h2⟩
  | analysis h1 h2 ih =>
    intro hreq
    obtain ⟨rank0, G0⟩ := good_true h1
    obtain ⟨rank, G⟩ := ih (fun k a h => hreq k a ((good_analysis G0 h2).2 k a h))
    exact (good_analysis G h2).1
  | @run w w' h1 h2 h3 ih =>
    intro hreq
    obtain ⟨rank0, G0⟩ := good_true h1
    have he : ∃ res, w'.m = { w.m with results := res } := by
      obtain ⟨w2, h4, _, h5⟩ := run_ok (req := w.m.req) G0 (fun k a h => by simp [Mgr.req, h])
        ⟨fun _ _ _ _ _ _ _ => trivial, fun _ _ _ _ _ _ => trivial, fun _ _ _ _ _ _ _ _ _ _ _ => trivial⟩
      rw [h3] at h4
      cases h4
      exact h5
    obtain ⟨res, he⟩ := he
    have hreq' : ∀ k a, w.m.analyses k = some a → a.reqs = req k := by
      intro k a h
      exact hreq k a (by rw [he]; exact h)
    obtain ⟨rank, G⟩ := ih hreq'
    obtain ⟨w2, h4, h5, _⟩ := run_ok G hreq' (hC _ h2)
    rw [h3] at h4
    cases h4
    exact ⟨rank, h5⟩
  | edit ir _ h2 ih =>
    intro hreq
    obtain ⟨rank, G⟩ := ih hreq
    refine ⟨rank, G.tables, fun k r h => ?_, G.calls⟩
    simp only at h
    rw [h2] at h
    cases h

end Codon.PassMgr
