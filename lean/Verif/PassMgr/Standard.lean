import Verif.PassMgr.Hist
/-! # The standard passes -/
namespace Codon.PassMgr

variable {σ ρ : Type}

/-- A registration. -/
inductive Reg where
  | pass (raw : String) (reqs invalidates : List String) (limit : Nat)
  | analysis (raw : String) (reqs : List String)
  deriving DecidableEq

/-- Registrations one after the other; the passes and analyses do what `P` and `A` say. -/
def registerAll (P : String → σ → (String → Option ρ) → σ × Bool) (A : String → σ → (String → Option ρ) → ρ) :
    List Reg → Mgr σ ρ → Option (Mgr σ ρ)
  | [], m => some m
  | .pass raw reqs inv limit :: rs, m =>
    match registerPass m raw ⟨reqs, inv, P raw, limit⟩ "" with
    | none => none
    | some r => registerAll P A rs r.2
  | .analysis raw reqs :: rs, m =>
    match registerAnalysis m raw ⟨reqs, A raw⟩ with
    | none => none
    | some r => registerAll P A rs r.2

def cfgKey := "core-analyses-cfg"
def rdKey := "core-analyses-rd"
def domKey := "core-analyses-dominator"
def capKey := "core-analyses-capture"
def globalKey := "core-analyses-global-vars"
def seRaw := "core-analyses-side-effect"
def seKey1 := "core-analyses-side-effect"
def seKey2 := "core-analyses-side-effect:2"

/-- manager.cpp:158-165: `Init::DEBUG`. -/
def debugRegs : List Reg := [
  .pass "core-pipeline-lowering" [] [] 0,
  .pass "core-imperative-for-lowering" [] [] 0,
  .pass "core-async-for-lowering" [] [] 0,
  .pass "core-await-lowering" [] [] 0,
  .pass "core-parallel-openmp" [] [] 0]

/-- manager.cpp:166-229: `Init::RELEASE` and `Init::JIT`.  The keys returned by the registrations are written out
(`seKey2` is the second key for its raw key). -/
def releaseRegs (jit : Bool) : List Reg := [
  .pass "core-pythonic-dict-arithmetic-opt" [] [] 0,
  .pass "core-pythonic-list-addition-opt" [] [] 0,
  .pass "core-pythonic-str-addition-opt" [] [] 0,
  .pass "core-pythonic-generator-argument-opt" [] [] 0,
  .pass "core-pythonic-io-cat-opt" [] [] 0,
  .pass "core-pipeline-lowering" [] [] 0,
  .pass "core-imperative-for-lowering" [] [] 0,
  .analysis cfgKey [],
  .analysis rdKey [cfgKey],
  .analysis domKey [cfgKey],
  .analysis capKey [rdKey, domKey],
  .analysis globalKey [],
  .analysis seRaw [capKey],
  .analysis seRaw [capKey],
  .pass "core-folding-pass-group" [seKey1, rdKey, globalKey] [seKey1, rdKey, cfgKey, globalKey, capKey] 5,
  .pass "core-numpy-fusion" [rdKey, seKey2] [seKey1, rdKey, cfgKey, globalKey, capKey] 0,
  .pass "core-imperative-for-lowering" [] [] 0,
  .pass "core-numpy-bounds-check-elision" [rdKey] [seKey1, rdKey, cfgKey, globalKey, capKey] 0,
  .pass "core-async-for-lowering" [] [] 0,
  .pass "core-await-lowering" [] [] 0,
  .pass "core-parallel-openmp" [] [cfgKey, globalKey] 0] ++
  if jit then [] else
    [.pass "core-folding-pass-group" [seKey2, rdKey, globalKey] [seKey2, rdKey, cfgKey, globalKey] 5]

/-! ### What the registrations leave -/

/-- The keys and requirements of the analyses in a list of registrations. -/
def table : List Reg → (String → Nat) → List (String × List String)
  | [], _ => []
  | .pass .. :: rs, keys => table rs keys
  | .analysis raw reqs :: rs, keys =>
    match uniqueKey keys raw with
    | none => table rs keys
    | some r => (r.1, reqs) :: table rs r.2

theorem uniqueKey_congr {k1 k2 : String → Nat} {raw : String} (h : k1 raw = k2 raw) :
    (uniqueKey k1 raw).map (·.1) = (uniqueKey k2 raw).map (·.1) := by
  unfold uniqueKey
  rw [h]
  split
  · rfl
  · split <;> rfl

theorem uniqueKey_keys {k k' : String → Nat} {raw key : String} (h : uniqueKey k raw = some (key, k')) :
    (∀ s, s ≠ raw → k' s = k s) ∧ k' raw = k raw + 1 := by
  unfold uniqueKey at h
  split at h
  · cases h
  · split at h
    · simp only [Option.some.injEq, Prod.mk.injEq] at h
      obtain ⟨-, rfl⟩ := h
      rename_i h0
      exact ⟨fun s hs => set_ne _ _ hs, by rw [set_same, h0]⟩
    · simp only [Option.some.injEq, Prod.mk.injEq] at h
      obtain ⟨-, rfl⟩ := h
      rename_i h0
      exact ⟨fun s hs => set_ne _ _ hs, by rw [set_same, h0]⟩

variable {P : String → σ → (String → Option ρ) → σ × Bool} {A : String → σ → (String → Option ρ) → ρ}

/-- No raw key of an analysis is disabled or used for a pass. -/
def Apart (disabled : List String) (rs : List Reg) : Prop :=
  (∀ raw reqs, Reg.analysis raw reqs ∈ rs → raw ∉ disabled) ∧
  (∀ raw reqs raw' reqs' inv l, Reg.analysis raw reqs ∈ rs → Reg.pass raw' reqs' inv l ∈ rs → raw ≠ raw')

theorem registerAll_ok {C : Mgr σ ρ → Prop} (rs0 : List Reg) (rs : List Reg) (hsub : ∀ r ∈ rs, r ∈ rs0) :
    ∀ {w : World σ ρ} {m' : Mgr σ ρ} {keys : String → Nat}, History C w → registerAll P A rs w.m = some m' →
    Apart w.m.disabled rs0 → (∀ raw reqs, Reg.analysis raw reqs ∈ rs0 → w.m.keys raw = keys raw) →
    History C { w with m := m' } ∧ m'.results = w.m.results ∧ m'.disabled = w.m.disabled ∧
    (∀ k a, w.m.analyses k = some a → m'.analyses k = some a) ∧
    (∀ k a, m'.analyses k = some a → w.m.analyses k = some a ∨ (k, a.reqs) ∈ table rs keys) ∧
    (∀ k reqs, (k, reqs) ∈ table rs keys → ∃ a, m'.analyses k = some a ∧ a.reqs = reqs) ∧
    (∀ k p, m'.passes k = some p → w.m.passes k = some p ∨ ∃ raw l, Reg.pass raw p.reqs p.invalidates l ∈ rs) := by
  induction rs with
  | nil =>
    intro w m' keys hw h _ _
    simp only [registerAll, Option.some.injEq] at h
    subst h
    exact ⟨hw, rfl, rfl, fun _ _ h => h, fun _ _ h => .inl h, by simp [table], fun _ _ h => .inl h⟩
  | cons r rs ih =>
    intro w m' keys hw h hd hk
    have hsub' : ∀ r ∈ rs, r ∈ rs0 := fun r hr => hsub r (List.mem_cons_of_mem _ hr)
    cases r with
    | pass raw reqs inv limit =>
      simp only [registerAll] at h
      split at h
      · cases h
      · rename_i r hr
        obtain ⟨key, m1⟩ := r
        have hw1 := History.pass hw hr
        have hm := hsub _ List.mem_cons_self
        have facts : m1.disabled = w.m.disabled ∧ m1.results = w.m.results ∧ m1.analyses = w.m.analyses ∧
            (∀ s, s ≠ raw → m1.keys s = w.m.keys s) ∧
            (∀ k p, m1.passes k = some p → w.m.passes k = some p ∨ (p.reqs = reqs ∧ p.invalidates = inv)) := by
          rcases registerPass_cases hr with rfl | ⟨keys', deps, order, h1, h2, h3, rfl⟩
          · exact ⟨rfl, rfl, rfl, fun _ _ => rfl, fun _ _ h => .inl h⟩
          · refine ⟨rfl, rfl, rfl, (uniqueKey_keys h1).1, fun k p hp => ?_⟩
            simp only at hp
            by_cases he : k = key
            · subst he
              rw [set_same] at hp
              cases hp
              exact .inr ⟨rfl, rfl⟩
            · rw [set_ne _ _ he] at hp
              exact .inl hp
        obtain ⟨f1, f2, f3, f4, f5⟩ := facts
        obtain ⟨g1, g2, g3, g4, g5, g6, g7⟩ := ih hsub' (keys := keys) hw1 h (by simp only [f1]; exact hd)
          (fun raw' reqs' hm' => by
            simp only
            rw [f4 raw' (hd.2 _ _ _ _ _ _ hm' hm)]
            exact hk raw' reqs' hm')
        simp only at g2 g3 g4 g5 g7
        refine ⟨g1, g2.trans f2, g3.trans f1, fun k a ha => g4 k a (by rw [f3]; exact ha),
          fun k a ha => ?_, g6, fun k p hp => ?_⟩
        · rcases g5 k a ha with h | h
          · exact .inl (by rw [f3] at h; exact h)
          · exact .inr h
        · rcases g7 k p hp with h | ⟨raw', l, h⟩
          · rcases f5 k p h with h | ⟨rfl, rfl⟩
            · exact .inl h
            · exact .inr ⟨raw, limit, List.mem_cons_self⟩
          · exact .inr ⟨raw', l, List.mem_cons_of_mem _ h⟩
    | analysis raw reqs =>
      simp only [registerAll] at h
      split at h
      · cases h
      · rename_i r hr
        obtain ⟨key, m1⟩ := r
        have hw1 := History.analysis hw hr
        obtain ⟨rank, G⟩ := good_true hw
        have hext := (good_analysis G hr).2
        have hm := hsub _ List.mem_cons_self
        have hkr := hk raw reqs hm
        have hr' := hr
        unfold registerAnalysis at hr
        rw [if_neg (hd.1 raw reqs hm)] at hr
        simp only [Option.bind_eq_bind, Option.bind_eq_some_iff, Option.some.injEq, Prod.mk.injEq] at hr
        obtain ⟨⟨k0, keys1⟩, h1, deps, h2, h4, h5⟩ := hr
        simp only at h2 h4 h5
        subst h4
        subst h5
        have hu := uniqueKey_congr hkr
        rw [h1] at hu
        cases hu2 : uniqueKey keys raw with
        | none => rw [hu2] at hu; cases hu
        | some r2 =>
          obtain ⟨k2, keys2⟩ := r2
          rw [hu2] at hu
          simp only [Option.map_some, Option.some.injEq] at hu
          subst hu
          obtain ⟨g1, g2, g3, g4, g5, g6, g7⟩ := ih hsub' (keys := keys2) hw1 h (by exact hd)
            (fun raw' reqs' hm' => by
              simp only
              by_cases he : raw' = raw
              · subst he; rw [(uniqueKey_keys h1).2, (uniqueKey_keys hu2).2, hkr]
              · rw [(uniqueKey_keys h1).1 _ he, (uniqueKey_keys hu2).1 _ he]
                exact hk raw' reqs' hm')
          simp only at g2 g3 g4 g5 g7
          have ht : table (.analysis raw reqs :: rs) keys = (k0, reqs) :: table rs keys2 := by
            simp only [table, hu2]
          refine ⟨g1, g2, g3, fun k a ha => g4 k a (hext k a ha), fun k a ha => ?_, fun k q hq => ?_, fun k p hp => ?_⟩
          · rw [ht]
            rcases g5 k a ha with h | h
            · by_cases he : k = k0
              · subst he
                rw [set_same] at h
                cases h
                exact .inr List.mem_cons_self
              · rw [set_ne _ _ he] at h
                exact .inl h
            · exact .inr (List.mem_cons_of_mem _ h)
          · rw [ht] at hq
            rcases List.mem_cons.1 hq with hq | hq
            · injection hq with h6 h7
              subst h6 h7
              exact ⟨_, g4 k _ (set_same _ _ _), rfl⟩
            · exact g6 k q hq
          · rcases g7 k p hp with h | ⟨raw', l, h⟩
            · exact .inl h
            · exact .inr ⟨raw', l, List.mem_cons_of_mem _ h⟩

/-- Nothing stays cached when every pass that needs analyses declares the roots of all analyses invalid. -/
theorem nothing_left {Valid : String → ρ → σ → List Ev → Prop} {rank : String → Nat} {roots : List String} {w0 : World σ ρ}
    (hroot : ∀ k a, w0.m.analyses k = some a → ∃ i ∈ roots, Dep w0.m.req k i)
    (hpass : ∀ k p, w0.m.passes k = some p → p.reqs = [] ∨ ∀ i ∈ roots, i ∈ p.invalidates)
    (hA : ∀ k a, w0.m.analyses k = some a → ∀ ir h lk, (∀ q ∈ a.reqs, ∃ r, lk q = some r ∧ Valid q r ir h) →
      Valid k (a.run ir lk) ir (h ++ [.computed k]))
    (hO : ∀ k j r ir h, Valid k r ir h → Valid k r ir (h ++ [.computed j]))
    (G0 : Good Valid rank w0) (h0 : w0.m.results = []) :
    ∃ w, run w0 = some w ∧ Good Valid rank w ∧ w.m = w0.m := by
  have hreq : ∀ k a, w0.m.analyses k = some a → a.reqs = w0.m.req k := fun k a h => by simp [Mgr.req, h]
  have once : ∀ key p, w0.m.passes key = some p → ∀ w, Good Valid rank w → w.m = w0.m →
      ∃ w' b, passOnce key p w = some (w', b) ∧ Good Valid rank w' ∧ w'.m = w0.m := by
    intro key p hp w G hm
    have none_left : ∀ k r a, w0.m.analyses k = some a → (∀ i ∈ p.invalidates, ¬ Dep w0.m.req k i) →
        ((k, r) ∈ w0.m.results ∨ ∃ q ∈ p.reqs, Dep w0.m.req q k) → False := by
      intro k r a ha h2 h3
      obtain ⟨i, hi, hd⟩ := hroot k a ha
      rcases hpass key p hp with hq | hq
      · rcases h3 with h4 | ⟨q, h4, _⟩
        · rw [h0] at h4; cases h4
        · rw [hq] at h4; cases h4
      · exact h2 i (hq i hi) hd
    obtain ⟨w1, b, res', e1, e2, ⟨res, e3⟩, e4, e5⟩ := passOnce_gen (req := w0.m.req) G (by rw [hm]; exact hreq)
      (by rw [hm]; exact hA) hO (p := p) (key := key) (by rw [hm]; exact hp)
      (by
        rw [hm]
        intro lk h _ k r a _ ha h2 h3
        exact (none_left k r a ha h2 h3).elim)
    have hnil : w1.m.results = [] := by
      rw [List.eq_nil_iff_forall_not_mem]
      rintro ⟨k, r⟩ hkr
      obtain ⟨h2, h3⟩ := (e5 k r).1 hkr
      obtain ⟨a, ha, _⟩ := e2.tables.closed k r hkr
      rw [e3, hm] at ha
      have h4 := e4 k r h2
      rw [hm] at h4
      exact none_left k r a ha h3 h4
    refine ⟨w1, b, e1, e2, ?_⟩
    rw [e3, hm]
    rw [e3] at hnil
    simp only at hnil
    rw [hnil, ← h0]
  have loop : ∀ key p, w0.m.passes key = some p → ∀ n w, Good Valid rank w → w.m = w0.m →
      ∃ w', passLoop key p n w = some w' ∧ Good Valid rank w' ∧ w'.m = w0.m := by
    intro key p hp n
    induction n with
    | zero =>
      intro w G hm
      obtain ⟨w1, b, e1, e2, e3⟩ := once key p hp w G hm
      exact ⟨w1, by rw [passLoop, e1], e2, e3⟩
    | succ n ih =>
      intro w G hm
      obtain ⟨w1, b, e1, e2, e3⟩ := once key p hp w G hm
      rw [passLoop, e1]
      cases b with
      | false => exact ⟨w1, rfl, e2, e3⟩
      | true => exact ih w1 e2 e3
  have all : ∀ keys : List String, (∀ k ∈ keys, ∃ p, w0.m.passes k = some p) → ∀ w, Good Valid rank w → w.m = w0.m →
      ∃ w', keys.foldlM (fun w key => runPass key w) w = some w' ∧ Good Valid rank w' ∧ w'.m = w0.m := by
    intro keys
    induction keys with
    | nil => intro _ w G hm; exact ⟨w, rfl, G, hm⟩
    | cons key keys ih =>
      intro hk w G hm
      obtain ⟨p, hp⟩ := hk key List.mem_cons_self
      obtain ⟨w1, h3, h4, h5⟩ := loop key p hp (p.limit - 1) w G hm
      obtain ⟨w2, h6, h7⟩ := ih (fun k hk' => hk k (List.mem_cons_of_mem _ hk')) w1 h4 h5
      refine ⟨w2, ?_, h7⟩
      rw [List.foldlM_cons, runPass, hm, hp]
      simp only [h3, Option.bind_eq_bind, Option.bind_some]
      exact h6
  exact all w0.m.order G0.tables.orderP w0 G0 rfl

end Codon.PassMgr
