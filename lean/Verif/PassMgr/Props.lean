import Verif.PassMgr.Standard
/-!
# C09: cached analyses are never stale

`History C w`: `w` is the state of a pass manager after any sequence of registrations and runs.  `w.calls` lists the
passes that were run, with the module and the cached results they saw.
-/
namespace Codon.PassMgr

variable {σ ρ : Type}

/-- C09.  Whatever was registered and run: each analysis asked for by a pass is in the cache when the pass runs; it was
computed before, and no pass run after that declared it, or anything it depends on, invalid.  The pass was run right
then (`rest` is what happened later). -/
theorem c09_current {w : World σ ρ} (h : History (fun _ => True) w) (c : Call σ ρ) (hc : c ∈ w.calls) :
    ∃ p, w.m.passes c.key = some p ∧
    (∀ q ∈ p.reqs, (look c.results q).isSome ∧ Current w.m.req q c.hist) ∧
    ∃ rest, w.hist = c.hist ++ .ran c.key p.invalidates :: rest := by
  obtain ⟨rank, G⟩ := good_valid (Valid := fun k (_ : ρ) (_ : σ) h => Current w.m.req k h) (req := w.m.req)
    (C := fun _ => True) (fun m _ => by
      constructor
      · intro k a _ ir h lk _
        refine ⟨h.length, by simp, fun l key inv hl he => ?_⟩
        rw [List.getElem?_append_right (by omega)] at he
        have : l - h.length ≠ 0 := by omega
        rw [List.getElem?_eq_none (by simp; omega)] at he
        cases he
      · rintro k j r ir h ⟨i, h1, h2⟩
        have hi : i < h.length := by
          by_contra hc
          rw [List.getElem?_eq_none (by omega)] at h1
          cases h1
        refine ⟨i, by rw [List.getElem?_append_left hi]; exact h1, fun l key inv hl he => ?_⟩
        by_cases hll : l < h.length
        · rw [List.getElem?_append_left hll] at he
          exact h2 l key inv hl he
        · rw [List.getElem?_append_right (by omega)] at he
          rcases Nat.eq_zero_or_pos (l - h.length) with h0 | h0
          · rw [h0] at he; cases he
          · rw [List.getElem?_eq_none (by simp; omega)] at he
            cases he
      · rintro key p _ ir h lk _ k r ⟨i, h1, h2⟩ hinv
        have hi : i < h.length := by
          by_contra hc
          rw [List.getElem?_eq_none (by omega)] at h1
          cases h1
        refine ⟨i, by rw [List.getElem?_append_left hi]; exact h1, fun l key' inv hl he => ?_⟩
        by_cases hll : l < h.length
        · rw [List.getElem?_append_left hll] at he
          exact h2 l key' inv hl he
        · rw [List.getElem?_append_right (by omega)] at he
          rcases Nat.eq_zero_or_pos (l - h.length) with h0 | h0
          · rw [h0] at he
            cases he
            exact hinv
          · rw [List.getElem?_eq_none (by simp; omega)] at he
            cases he) h (fun k a h => by simp [Mgr.req, h])
  obtain ⟨p, h1, h2, h3⟩ := G.calls c hc
  refine ⟨p, h1, fun q hq => ?_, h3⟩
  obtain ⟨r, h4, h5⟩ := h2 q hq
  exact ⟨by rw [h4]; rfl, h5⟩

/-- C09, in terms of what results mean.  `Valid k r ir`: `r` is a right result of analysis `k` for the module `ir`.  If
analyses and passes keep their contracts, every pass sees right results. -/
theorem c09_valid (Valid : String → ρ → σ → Prop) {w : World σ ρ}
    (h : History (Contracts (fun k r ir _ => Valid k r ir) w.m.req) w) (c : Call σ ρ) (hc : c ∈ w.calls) :
    ∃ p, w.m.passes c.key = some p ∧ ∀ q ∈ p.reqs, ∃ r, look c.results q = some r ∧ Valid q r c.ir := by
  obtain ⟨rank, G⟩ := good_valid (fun _ h => h) h (fun k a h => by simp [Mgr.req, h])
  obtain ⟨p, h1, h2, _⟩ := G.calls c hc
  exact ⟨p, h1, h2⟩

/-- C09: running never gets stuck. -/
theorem c09_run_completes {C : Mgr σ ρ → Prop} {w : World σ ρ} (h : History C w) : (run w).isSome := by
  obtain ⟨rank, G⟩ := good_true h
  obtain ⟨w2, h4, _⟩ := run_ok (req := w.m.req) G (fun k a h => by simp [Mgr.req, h])
    ⟨fun _ _ _ _ _ _ _ => trivial, fun _ _ _ _ _ _ => trivial, fun _ _ _ _ _ _ _ _ _ _ _ => trivial⟩
  rw [h4]
  rfl

/-- C09: a registration never takes over the key of another pass or analysis. -/
theorem c09_keys_distinct {C : Mgr σ ρ → Prop} {w : World σ ρ} (h : History C w) {raw key : String} {m' : Mgr σ ρ}
    (hd : raw ∉ w.m.disabled)
    (hr : (∃ p before, registerPass w.m raw p before = some (key, m')) ∨ ∃ a, registerAnalysis w.m raw a = some (key, m')) :
    w.m.passes key = none ∧ w.m.analyses key = none ∧ key ∉ w.m.order := by
  obtain ⟨rank, G⟩ := good_true h
  have : ¬ Issued w.m.keys key := by
    rcases hr with ⟨p, before, hr⟩ | ⟨a, hr⟩
    · unfold registerPass at hr
      rw [if_neg hd] at hr
      simp only [Option.bind_eq_bind, Option.bind_eq_some_iff, Option.some.injEq, Prod.mk.injEq] at hr
      obtain ⟨⟨k0, keys1⟩, h1, _, _, _, _, h4, _⟩ := hr
      simp only at h4
      subst h4
      exact (uniqueKey_ok h1).1
    · unfold registerAnalysis at hr
      rw [if_neg hd] at hr
      simp only [Option.bind_eq_bind, Option.bind_eq_some_iff, Option.some.injEq, Prod.mk.injEq] at hr
      obtain ⟨⟨k0, keys1⟩, h1, _, _, h4, _⟩ := hr
      simp only at h4
      subst h4
      exact (uniqueKey_ok h1).1
  refine ⟨?_, ?_, ?_⟩
  · cases hp : w.m.passes key with
    | none => rfl
    | some p => exact absurd (G.tables.issuedP _ _ hp) this
  · cases hp : w.m.analyses key with
    | none => rfl
    | some p => exact absurd (G.tables.issuedA _ _ hp) this
  · intro hk
    obtain ⟨p, hp⟩ := G.tables.orderP _ hk
    exact this (G.tables.issuedP _ _ hp)

/-- The analyses among the standard registrations. -/
theorem analysis_raws (raw : String) (reqs : List String) (h : Reg.analysis raw reqs ∈ releaseRegs false) :
    raw ∈ [cfgKey, rdKey, domKey, capKey, globalKey, seRaw] := by
  have h0 : ∀ r ∈ releaseRegs false, (match r with
      | .analysis raw _ => decide (raw ∈ [cfgKey, rdKey, domKey, capKey, globalKey, seRaw])
      | .pass _ _ _ _ => true) = true := by decide +kernel
  simpa only [decide_eq_true_eq] using h0 _ h

theorem pass_raws (a : String) (ha : a ∈ [cfgKey, rdKey, domKey, capKey, globalKey, seRaw]) {raw : String}
    {reqs inv : List String} {l : Nat} (h : Reg.pass raw reqs inv l ∈ releaseRegs false) : a ≠ raw := by
  have h0 : ∀ a ∈ [cfgKey, rdKey, domKey, capKey, globalKey, seRaw], ∀ r ∈ releaseRegs false, (match r with
      | .pass raw _ _ _ => decide (a ≠ raw)
      | .analysis _ _ => true) = true := by decide +kernel
  simpa only [decide_eq_true_eq] using h0 _ ha _ h

/-- Every standard pass that asks for an analysis declares both roots invalid. -/
theorem pass_roots {raw : String} {reqs inv : List String} (l : Nat) (h : Reg.pass raw reqs inv l ∈ releaseRegs false) :
    reqs = [] ∨ ∀ r ∈ [cfgKey, globalKey], r ∈ inv := by
  have h0 : ∀ r ∈ releaseRegs false, (match r with
      | .pass _ reqs inv _ => decide (reqs = [] ∨ ∀ r ∈ [cfgKey, globalKey], r ∈ inv)
      | .analysis _ _ => true) = true := by decide +kernel
  simpa only [decide_eq_true_eq] using h0 _ h

/-- C09 for the standard passes, whichever passes are disabled.  Nothing is assumed about what passes do to the module:
if analyses compute right results, every pass sees results that are right for the module it is run on.  Nothing is
left in the cache afterwards, so that the module may be changed before the next run (as the JIT does). -/
theorem c09_standard (jit : Bool) (disabled : List String)
    (hd : ∀ k ∈ [cfgKey, rdKey, domKey, capKey, globalKey, seRaw], k ∉ disabled)
    (P : String → σ → (String → Option ρ) → σ × Bool) (A : String → σ → (String → Option ρ) → ρ) (m : Mgr σ ρ)
    (hm : registerAll P A (releaseRegs jit) (Mgr.init disabled) = some m) (Valid : String → ρ → σ → Prop)
    (hA : ∀ k a, m.analyses k = some a → ∀ ir lk, (∀ q ∈ a.reqs, ∃ r, lk q = some r ∧ Valid q r ir) →
      Valid k (a.run ir lk) ir) (ir : σ) :
    ∃ w, run ⟨m, ir, [], []⟩ = some w ∧ w.m = m ∧ m.results = [] ∧
      ∀ c ∈ w.calls, ∃ p, m.passes c.key = some p ∧ ∀ q ∈ p.reqs, ∃ r, look c.results q = some r ∧ Valid q r c.ir := by
  have hmem : ∀ r ∈ releaseRegs jit, r ∈ releaseRegs false := by cases jit <;> decide +kernel
  have apart : Apart disabled (releaseRegs false) :=
    ⟨fun raw reqs h => hd _ (analysis_raws raw reqs h), fun raw reqs raw' reqs' inv l h1 h2 =>
      pass_raws _ (analysis_raws raw reqs h1) h2⟩
  have htab : table (releaseRegs jit) (fun _ => 0) = [(cfgKey, []), (rdKey, [cfgKey]), (domKey, [cfgKey]),
      (capKey, [rdKey, domKey]), (globalKey, []), (seKey1, [capKey]), (seKey2, [capKey])] := by
    cases jit <;> decide +kernel
  obtain ⟨g1, g2, _, _, g5, g6, g7⟩ := registerAll_ok (C := fun _ => True) (releaseRegs false) (releaseRegs jit) hmem
    (keys := fun _ => 0) (History.init disabled ir) hm apart (fun _ _ _ => rfl)
  simp only at g2 g5 g7
  rw [htab] at g5 g6
  obtain ⟨rank, G⟩ := good_true g1
  have hreq : ∀ k reqs, (k, reqs) ∈ [(cfgKey, []), (rdKey, [cfgKey]), (domKey, [cfgKey]),
      (capKey, [rdKey, domKey]), (globalKey, []), (seKey1, [capKey]), (seKey2, [capKey])] → m.req k = reqs := by
    intro k reqs h
    obtain ⟨a, ha, rfl⟩ := g6 k reqs h
    simp [Mgr.req, ha]
  have dcap : Dep m.req capKey cfgKey :=
    .step (q := rdKey) (by rw [hreq capKey [rdKey, domKey] (by simp)]; simp)
      (.step (q := cfgKey) (by rw [hreq rdKey [cfgKey] (by simp)]; simp) (.self _))
  obtain ⟨w, h1, h2, h3⟩ := nothing_left (Valid := fun k r ir _ => Valid k r ir) (rank := rank) (roots := [cfgKey, globalKey])
    (w0 := ⟨m, ir, [], []⟩) (by
      intro k a ha
      rcases g5 k a ha with h | h
      · cases h
      · simp only [List.mem_cons, List.not_mem_nil, or_false, Prod.mk.injEq] at h
        rcases h with ⟨rfl, _⟩ | ⟨rfl, _⟩ | ⟨rfl, _⟩ | ⟨rfl, _⟩ | ⟨rfl, _⟩ | ⟨rfl, _⟩ | ⟨rfl, _⟩
        · exact ⟨cfgKey, by simp, .self _⟩
        · exact ⟨cfgKey, by simp, .step (q := cfgKey) (by rw [hreq rdKey [cfgKey] (by simp)]; simp) (.self _)⟩
        · exact ⟨cfgKey, by simp, .step (q := cfgKey) (by rw [hreq domKey [cfgKey] (by simp)]; simp) (.self _)⟩
        · exact ⟨cfgKey, by simp, dcap⟩
        · exact ⟨globalKey, by simp, .self _⟩
        · exact ⟨cfgKey, by simp, .step (q := capKey) (by rw [hreq seKey1 [capKey] (by simp)]; simp) dcap⟩
        · exact ⟨cfgKey, by simp, .step (q := capKey) (by rw [hreq seKey2 [capKey] (by simp)]; simp) dcap⟩)
    (by
      intro k p hp
      rcases g7 k p hp with h | ⟨raw, l, h⟩
      · cases h
      · exact pass_roots _ (hmem _ h))
    (fun k a ha ir _ lk hq => hA k a ha ir lk hq) (fun _ _ _ _ _ h => h)
    ⟨G.tables, by simp only; rw [g2]; simp [Mgr.init], by simp⟩ (by simp only; exact g2)
  refine ⟨w, h1, h3, g2, fun c hc => ?_⟩
  obtain ⟨p, h4, h5, _⟩ := h2.calls c hc
  rw [h3] at h4
  exact ⟨p, h4, h5⟩

/-! ### The place of a new pass -/

theorem insertBeforeKey_iff {b key : String} : ∀ {l l' : List String}, insertBeforeKey b key l = some l' ↔
    ∃ p q, l = p ++ b :: q ∧ b ∉ p ∧ l' = p ++ key :: b :: q
  | [], l' => by simp [insertBeforeKey]
  | x :: xs, l' => by
    by_cases h : x = b
    · subst h
      simp only [insertBeforeKey, if_true, Option.some.injEq]
      constructor
      · rintro rfl
        exact ⟨[], xs, rfl, by simp, rfl⟩
      · rintro ⟨p, q, h1, h2, h3⟩
        cases p with
        | nil =>
          simp only [List.nil_append, List.cons.injEq] at h1
          rw [h3, h1.2]
          rfl
        | cons y p =>
          simp only [List.cons_append, List.cons.injEq] at h1
          exact absurd (h1.1 ▸ List.mem_cons_self ..) h2
    · simp only [insertBeforeKey, if_neg h, Option.map_eq_some_iff]
      constructor
      · rintro ⟨l1, h1, rfl⟩
        obtain ⟨p, q, h2, h3, h4⟩ := insertBeforeKey_iff.mp h1
        exact ⟨x :: p, q, by rw [h2]; rfl, by simp [h3, Ne.symm h], by rw [h4]; rfl⟩
      · rintro ⟨p, q, h1, h2, h3⟩
        cases p with
        | nil =>
          simp only [List.nil_append, List.cons.injEq] at h1
          exact absurd h1.1 h
        | cons y p =>
          simp only [List.cons_append, List.cons.injEq] at h1
          refine ⟨p ++ key :: b :: q, insertBeforeKey_iff.mpr ⟨p, q, h1.2, fun hb => h2 (List.mem_cons_of_mem _ hb), rfl⟩, ?_⟩
          rw [h3, h1.1]
          rfl

/-- A pass registered to run before `b` runs immediately before the first occurrence of `b`; without such a request it runs last.  The
other passes keep their order. -/
theorem c09_order {σ ρ : Type} {m m' : Mgr σ ρ} {raw key before : String} {p : Pass σ ρ} (hd : raw ∉ m.disabled)
    (h : registerPass m raw p before = some (key, m')) :
    (before = "" ∧ m'.order = m.order ++ [key]) ∨
      ∃ u v, m.order = u ++ before :: v ∧ before ∉ u ∧ m'.order = u ++ key :: before :: v := by
  unfold registerPass at h
  rw [if_neg hd] at h
  simp only [Option.bind_eq_bind, Option.bind_eq_some_iff] at h
  obtain ⟨⟨k, keys⟩, h1, deps, h2, order, h3, h4⟩ := h
  cases h4
  simp only [newOrder] at h3
  split at h3
  · rename_i hb
    cases h3
    exact Or.inl ⟨hb, rfl⟩
  · exact Or.inr (insertBeforeKey_iff.mp h3)

/-! ### Cases -/

example : insertBeforeKey "b" "n" ["a", "b", "c", "b"] = some ["a", "n", "b", "c", "b"] := by decide +kernel

/-- The standard registrations succeed. -/
example : (registerAll (σ := Nat) (ρ := Nat) (fun _ i _ => (i + 1, true)) (fun _ i _ => i) (releaseRegs false)
    (Mgr.init ["core-numpy-fusion"])).isSome = true := by decide +kernel

/-- All standard passes; the module counts the changes made to it, an analysis gives the number it was computed for. -/
def stdWorld : Option (World Nat Nat) :=
  (registerAll (σ := Nat) (ρ := Nat) (fun _ i _ => (i + 1, true)) (fun _ i _ => i) (releaseRegs false)
    (Mgr.init [])).bind fun m => run ⟨m, 0, [], []⟩

/-- 23 calls; the two folding groups are repeated five times.  Every result seen is the one for the module as it is. -/
example : stdWorld.map (fun w => w.calls.map fun c => (c.ir, c.results.map (·.2) |>.all (· == c.ir))) =
    some ((List.range 23).map fun i => (i, true)) := by decide +kernel

end Codon.PassMgr
