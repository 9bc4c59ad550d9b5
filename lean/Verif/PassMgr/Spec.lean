import Verif.PassMgr.Model
/-! # C09: when results of analyses are up to date -/
namespace Codon.PassMgr

variable {σ ρ : Type}

/-- `k` is `j`, or needs an analysis that depends on `j`. -/
inductive Dep (req : String → List String) : String → String → Prop
  | self (k) : Dep req k k
  | step {k q j} : q ∈ req k → Dep req q j → Dep req k j

/-- What is expected of the analyses and passes: an analysis gives a valid result when those it needs are valid;
computing an analysis does not touch other results; a pass keeps results valid unless they depend on an analysis it
declares invalid. -/
structure Contracts (Valid : String → ρ → σ → List Ev → Prop) (req : String → List String) (m : Mgr σ ρ) : Prop where
  analysis : ∀ k a, m.analyses k = some a → ∀ ir h lk, (∀ q ∈ a.reqs, ∃ r, lk q = some r ∧ Valid q r ir h) →
    Valid k (a.run ir lk) ir (h ++ [.computed k])
  other : ∀ k j r ir h, Valid k r ir h → Valid k r ir (h ++ [.computed j])
  pass : ∀ key p, m.passes key = some p → ∀ ir h lk, (∀ q ∈ p.reqs, ∃ r, lk q = some r ∧ Valid q r ir h) →
    ∀ k r, Valid k r ir h → (∀ i ∈ p.invalidates, ¬ Dep req k i) →
    Valid k r (p.run ir lk).1 (h ++ [.ran key p.invalidates])

/-- What can be done with a manager: register passes and analyses in any order, run all passes, and change the module
between runs when nothing is cached.  `C` holds of the manager at each run. -/
inductive History (C : Mgr σ ρ → Prop) : World σ ρ → Prop
  | init (disabled : List String) (ir : σ) : History C ⟨Mgr.init disabled, ir, [], []⟩
  | pass {w : World σ ρ} {raw p before key m'} : History C w → registerPass w.m raw p before = some (key, m') →
      History C { w with m := m' }
  | analysis {w : World σ ρ} {raw a key m'} : History C w → registerAnalysis w.m raw a = some (key, m') →
      History C { w with m := m' }
  | run {w w' : World σ ρ} : History C w → C w.m → PassMgr.run w = some w' → History C w'
  | edit {w : World σ ρ} (ir : σ) : History C w → w.m.results = [] → History C { w with ir := ir }

/-- According to the record, the analysis was computed and no later pass declared it, or one it depends on, invalid. -/
def Current (req : String → List String) (k : String) (h : List Ev) : Prop :=
  ∃ j : Nat, h[j]? = some (.computed k) ∧
    ∀ (l : Nat) key inv, j < l → h[l]? = some (.ran key inv) → ∀ i ∈ inv, ¬ Dep req k i

/-- The requirements of the registered analyses. -/
def Mgr.req (m : Mgr σ ρ) (k : String) : List String :=
  match m.analyses k with
  | some a => a.reqs
  | none => []

end Codon.PassMgr
