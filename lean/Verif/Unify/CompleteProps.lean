import Verif.Unify.Complete
import Verif.Unify.Term
import Verif.Unify.Props
/-!
# C56, C57: unification finds a solution whenever there is one, and comes to an end
-/
namespace Codon.Unify

/-! ### C56 -/

/-- **C56** (partial: variables without traits; a solution that replaces a variable by a bare generic, or a
static variable together with a runtime variable, is not counted, see the violations below.)

If `σ` is a solution of the links made so far under which the two types are equal, then unification does not
fail, and `σ` is still a solution of the links after it: no solution is lost. -/
theorem c56_complete_partial (f : Nat) (h h' : Heap) (t u : Ty) (r : Bool) (σ : Nat → Term) (hp : Plain h)
    (hs : Solves σ h) (hk : KindsOk σ h) (he : inst σ t = inst σ u) (hres : unifyOrUndo f h t u = some (r, h')) :
    r = true ∧ Solves σ h' := by
  unfold unifyOrUndo at hres
  split at hres
  · cases hres
  · rename_i s st hu
    obtain ⟨h0, hg⟩ := unify_complete σ f _ t u s st ⟨hp, hs, hk⟩ he hu
    rw [if_pos (by omega)] at hres
    simp only [Option.some.injEq, Prod.mk.injEq] at hres
    obtain ⟨rfl, rfl⟩ := hres
    exact ⟨rfl, hg.solves⟩

/-- A failure is never wrong: no solution makes the two types equal. -/
theorem c56_failure_partial (f : Nat) (h h' : Heap) (t u : Ty) (hp : Plain h)
    (hres : unifyOrUndo f h t u = some (false, h')) :
    ¬ ∃ σ, Solves σ h ∧ KindsOk σ h ∧ inst σ t = inst σ u := by
  rintro ⟨σ, hs, hk, he⟩
  exact absurd (c56_complete_partial f h h' t u false σ hp hs hk he hres).1 (by simp)

theorem exHeap_plain : Plain exHeap :=
  ⟨fun a b _ _ e => by simp [exHeap] at e; omega, fun a _ => by simp [exHeap],
    fun a b _ _ _ => by simp [exHeap]⟩

/-- `?1 := List[str]`, `?2 := str`, `?3 := str` -/
def exSol : Nat → Term := fun a =>
  if a = 0 then .cls "List" (.cons (.cls "str" .nil .nil) .nil) .nil
  else if a < 3 then .cls "str" .nil .nil else .gen (a + 1)

theorem exSol_solves : Solves exSol exHeap := by
  refine ⟨?_, ?_, ?_, ?_⟩
  · intro a
    simp only [exSol]
    split
    · trivial
    · split <;> trivial
  · intro a ha
    simp only [exHeap] at ha
    split at ha
    · rename_i h3
      simp only [exSol]
      split
      · trivial
      · trivial
    · cases ha
  · intro a ha
    simp only [exHeap] at ha
    split at ha
    · cases ha
    · rename_i h3
      simp only [exSol, exHeap]
      rw [if_neg (by omega), if_neg h3]
  · intro a t ha
    simp only [exHeap] at ha
    split at ha <;> cases ha

/-- The hypotheses are met by `Pair[?1, ?2]` and `Pair[List[?2], ?3]`. -/
example : Plain exHeap ∧ Solves exSol exHeap ∧ KindsOk exSol exHeap ∧
    inst exSol (pair (.link 0) (.link 1)) = inst exSol (pair (list (.link 1)) (.link 2)) ∧
    ((unifyOrUndo 20 exHeap (pair (.link 0) (.link 1)) (pair (list (.link 1)) (.link 2))).map (·.1)) = some true :=
  ⟨exHeap_plain, exSol_solves, ⟨fun a _ => Or.inl (by simp [exHeap]), fun a b _ _ _ => by simp [exHeap]⟩,
    by decide, by decide⟩

/-- C56 fails: whether two types unify depends on their order.  A static variable and a runtime variable both
may stand for the literal `1`, but unifying the static one with the other fails (link.cpp:37-47). -/
theorem c56_violation_static : ∃ (h : Heap) (σ : Nat → Term), Plain h ∧ Solves σ h ∧
    inst σ (.link 0) = inst σ (.link 1) ∧
    (unifyOrUndo 20 h (.link 0) (.link 1)).map (·.1) = some false ∧
    (unifyOrUndo 20 h (.link 1) (.link 0)).map (·.1) = some true := by
  refine ⟨staticHeap, fun a => if a < 3 then .lit (.int 1) else .gen (a + 1), ?_, ?_, rfl, by decide, by decide⟩
  · refine ⟨fun a b _ _ e => by simp [staticHeap, exHeap] at e; omega, fun a _ => by simp [staticHeap, exHeap], ?_⟩
    intro a b ha hb e
    simp [staticHeap, exHeap] at ha hb e ⊢
    have : a = b := by omega
    rw [this]
  · refine ⟨?_, ?_, ?_, ?_⟩
    · intro a; split <;> trivial
    · intro a ha
      simp only [staticHeap, exHeap] at ha
      split at ha
      · rename_i h3; rw [if_pos h3]; trivial
      · cases ha
    · intro a ha
      simp only [staticHeap, exHeap] at ha
      split at ha
      · cases ha
      · rename_i h3; simp only [staticHeap, exHeap]; rw [if_neg h3]
    · intro a t ha
      simp only [staticHeap, exHeap] at ha
      split at ha <;> cases ha

/-- C56 fails: a variable may be bound to `List[T]` for a generic `T`, but not to `T` (link.cpp:51). -/
theorem c56_violation_generic :
    (unifyOrUndo 20 exHeap (.link 0) (list (.link 3))).map (·.1) = some true ∧
    (unifyOrUndo 20 exHeap (.link 0) (.link 3)).map (·.1) = some false := by decide

/-! ### C57 -/

/-- **C57** (partial: without traits; functions, unions and `__NTuple__` are not in the model.)

If the links so far contain no cycle, unification comes to an end, whatever the two types: with enough steps it
has an answer, and more steps give the same one. -/
theorem c57_terminates_partial (ar : String → Nat) (har : Arity ar) (h : Heap) (t u : Ty) (hwf : WF h)
    (hac : Acyclic (kinds h)) (hw : HW ar h) (ht : HiddenClosed t) (hu : HiddenClosed u)
    (wt : Wt ar false t) (wu : Wt ar false u) :
    ∃ f r, ∀ g, f ≤ g → unifyOrUndo g h t u = some r := by
  obtain ⟨r1, hr1⟩ := hac t
  obtain ⟨r2, hr2⟩ := hac u
  obtain ⟨x, hx⟩ := hr1.hgt
  obtain ⟨y, hy⟩ := hr2.hgt
  obtain ⟨S, hS⟩ := finite_vars hx
  obtain ⟨T, hT⟩ := finite_vars hy
  obtain ⟨f, s, st', h1, -⟩ := (all_end har (S ++ T) _ (x + y) ⟨h, ⟨[], [], [], []⟩⟩ false t u
    ⟨⟨hwf, hac, False.elim⟩, hw, ht, hu, wt, wu, fun b hb hu => List.mem_append_left _ (hS b hb hu),
      fun b hb hu => List.mem_append_right _ (hT b hb hu), rfl, by simp, x, y, hx, hy, rfl⟩).answer
  by_cases hs : s ≥ 0
  · exact ⟨f, (true, st'.heap), fun g hg => by simp only [unifyOrUndo, h1 g hg, if_pos hs]⟩
  · exact ⟨f, (false, st'.undo.run st'.heap), fun g hg => by simp only [unifyOrUndo, h1 g hg, if_neg hs]⟩

/-- C56 and C57 together: with a solution, unification succeeds. -/
theorem c56_succeeds_partial (ar : String → Nat) (har : Arity ar) (h : Heap) (t u : Ty) (σ : Nat → Term)
    (hwf : WF h) (hac : Acyclic (kinds h)) (hw : HW ar h) (ht : HiddenClosed t) (hu : HiddenClosed u)
    (wt : Wt ar false t) (wu : Wt ar false u) (hp : Plain h) (hs : Solves σ h) (hk : KindsOk σ h)
    (he : inst σ t = inst σ u) :
    ∃ f h', (∀ g, f ≤ g → unifyOrUndo g h t u = some (true, h')) ∧ Solves σ h' := by
  obtain ⟨f, ⟨r, h'⟩, hf⟩ := c57_terminates_partial ar har h t u hwf hac hw ht hu wt wu
  obtain ⟨rfl, h1⟩ := c56_complete_partial f h h' t u r σ hp hs hk he (hf f (Nat.le_refl _))
  exact ⟨f, h', hf, h1⟩

example : Arity (fun _ => 0) ∧ WF exHeap ∧ Acyclic (kinds exHeap) ∧ HW (fun _ => 0) exHeap ∧
    Wt (fun _ => 0) false (pair (.link 0) (.link 1)) ∧ Wt (fun _ => 0) false (pair (list (.link 1)) (.link 2)) ∧
    HiddenClosed (pair (.link 0) (.link 1)) ∧ HiddenClosed (pair (list (.link 1)) (.link 2)) :=
  ⟨⟨rfl, rfl, rfl⟩, exHeap_wf, exHeap_acyclic,
    ⟨fun a => rfl, fun a t ha => by simp only [exHeap] at ha; split at ha <;> cases ha⟩,
    by simp [pair, Wt, Ty.size], by simp [pair, list, Wt, Ty.size], by simp [pair, HiddenClosed, Closed],
    by simp [pair, list, HiddenClosed, Closed]⟩

/-- `?1 = Pair[?2, str]`, `?2 = ?1`: comparing any two of these never ends. -/
theorem knot_never_ends (st : St) (h0 : (st.heap 0).kind = .link (pair (.link 1) str))
    (h1 : (st.heap 1).kind = .link (.link 0)) : ∀ (f : Nat) (t u : Ty),
    t = .link 0 ∨ t = .link 1 ∨ t = pair (.link 1) str → u = .link 0 ∨ u = .link 1 ∨ u = pair (.link 1) str →
    unify true f st t u = none := by
  intro f
  induction f using Nat.strongRecOn with
  | _ f ih =>
    intro t u ht hu
    cases f with
    | zero => simp [unify]
    | succ f =>
      rcases ht with rfl | rfl | rfl
      · rw [unify, h0]
        exact ih f (by omega) _ _ (Or.inr (Or.inr rfl)) hu
      · rw [unify, h1]
        exact ih f (by omega) _ _ (Or.inl rfl) hu
      · have hfol : ∀ g u, u = .link 0 ∨ u = .link 1 ∨ u = pair (.link 1) str →
            follow g st.heap u = none ∨ follow g st.heap u = some (pair (.link 1) str) := by
          intro g
          induction g with
          | zero => intro u _; left; simp [follow]
          | succ g ihg =>
            intro u hu
            rcases hu with rfl | rfl | rfl
            · rw [follow, h0]; exact ihg _ (Or.inr (Or.inr rfl))
            · rw [follow, h1]; exact ihg _ (Or.inl rfl)
            · right; simp [follow, pair]
        have key : ∀ g, g < f + 1 → unify true g st (.cons (.link 1) (.cons str .nil))
            (.cons (.link 1) (.cons str .nil)) = none := by
          intro g hg
          cases g with
          | zero => simp [unify]
          | succ g => rw [unify, ih g (by omega) _ _ (Or.inr (Or.inl rfl)) (Or.inr (Or.inl rfl))]
        rw [pair, unify]
        rcases hfol f u hu with h | h
        · rw [h]
        · rw [h, pair]
          simp only [unifyClass]
          rw [if_neg (by simp), if_neg (by simp), if_neg (by simp), if_neg (by simp), if_neg (by simp),
            key f (by omega)]

/-- C57 fails: with `?1 : TypeTrait(Pair[?1, str])`, unifying `?1` and `Pair[?2, str]` succeeds and ties a knot
(see C11); unifying the two once more never ends. -/
theorem c57_violation_knot : ∃ h', Acyclic (kinds traitHeap) ∧
    unifyOrUndo 20 traitHeap (.link 0) (pair (.link 1) str) = some (true, h') ∧
    ∀ f, unifyOrUndo f h' (.link 0) (.link 1) = none := by
  have key : (unifyOrUndo 20 traitHeap (.link 0) (pair (.link 1) str)).map
      (fun p => (p.1, (p.2 0).kind, (p.2 1).kind)) =
      some (true, .link (pair (.link 1) str), .link (.link 0)) := by decide
  obtain ⟨⟨b, h'⟩, h1, h2⟩ := Option.map_eq_some_iff.1 key
  simp at h2
  obtain ⟨rfl, h2, h3⟩ := h2
  refine ⟨h', ?_, h1, fun f => ?_⟩
  · have : kinds traitHeap = kinds exHeap := rfl
    rw [this]
    exact exHeap_acyclic
  · unfold unifyOrUndo
    rw [knot_never_ends ⟨h', _⟩ h2 h3 f _ _ (Or.inl rfl) (Or.inr (Or.inl rfl))]

end Codon.Unify
