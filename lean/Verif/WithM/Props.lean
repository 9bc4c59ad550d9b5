import Verif.WithM.Lemmas

/-!
# C82: `with` statements
-/

namespace Codon.WithM

/-- A `with` statement does what Python's does: results, exceptions, effects and their order, however the suite ends.
Missing (and false, see the violations): managers whose `__enter__` returns something else or fails or reads the
target, whose `__exit__` swallows the exception, targets that are assigned in the suite or occur twice. -/
theorem c82_with_partial {U : Type} (S : Sem U) (pyEnter : Nat → U → Res Nat U) (pyExit : Nat → Option Nat → U → Res Bool U)
    (items : List (Nat × Option Nat)) (next : Nat) (w : World U) (hne : items ≠ [])
    (hv : Vars S) (hse : SameEnter S pyEnter) (hexit : PlainExit S pyExit)
    (henter : ∀ x ∈ targets items, PlainEnter S pyEnter x)
    (hu : ∀ x ∈ targets items, Untouched S x) (hd : (targets items).Nodup) :
    (runWith S items next w).map (fun r => (r.1, r.2.u)) = pyWith S pyEnter pyExit items w.u := by
  obtain ⟨l, hl, h⟩ := runWith_eq S items next hne
  rw [h]
  exact nest_py S hv hse hexit hl henter hu hd w

/-- Without targets nothing is asked of the result of `__enter__`. -/
theorem c82_no_target {U : Type} (S : Sem U) (pyEnter : Nat → U → Res Nat U) (pyExit : Nat → Option Nat → U → Res Bool U)
    (es : List Nat) (next : Nat) (w : World U) (hne : es ≠ []) (hv : Vars S)
    (hse : SameEnter S pyEnter) (hexit : PlainExit S pyExit) :
    (runWith S (es.map fun e => (e, none)) next w).map (fun r => (r.1, r.2.u))
      = pyWith S pyEnter pyExit (es.map fun e => (e, none)) w.u := by
  have ht : targets (es.map fun e => (e, (none : Option Nat))) = [] := by
    unfold targets
    rw [List.filterMap_eq_nil_iff]
    intro a ha
    obtain ⟨e, -, rfl⟩ := List.mem_map.mp ha
    rfl
  refine c82_with_partial S pyEnter pyExit _ next w (by simpa using hne) hv hse hexit ?_ ?_ ?_
  · simp [ht]
  · simp [ht]
  · simp [ht]

/-- As many successful calls of `__exit__` or failing ones as successful calls of `__enter__`: a count of held
resources is the same after the statement as before, whatever the suite does with the targets and however the
statement ends. -/
theorem c82_balanced {U : Type} (S : Sem U) (d : U → Int) (hc : Counts S d) (items : List (Nat × Option Nat))
    (next : Nat) (w w' : World U) (o : Out) (hne : items ≠ []) (h : runWith S items next w = some (o, w')) :
    d w'.u = d w.u := by
  obtain ⟨l, -, hl⟩ := runWith_eq S items next hne
  rw [hl] at h
  exact nest_balance S hc l w o w' h

/-! ## Concrete cases and violations

States are a variable assignment and a list of events: `(0, m)` for entering, `(1, m)` for leaving `m`. Expression
`e` makes the object `e`; object 9 cannot be entered. -/

structure St where
  vars : Nat → Nat
  log : List (Nat × Nat)

/-- The suite ends with `o`, after assigning 7 to the variable 5 if `touch`; `__enter__` of object 3 returns 4. -/
def demo (o : Out) (touch : Bool) : Sem St where
  get u x := u.vars x
  set u x v := { u with vars := fun y => if y = x then v else u.vars y }
  expr e u := some (.ok e, u)
  enter m u := if m = 9 then some (.error 1, u)
    else some (.ok (if m = 3 then 4 else m), { u with log := u.log ++ [(0, m)] })
  exit m u := some (.ok 0, { u with log := u.log ++ [(1, m)] })
  suite u := some (o, if touch then { u with vars := fun y => if y = 5 then 7 else u.vars y } else u)

/-- `__exit__` in Python; `swallow` if it returns a true value. -/
def demoExit (swallow : Bool) : Nat → Option Nat → St → Res Bool St :=
  fun m _ u => some (.ok swallow, { u with log := u.log ++ [(1, m)] })

def start : World St := ⟨⟨fun _ => 0, []⟩, fun _ => 0⟩
/-- How the statement ends, the variable 5, and the events. -/
def seen (r : SRes St) : Option (Out × Nat × List (Nat × Nat)) := r.map fun r => (r.1, r.2.vars 5, r.2.log)
def ran (S : Sem St) (items : List (Nat × Option Nat)) : SRes St := (runWith S items 0 start).map fun r => (r.1, r.2.u)

-- two managers without targets, one of them failing to enter, and an exception in the suite
example : seen (ran (demo (.raised 8) false) [(1, none), (2, none)])
    = some (.raised 8, 0, [(0, 1), (0, 2), (1, 2), (1, 1)]) := by decide
example : seen (ran (demo .brk false) [(1, none), (9, none)]) = some (.raised 1, 0, [(0, 1), (1, 1)]) := by decide
example : Vars (demo .brk true) := fun u x v y => rfl
example : PlainExit (demo (.raised 8) true) (demoExit false) := fun _ _ _ => rfl

/-- The same program with objects that can all be entered: the hypotheses of `c82_with_partial` hold for target 6. -/
def tame (o : Out) : Sem St := { demo o true with
  enter := fun m u => some (.ok m, { u with log := u.log ++ [(0, m)] }) }

example : (runWith (tame (.ret 3)) [(1, some 6), (2, none)] 0 start).map (fun r => (r.1, r.2.u))
    = pyWith (tame (.ret 3)) (tame (.ret 3)).enter (demoExit false) [(1, some 6), (2, none)] start.u := by
  refine c82_with_partial _ _ _ _ _ _ (by simp) (fun u x v y => rfl) (fun _ _ => rfl) (fun _ _ _ => rfl) ?_ ?_ (by decide)
  · intro x hx
    refine ⟨?_, ?_, ?_⟩
    · intro m u v u' h; cases h; rfl
    · intro m u y u' h; cases h
    · intro m u v; rfl
  · intro x hx
    have hx : x = 6 := by simpa [targets] using hx
    subst hx
    refine ⟨?_, ?_, ?_, ?_⟩
    · intro _ _ _ _ h; cases h; rfl
    · intro _ _ _ _ h; cases h; rfl
    · intro _ _ _ _ h; cases h; rfl
    · intro _ _ _ h; cases h; rfl
example : seen (ran (tame (.ret 3)) [(1, some 5), (2, none)])
    = some (.ret 3, 7, [(0, 1), (0, 2), (1, 2), (1, 7)]) := by decide

-- a count that the hypotheses of `c82_balanced` allow: entered minus left
example : Counts (demo .cont true)
    (fun u => (u.log.countP (fun p => p.1 = 0) : Int) - u.log.countP (fun p => p.1 = 1)) := by
  refine ⟨?_, ?_, ?_, ?_, ?_, ?_⟩
  · intro _ _ _; rfl
  · intro _ _ _ _ h; cases h; rfl
  · intro m u v u' h
    simp only [demo] at h
    split at h
    · cases h
    · cases h; simp; omega
  · intro m u v u' h
    simp only [demo] at h
    split at h
    · cases h; rfl
    · cases h
  · intro m u r u' h
    cases h; simp; omega
  · intro _ _ _ h; cases h; rfl

/-- `with E as x` binds `x` to `E`, not to what its `__enter__` returns. -/
theorem c82_violation_enter :
    seen (ran (demo .normal false) [(3, some 5)]) = some (.normal, 3, [(0, 3), (1, 3)]) ∧
    seen (pyWith (demo .normal false) (demo .normal false).enter (demoExit false) [(3, some 5)] start.u) = some (.normal, 4, [(0, 3), (1, 3)]) := by
  decide

/-- If `__enter__` fails, the target has been assigned. -/
theorem c82_violation_failed_enter :
    seen (ran (demo .normal false) [(9, some 5)]) = some (.raised 1, 9, []) ∧
    seen (pyWith (demo .normal false) (demo .normal false).enter (demoExit false) [(9, some 5)] start.u) = some (.raised 1, 0, []) := by
  decide

/-- If the suite assigns the target, `__exit__` of the new object is called. -/
theorem c82_violation_rebound :
    seen (ran (demo .normal true) [(1, some 5)]) = some (.normal, 7, [(0, 1), (1, 7)]) ∧
    seen (pyWith (demo .normal true) (demo .normal true).enter (demoExit false) [(1, some 5)] start.u) = some (.normal, 7, [(0, 1), (1, 1)]) := by
  decide

/-- The same target twice: the second manager is left twice, the first never. -/
theorem c82_violation_same_target :
    seen (ran (demo .normal false) [(1, some 5), (2, some 5)])
      = some (.normal, 2, [(0, 1), (0, 2), (1, 2), (1, 2)]) ∧
    seen (pyWith (demo .normal false) (demo .normal false).enter (demoExit false) [(1, some 5), (2, some 5)] start.u)
      = some (.normal, 2, [(0, 1), (0, 2), (1, 2), (1, 1)]) := by
  decide

/-- The result of `__exit__` is ignored: no exception is swallowed. -/
theorem c82_violation_swallow :
    seen (ran (demo (.raised 8) false) [(1, none)]) = some (.raised 8, 0, [(0, 1), (1, 1)]) ∧
    seen (pyWith (demo (.raised 8) false) (demo (.raised 8) false).enter (demoExit true) [(1, none)] start.u) = some (.normal, 0, [(0, 1), (1, 1)]) := by
  decide

end Codon.WithM
