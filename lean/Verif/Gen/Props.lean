import Verif.Gen.Lemmas

/-!
# C67: fusing a generator with `sum`, `any` or `all`
-/

namespace Codon.Gen

variable {S E V R A : Type}

/-- `sum(g(…), start)`: the fused function ends exactly when `sum` over the generator ends, with the
same result or exception in the same state; all bodies of generators, additions with effects.
`raises = false` requires that the addition never raises.  Missing for the full claim: a `return` in
the `try` block of a `try … finally` whose `finally` block yields; a yield in a `try` block when the
addition may raise (see the violations below). -/
theorem c67_sum_partial (plus : A → V → S → Eff S E A) (raises : Bool)
    (hr : raises = false → ∀ a v s e s', plus a v s ≠ .raise e s') (b : Stmt S E V Unit)
    (hb : b.Fits raises false true) (s : S) (start : A) (o : Outcome S E A) :
    (sumConsumer plus).Ends b s start o ↔ (sumBody plus b).Ends s start o := by
  have hf : Flags (sumConsumer plus) raises false true := by
    refine ⟨?_, ?_, by simp⟩
    · intro h a v s e s' hc
      simp only [sumConsumer] at hc
      cases hp : plus a v s with
      | ok x y => rw [hp] at hc; cases hc
      | raise x y => exact hr h _ _ _ _ _ hp
    · intro _ a v s r s' hc
      simp only [sumConsumer] at hc
      cases hp : plus a v s with
      | ok x y => rw [hp] at hc; cases hc
      | raise x y => rw [hp] at hc; cases hc
  exact ends_iff hf (sum_refines plus) b hb s start o

/-- `any(g(…))` (`isAny = true`) and `all(g(…))`: likewise; the truth value may have effects.
`raises = false` requires that it never raises.  Missing for the full claim: a yield in the `try` block
of a `try … finally`, and in any `try` block when the truth value may raise. -/
theorem c67_any_all_partial (isAny : Bool) (truth : V → S → Eff S E Bool) (raises : Bool)
    (hr : raises = false → ∀ v s e s', truth v s ≠ .raise e s') (b : Stmt S E V Unit)
    (hb : b.Fits raises true false) (s : S) (o : Outcome S E Bool) :
    (anyAllConsumer isAny truth).Ends b s () o ↔ (anyAllBody isAny truth b).Ends s () o := by
  have hf : Flags (anyAllConsumer isAny truth) raises true false := by
    refine ⟨?_, by simp, fun _ _ _ => rfl⟩
    intro h a v s e s' hc
    simp only [anyAllConsumer] at hc
    cases hp : truth v s with
    | ok x y => rw [hp] at hc; dsimp only at hc; split at hc <;> cases hc
    | raise x y => exact hr h _ _ _ _ hp
  exact ends_iff hf (anyAll_refines isAny truth) b hb s () o

/-- Bodies without `try`, such as those of generator expressions, need no condition. -/
def Stmt.noTry : Stmt S E V R → Bool
  | .seq a b => a.noTry && b.noTry
  | .ite _ a b => a.noTry && b.noTry
  | .loop _ b => b.noTry
  | .catch _ _ _ _ => false
  | .fin _ _ => false
  | _ => true

theorem noTry_fits (x y z : Bool) : ∀ b : Stmt S E V R, b.noTry = true → b.Fits x y z
  | .skip, _ => trivial
  | .act _, _ => trivial
  | .brk, _ => trivial
  | .cont, _ => trivial
  | .ret _, _ => trivial
  | .yld _, _ => trivial
  | .seq a b, h => by
    simp only [Stmt.noTry, Bool.and_eq_true] at h
    exact ⟨noTry_fits x y z a h.1, noTry_fits x y z b h.2⟩
  | .ite _ a b, h => by
    simp only [Stmt.noTry, Bool.and_eq_true] at h
    exact ⟨noTry_fits x y z a h.1, noTry_fits x y z b h.2⟩
  | .loop _ b, h => noTry_fits x y z b h

/-- Generators without `try` statements: `sum`, `any` and `all` are fused faithfully, whatever the
items, additions and truth values do. -/
theorem c67_without_try (b : Stmt S E V Unit) (hb : b.noTry = true) :
    (∀ (plus : A → V → S → Eff S E A) s start o,
      (sumConsumer plus).Ends b s start o ↔ (sumBody plus b).Ends s start o) ∧
    (∀ isAny (truth : V → S → Eff S E Bool) s o,
      (anyAllConsumer isAny truth).Ends b s () o ↔ (anyAllBody isAny truth b).Ends s () o) :=
  ⟨fun plus => c67_sum_partial plus true (by simp) b (noTry_fits _ _ _ b hb),
    fun isAny truth => c67_any_all_partial isAny truth true (by simp) b (noTry_fits _ _ _ b hb)⟩

/-- A run of the consumer has at most one outcome, so equal outcomes is all there is to say. -/
theorem c67_outcome_unique (q : Consumer S E V A R) (b : Stmt S E V Unit) (s : S) (a : A)
    (o o' : Outcome S E R) (h : q.Ends b s a o) (h' : q.Ends b s a o') : o = o' := by
  obtain ⟨n, hn⟩ := h
  obtain ⟨m, hm⟩ := h'
  rw [repeat_eq] at hn hm
  have stay : ∀ k (x : Outcome S E R), q.step^[k] (.done x) = .done x := by
    intro k x
    induction k with
    | zero => rfl
    | succ k ih => rw [Function.iterate_succ_apply]; exact ih
  rcases Nat.le_total n m with hl | hl
  · obtain ⟨k, rfl⟩ := Nat.exists_eq_add_of_le hl
    rw [Nat.add_comm, Function.iterate_add_apply, hn, stay] at hm
    cases hm; rfl
  · obtain ⟨k, rfl⟩ := Nat.exists_eq_add_of_le hl
    rw [Nat.add_comm, Function.iterate_add_apply, hm, stay] at hn
    cases hn; rfl

/-! ### Concrete programs: the state is a counter, items are numbers -/

abbrev Gen := Stmt Nat Unit Nat Unit

def item (n : Nat) : Gen := .yld fun s => .ok n s

/-- An addition that raises for `0`. -/
def plus0 (a v : Nat) (s : Nat) : Eff Nat Unit Nat := if v = 0 then .raise () s else .ok (a + v) s

def plus (a v : Nat) (s : Nat) : Eff Nat Unit Nat := .ok (a + v) s

def truth (v : Nat) (s : Nat) : Eff Nat Unit Bool := .ok (v != 0) s

/-- ```
while n < 5:
    n += 1
    if n == 2: continue
    try:
        yield n
    finally:
        n += 1
``` -/
def sample : Gen :=
  .loop (fun s => .ok (decide (s < 5)) s)
    (.seq (.act fun s => .ok () (s + 1))
      (.seq (.ite (fun s => .ok (decide (s = 2)) s) .cont .skip)
        (.fin (.yld fun s => .ok s s) (.act fun s => .ok () (s + 1)))))

example : sample.Fits false false true := by
  simp [sample, Stmt.Fits, Stmt.yields, Stmt.returns]

/-- Items 1, 3 and 5. -/
example : (sumConsumer plus).Ends sample 0 100 (.returned 109 6) := ⟨70, rfl⟩
example : (sumBody plus sample).Ends 0 100 (.returned 109 6) :=
  (c67_sum_partial plus false (by simp [plus]) sample
    (by simp [sample, Stmt.Fits, Stmt.yields, Stmt.returns]) 0 100 _).mp ⟨70, rfl⟩

/-- `any` of `0, 0, 7, …`, a generator that never ends by itself. -/
def endless : Gen := .loop (fun s => .ok true s)
  (.seq (.yld fun s => .ok (if s = 2 then 7 else 0) s) (.act fun s => .ok () (s + 1)))

example : endless.noTry = true := rfl
example : (anyAllConsumer true truth).Ends endless 0 () (.returned true 2) := ⟨30, rfl⟩
example : (anyAllBody true truth endless).Ends 0 () (.returned true 2) :=
  ((c67_without_try (A := Unit) endless rfl).2 true truth 0 _).mp ⟨30, rfl⟩
example : (anyAllBody false truth endless).Ends 0 () (.returned false 0) :=
  ((c67_without_try (A := Unit) endless rfl).2 false truth 0 _).mp ⟨30, rfl⟩

/-- `try: yield 0 except: yield 7`, where adding 0 raises: `sum` raises, the fused function catches the
exception of the addition in the generator's own handler and returns 7. -/
theorem c67_exception_of_consumer_violation :
    let g : Gen := .catch (item 0) (fun _ => true) (fun _ s => s) (item 7)
    (sumConsumer plus0).Ends g 0 0 (.raised () 0) ∧ (sumBody plus0 g).Ends 0 0 (.returned 7 0) :=
  ⟨⟨20, rfl⟩, 20, _, rfl, rfl⟩

/-- `try: yield 1 finally: cleanup`: `any` leaves the generator suspended, the fused function runs the
`finally` block. -/
theorem c67_finally_violation :
    let g : Gen := .fin (item 1) (.act fun s => .ok () (s + 1))
    (anyAllConsumer true truth).Ends g 0 () (.returned true 0) ∧
      (anyAllBody true truth g).Ends 0 () (.returned true 1) :=
  ⟨⟨20, rfl⟩, 20, _, rfl, rfl⟩

/-- `try: yield 1; return finally: yield 5`: the sum is 6, the fused function returns 1. -/
theorem c67_return_violation :
    let g : Gen := .fin (.seq (item 1) (.ret fun s => .ok () s)) (item 5)
    (sumConsumer plus).Ends g 0 0 (.returned 6 0) ∧ (sumBody plus g).Ends 0 0 (.returned 1 0) :=
  ⟨⟨20, rfl⟩, 20, _, rfl, rfl⟩

end Codon.Gen
