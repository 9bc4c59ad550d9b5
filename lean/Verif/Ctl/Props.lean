import Verif.Ctl.Reject
/-!
# C69: `match`, `break`, `continue` and the `else` of loops do what they do in Python
-/

namespace Verif.Ctl

/-- The outcome of the lowered program. -/
def result (n : Nat) (s : Src) (st : St) (τ : Tm) : R (St × Out) :=
  match lower s with
  | .ok t => .ok ((runT n t (st, τ)).1.1, (runT n t (st, τ)).2)
  | .error e => .error e

/-- **C69 (same behaviour).**  There is a way for failed patterns to leave their names
(one that Python permits) under which every statement that is `Good` is accepted and
its lowered form does the same as the statement: it ends in the same state in the same
way, or both run on.

Missing for the full claim: statements that are not `Good` (see the violations). -/
theorem c69_same_partial :
    ∃ J, FailOk J ∧ ∀ s, Good false false false s →
      ∀ n st τ, result (n + 2) s st τ = .ok (runS J (n + 2) s st) := by
  refine ⟨J0, J0_ok, fun s h n st τ => ?_⟩
  obtain ⟨t, k2, t', a1, a2, a3, a4⟩ := visit_sim n s false false false ⟨none, none⟩ 0 h
    ⟨by simp, by simp, by simp, by simp⟩ 0 (Nat.le_refl _)
  have hl : lower s = .ok t' := by
    simp only at a3
    simp [lower, a1, a3, bind, Except.bind]
  obtain ⟨τ', c1, c2⟩ := a4 st τ
  have hc := (good_out J0 (n + 2) s false false false st h).2 rfl
  simp only [result, hl, c1, tr_ne _ _ hc]

/-- **C69 (well defined).**  The lowered form of a `Good` statement never indexes a
tuple or list out of range, never tests a value of the wrong type, and never leaves a
function by `break` or `continue`. -/
theorem c69_defined_partial (s : Src) (h : Good false false false s) (n : Nat) (st : St) (τ : Tm) :
    ∃ st' o, result (n + 2) s st τ = .ok (st', o) ∧ (o = .norm ∨ o = .leave ∨ o = .fuel) := by
  obtain ⟨J, _, hJ⟩ := c69_same_partial
  refine ⟨_, _, hJ s h n st τ, ?_⟩
  have h1 := good_out J (n + 2) s false false false st h
  have h2 := runS_stuck J (n + 2) s st
  have h3 := h1.1 rfl
  have h4 := h1.2 rfl
  cases e : (runS J (n + 2) s st).2 <;> simp_all

/-- **C69 (errors are reported).**  What is accepted has no `break` and no `continue`
outside loops, if no `case` has one that concerns a loop around the `match` and no loop
over a tuple has an `else`. -/
theorem c69_reject_partial (s : Src) (hp : Plain s) (t : Tgt) (h : lower s = .ok t) :
    Legal false s := by
  simp only [lower, bind, Except.bind] at h
  cases hv : visit ⟨none, none⟩ s 0 with
  | error e => simp [hv] at h
  | ok p =>
    obtain ⟨t0, k⟩ := p
    simp only [hv] at h
    exact visit_legal s ⟨none, none⟩ 0 t0 k t hp hv h

/-! ## A program that meets the hypotheses -/

/-- `print(i)` -/
def say (i : Int) : Src := .act fun s => ({ s with out := s.out ++ [i] }, false)

/-- `print(x)` for an integer variable -/
def sayVar (x : Nat) : Src := .act fun s =>
  match s.vars x with
  | .int i => ({ s with out := s.out ++ [i] }, false)
  | _ => (s, true)

def yes (s : St) : Bool × St := (true, s)
def no (s : St) : Bool × St := (false, s)

/-- fewer than `n` things have been printed -/
def below (n : Nat) (s : St) : Bool × St := (decide (s.out.length < n), s)

def st0 : St := ⟨fun _ => .int 0, fun _ i => .int i, []⟩
def tm0 : Tm := ⟨fun _ => false, fun _ => .int 0, fun _ _ => .int 0⟩

/-- What the lowered program prints, and how it ends. -/
def prints (n : Nat) (s : Src) : R (List Int × Out) :=
  match result n s st0 tm0 with
  | .ok (s, o) => .ok (s.out, o)
  | .error e => .error e

/-- What the program prints, and how it ends (failed patterns bind nothing). -/
def should (n : Nat) (s : Src) : List Int × Out :=
  ((runS (fun _ _ s => s) n s st0).1.out, (runS (fun _ _ s => s) n s st0).2)

/-- ```
while True:
    for x in (0, 1, 2):        # unrolled
        if x printed twice: break
        print(x)
    match [7, (8, 9), 1]:
        case [1, ...]: print(1)
        case [x, (y, 8 | 9), ...] if y printed less …: print(y)
        case _: pass
    if enough: break
else:
    print(100)
``` -/
def demo : Src :=
  .seq
    (.loopElse yes
      (.seq (.tfor 3 (.var 5) 0 (.seq (.ite (below 2) .skip .brk) (sayVar 0)))
        (.seq
          (.mtch (fun s => (.lst [.int 7, .tup [.int 8, .int 9], .int 1], s))
            (.cons (.lstE (.cons (.int 1) .nil) .nil) none (say 1)
              (.cons (.lstE (.cons (.var 1) (.cons (.tup (.cons (.var 2)
                  (.cons (.alt (.int 8) (.int 9)) .nil))) .nil)) .nil) none (sayVar 2)
                (.cons .wild none .skip .nil))))
          (.ite (below 4) .cont .brk)))
      (say 100))
    (.loopElse no .skip (say 5))

example : Good false false false demo := by
  simp [demo, Good, GoodC, IterOk, Keeps, sayVar, say, Pat.even, Pats.even, GuardOk, below]
  exact ⟨fun s => by split <;> rfl, by simp [Pat.caps]⟩

example : should 5 demo = ([0, 1, 8, 8, 5], .norm) := by rfl

example : prints 5 demo = .ok ([0, 1, 8, 8, 5], .norm) := by rfl

example : Plain demo ∧ Legal false demo := by
  simp [demo, Plain, Legal, say, sayVar]

/-! ## Violations -/

/-- `while len(out) < 2: print(1); match 1: case _: break` -/
def exBreak : Src :=
  .loop (below 2) (.seq (say 1) (.mtch (fun s => (.int 1, s)) (.cons .wild none .brk .nil)))

/-- **Violation.**  `break` in a `case` leaves the `match`, not the loop around it. -/
theorem c69_break_violation :
    should 5 exBreak = ([1], .norm) ∧ prints 5 exBreak = .ok ([1, 1], .norm) := by
  constructor <;> rfl

/-- `while len(out) < 1: print(1); match 1: case _: continue` -/
def exCont : Src :=
  .loop (below 1) (.seq (say 1) (.mtch (fun s => (.int 1, s)) (.cons .wild none .cont .nil)))

/-- **Violation.**  `continue` in a `case` starts the `match` afresh: a loop that ends
after one round never ends. -/
theorem c69_continue_violation :
    should 5 exCont = ([1], .norm) ∧
      ∀ n, ∃ st, result (n + 1) exCont st0 tm0 = .ok (st, .fuel) := by
  refine ⟨rfl, fun n => ?_⟩
  have hl : lower exCont = .ok (.loop none (.usr (below 1)) (.seq
      (.act fun s => ({ s with out := s.out ++ [1] }, false))
      (.loop none .tt (.seq (.setVal 0 fun s => (.int 1, s))
        (.seq (.seq .cont (.brk true)) (.brk true)))))) := rfl
  simp only [result, hl]
  refine ⟨_, congrArg Except.ok (Prod.ext rfl ?_)⟩
  have hin := loopT_cont TCond.tt.run
    (runT (n + 1) (.seq (.setVal 0 fun s => (.int 1, s))
        (.seq (.seq .cont (.brk true)) (.brk true)))) (fun _ => rfl) (fun _ => rfl)
    (n + 1) ({ st0 with out := [1] }, tm0)
  simp only [runT, loopT, TCond.run, below, st0, List.length_nil, Nat.zero_lt_one, decide_true,
    List.nil_append, Bool.false_eq_true, if_false] at hin ⊢
  split
  · rename_i e; rw [e] at hin; cases hin
  · rename_i e; rw [e] at hin; cases hin
  · rename_i e; rw [e] at hin; cases hin
  · exact hin

/-- `match [1, 5]: case [x, ...] | [..., x] if x > 2: print(x)`, with a guard that
prints 0 when it is evaluated -/
def exGuard : Src :=
  .mtch (fun s => (.lst [.int 1, .int 5], s))
    (.cons (.alt (.lstE (.cons (.var 0) .nil) .nil) (.lstE .nil (.cons (.var 0) .nil)))
      (some fun s => (match s.vars 0 with | .int i => decide (i > 2) | _ => false,
        { s with out := s.out ++ [0] })) (sayVar 0) .nil)

/-- **Violation.**  When the guard rejects the first alternative that matches, the next
alternative is tried and the guard is evaluated for a second time. -/
theorem c69_guard_violation :
    should 5 exGuard = ([0], .norm) ∧ prints 5 exGuard = .ok ([0, 0, 5], .norm) := by
  constructor <;> rfl

/-- ```
while True:
    while False: pass
    else: break
else: print(1)
``` -/
def exElse : Src := .loopElse yes (.loopElse no .skip .brk) (say 1)

/-- **Violation.**  `break` in the `else` of an inner loop does not keep the `else` of
the outer loop from running. -/
theorem c69_else_violation :
    should 5 exElse = ([], .norm) ∧ prints 5 exElse = .ok ([1], .norm) := by
  constructor <;> rfl

/-- `for x in (0, 1): print(x)`, `else: print(7)`, unrolled -/
def exTup : Src := .tforElse 2 (.var 5) 0 (sayVar 0) (say 7)

/-- **Violation.**  The `else` of a loop over a tuple that is unrolled is dropped. -/
theorem c69_tuple_else_violation :
    should 5 exTup = ([0, 1, 7], .norm) ∧ prints 5 exTup = .ok ([0, 1], .norm) := by
  constructor <;> rfl

/-- `for x in t: print(x); t = (8, 9)`, unrolled -/
def exAssign : Src :=
  .tfor 2 (.var 5) 0 (.seq (sayVar 0)
    (.act fun s => ({ s with tups := fun y i => if y = 5 then .int (8 + i) else s.tups y i }, false)))

/-- **Violation.**  A loop over a tuple variable sees assignments to the variable made
in its body. -/
theorem c69_tuple_assign_violation :
    should 5 exAssign = ([0, 1], .norm) ∧ prints 5 exAssign = .ok ([0, 9], .norm) := by
  constructor <;> rfl

/-- **Violation.**  `break` in a `case` outside of any loop is accepted; `continue` in
the `else` of a loop that is in no loop makes the compiler read the last entry of an
empty vector. -/
theorem c69_reject_violation :
    (∃ t, lower (.mtch (fun s => (.int 1, s)) (.cons .wild none .brk .nil)) = .ok t) ∧
      lower (.loopElse no .skip .cont) = .error .undefined :=
  ⟨⟨_, rfl⟩, rfl⟩

end Verif.Ctl
