import Verif.Exc.TryMain
/-!
# C52: however a `try` statement is left, its `finally` part runs once

The full claim: for every function body `s` and every memory `m`, the emitted code does what the statement means, `runFun n s m = evalFun n s m`.
That is false (see the violations).  It is proved for the bodies `Good false false false`:
* no `return`, no `try` and, inside the body of another `try`, no uncaught exception in a handler or `else` part of a `try` that has a `finally` part;
* `finally` parts without `try`, `return`, and `break`/`continue` of loops outside.
-/
namespace Codon.Exc.Try
universe u v
variable {S : Type u} {V : Type v}

/-- The code emitted for a function behaves as the structured rule says: on every path out of the body, a handler or the `else` part of
    a `try`, by falling through, `break`, `continue`, `return` or an exception (caught here, caught further out, or not at all), the
    `finally` parts on the way run once, innermost first, and control goes on where it was going. -/
theorem c52_finally_partial (n : Nat) {s : Stmt S V} (h : Good false false false s) (m : S) : runFun n s m = evalFun n s m :=
  runFun_eq n h m

theorem good_mono {par part lp : Bool} {s : Stmt S V} (h : Good par part lp s) : Good par false lp s := by
  induction h with
  | act _ => exact .act nofun
  | skip => exact .skip
  | seq _ _ h1 h2 => exact .seq h1 h2
  | ite _ _ h1 h2 => exact .ite h1 h2
  | loop _ h1 => exact .loop h1
  | brk => exact .brk
  | cont => exact .cont
  | ret => exact .ret
  | try_ h1 h2 h3 h4 h5 => exact .try_ h1 h2 h3 h4 h5

/-- In particular: a function that is one `try` with a `finally` part ends as the same `try` without it does, by falling through, `return` or an exception,
    after one run of the `finally` part in the memory left by then; if that raises, its exception is the one that leaves the function. -/
theorem c52_once_partial (n : Nat) {node : Nat} {body els f : Stmt S V} {hs : List (Option Nat × (Exn → S → S) × Stmt S V)}
    (h : Good false false false (.try_ node body hs els (some f))) (m : S) :
    runFun (n + 1) (.try_ node body hs els (some f)) m =
      match runFun (n + 1) (.try_ node body hs els none) m with
      | none => none
      | some (o, m1) =>
        match runFun n f m1 with
        | some (.fall, m2) => some (o, m2)
        | r => r := by
  have h' : Good false false false (.try_ node body hs els none) := by
    cases h with
    | try_ h1 h2 h3 h4 h5 => exact .try_ h1 h2 (fun x hx => good_mono (h3 x hx)) (good_mono h4) nofun
  have hf : Plain false f := by
    cases h with
    | try_ h1 h2 h3 h4 h5 => exact h5 f rfl
  rw [runFun_eq _ h, runFun_eq _ h']
  have hrf : ∀ m1, runFun n f m1 = evalFun n f m1 := fun m1 => by
    have := run_plain n hf [] (by simp) ⟨m1, fun _ => Regs.init⟩
    unfold runFun evalFun
    rw [this]
    dsimp only
    rcases hx : eval n f m1 with _ | ⟨r, m2⟩
    · rfl
    · rcases eval_plain n hf m1 hx with rfl | ⟨e, rfl⟩ | ⟨h, _⟩
      · rfl
      · rfl
      · cases h
  simp only [evalFun, eval_try, hrf]
  rcases hx : meaning n hs els (eval n body m) with _ | ⟨r, m1⟩
  · rfl
  · simp only [withFinally, finally_]
    rcases hy : eval n f m1 with _ | ⟨r', m2⟩
    · cases r <;> simp [hy]
    · rcases eval_plain n hf m1 hy with rfl | ⟨e, rfl⟩ | ⟨h, _⟩
      · cases r <;> simp [hy]
      · cases r <;> simp [hy]
      · cases h

/-! ## Cases -/

namespace Cases

def log (k : Nat) : Stmt (List Nat) Nat := .act fun t => (t ++ [k], none)
def raise (id : Nat) (bases : List Nat) : Stmt (List Nat) Nat := .act fun t => (t, some ⟨id, bases⟩)
def handler (t : Nat) (s : Stmt (List Nat) Nat) : Option Nat × (Exn → List Nat → List Nat) × Stmt (List Nat) Nat := (some t, fun _ m => m, s)

/-- A loop over nested `try` statements left by `continue`, then by an exception that the outer one catches by its base type, then by `return`. -/
def busy : Stmt (List Nat) Nat :=
  .loop (fun _ => true) (.try_ 0
    (.try_ 1
      (.ite (fun t => t.length < 3) (.seq (log 10) .cont) (.ite (fun t => t.length < 6) (raise 7 [3]) (.ret fun t => t.length)))
      [handler 5 (log 50)] .skip (some (log 1)))
    [handler 3 (log 30)] (log 40) (some (log 2)))

example : Good false false false busy := by
  refine .loop (.try_ (.try_ (.ite (.seq (.act nofun) .cont) (.ite (.act nofun) .ret)) ?_ ?_ .skip ?_) ?_ ?_ (.act (fun _ h => by cases h)) ?_)
  · intro h hh; simp only [List.mem_singleton] at hh; subst hh; simp [handler]
  · intro h hh; simp only [List.mem_singleton] at hh; subst hh; exact .act fun _ _ _ => rfl
  · intro f hf; cases hf; exact .act
  · intro h hh; simp only [List.mem_singleton] at hh; subst hh; simp [handler]
  · intro h hh; simp only [List.mem_singleton] at hh; subst hh; exact .act fun _ h => by cases h
  · intro f hf; cases hf; exact .act

example : runFun 10 busy [] = some (.jump (.ret 6), [10, 1, 2, 1, 30, 2, 1, 2]) := by decide

/-! ## Violations -/

/-- (a) An exception raised in the handler of a `try` with a `finally` part is not caught by the clause for it in the enclosing `try`: the code runs into
    `unreachable`. -/
def inHandler : Stmt (List Nat) Nat :=
  .try_ 0 (.try_ 1 (raise 5 []) [handler 5 (raise 6 [])] .skip (some (log 1))) [handler 6 (log 2)] .skip none

theorem c52_handler_raises_violation :
    evalFun 10 inHandler [] = some (.fall, [1, 2]) ∧ runFun 10 inHandler [] = some (.jump .stuck, [1]) := by decide

/-- (b) `return` in a handler skips the `finally` part of its `try`. -/
def returnInHandler : Stmt (List Nat) Nat := .try_ 0 (raise 5 []) [handler 5 (.ret fun _ => 9)] .skip (some (log 1))

theorem c52_handler_returns_violation :
    evalFun 10 returnInHandler [] = some (.jump (.ret 9), [1]) ∧ runFun 10 returnInHandler [] = some (.jump (.ret 9), []) := by decide

/-- Likewise in the `else` part. -/
def returnInElse : Stmt (List Nat) Nat := .try_ 0 .skip [] (.ret fun _ => 9) (some (log 1))

theorem c52_else_returns_violation :
    evalFun 10 returnInElse [] = some (.jump (.ret 9), [1]) ∧ runFun 10 returnInElse [] = some (.jump (.ret 9), []) := by decide

/-- (c) A `try` inside a `finally` part makes the exception under way disappear. -/
def tryInFinally : Stmt (List Nat) Nat :=
  .try_ 0 (.try_ 1 (raise 5 []) [] .skip (some (.try_ 2 (raise 6 []) [handler 6 (log 1)] .skip none))) [handler 5 (log 2)] .skip none

theorem c52_finally_try_violation :
    evalFun 10 tryInFinally [] = some (.fall, [1, 2]) ∧ runFun 10 tryInFinally [] = some (.fall, [1]) := by decide

/-- (d) `break` in a `finally` part while a `return` is under way: the function goes on after the loop, and returns at the end of the next `try`. -/
def breakInFinally : Stmt (List Nat) Nat :=
  .try_ 0 (.seq (.loop (fun _ => true) (.try_ 1 (.ret fun _ => 9) [] .skip (some .brk))) (log 1)) [] .skip (some (log 2))

def thenMore : Stmt (List Nat) Nat := .seq breakInFinally (log 3)

theorem c52_finally_break_violation : evalFun 10 thenMore [] = some (.fall, [1, 2, 3]) ∧
    runFun 10 thenMore [] = some (.jump (.ret 9), [1, 2]) := by decide

/-- (e) An exception that leaves a `try` in a handler of a `try` with a `finally` part leaves the function at once. -/
def tryInHandler : Stmt (List Nat) Nat :=
  .try_ 0 (raise 5 []) [handler 5 (.try_ 1 (raise 6 []) [handler 7 (log 8)] .skip none)] .skip (some (log 1))

theorem c52_handler_try_violation :
    evalFun 10 tryInHandler [] = some (.jump (.resume ⟨6, []⟩), [1]) ∧ runFun 10 tryInHandler [] = some (.jump (.resume ⟨6, []⟩), []) := by decide

end Cases

end Codon.Exc.Try
