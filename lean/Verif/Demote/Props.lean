import Verif.Demote.Sim

/-!
# C83: making global variables local
-/

namespace Codon.Demote

/-- Exactly the global variables mentioned in one function only are made local, unless they are thread-local,
external, or the program's arguments; everything else about the program stays. -/
theorem c83_which (P : Prog) (hok : Ok P) (x : Nat) :
    (demote P).func = P.func ∧
    ((demote P).isGlobal x = true ↔ P.isGlobal x = true ∧
      ¬ (P.tls x = false ∧ P.fixed x = false ∧ ∃ f, OnlyIn P x f)) := by
  refine ⟨rfl, ?_⟩
  show (P.isGlobal x && (owner P x).isNone) = true ↔ _
  rw [Bool.and_eq_true]
  refine and_congr_right fun hg => ?_
  rcases ho : owner P x with _ | f
  · simp only [Option.isNone_none, true_iff]
    rintro ⟨h1, h2, f, h3⟩
    rw [(owner_iff P hok.main x f).mpr ⟨hg, h1, h2, h3⟩] at ho
    cases ho
  · obtain ⟨-, h1, h2, h3⟩ := (owner_iff P hok.main x f).mp ho
    simp only [Option.isNone_some, Bool.false_eq_true, false_iff]
    exact fun h => h ⟨h1, h2, f, h3⟩

/-- If no function but `main`, which is never called, has a global variable of its own, the program does the same as
before: the same output and the same way of ending, for every depth of execution. -/
theorem c83_main (P : Prog) (hok : Ok P) (hm : ∀ h, ¬ Calls P h 0)
    (hx : ∀ x f, P.isGlobal x = true → OnlyIn P x f → f = 0) (op : Nat → List Nat → Nat) (n : Nat) :
    observe (run (demote P) op n) = observe (run P op n) :=
  run_demote hok (fun x f ho => by
    obtain ⟨hg, -, -, h3⟩ := (owner_iff P hok.main x f).mp ho
    exact Or.inl ⟨hx x f hg h3, hm⟩) op n

/-- More generally, for variables of `main` or of functions that are not recursive and give the variable a value
before they read it.  Missing: variables that keep a value from one call to the next or are shared by recursive calls,
where the claim is false (`c83_violation_kept`, `c83_violation_recursive`). -/
theorem c83_program_partial (P : Prog) (hok : Ok P) (hg : ∀ x f, P.isGlobal x = true → OnlyIn P x f → Good P x f)
    (op : Nat → List Nat → Nat) (n : Nat) : observe (run (demote P) op n) = observe (run P op n) :=
  run_demote hok (fun x f ho => by
    obtain ⟨h1, -, -, h3⟩ := (owner_iff P hok.main x f).mp ho
    exact hg x f h1 h3) op n

/-! ## Concrete cases and violations -/

/-- Operator 100 subtracts one; the others add their number to the operands. -/
def demoOp : Nat → List Nat → Nat := fun o vs => if o = 100 then vs.sum - 1 else o + vs.sum

def mk (main f : Stmt) : Prog where
  func n := if n = 0 then ⟨[], main⟩ else ⟨[10], f⟩
  count := 2
  isGlobal x := x == 20 || x == 30
  tls _ := false
  fixed _ := false

/-- `g = 7; f(g); print(g)` and `def f(n): global h; h = n + 1; print(h)`. -/
def tame : Prog := mk (.seq (.assign 30 7 []) (.seq (.call 1 1 [30]) (.emit [30]))) (.seq (.assign 20 1 [10]) (.emit [20]))

example : observe (run tame demoOp 10) = some (.normal, [[8], [7]]) := by decide
example : (demote tame).isGlobal 20 = false ∧ (demote tame).isGlobal 30 = false := by decide
example (n : Nat) : observe (run (demote tame) demoOp n) = observe (run tame demoOp n) := by
  have hc : ∀ h g, Calls tame h g → h = 0 ∧ g = 1 := by
    intro h g hg
    by_cases h0 : h = 0
    · subst h0
      refine ⟨rfl, ?_⟩
      simpa [Calls, tame, mk, callees] using hg
    · simp [Calls, tame, mk, callees, h0] at hg
  refine c83_program_partial tame ⟨?_, fun f g h => ?_, by decide⟩ ?_ demoOp n
  · intro f p hp
    by_cases h0 : f = 0
    · subst h0; simp [tame, mk] at hp
    · simp [tame, mk, h0] at hp; subst hp; decide
  · rw [(hc f g h).2]; decide
  · rintro x f hx ⟨h1, h2, h3⟩
    have hf : f = 0 ∨ f = 1 := by have : f < 2 := h2; omega
    rcases hf with rfl | rfl
    · exact Or.inl ⟨rfl, fun h hh => by have := (hc h 0 hh).2; omega⟩
    · refine Or.inr ⟨fun hr => ?_, ?_⟩
      · cases hr with
        | single h => have := (hc _ _ h).1; omega
        | tail h h' => 
          have := hc _ _ h'
          have e := this.1
          subst e
          cases h with
          | single h => have := (hc _ _ h).1; omega
          | tail _ h => have := (hc _ _ h).2; omega
      · have : x = 20 ∨ x = 30 := by simpa [tame, mk] using hx
        rcases this with rfl | rfl
        · decide
        · exact absurd (h3 0 (by decide) (by decide)) (by decide)

/-- A declared global that one function writes in one call and reads in the next:
`x: int`, `def f(first): global x; if first: x = 5; return x`. -/
def kept : Prog := mk
  (.seq (.assign 1 1 []) (.seq (.call 2 1 [1]) (.seq (.assign 1 0 []) (.seq (.call 3 1 [1]) (.emit [2, 3])))))
  (.seq (.ite 10 (.assign 20 5 []) .skip) (.ret 20))

/-- After the pass the second call reads a variable without a value. -/
theorem c83_violation_kept :
    observe (run kept demoOp 10) = some (.normal, [[5, 5]]) ∧
    observe (run (demote kept) demoOp 10) = some (.unset, []) := by decide

/-- `def f(n): global x; x = n; if n: f(n - 1); print(x)`. -/
def recursive : Prog := mk (.seq (.assign 1 1 []) (.call 2 1 [1]))
  (.seq (.assign 20 0 [10]) (.seq (.ite 10 (.seq (.assign 11 100 [10]) (.call 12 1 [11])) .skip) (.emit [20])))

/-- The inner call changes the variable of the outer one, but not after the pass. -/
theorem c83_violation_recursive :
    observe (run recursive demoOp 20) = some (.normal, [[0], [0]]) ∧
    observe (run (demote recursive) demoOp 20) = some (.normal, [[0], [1]]) := by decide

end Codon.Demote
