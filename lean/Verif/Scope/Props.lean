import Verif.Scope.Crit

/-!
# C68: resolution of local names
-/

namespace Verif.Scope

section
variable {V : Type}

/-! The names `x`, `n`, `m` of the examples. -/

/-- `while n: if n == 2: x = 7` / `print(x); n = n - 1` -/
def late : Stmt Int :=
  .whl [⟨0, 1⟩] (fun l => some (l.headD 0 != 0)) 1
    (.seq (.ite true [⟨1, 1⟩] (fun l => some (l.headD 0 == 2)) 2
        (.asg 0 0 [] fun _ => some 7) 3 .skip)
      (.seq (.out [⟨2, 0⟩] fun l => l.head?)
        (.asg 1 1 [⟨3, 1⟩] fun l => some (l.headD 0 - 1))))

/-- `if n: x = 7 else: x = 8` / `while n: y = n; print(x + y); n = n - 1` / `print(y)` -/
def early : Stmt Int :=
  .seq (.ite true [⟨0, 1⟩] (fun l => some (l.headD 0 != 0)) 1
      (.asg 0 0 [] fun _ => some 7) 2 (.asg 1 0 [] fun _ => some 8))
    (.seq (.whl [⟨1, 1⟩] (fun l => some (l.headD 0 != 0)) 3
        (.seq (.asg 2 2 [⟨2, 1⟩] fun l => l.head?)
          (.seq (.out [⟨3, 0⟩, ⟨4, 2⟩] fun l => some l.sum)
            (.asg 3 1 [⟨5, 1⟩] fun l => some (l.headD 0 - 1)))))
      (.out [⟨6, 2⟩] fun l => l.head?))

/-- `while n: if n == 1: print(x)` / `x = n; n = n - 1` -/
def back : Stmt Int :=
  .whl [⟨0, 1⟩] (fun l => some (l.headD 0 != 0)) 1
    (.seq (.ite true [⟨1, 1⟩] (fun l => some (l.headD 0 == 1)) 2
        (.out [⟨2, 0⟩] fun l => l.head?) 3 .skip)
      (.seq (.asg 0 0 [⟨3, 1⟩] fun l => l.head?)
        (.asg 1 1 [⟨4, 1⟩] fun l => some (l.headD 0 - 1))))

/-- `n and ((n == 2 and (x := 7)) or print(x))` -/
def walrus : Stmt Int :=
  .ite false [⟨0, 1⟩] (fun l => some (l.headD 0 != 0)) 1
    (.seq (.ite false [⟨1, 1⟩] (fun l => some (l.headD 0 == 2)) 2
        (.asg 0 0 [] fun _ => some 7) 3 .skip)
      (.out [⟨2, 0⟩] fun l => l.head?)) 4 .skip

/-- The argument `a` for the parameter `n`. -/
def arg (a : Int) : Name → Option Int := fun x => if x = 1 then some a else none

/-- C68 (which functions are accepted).  The compiler accepts a function exactly if no
name that the function binds is read, in the order of the text, before it is first
bound. -/
theorem c68_accept {params : List Name} {body : Stmt V} (hL : Labelled body)
    (hp : plain body = true) :
    (∀ x, (analyse params body x).err = false) ↔ BoundFirst params body :=
  accept_iff hL hp

/-- C68, in part.  A function that is accepted and compiled prints and returns, for all
arguments and for runs of every length, what the Python function does — or else it raises
`NameError` for a name whose variable is declared inside a loop, after printing an
initial part of what Python prints.

Missing for the full property: the second alternative, in which the function should go
on (`c68_loop_violation`); functions that Python accepts and Codon rejects
(`c68_reject_violation`); assignments inside expressions (`c68_walrus_violation`). -/
theorem c68_follow_partial {params : List Name} {body : Stmt V} (hL : Labelled body)
    (hp : plain body = true) (he : BoundFirst params body)
    {args : Name → Option V} (ha : ∀ x, (args x).isSome ↔ x ∈ params) (gl : Name → V) (n : Nat) :
    ((callC gl params body args n).1.out = (callP gl params body args n).1.out ∧
      (callC gl params body args n).2 = (callP gl params body args n).2) ∨
    ∃ x, (callC gl params body args n).2 = .nameErr x ∧
      (∃ b ∈ loopBlocks body, (analyse params body x).sdecl b ≠ none) ∧
      (callC gl params body args n).1.out <+: (callP gl params body args n).1.out :=
  call_sim hL hp ((accept_iff hL hp).2 he) ha gl n

/-- C68, in part: the compiled function never reads a variable that was not set, and
every occurrence of a name is resolved. -/
theorem c68_defined_partial {params : List Name} {body : Stmt V} (hL : Labelled body)
    (hp : plain body = true) (he : BoundFirst params body)
    {args : Name → Option V} (ha : ∀ x, (args x).isSome ↔ x ∈ params) (gl : Name → V) (n : Nat) :
    (callC gl params body args n).2 ≠ .ub ∧ (callC gl params body args n).2 ≠ .bad := by
  rcases c68_follow_partial hL hp he ha gl n with ⟨_, h⟩ | ⟨x, h, _⟩
  · have hc := (runP_clean (isLocal params body) gl n).1 body ⟨args, []⟩
    rw [h]
    constructor
    · intro hh
      have hh' : (runP (isLocal params body) gl n body ⟨args, []⟩).2 = .ub := hh
      rw [hh'] at hc
      exact hc
    · intro hh
      have hh' : (runP (isLocal params body) gl n body ⟨args, []⟩).2 = .bad := hh
      rw [hh'] at hc
      exact hc
  · rw [h]; simp

/-- C68, in part: if every name that is first bound inside a loop is first bound there
directly in the body of the loop, or as the variable of a `for` loop, then the compiled
function does what the Python function does. -/
theorem c68_same_partial {params : List Name} {body : Stmt V} (hL : Labelled body)
    (hp : plain body = true) (he : BoundFirst params body)
    (hs : ∀ x, settled x (params.contains x) body = true)
    {args : Name → Option V} (ha : ∀ x, (args x).isSome ↔ x ∈ params) (gl : Name → V) (n : Nat) :
    (callC gl params body args n).1.out = (callP gl params body args n).1.out ∧
      (callC gl params body args n).2 = (callP gl params body args n).2 := by
  rcases c68_follow_partial hL hp he ha gl n with h | ⟨x, _, ⟨b, hb, hd⟩, _⟩
  · exact h
  · exact absurd (settled_noLoop hL hp ((accept_iff hL hp).2 he x) (hs x) b hb) hd

example : Labelled early ∧ plain early = true := by
  refine ⟨⟨?_, ?_, ?_⟩, rfl⟩ <;> decide

example : BoundFirst [1] early := by
  intro x hx t ht
  rcases x with _ | _ | _ | x
  · exact absurd ht (by simp [early, occs, occs.readsOf])
  · simp at hx
  · exact absurd ht (by simp [early, occs, occs.readsOf])
  · exact absurd ht (by simp [early, occs, occs.readsOf])

example (x : Name) : settled x ([1].contains x) early = true := by
  rcases x with _ | _ | _ | x <;> simp [early, settled, sites, topFirst]

example : (callC (fun _ => 0) [1] early (arg 2) 20).1.out = [9, 8, 1] ∧
    (callP (fun _ => 0) [1] early (arg 2) 20).1.out = [9, 8, 1] := ⟨rfl, rfl⟩

example (a : Int) (x : Name) : (arg a x).isSome ↔ x ∈ [1] := by
  simp only [arg]; split <;> simp [*]

/-- C68 fails: a name that is bound conditionally inside a loop is unbound again at the
start of every iteration. -/
theorem c68_loop_violation :
    Labelled late ∧ plain late = true ∧ BoundFirst [1] late ∧
    (callP (fun _ => 0) [1] late (arg 2) 20).1.out = [7, 7] ∧
    (callP (fun _ => 0) [1] late (arg 2) 20).2 = .norm ∧
    (callC (fun _ => 0) [1] late (arg 2) 20).1.out = [7] ∧
    (callC (fun _ => 0) [1] late (arg 2) 20).2 = .nameErr 0 := by
  refine ⟨⟨by decide, by decide, by decide⟩, rfl, ?_, rfl, rfl, rfl, rfl⟩
  intro x hx t ht
  rcases x with _ | _ | x
  · exact absurd ht (by simp [late, occs, occs.readsOf])
  · simp at hx
  · exact absurd ht (by simp [late, occs, occs.readsOf])

/-- C68 fails: a function that reads a name earlier in the text than it binds it, but not
earlier in its runs, is rejected. -/
theorem c68_reject_violation :
    Labelled back ∧ plain back = true ∧ (analyse [1] back 0).err = true ∧
    (callP (fun _ => 0) [1] back (arg 2) 20).1.out = [2] ∧
    (callP (fun _ => 0) [1] back (arg 2) 20).2 = .norm :=
  ⟨⟨by decide, by decide, by decide⟩, rfl, rfl, rfl, rfl⟩

/-- C68 fails: with an assignment inside an expression, a variable that was never set is
read where Python raises `NameError`. -/
theorem c68_walrus_violation :
    Labelled walrus ∧ (∀ x, (analyse [1] walrus x).err = false) ∧
    (callP (fun _ => 0) [1] walrus (arg 1) 20).2 = .nameErr 0 ∧
    (callC (fun _ => 0) [1] walrus (arg 1) 20).2 = .ub := by
  refine ⟨⟨by decide, by decide, by decide⟩, ?_, rfl, rfl⟩
  intro x
  rcases x with _ | _ | x
  · rfl
  · rfl
  · simp [analyse, walrus, visit, visitReads]

end

end Verif.Scope
