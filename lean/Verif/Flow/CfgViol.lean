import Verif.Flow.CfgSpec
import Verif.Flow.ReachProps
/-!
# C08: executions that the control-flow graph does not have

Each program below is a concrete body of a function with an execution that no path of its graph has, and in which
constant propagation replaces the read of a variable by a constant that the variable does not hold.
-/
namespace Codon.Flow

/-! ### Deciding that an execution is not on a path -/

/-- `S` has the places (block, operations consumed) a path may be at that has executed a part of `t` so far. -/
def closed (s : B) (t : List Instr) (S : List (Nat × Nat)) : Bool :=
  S.contains (0, 0) &&
  S.all fun (b, k) =>
    !((t.drop k).isPrefixOf (s.code b)) &&
    (!((s.code b).isPrefixOf (t.drop k)) ||
      s.edges.all fun (p, c) => p != b || S.contains (c, k + (s.code b).length))

/-- Finds such a set. -/
def explore (s : B) (t : List Instr) : Nat → List (Nat × Nat)
  | 0 => [(0, 0)]
  | n + 1 =>
    let S := explore s t n
    S.foldl (fun S (b, k) =>
      if (s.code b).isPrefixOf (t.drop k) then
        s.edges.foldl (fun S (p, c) =>
          if p = b ∧ ¬ (c, k + (s.code b).length) ∈ S then S ++ [(c, k + (s.code b).length)] else S) S
      else S) S

theorem not_covers {s : B} {t : List Instr} (n : Nat) (h : closed s t (explore s t n) = true) :
    ¬ Covers s t := by
  generalize explore s t n = S at h
  unfold closed at h
  rw [Bool.and_eq_true, List.all_eq_true] at h
  obtain ⟨h0, h1⟩ := h
  have key : ∀ bs b, OnPath s bs b → bs.flatMap s.code <+: t → (b, (bs.flatMap s.code).length) ∈ S := by
    intro bs b hp
    induction hp with
    | entry => intro _; simpa using h0
    | @step bs p b hp he ih =>
      intro hpre
      rw [List.flatMap_append] at hpre ⊢
      simp only [List.flatMap_cons, List.flatMap_nil, List.append_nil] at hpre ⊢
      have h2 := ih ((List.prefix_append _ _).trans hpre)
      have h3 := h1 _ h2
      simp only [Bool.and_eq_true, Bool.or_eq_true, Bool.not_eq_true', List.all_eq_true] at h3
      obtain ⟨u, hu⟩ := hpre
      have h4 : (s.code p).isPrefixOf (t.drop (bs.flatMap s.code).length) = true := by
        rw [List.isPrefixOf_iff_prefix, ← hu, List.append_assoc, List.drop_left]
        exact List.prefix_append _ _
      rcases h3.2 with h5 | h5
      · rw [h4] at h5; cases h5
      · have := h5 _ he
        rw [List.length_append]
        rcases this with h6 | h6
        · simp at h6
        · exact List.contains_iff_mem.1 h6
  rintro ⟨bs, b, k, hp, rfl⟩
  have h2 := key bs b hp (List.prefix_append _ _)
  have h3 := h1 _ h2
  simp only [Bool.and_eq_true, Bool.not_eq_true'] at h3
  have h4 := h3.1
  rw [List.drop_left] at h4
  have h5 : ((s.code b).take k).isPrefixOf (s.code b) = true := by
    rw [List.isPrefixOf_iff_prefix]; exact List.take_prefix _ _
  rw [h5] at h4
  cases h4

/-- Constant propagation at place `pos` of block `b` of the graph of `body`. -/
def propagated (body : Node) (lit : Nat → Option Nat) (x b pos : Nat) : Option Nat :=
  let g := (buildCFGraph [] body).toCfg
  (rdAnalyze g).bind fun ins => constProp g ins (fun _ => false) lit x b pos

/-- The value 100 is the literal 0; all others are not literals. -/
def lit0 (v : Nat) : Option Nat := if v = 100 then some 0 else none

/-- An execution of `body` comes to the operation `use`, which is at one place of the graph only.  The variable `x`
was last assigned by the call `i`, but is replaced by the literal 0; and the execution is not on a path. -/
def Misread (body : Node) (use : Instr) (x : Nat) : Prop :=
  ∃ o t i b pos, Exec (.node body) o (t ++ [use]) ∧
    lastAssign x t = some i ∧ i.def = some (.unknown i.id) ∧
    (∀ c, c < (buildCFGraph [] body).next → ∀ k, ((buildCFGraph [] body).code c)[k]? = some use → c = b ∧ k = pos) ∧
    ((buildCFGraph [] body).code b)[pos]? = some use ∧
    propagated body lit0 x b pos = some 0 ∧
    ¬ Covers (buildCFGraph [] body) (t ++ [use])

/-- For the uniqueness part of `Misread`. -/
def onlyAt (s : B) (use : Instr) (b pos : Nat) : Bool :=
  (List.range s.next).all fun c => (List.range (s.code c).length).all fun k =>
    ((s.code c)[k]? != some use) || (c == b && k == pos)

theorem onlyAt_spec {s : B} {use : Instr} {b pos : Nat} (h : onlyAt s use b pos = true) :
    ∀ c, c < s.next → ∀ k, (s.code c)[k]? = some use → c = b ∧ k = pos := by
  intro c hc k hk
  unfold onlyAt at h
  rw [List.all_eq_true] at h
  have h1 := h c (by simpa using hc)
  rw [List.all_eq_true] at h1
  have hk' : k < (s.code c).length := (List.getElem?_eq_some_iff.1 hk).1
  have h2 := h1 k (by simpa using hk')
  simpa [hk] using h2

theorem exec_eq {m : Mode} {o : Outc} {t t' : List Instr} (h : Exec m o t) (e : t = t') : Exec m o t' := e ▸ h

/-! ### A `while` test with several blocks -/

/-- ```
x = 0
while c and (x := f()):
    use(x)
``` -/
def whileTernary : Node :=
  .seq (.op (.assign 1 0 (some 100)))
    (.while_ 1 (.tern (.op (.other 2)) (.seq (.op (.other 3)) (.op (.assign 4 0 none))) (.op (.other 5)) (.other 6))
      (.op (.other 7)))

/-- **C08 is violated.** A loop whose test is made of several blocks: the edge to the body leaves from the first block
of the test. -/
theorem c08_violation_while_test : Misread whileTernary (.other 7) 0 := by
  refine ⟨.stop, [.assign 1 0 (some 100), .other 2, .other 3, .assign 4 0 none, .other 6], .assign 4 0 none, 6, 0,
    ?_, by decide, rfl, onlyAt_spec (by decide +kernel), by decide +kernel, by decide +kernel,
    not_covers 10 (by decide +kernel)⟩
  exact exec_eq (.seq (.op _) (.while_ (.whileLoop (.ternT (.op _) (.seq (.op _) (.op _))) (.op _) (.inl rfl)
    (.whileOut (.stop _) (by decide))))) rfl

/-- ```
try:
    x = 0
    while (x := f()):
        use(x)
finally:
    pass
``` -/
def whileTry : Node :=
  .tryc
    (.seq (.op (.assign 1 0 (some 100)))
      (.while_ 1 (.seq (.op (.other 3)) (.op (.assign 4 0 none))) (.op (.other 7)))) .skip .skip (.seq .skip .skip)

/-- **C08 is violated.** Inside `try`, every operation has a block of its own, so the same happens with any test. -/
theorem c08_violation_while_in_try : Misread whileTry (.other 7) 0 := by
  refine ⟨.stop, [.assign 1 0 (some 100), .other 3, .assign 4 0 none], .assign 4 0 none, 10, 0,
    ?_, by decide, rfl, onlyAt_spec (by decide +kernel), by decide +kernel, by decide +kernel,
    not_covers 10 (by decide +kernel)⟩
  exact exec_eq (.tryStop (.coreOut (.seq (.op _) (.while_ (.whileLoop (.seq (.op _) (.op _)) (.op _) (.inl rfl)
    (.whileOut (.stop _) (by decide))))) (by decide) (by decide))) rfl

/-! ### Code after `break` -/

/-- ```
while c:
    x = f()
    break
    x = 0
use(x)
``` -/
def afterBreak : Node :=
  .seq (.while_ 1 (.op (.other 2)) (.seq (.op (.assign 3 0 none)) (.seq (.brk 1) (.op (.assign 4 0 (some 100))))))
    (.op (.other 7))

/-- **C08 is violated.** What follows a `break` is put in the block that the `break` leaves from. -/
theorem c08_violation_after_break : Misread afterBreak (.other 7) 0 := by
  refine ⟨.normal, [.other 2, .assign 3 0 none], .assign 3 0 none, 1, 0,
    ?_, by decide, rfl, onlyAt_spec (by decide +kernel), by decide +kernel, by decide +kernel,
    not_covers 10 (by decide +kernel)⟩
  exact exec_eq (.seq (.while_ (.whileBrk (.op _) (.seq (.op _) (.seqOut (.brk 1) (by decide))))) (.op _)) rfl

/-! ### The bounds of a counting loop -/

/-- ```
x = f()
for x in range(0, x):
    ...
``` 
The read of `x` in the bound is the operation 7. -/
def loopBound : Node :=
  .seq (.op (.assign 1 0 none)) (.impFor 1 (.op (.other 6)) (.op (.other 7)) (.assign 2 0 (some 100)) (.assign 3 0 none)
    .skip)

/-- **C08 is violated.** The variable of a counting loop is assigned before the bounds are evaluated. -/
theorem c08_violation_loop_bound : Misread loopBound (.other 7) 0 := by
  refine ⟨.normal, [.assign 1 0 none, .other 6], .assign 1 0 none, 2, 2,
    ?_, by decide, rfl, onlyAt_spec (by decide +kernel), by decide +kernel, by decide +kernel,
    not_covers 10 (by decide +kernel)⟩
  exact exec_eq (.seq (.op _) (.impFor (.op _) (.op _) .impEnd)) rfl

/-! ### Leaving a `finally` part with several blocks -/

/-- ```
while c:
    try:
        break
    finally:
        if d:
            x = f()
        else:
            x = g()
    x = 0
use(x)
``` -/
def finallyBlocks : Node :=
  .seq (.while_ 1 (.op (.other 2))
      (.seq (.tryc (.brk 1) .skip .skip (.ite (.op (.other 3)) (.op (.assign 4 0 none)) (.op (.assign 5 0 none))))
        (.op (.assign 6 0 (some 100)))))
    (.op (.other 7))

/-- **C08 is violated.** A `break` through a `finally` part leaves from the first block of that part. -/
theorem c08_violation_finally_blocks : Misread finallyBlocks (.other 7) 0 := by
  refine ⟨.normal, [.other 2, .other 3, .assign 4 0 none], .assign 4 0 none, 1, 0,
    ?_, by decide, rfl, onlyAt_spec (by decide +kernel), by decide +kernel, by decide +kernel, not_covers 10 (by decide +kernel)⟩
  exact exec_eq (.seq (.while_ (.whileBrk (.op _) (.seqOut (.tryc (.coreOut (.brk 1) (by decide) (by decide))
    (by decide) (.iteT (.op _) (.op _))) (by decide)))) (.op _)) rfl

/-! ### An item that cannot be computed -/

/-- ```
x = 0
try:
    for x in gen():
        pass
except:
    use(x)
``` -/
def nextRaises : Node :=
  .seq (.op (.assign 1 0 (some 100)))
    (.tryc (.for_ 1 true (.assign 4 0 none) (.op (.other 3)) .skip) (.ctch none (.op (.other 7)) .skip) .skip .skip)

/-- **C08 is violated.** An exception raised while the next item of a loop is computed. -/
theorem c08_violation_next_raises : Misread nextRaises (.other 7) 0 := by
  refine ⟨.normal, [.assign 1 0 (some 100), .other 3, .assign 4 0 none], .assign 4 0 none, 10, 0,
    ?_, by decide, rfl, onlyAt_spec (by decide +kernel), by decide +kernel, by decide +kernel, not_covers 10 (by decide +kernel)⟩
  exact exec_eq (.seq (.op _) (.tryc (.coreCaught (.for_ (.op _) (.forLoop .skip (.inl rfl) .forRaise))
    (.clause (.op _))) (by decide) .skip)) rfl

end Codon.Flow
