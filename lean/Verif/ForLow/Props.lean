import Verif.ForLow.Pass
/-!
# C49: lowering a for loop over a range or list keeps its iterations
-/
namespace Codon.ForLow
open Codon.Omp (w)

/-- Same variables of the program, same heap (memory, output, …). -/
def Same {W : World} (N : Nat) (s s' : St W) : Prop := (∀ x < N, s.vars x = s'.vars x) ∧ s.heap = s'.heap

/-- **C49** Whatever a program can do (end with a value, an exception, undefined behaviour, or reach some state without having ended),
    the lowered program can do: for every program, every behaviour of the functions, lists and other generators it uses, and every
    state. -/
theorem c49_source_to_lowered {W : World} {N : Nat} {t : Term} (ht : Below N t) {s s1 : St W} {r : Res} (h : Ev W t s r s1) :
    ∃ s1', Ev W (lower t N).1 s r s1' ∧ Same N s1 s1' :=
  forward h _ _ (good (W := W) t ht N (Nat.le_refl N)).1 s ⟨fun _ _ => rfl, rfl⟩ trivial

/-- **C49** The lowered program does nothing else. -/
theorem c49_lowered_to_source {W : World} {N : Nat} {t : Term} (ht : Below N t) {s s1' : St W} {r : Res}
    (h : Ev W (lower t N).1 s r s1') : ∃ s1, Ev W t s r s1 ∧ Same N s1 s1' :=
  (backward h).1 _ _ (good (W := W) t ht N (Nat.le_refl N)).1 s ⟨fun _ _ => rfl, rfl⟩ trivial

/-- The term has a loop over an iterator that the pass replaces. -/
def Remaining : Term → Prop
  | .const _ => False
  | .var _ => False
  | .pair a b => Remaining a ∨ Remaining b
  | .op _ a => Remaining a
  | .seq a b => Remaining a ∨ Remaining b
  | .ite c a b => Remaining c ∨ Remaining a ∨ Remaining b
  | .while c a => Remaining c ∨ Remaining a
  | .brk => False
  | .cont => False
  | .try a _ b => Remaining a ∨ Remaining b
  | .for _ k a b => k = .range1 ∨ k = .list ∨ Remaining a ∨ Remaining b
  | .impFor _ a _ b => Remaining a ∨ Remaining b
  | .genLoop _ _ b => Remaining b
  | .impLoop _ _ _ _ b => Remaining b

/-- No loop over `range(n)` or over a list is left by the pass. -/
theorem c49_none_left (t : Term) (k : Nat) : ¬ Remaining (lower t k).1 := by
  induction t generalizing k with
  | «for» x it a b ia ib =>
    have h1 := ia k
    have h2 := ib (lower a k).2
    simp only [lower]
    cases it with
    | range1 => simp [handle, Remaining, h1, h2]
    | list => simp [handle, Remaining, h1, h2]
    | other => simp [handle, Remaining, h1, h2]
    | range2 =>
      rcases handle_cases x .range2 (lower a k).1 (lower b (lower a k).2).1 (lower b (lower a k).2).2 with
        e | ⟨e0, e⟩ | ⟨_, u1, u2, eu, e⟩ | ⟨e0, u1, u2, c, hc, eu, e⟩ | ⟨e0, e⟩
      · rw [e]; simp [Remaining, h1, h2]
      · cases e0
      · rw [e]; rw [eu] at h1; simp only [Remaining] at h1 ⊢; simp [h1, h2]
      · cases e0
      · cases e0
    | range3 =>
      rcases handle_cases x .range3 (lower a k).1 (lower b (lower a k).2).1 (lower b (lower a k).2).2 with
        e | ⟨e0, e⟩ | ⟨e0, u1, u2, eu, e⟩ | ⟨_, u1, u2, c, hc, eu, e⟩ | ⟨e0, e⟩
      · rw [e]; simp [Remaining, h1, h2]
      · cases e0
      · cases e0
      · rw [e]; rw [eu] at h1; simp only [Remaining, not_or] at h1 ⊢; simp [h1, h2]
      · cases e0
  | _ => simp_all [lower, Remaining]

/-! ### Non-vacuity -/

/-- A world with output: function 0 prints its argument, function 1 clears list 0, others fail.  List 0 has the elements in
    block 0; its length is in the heap. -/
def demo : World where
  H := List Val × Int
  call k v h r h' := (k = 0 ∧ r = .val .unit ∧ h' = (h.1 ++ [v], h.2)) ∨ (k = 1 ∧ r = .val .unit ∧ h' = (h.1, 0)) ∨ (1 < k ∧ r = .exc k ∧ h' = h)
  len h r := if r = 0 then some h.2 else none
  ptr _ r := if r = 0 then some 0 else none
  load _ b i := if b = 0 ∧ 0 ≤ i ∧ i < 2 then some (.int (i + 5)) else none
  resume _ _ _ := False
  destroy _ h := h
  truth _ := false

/-- `for x in l: clear(l); print(x)` -/
def prog : Term := .for 1 .list (.var 0) (.seq (.op (.call 1) (.const .unit)) (.op (.call 0) (.var 1)))

example : Below 2 prog := by simp [prog, Below]

/-- Both elements are printed although the list is cleared. -/
theorem prog_runs : ∃ s1 : St demo, Ev demo prog ⟨fun _ => .lst 0, ([], 2)⟩ (.val .unit) s1 ∧ s1.heap = ([.int 5, .int 6], 0) := by
  let s0 : St demo := ⟨fun _ => .lst 0, ([], 2)⟩
  let a1 : St demo := { s0.set 1 (.int 5) with heap := ([.int 5], 0) }
  let a2 : St demo := { a1.set 1 (.int 6) with heap := ([.int 5, .int 6], 0) }
  have d : Ev demo (.genLoop 1 (.list (.yielded 1 2 0)) (.seq (.op (.call 1) (.const .unit)) (.op (.call 0) (.var 1)))) a2 (.val .unit) a2 :=
    @Ev.genDone demo 1 (.list (.yielded 1 2 0)) _ a2 a2.heap (@Resumes.listDone demo (.yielded 1 2 0) a2.heap (by rfl))
  have b : ∀ s : St demo, Ev demo (.seq (.op (.call 1) (.const .unit)) (.op (.call 0) (.var 1))) s (.val .unit)
      { s with heap := (s.heap.1 ++ [s.vars 1], 0) } := by
    intro s
    have c1 : OpEv demo (.call 1) .unit s (.val .unit) { s with heap := (s.heap.1, 0) } := .call 1 _ s .unit _ (Or.inr (Or.inl ⟨rfl, rfl, rfl⟩))
    have c0 : OpEv demo (.call 0) (s.vars 1) { s with heap := (s.heap.1, 0) } (.val .unit) { s with heap := (s.heap.1 ++ [s.vars 1], 0) } :=
      OpEv.call (W := demo) 0 (s.vars 1) { s with heap := (s.heap.1, 0) } .unit (s.heap.1 ++ [s.vars 1], 0) (Or.inl ⟨rfl, rfl, rfl⟩)
    exact .seq (.op (.const _ _) c1) (.op (.var 1 _) c0)
  have y2 : Resumes demo (.list (.yielded 0 2 0)) a1.heap (.yield (.int 6) (.list (.yielded 1 2 0)) a1.heap) :=
    .listYield (W := demo) (.yielded 0 2 0) a1.heap (.int 6) (.yielded 1 2 0) (by rfl)
  have y1 : Resumes demo (.list (.fresh 0)) s0.heap (.yield (.int 5) (.list (.yielded 0 2 0)) s0.heap) :=
    .listYield (W := demo) (.fresh 0) s0.heap (.int 5) (.yielded 0 2 0) (by rfl)
  have f : Ev demo prog s0 (.val .unit) a2 := .for (.var 0 s0) rfl (.genNext y1 (b (s0.set 1 (.int 5))) trivial (.genNext y2 (b (a1.set 1 (.int 6))) trivial d))
  exact ⟨a2, f, rfl⟩

/-- So the lowered program prints them. -/
example : ∃ s1 : St demo, Ev demo (lower prog 2).1 ⟨fun _ => .lst 0, ([], 2)⟩ (.val .unit) s1 ∧ s1.heap = ([.int 5, .int 6], 0) := by
  obtain ⟨s1, h, e⟩ := prog_runs
  obtain ⟨s2, h2, h3⟩ := c49_source_to_lowered (N := 2) (by simp [prog, Below]) h
  exact ⟨s2, h2, h3.2 ▸ e⟩

end Codon.ForLow
