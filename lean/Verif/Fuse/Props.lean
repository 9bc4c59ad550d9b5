import Verif.Fuse.Lemmas

/-!
# C66: fusing the additions of lists

`x1 + … + xn` on lists, compiled with optimisations, is one allocation and one copy per operand.
-/

namespace Codon.Fuse

open ListM (L Sl Rel)

variable {T W E : Type}

/-- The fused code does exactly what the expression as written does: same result (elements,
length, capacity), same state, same exception in the same state.  All operands, all nestings of
`+`, all states; operands are arbitrary computations.  Missing for the full claim: an operand must
not change what an earlier one contributes, the step of a slice must not be zero, and a slice
without a step must not end before it starts (see the violations below). -/
theorem c66_fused_as_written_partial (l r : Tree T W E) (s : State T W)
    (h : Steady (Tree.add l r).inspect s) :
    (Tree.add l r).optimized s = (Tree.add l r).eval s := by
  have := eval_tree (.add l r) [] s (by simpa using h)
  rw [Tree.optimized]
  cases hs : setupAll (Tree.add l r).inspect s with
  | ub => rw [hs] at this; rw [bind_of_ub (fused_of_ub hs)]; exact this.symm
  | exc e s' => rw [hs] at this; rw [bind_of_exc (fused_of_exc hs)]; exact this.symm
  | ok vs s' =>
    rw [hs] at this
    obtain ⟨rv, yss, h1, -, h3, h4⟩ := this
    have h5 := h4 l r rfl
    subst h5
    rw [bind_of_ok (fused_eq hs (h3.imp fun v ys hv => hv s' List.mem_cons_self)), h1]
    rfl

/-- Whatever the operands do to each other's lists: when all of them have been evaluated, the fused
code yields a list of what they contribute then, in order, filling its capacity exactly; no cell
outside a block is touched and the state does not change any more. -/
theorem c66_fused_elements_partial (l r : Tree T W E) (s s' : State T W) (vs : List (Saved T))
    (yss : List (List T)) (hs : setupAll (Tree.add l r).inspect s = .ok vs s')
    (hv : List.Forall₂ (Shows s') vs yss) :
    ∃ v : L T, (Tree.add l r).optimized s = .ok (.tmp v) s' ∧ Rel v yss.flatten ∧
      v.cap = yss.flatten.length := by
  refine ⟨exact yss.flatten, ?_, exact_rel _,
    by show ((yss.flatten.map some).length : Int) = _; rw [List.length_map]⟩
  rw [Tree.optimized, bind_of_ok (fused_eq hs hv)]; rfl

/-- A slice without a step that ends before it starts makes the fused code copy a negative number of
cells: undefined behaviour, for every list and all such bounds; the slice itself is empty. -/
theorem c66_descending_slice_violation (ans v : L T) (xs : List T) (h : Rel v xs) (s : Sl)
    (h1 : s.step = none) (h2 : SliceSpec.last xs.length s.stop 1 < SliceSpec.first xs.length s.start 1) :
    sliceAppend ans v s = .ub ∧ ∃ w, ListM.getSlice v s = .ok w ∧ Rel w [] := by
  have h0 : s.step ≠ some 0 := by simp [h1]
  obtain ⟨a, e1, e2⟩ := ListM.adjust_rel s xs.length h0
  obtain ⟨f0, f1, f2, f3, f4⟩ := Slice.adjust_fields e2
  have hst : a.step = 1 := by rw [f0, h1]; rfl
  rw [hst] at f2 f3
  constructor
  · unfold sliceAppend
    have hf : ¬ s.isFull = true := by
      intro hf
      unfold ListM.Sl.isFull at hf
      simp only [Bool.and_eq_true, Option.isNone_iff_eq_none] at hf
      rw [hf.1.1, hf.1.2] at h2
      simp [SliceSpec.last, SliceSpec.first] at h2
      omega
    rw [if_neg hf, if_pos (by simp [h1]), h.len, e1]
    simp only [Out.bind_ok, blit]
    unfold memcpyB
    rw [if_neg (by omega), if_neg (by omega)]
    rfl
  · obtain ⟨w, g1, g2⟩ := ListM.getSlice_rel h s h0
    refine ⟨w, g1, ?_⟩
    obtain ⟨p1, -⟩ := ListM.positions_one e2 hst
    have : ListM.Spec.slice xs s.start s.stop (s.step.getD 1) = [] := by
      unfold ListM.Spec.slice
      rw [h1]
      simp only [Option.getD_none]
      rw [p1, show (a.stop - a.start).toNat = 0 by omega]
      rfl
    rw [this] at g2; exact g2

/-! ### Concrete programs

The world is a counter; lists `0` and `1` are `[1, 2, 3, 4]` and `[5]`. -/

def start : State Nat Nat := ⟨[exact [1, 2, 3, 4], exact [5]], 0⟩

/-- A variable. -/
def name (a : Nat) : M Nat Nat Unit Nat := fun s => .ok a s

/-- A slice expression of constants. -/
def bounds (a b k : Option Int) : M Nat Nat Unit Sl := fun s => .ok ⟨a, b, k⟩ s

/-- A call that counts and returns a new list. -/
def fresh : M Nat Nat Unit Nat := fun s => .ok s.heap.length ⟨s.heap ++ [exact [8, 9]], s.world + 1⟩

/-- A call that empties list `0` and returns list `1`. -/
def clears : M Nat Nat Unit Nat := fun s =>
  .ok 1 { s with heap := match s.heap with | [] => [] | l :: ls => ListM.clear l :: ls }

/-- A call that counts and raises. -/
def raises : M Nat Nat Unit Nat := fun s => .exc (.user ()) ⟨s.heap, s.world + 1⟩

/-- `x[1:3] + ([c, 7] + g()) + y[::-1]` -/
def sample : Tree Nat Nat Unit :=
  .add (.add (.leaf (.slice (name 0) (bounds (some 1) (some 3) none)))
    (.add (.leaf (.literal [fun s => .ok s.world ⟨s.heap, s.world + 1⟩, fun s => .ok 7 s]))
      (.leaf (.val fresh)))) (.leaf (.slice (name 1) (bounds none none (some (-1)))))

/-- The states in which `sample` is after the literal and after `g()`. -/
def mid : State Nat Nat := ⟨[exact [1, 2, 3, 4], exact [5]], 1⟩
def fin : State Nat Nat := ⟨[exact [1, 2, 3, 4], exact [5], exact [8, 9]], 2⟩

theorem sample_steady : Steady sample.inspect start := by
  refine ⟨⟨[2, 3], ?_⟩, ⟨[0, 7], ?_⟩, ⟨[8, 9], ?_⟩, ⟨[5], ?_⟩, trivial⟩
  · intro s hs
    replace hs : s ∈ [start, mid, fin, fin] := hs
    simp only [List.mem_cons, List.not_mem_nil, or_false] at hs
    refine ⟨[1, 2, 3, 4], ⟨exact [1, 2, 3, 4], ?_, exact_rel _⟩, by simp,
      fun _ => by decide, by decide⟩
    rcases hs with rfl | rfl | rfl | rfl <;> rfl
  · intro s hs; rfl
  · intro s hs
    replace hs : s ∈ [fin, fin] := hs
    simp only [List.mem_cons, List.not_mem_nil, or_false] at hs
    refine ⟨exact [8, 9], ?_, exact_rel _⟩
    rcases hs with rfl | rfl <;> rfl
  · intro s hs
    replace hs : s ∈ [fin] := hs
    simp only [List.mem_cons, List.not_mem_nil, or_false] at hs
    refine ⟨[5], ⟨exact [5], ?_, exact_rel _⟩, by simp, fun h => by simp at h, by decide⟩
    subst hs; rfl

example : sample.optimized start =
    .ok (.tmp (exact [2, 3, 0, 7, 8, 9, 5])) ⟨[exact [1, 2, 3, 4], exact [5], exact [8, 9]], 2⟩ := by
  decide +kernel

example : sample.eval start = sample.optimized start :=
  (c66_fused_as_written_partial _ _ start sample_steady).symm

/-- An operand that raises: both stop there. -/
example : (Tree.add (.leaf (.val (name 0))) (.leaf (.val raises))).optimized start =
    .exc (.user ()) ⟨start.heap, 1⟩ := by decide +kernel

/-- `x[3:1] + y` is `[5]` as written and undefined behaviour when fused. -/
theorem c66_empty_slice_violation :
    let t : Tree Nat Nat Unit := .add (.leaf (.slice (name 0) (bounds (some 3) (some 1) none)))
      (.leaf (.val (name 1)))
    t.eval start = .ok (.tmp (exact [5])) start ∧ t.optimized start = .ub := by
  decide +kernel

/-- `x + y + g()` where `g` empties `x` and returns `y`: the fused code misses the elements of `x`
that the expression as written has already copied. -/
theorem c66_later_operand_violation :
    let t : Tree Nat Nat Unit := .add (.add (.leaf (.val (name 0))) (.leaf (.val (name 1))))
      (.leaf (.val clears))
    let s' : State Nat Nat := ⟨[ListM.clear (exact [1, 2, 3, 4]), exact [5]], 0⟩
    t.eval start = .ok (.tmp (exact [1, 2, 3, 4, 5, 5])) s' ∧
      t.optimized start = .ok (.tmp (exact [5, 5])) s' := by
  decide +kernel

/-- `x[::0] + g()`: as written `ValueError` is raised before `g` is called, fused after it. -/
theorem c66_zero_step_violation :
    let t : Tree Nat Nat Unit := .add (.leaf (.slice (name 0) (bounds none none (some 0))))
      (.leaf (.val fresh))
    t.eval start = .exc (.lib .valueError) start ∧
      t.optimized start =
        .exc (.lib .valueError) ⟨[exact [1, 2, 3, 4], exact [5], exact [8, 9]], 1⟩ := by
  decide +kernel

end Codon.Fuse
