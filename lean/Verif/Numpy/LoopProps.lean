import Verif.Numpy.LoopRun
/-!
# C64: operators on arrays

Full statement: an operator applied to two arrays whose shapes broadcast gives a new array of the broadcast shape whose element at every coordinate is the operator applied to the
two elements that stand there; shapes that do not broadcast are a `ValueError`; the operands are unchanged.  The in-place forms store these elements in the first array, if the
second broadcasts to its shape, and raise `ValueError` otherwise.  Proved for the forms that give a new array, whatever the layouts.  The in-place forms are proved for an operand
that does not share memory with the target at other coordinates; they fail when memory is shared (`c64_violation_overlap`: elements changed already are read again), and when the
target is smaller than the broadcast shape (`c64_violation_inplace_shape`: values pile up instead of an error).
-/
namespace Codon.Numpy
variable {V : Type}

/-- `broadcast_shapes` finds the broadcast shape if there is one, and there is at most one. -/
theorem c64_shapes (args : List (List Int)) (hne : args ≠ []) :
    ((∃ s, broadcastShapes args true = .ok s ∧ Broadcasts args s) ∨ (broadcastShapes args true = .error .value ∧ ∀ s, ¬ Broadcasts args s)) ∧
    ∀ s s', Broadcasts args s → Broadcasts args s' → s = s' :=
  ⟨broadcastShapes_spec args hne, broadcasts_unique args⟩

theorem two_read (a b : Opd) (h : Heap V) (op : V → V → V) (c : List Int) :
    (([a, b].mapM fun x : Opd => x.arr.read h (proj x.arr.shape c)).bind fun vs => match vs with | [u, v] => some (op u v) | _ => none) =
      (a.arr.read h (proj a.arr.shape c)).bind fun u => (b.arr.read h (proj b.arr.shape c)).map (op u) := by
  cases h1 : a.arr.read h (proj a.arr.shape c) <;> cases h2 : b.arr.read h (proj b.arr.shape c) <;> simp [List.mapM_cons, h1, h2]

/-- `a ∘ b`. -/
theorem c64_binary (h : Heap V) (junk : Int → V) (w0 : Int) (hw : 0 < w0) (op : V → V → V) (a b : Opd) (ha : a.arr.WF h) (hb : b.arr.WF h) (s : List Int)
    (hs : Broadcasts [a.arr.shape, b.arr.shape] s) :
    ∃ h' r, a.binary b h junk w0 op = some (.ok (h', r)) ∧
      NewArray h s (fun c => (a.arr.read h (proj a.arr.shape c)).bind fun u => (b.arr.read h (proj b.arr.shape c)).map (op u)) h' r := by
  have := allocLoop_spec h junk w0 hw (binaryFunctor op) (fun vs => match vs with | [u, v] => some (op u v) | _ => none) a [b]
    (by simp [ha, hb]) s hs (by
      intro z ps h1 vs hl hm
      match vs, hl with
      | [u, v], _ =>
        have hlp : ps.length = 2 := by simpa using congrArg List.length hm
        match ps, hlp, hm with
        | [x, y], _, hm =>
          simp only [List.map_cons, List.map_nil, List.cons.injEq, and_true] at hm
          exact ⟨op u v, rfl, by simp only [binaryFunctor, hm.1, hm.2]⟩)
  obtain ⟨h', r, h1, h2⟩ := this
  refine ⟨h', r, h1, ?_⟩
  simp only [two_read] at h2
  exact h2

/-- `a ∘ b` computed by the reflected operator of the second operand. -/
theorem c64_rbinary (h : Heap V) (junk : Int → V) (w0 : Int) (hw : 0 < w0) (op : V → V → V) (a b : Opd) (ha : a.arr.WF h) (hb : b.arr.WF h) (s : List Int)
    (hs : Broadcasts [b.arr.shape, a.arr.shape] s) :
    ∃ h' r, b.rbinary a h junk w0 op = some (.ok (h', r)) ∧
      NewArray h s (fun c => (a.arr.read h (proj a.arr.shape c)).bind fun u => (b.arr.read h (proj b.arr.shape c)).map (op u)) h' r := by
  have := allocLoop_spec h junk w0 hw (rightBinaryFunctor op) (fun vs => match vs with | [u, v] => some (op v u) | _ => none) b [a]
    (by simp [ha, hb]) s hs (by
      intro z ps h1 vs hl hm
      match vs, hl with
      | [u, v], _ =>
        have hlp : ps.length = 2 := by simpa using congrArg List.length hm
        match ps, hlp, hm with
        | [x, y], _, hm =>
          simp only [List.map_cons, List.map_nil, List.cons.injEq, and_true] at hm
          exact ⟨op v u, rfl, by simp only [rightBinaryFunctor, hm.1, hm.2]⟩)
  obtain ⟨h', r, h1, h2⟩ := this
  refine ⟨h', r, h1, ?_⟩
  have e : ∀ c, (([b, a].mapM fun x : Opd => x.arr.read h (proj x.arr.shape c)).bind fun vs => match vs with | [u, v] => some (op v u) | _ => none) =
      (a.arr.read h (proj a.arr.shape c)).bind fun u => (b.arr.read h (proj b.arr.shape c)).map (op u) := by
    intro c
    cases h1 : a.arr.read h (proj a.arr.shape c) <;> cases h2 : b.arr.read h (proj b.arr.shape c) <;> simp [List.mapM_cons, h1, h2]
  simp only [e] at h2
  exact h2

/-- Shapes that do not broadcast: `ValueError`. -/
theorem c64_binary_error (h : Heap V) (junk : Int → V) (w0 : Int) (op : V → V → V) (a b : Opd) (hs : ∀ s, ¬ Broadcasts [a.arr.shape, b.arr.shape] s) :
    a.binary b h junk w0 op = some (.error .value) ∧ a.rbinary b h junk w0 op = some (.error .value) ∧ a.ibinary b h op = some (.error .value) := by
  refine ⟨?_, ?_, ?_⟩
  · simp only [Opd.binary, allocLoop, loop_all_error a [b] _ _ hs]
  · simp only [Opd.rbinary, allocLoop, loop_all_error a [b] _ _ hs]
  · simp only [Opd.ibinary, inplaceLoop, loop_all_error a [b] _ _ hs]

/-- Unary operators, and operators with a number on one side. -/
theorem c64_unary (h : Heap V) (junk : Int → V) (w0 : Int) (hw : 0 < w0) (op : V → V) (a : Opd) (ha : a.arr.WF h) :
    ∃ h' r, a.unary h junk w0 op = some (.ok (h', r)) ∧ NewArray h a.arr.shape (fun c => (a.arr.read h c).map op) h' r := by
  have := allocLoop_spec h junk w0 hw (unaryFunctor op) (fun vs => match vs with | [u] => some (op u) | _ => none) a []
    (by simp [ha]) a.arr.shape (broadcasts_same _ _ (by simp) (by simp)) (by
      intro z ps h1 vs hl hm
      match vs, hl with
      | [u], _ =>
        have hlp : ps.length = 1 := by simpa using congrArg List.length hm
        match ps, hlp, hm with
        | [x], _, hm =>
          simp only [List.map_cons, List.map_nil, List.cons.injEq, and_true] at hm
          exact ⟨op u, rfl, by simp only [unaryFunctor, hm]⟩)
  obtain ⟨h', r, h1, h2⟩ := this
  refine ⟨h', r, h1, h2.1, h2.2.1, h2.2.2.1, h2.2.2.2.1, h2.2.2.2.2.1, fun c hc => ?_⟩
  rw [h2.2.2.2.2.2 c hc]
  dsimp only
  have hp := proj_self a.arr.shape c hc
  cases hr : a.arr.read h c <;> simp [List.mapM_cons, hp, hr]

/-- `a ∘= b`. -/
theorem c64_inplace_partial (h : Heap V) (op : V → V → V) (a b : Opd) (ha : a.arr.WF h) (hb : b.arr.WF h) (hs : Broadcasts [a.arr.shape, b.arr.shape] a.arr.shape)
    (hself : ∀ c c', Valid c a.arr.shape → Valid c' a.arr.shape → a.arr.addr c = a.arr.addr c' → c = c')
    (hover : ∀ c c', Valid c a.arr.shape → Valid c' a.arr.shape → a.arr.addr c = b.arr.addr (proj b.arr.shape c') → c = c') :
    ∃ h', a.ibinary b h op = some (.ok h') ∧ Updated h a.arr (fun c => (a.arr.read h c).bind fun u => (b.arr.read h (proj b.arr.shape c)).map (op u)) h' := by
  have hwf : ∀ x ∈ [a, b], x.arr.WF h := by simp [ha, hb]
  obtain ⟨cs, res, e1, e2, e3⟩ := loop_all a [b] none h.next a.arr.shape (by simp) (fun x hx => (hwf x hx).len) (fun x hx => (hwf x hx).nonneg) hs
  simp only [Fresh] at e3
  subst e3
  obtain ⟨h', h1, h2, h3, h4⟩ := inplaceLoop_spec h (inplaceBinaryFunctor op) (fun vs => match vs with | [u, v] => some (op u v) | _ => none) a [b] .all true
    hwf cs e2 (fun x hx => broadcasts_aligned ([a, b].map fun y : Opd => y.arr.shape) a.arr.shape hs _ (List.mem_map_of_mem hx)) e1 hself (by simpa using hover) (by
      intro ps z h1 vs hl hm
      match vs, hl with
      | [u, v], _ =>
        have hlp : ps.length = 1 := by simpa using congrArg List.length hm
        match ps, hlp, hm with
        | [y], _, hm =>
          simp only [List.map_cons, List.map_nil, List.cons.injEq, and_true] at hm
          simp only [inplaceBinaryFunctor, hm.1, hm.2])
  refine ⟨h', h1, h2, fun c hc => ?_, h4⟩
  rw [h3 c hc]
  have hp := proj_self a.arr.shape c hc
  dsimp only
  cases h1 : a.arr.read h c <;> cases h2 : b.arr.read h (proj b.arr.shape c) <;> simp [List.mapM_cons, h1, h2, hp]

/-- In-place unary operators, and in-place operators with a number. -/
theorem c64_inplace_unary (h : Heap V) (op : V → V) (a : Opd) (ha : a.arr.WF h)
    (hself : ∀ c c', Valid c a.arr.shape → Valid c' a.arr.shape → a.arr.addr c = a.arr.addr c' → c = c') :
    ∃ h', a.iunary h op = some (.ok h') ∧ Updated h a.arr (fun c => (a.arr.read h c).map op) h' := by
  have hwf : ∀ x ∈ [a], x.arr.WF h := by simp [ha]
  have hs : Broadcasts ([a].map (·.arr.shape)) a.arr.shape := broadcasts_same _ _ (by simp) (by simp)
  obtain ⟨cs, res, e1, e2, e3⟩ := loop_all a [] none h.next a.arr.shape (by simp) (fun x hx => (hwf x hx).len) (fun x hx => (hwf x hx).nonneg) hs
  simp only [Fresh] at e3
  subst e3
  obtain ⟨h', h1, h2, h3, h4⟩ := inplaceLoop_spec h (inplaceUnaryFunctor op) (fun vs => match vs with | [u] => some (op u) | _ => none) a [] .all true
    hwf cs e2 (fun x hx => broadcasts_aligned _ _ hs _ (List.mem_map_of_mem hx)) e1 hself (by simp) (by
      intro ps z h1 vs hl hm
      match vs, hl with
      | [u], _ =>
        have hlp : ps.length = 0 := by simpa using congrArg List.length hm
        match ps, hlp, hm with
        | [], _, hm =>
          simp only [List.map_cons, List.map_nil, List.cons.injEq, and_true] at hm
          simp only [inplaceUnaryFunctor, hm])
  refine ⟨h', h1, h2, fun c hc => ?_, h4⟩
  rw [h3 c hc]
  have hp := proj_self a.arr.shape c hc
  dsimp only
  cases hr : a.arr.read h c <;> simp [List.mapM_cons, hp, hr]

/-- `a += a` needs no further condition: every element is read only when it is its turn. -/
theorem c64_inplace_self (h : Heap V) (op : V → V → V) (a : Opd) (ha : a.arr.WF h)
    (hself : ∀ c c', Valid c a.arr.shape → Valid c' a.arr.shape → a.arr.addr c = a.arr.addr c' → c = c') :
    ∃ h', a.ibinary a h op = some (.ok h') ∧ Updated h a.arr (fun c => (a.arr.read h c).map fun u => op u u) h' := by
  obtain ⟨h', h1, h2, h3, h4⟩ := c64_inplace_partial h op a a ha ha (broadcasts_same _ _ (by simp) (by simp)) hself fun c c' hc hc' he => by
    rw [proj_self _ _ hc'] at he; exact hself c c' hc hc' he
  refine ⟨h', h1, h2, fun c hc => ?_, h4⟩
  rw [h3 c hc]
  dsimp only
  rw [proj_self _ _ hc]
  cases a.arr.read h c <;> rfl

/-! ### Examples and violations -/

/-- A heap in which every cell holds 1. -/
def onesHeap : Heap Int := ⟨fun _ _ => some 1, 2⟩

example : Broadcasts [[2, 1, 3], [4, 1]] [2, 4, 3] := by
  rcases (c64_shapes [[2, 1, 3], [4, 1]] (by simp)).1 with ⟨s, h1, h2⟩ | ⟨h1, _⟩
  · rw [show broadcastShapes [[2, 1, 3], [4, 1]] true = .ok [2, 4, 3] from rfl] at h1
    rw [Except.ok.inj h1]; exact h2
  · rw [show broadcastShapes [[2, 1, 3], [4, 1]] true = .ok [2, 4, 3] from rfl] at h1
    cases h1

example : ∀ s, ¬ Broadcasts [[2, 3], [2]] s := by
  rcases (c64_shapes [[2, 3], [2]] (by simp)).1 with ⟨s, h1, _⟩ | ⟨_, h2⟩
  · rw [show broadcastShapes [[2, 3], [2]] true = .error .value from rfl] at h1
    cases h1
  · exact h2

/-- A transposed 3 × 2 array plus a row of 2. -/
example : (match Opd.binary ⟨⟨[3, 2], [8, 24], 0, 0⟩, 8⟩ ⟨⟨[2], [8], 1, 0⟩, 8⟩ (⟨fun _ o => some o, 2⟩ : Heap Int) (fun _ => 0) 8 (· + ·) with
    | some (.ok (h', r)) => some (r, (multirange r.shape).map (r.read h'))
    | _ => none) = some (⟨[3, 2], [8, 24], 2, 0⟩, [some 0, some 32, some 8, some 40, some 16, some 48]) := by decide +kernel

/-- `a += b` with a one-element array and a two-element array adds both elements instead of raising `ValueError`. -/
theorem c64_violation_inplace_shape : ¬ Broadcasts [[1], [2]] [1] ∧
    ∃ h', Opd.ibinary ⟨⟨[1], [8], 0, 0⟩, 8⟩ ⟨⟨[2], [8], 1, 0⟩, 8⟩ onesHeap (· + ·) = some (.ok h') ∧ Arr.read ⟨[1], [8], 0, 0⟩ h' [0] = some 3 := by
  refine ⟨fun hb => ?_, _, rfl, rfl⟩
  have := hb.2.2 0 (by simp)
  have := this.1 [2] (by simp)
  simp [dimAt] at this

/-- `a[1:] += a[:-1]` on three ones gives 1, 2, 3 instead of 1, 2, 2. -/
theorem c64_violation_overlap : Broadcasts [[2], [2]] [2] ∧
    ∃ h', Opd.ibinary ⟨⟨[2], [8], 0, 8⟩, 8⟩ ⟨⟨[2], [8], 0, 0⟩, 8⟩ onesHeap (· + ·) = some (.ok h') ∧ Arr.read ⟨[2], [8], 0, 8⟩ h' [1] = some 3 :=
  ⟨broadcasts_same _ _ (by simp) (by simp), _, rfl, rfl⟩

end Codon.Numpy
