import Verif.Flow.CfgWalk
/-!
# C08: what the finished graph has of the parts of a statement

Helper lemmas for `CfgProps`.
-/
namespace Codon.Flow

set_option linter.unusedSimpArgs false

/-- Computes the fields of states. -/
macro "bsimp" : tactic => `(tactic| simp only [setCur_cur, setCur_code, setCur_next, setCur_edges, newBlock_code,
  newBlock_cur, newBlock_edges, newBlock_next, edge_code, edge_cur, edge_edges, edge_next, push_code, push_cur,
  push_edges, push_next, List.mem_cons, ne_eq] at *)

/-! ### `if` -/

def iteS2 (s1 : B) : B := (s1.newBlock.newBlock).setCur (s1.next + 1)
def iteS4 (s1 s3 : B) : B := (s3.edge s3.cur s1.next).newBlock.setCur s3.next
def iteEnd1 (s1 s3 : B) : B :=
  (((s3.edge s3.cur s1.next).edge s1.cur (s1.next + 1)).edge s1.cur s1.next).setCur s1.next
def iteEnd2 (s1 s3 s5 : B) : B :=
  (((s5.edge s5.cur s1.next).edge s1.cur (s1.next + 1)).edge s1.cur s3.next).setCur s1.next

theorem ite_parts {F : B} {c t f : Node} {e : Env} {s s' s1 s3 s5 : B} {x : Prop} (hs : WF s)
    (e' : build (.ite c t f) e s = s') (e1 : build c e s = s1) (e3 : build t e (iteS2 s1) = s3)
    (e5 : build f e (iteS4 s1 s3) = s5) (h : Fin F x s s') :
    Fin F True s s1 ∧ Fin F True (iteS2 s1) s3 ∧ WF s1 ∧ WF (iteS2 s1) ∧ (iteS2 s1).code (iteS2 s1).cur = [] ∧
    (s1.cur, (iteS2 s1).cur) ∈ F.edges ∧ (s3.cur, s1.next) ∈ F.edges ∧
    s'.cur = s1.next ∧ s'.code s'.cur = [] ∧
    (f.isSkip = true → (s1.cur, s1.next) ∈ F.edges) ∧
    (f.isSkip = false → WF (iteS4 s1 s3) ∧ Fin F True (iteS4 s1 s3) s5 ∧
      (iteS4 s1 s3).code (iteS4 s1 s3).cur = [] ∧ (s1.cur, (iteS4 s1 s3).cur) ∈ F.edges ∧
      (s5.cur, s1.next) ∈ F.edges) := by
  have hsc := hs.cur
  have h1 := build_frame c e s hs
  rw [e1] at h1
  have w1 := h1.wf hs
  have w2 : WF (iteS2 s1) := wf_open w1 rfl (by simp [iteS2]; omega) (by simp [iteS2])
  have h2 := build_frame t e (iteS2 s1) w2
  rw [e3] at h2
  have w3 := h2.wf w2
  have w4 : WF (iteS4 s1 s3) := ⟨by simp [iteS4], by simp [iteS4]; have := w3.fresh; grind⟩
  have h3 := build_frame f e (iteS4 s1 s3) w4
  rw [e5] at h3
  have w5 := h3.wf w4
  have hb : s' = if f.isSkip then iteEnd1 s1 s3 else iteEnd2 s1 s3 s5 := by
    rw [← e', ← e5, ← e3, ← e1]; rfl
  have k1 := w1.cur
  have k2 := w1.fresh
  have k3 := w3.cur
  have k4 := w3.fresh
  have k5 := w5.fresh
  clear e' e1 e3 e5
  have z1 := Fin.ofClosed (F := F) h1
  have z2 := Fin.ofClosed (F := F) h2
  have z3 := Fin.ofClosed (F := F) h3
  obtain ⟨a1, a2, a3, a4, a5, a6, a7⟩ := h1
  obtain ⟨b1, b2, b3, b4, b5, b6, b7⟩ := h2
  obtain ⟨c1, c2, c3, c4, c5, c6, c7⟩ := h3
  obtain ⟨d1, d2, d3, d4, d5⟩ := h
  cases hf : f.isSkip with
  | true =>
    rw [hf] at hb
    simp only [if_true] at hb
    subst hb
    simp only [iteEnd1, iteS2, iteS4] at *
    bsimp
    have d1' : ∀ x, x ∈ s3.edges → x ∈ F.edges := fun x hx => d1 x (by simp [hx])
    refine ⟨z1 ?_ ?_ ?_, z2 d1' ?_ ?_, w1, w2, ?_, ?_, ?_, trivial, ?_, ?_, ?_⟩
    · exact fun x hx => d1' x (b6 x hx)
    all_goals first | (apply d1; simp) | grind
  | false =>
    rw [hf] at hb
    simp only [Bool.false_eq_true, if_false] at hb
    subst hb
    simp only [iteEnd2, iteS2, iteS4] at *
    bsimp
    have d1' : ∀ x, x ∈ s5.edges → x ∈ F.edges := fun x hx => d1 x (by simp [hx])
    refine ⟨z1 ?_ ?_ ?_, z2 ?_ ?_ ?_, w1, w2, ?_, ?_, ?_, trivial, ?_, ?_,
      fun _ => ⟨w4, z3 d1' ?_ ?_, ?_, ?_, ?_⟩⟩
    · exact fun x hx => d1' x (c6 x (.inr (b6 x hx)))
    all_goals clear z1 z2 z3
    all_goals first | (apply d1; simp; done) | grind

/-! ### Conditional expressions -/

def ternS0 (s : B) : B := s.newBlock.newBlock.newBlock
def ternS2 (s s1 : B) : B := ((s1.edge s1.cur (s.next + 1)).edge s1.cur (s.next + 2)).setCur (s.next + 1)
def ternS4 (s s3 : B) : B := (s3.edge s3.cur s.next).setCur (s.next + 2)
def ternEnd (s s5 : B) (phi : Instr) : B := ((s5.edge s5.cur s.next).push s.next (some phi)).setCur s.next

theorem tern_parts {F : B} {c t f : Node} {phi : Instr} {e : Env} {s s' s1 s3 s5 : B} {x : Prop} (hs : WF s)
    (e' : build (.tern c t f phi) e s = s') (e1 : build c e (ternS0 s) = s1) (e3 : build t e (ternS2 s s1) = s3)
    (e5 : build f e (ternS4 s s3) = s5) (h : Fin F x s s') :
    WF (ternS0 s) ∧ Fin F True (ternS0 s) s1 ∧ (ternS0 s).cur = s.cur ∧ (ternS0 s).code = s.code ∧
    WF (ternS2 s s1) ∧ Fin F True (ternS2 s s1) s3 ∧ (ternS2 s s1).code (ternS2 s s1).cur = [] ∧
    WF (ternS4 s s3) ∧ Fin F True (ternS4 s s3) s5 ∧ (ternS4 s s3).code (ternS4 s s3).cur = [] ∧
    (s1.cur, (ternS2 s s1).cur) ∈ F.edges ∧ (s1.cur, (ternS4 s s3).cur) ∈ F.edges ∧
    (s3.cur, s.next) ∈ F.edges ∧ (s5.cur, s.next) ∈ F.edges ∧
    s'.cur = s.next ∧ s'.code s'.cur = [phi] := by
  have hsc := hs.cur
  have hsf := hs.fresh
  have w0 : WF (ternS0 s) := wf_open hs rfl (by simp [ternS0]; omega) (by simp [ternS0]; omega)
  have h1 := build_frame c e _ w0
  rw [e1] at h1
  have w1 := h1.wf w0
  have w2 : WF (ternS2 s s1) := ⟨by have := h1.next; simp [ternS0] at this; simp [ternS2]; omega, w1.fresh⟩
  have h2 := build_frame t e _ w2
  rw [e3] at h2
  have w3 := h2.wf w2
  have w4 : WF (ternS4 s s3) := ⟨by
    have q1 := h1.next; have q2 := h2.next; simp [ternS0, ternS2] at q1 q2; simp [ternS4]; omega, w3.fresh⟩
  have h3 := build_frame f e _ w4
  rw [e5] at h3
  have w5 := h3.wf w4
  have hb : s' = ternEnd s s5 phi := by rw [← e', ← e5, ← e3, ← e1]; rfl
  have k1 := w1.cur
  have k2 := w1.fresh
  have k3 := w3.cur
  have k4 := w3.fresh
  have k5 := w5.cur
  have k6 := w5.fresh
  clear e' e1 e3 e5
  have z1 := Fin.ofClosed (F := F) h1
  have z2 := Fin.ofClosed (F := F) h2
  have z3 := Fin.ofClosed (F := F) h3
  obtain ⟨a1, a2, a3, a4, a5, a6, a7⟩ := h1
  obtain ⟨b1, b2, b3, b4, b5, b6, b7⟩ := h2
  obtain ⟨c1, c2, c3, c4, c5, c6, c7⟩ := h3
  obtain ⟨d1, d2, d3, d4, d5⟩ := h
  subst hb
  simp only [ternS0, ternS2, ternS4, ternEnd] at *
  bsimp
  have f3 : ∀ x, x ∈ s5.edges → x ∈ F.edges := fun x hx => d1 x (by simp [hx])
  have f2 : ∀ x, x ∈ s3.edges → x ∈ F.edges := fun x hx => f3 x (c6 x (.inr hx))
  have f1 : ∀ x, x ∈ s1.edges → x ∈ F.edges := fun x hx => f2 x (b6 x (.inr (.inr hx)))
  refine ⟨w0, z1 f1 ?_ ?_, trivial, trivial, w2, z2 f2 ?_ ?_, ?_, w4, z3 f3 ?_ ?_, ?_, ?_, ?_, ?_, ?_, trivial, ?_⟩
  all_goals clear z1 z2 z3
  all_goals first | (apply d1; simp; done) | grind

/-! ### `while` -/

def whileS1 (s : B) : B := ((s.newBlock.newBlock).setCur (s.next + 1)).edge s.cur (s.next + 1)
def whileS3 (s s2 : B) : B := ((s2.edge s2.cur s.next).newBlock.setCur s2.next).edge (s.next + 1) s2.next
def whileEnd (s s4 : B) : B := (s4.edge s4.cur (s.next + 1)).setCur s.next
def loopEnv (e : Env) (nxt end_ l : Nat) : Env := { e with loops := e.loops ++ [⟨nxt, end_, l, e.tcs.length⟩] }

theorem while_parts {F : B} {l : Nat} {c b : Node} {e : Env} {s s' s2 s4 : B} {x : Prop} (hs : WF s)
    (e' : build (.while_ l c b) e s = s') (e2 : build c e (whileS1 s) = s2)
    (e4 : build b (loopEnv e (s.next + 1) s.next l) (whileS3 s s2) = s4) (h : Fin F x s s') :
    F.code s.cur = s.code s.cur ∧ (s.cur, s.next + 1) ∈ F.edges ∧
    WF (whileS1 s) ∧ Fin F True (whileS1 s) s2 ∧ (whileS1 s).code (whileS1 s).cur = [] ∧
    WF (whileS3 s s2) ∧ Fin F True (whileS3 s s2) s4 ∧ (whileS3 s s2).code (whileS3 s s2).cur = [] ∧
    (s2.cur, s.next) ∈ F.edges ∧ (s.next + 1, (whileS3 s s2).cur) ∈ F.edges ∧ (s4.cur, s.next + 1) ∈ F.edges ∧
    s'.cur = s.next ∧ s'.code s'.cur = [] := by
  have hsc := hs.cur
  have hsf := hs.fresh
  have w0 : WF (whileS1 s) := wf_open hs rfl (by simp [whileS1]; omega) (by simp [whileS1])
  have h1 := build_frame c e _ w0
  rw [e2] at h1
  have w1 := h1.wf w0
  have w2 : WF (whileS3 s s2) := ⟨by simp [whileS3], by simp [whileS3]; have := w1.fresh; grind⟩
  have h2 := build_frame b (loopEnv e (s.next + 1) s.next l) _ w2
  rw [e4] at h2
  have w3 := h2.wf w2
  have hb : s' = whileEnd s s4 := by rw [← e', ← e4, ← e2]; rfl
  have k1 := w1.cur
  have k2 := w1.fresh
  have k3 := w3.cur
  have k4 := w3.fresh
  clear e' e2 e4
  have z1 := Fin.ofClosed (F := F) h1
  have z2 := Fin.ofClosed (F := F) h2
  obtain ⟨a1, a2, a3, a4, a5, a6, a7⟩ := h1
  obtain ⟨b1, b2, b3, b4, b5, b6, b7⟩ := h2
  obtain ⟨d1, d2, d3, d4, d5⟩ := h
  subst hb
  simp only [whileS1, whileS3, whileEnd] at *
  bsimp
  have f2 : ∀ x, x ∈ s4.edges → x ∈ F.edges := fun x hx => d1 x (by simp [hx])
  have f1 : ∀ x, x ∈ s2.edges → x ∈ F.edges := fun x hx => f2 x (b6 x (.inr (.inr hx)))
  refine ⟨?_, ?_, w0, z1 f1 ?_ ?_, ?_, w2, z2 f2 ?_ ?_, ?_, ?_, ?_, ?_, trivial, ?_⟩
  all_goals clear z1 z2
  all_goals first | (apply d1; simp; done) | grind

/-! ### `for` -/

def forS3 (s s2 : B) (a : Instr) : B :=
  (((((s2.newBlock.newBlock.newBlock.edge s2.cur s2.next).edge s2.next s.next).edge s2.next
      (s2.next + 1)).push (s2.next + 1) (some a)).setCur (s2.next + 2)).edge (s2.next + 1) (s2.next + 2)
def forEnd (s s2 s4 : B) : B := (s4.edge s4.cur s2.next).setCur s.next

theorem for_parts {F : B} {l : Nat} {mr : Bool} {a : Instr} {it b : Node} {e : Env} {s s' s2 s4 : B} {x : Prop}
    (hs : WF s)
    (e' : build (.for_ l mr a it b) e s = s') (e2 : build it e (whileS1 s) = s2)
    (e4 : build b (loopEnv e s2.next s.next l) (forS3 s s2 a) = s4) (h : Fin F x s s') :
    F.code s.cur = s.code s.cur ∧ (s.cur, s.next + 1) ∈ F.edges ∧
    WF (whileS1 s) ∧ Fin F True (whileS1 s) s2 ∧ (whileS1 s).code (whileS1 s).cur = [] ∧
    WF (forS3 s s2 a) ∧ Fin F True (forS3 s s2 a) s4 ∧ (forS3 s s2 a).code (forS3 s s2 a).cur = [] ∧
    (s2.cur, s2.next) ∈ F.edges ∧ F.code s2.next = [] ∧ (s2.next, s.next) ∈ F.edges ∧
    (s2.next, s2.next + 1) ∈ F.edges ∧ F.code (s2.next + 1) = [a] ∧
    (s2.next + 1, (forS3 s s2 a).cur) ∈ F.edges ∧ (s4.cur, s2.next) ∈ F.edges ∧
    s'.cur = s.next ∧ s'.code s'.cur = [] := by
  have hsc := hs.cur
  have hsf := hs.fresh
  have w0 : WF (whileS1 s) := wf_open hs rfl (by simp [whileS1]; omega) (by simp [whileS1])
  have h1 := build_frame it e _ w0
  rw [e2] at h1
  have w1 := h1.wf w0
  have w2 : WF (forS3 s s2 a) := ⟨by simp [forS3], by simp [forS3, push_code]; have := w1.fresh; grind⟩
  have h2 := build_frame b (loopEnv e s2.next s.next l) _ w2
  rw [e4] at h2
  have w3 := h2.wf w2
  have hb : s' = forEnd s s2 s4 := by rw [← e', ← e4, ← e2]; rfl
  have k1 := w1.cur
  have k2 := w1.fresh
  have k3 := w3.cur
  have k4 := w3.fresh
  clear e' e2 e4
  have z1 := Fin.ofClosed (F := F) h1
  have z2 := Fin.ofClosed (F := F) h2
  obtain ⟨a1, a2, a3, a4, a5, a6, a7⟩ := h1
  obtain ⟨b1, b2, b3, b4, b5, b6, b7⟩ := h2
  obtain ⟨d1, d2, d3, d4, d5⟩ := h
  subst hb
  simp only [whileS1, forS3, forEnd] at *
  bsimp
  have f2 : ∀ x, x ∈ s4.edges → x ∈ F.edges := fun x hx => d1 x (by simp [hx])
  have f1 : ∀ x, x ∈ s2.edges → x ∈ F.edges := fun x hx => f2 x (b6 x (.inr (.inr (.inr (.inr hx)))))
  refine ⟨?_, ?_, w0, z1 f1 ?_ ?_, ?_, w2, z2 f2 ?_ ?_, ?_, ?_, ?_, ?_, ?_, ?_, ?_, ?_, trivial, ?_⟩
  all_goals clear z1 z2
  all_goals first | (apply d1; simp; done) | grind

end Codon.Flow
