import Verif.Flow.CfgParts
/-!
# C08: what the finished graph has of the parts of a `try` statement

Helper lemmas for `CfgProps`.
-/
namespace Codon.Flow

set_option linter.unusedSimpArgs false

/-! ### `try` -/

def tryFinB (s : B) (p : Bool) : Nat := if p then s.next + 2 else s.next + 3
def tryDst (s : B) (p q : Bool) : Nat := if q then s.next + 1 else tryFinB s p
def tryEnv (e : Env) (s : B) (p q : Bool) : Env :=
  { e with tcs := (s.next, if q then none else some (tryFinB s p)) :: e.tcs, dst := tryDst s p q }
def tryS0 (s : B) (p q : Bool) : B :=
  { s with next := s.next + 2 + (if p then 0 else 1) + (if q then 0 else 1) }
def tryS1 (s s1 : B) (p q : Bool) : B := s1.edge s1.cur (if p then tryDst s p q else s.next + 2)
def tryS3 (s s2 s3 : B) (p q : Bool) : B := if p then s2 else s3.edge s3.cur (tryDst s p q)
def tryS4 (s s3 s4 : B) (p q : Bool) : B :=
  if q then s3 else (s4.edge s4.cur (s.next + 1)).edge s.next (tryFinB s p)

theorem build_try {body hs els fin : Node} {e : Env} {s s' s1 s2 s3 s4 : B} {p q : Bool}
    (hp : els.isSkip = p) (hq : fin.isSkip = q)
    (e' : build (.tryc body hs els fin) e s = s') (e1 : build body (tryEnv e s p q) (tryS0 s p q) = s1)
    (e2 : build hs (tryEnv e s p q) (tryS1 s s1 p q) = s2)
    (e3 : build els (tryEnv e s p q) (s2.setCur (s.next + 2)) = s3)
    (e4 : build fin e ((tryS3 s s2 s3 p q).setCur (tryFinB s p)) = s4) :
    s' = ((tryS4 s (tryS3 s s2 s3 p q) s4 p q).toRoute e (if q then s.next else tryFinB s p)).setCur (s.next + 1) := by
  subst hp hq
  rw [← e']
  simp only [build]
  rw [tryBlocks_eq]
  rw [← e4, ← e3, ← e2, ← e1]
  rfl

theorem toRoute_next (e : Env) (s : B) (b : Nat) : (s.toRoute e b).next = s.next := (toRoute_eds e s b).next
theorem toRoute_code (e : Env) (s : B) (b : Nat) : (s.toRoute e b).code = s.code := (toRoute_eds e s b).code

theorem try_parts {F : B} {body hs els fin : Node} {e : Env} {s s' s1 s2 s3 s4 : B} {p q : Bool} {x : Prop}
    (hw : WF s) (hp : els.isSkip = p) (hq : fin.isSkip = q)
    (e' : build (.tryc body hs els fin) e s = s') (e1 : build body (tryEnv e s p q) (tryS0 s p q) = s1)
    (e2 : build hs (tryEnv e s p q) (tryS1 s s1 p q) = s2)
    (e3 : build els (tryEnv e s p q) (s2.setCur (s.next + 2)) = s3)
    (e4 : build fin e ((tryS3 s s2 s3 p q).setCur (tryFinB s p)) = s4)
    (h : Fin F x s s') :
    WF (tryS0 s p q) ∧ Fin F True (tryS0 s p q) s1 ∧
    WF (tryS1 s s1 p q) ∧ Fin F True (tryS1 s s1 p q) s2 ∧
    F.code s.next = [] ∧ (s1.cur, if p then tryDst s p q else s.next + 2) ∈ F.edges ∧
    (p = false → WF (s2.setCur (s.next + 2)) ∧ Fin F True (s2.setCur (s.next + 2)) s3 ∧ s2.code (s.next + 2) = [] ∧
      (s3.cur, tryDst s p q) ∈ F.edges) ∧
    (q = false → WF ((tryS3 s s2 s3 p q).setCur (tryFinB s p)) ∧
      Fin F True ((tryS3 s s2 s3 p q).setCur (tryFinB s p)) s4 ∧ (tryS3 s s2 s3 p q).code (tryFinB s p) = [] ∧
      (s4.cur, s.next + 1) ∈ F.edges ∧ (s.next, tryFinB s p) ∈ F.edges) ∧
    (∀ r o tl, e.tcs = (r, o) :: tl → ((if q then s.next else tryFinB s p), r) ∈ F.edges) ∧
    s'.cur = s.next + 1 ∧ s'.code s'.cur = [] := by
  have hb := build_try hp hq e' e1 e2 e3 e4
  have hsc := hw.cur
  have hsf := hw.fresh
  have w0 : WF (tryS0 s p q) := wf_open hw rfl (by simp [tryS0]; omega) (by simp [tryS0]; omega)
  have h1 := build_frame body (tryEnv e s p q) _ w0
  rw [e1] at h1
  have w1 := h1.wf w0
  have w1' : WF (tryS1 s s1 p q) := ((Eds.refl s1).edge _ _).wf w1
  have h2 := build_frame hs (tryEnv e s p q) _ w1'
  rw [e2] at h2
  have w2 := h2.wf w1'
  have n2 : s.next + 2 + (if p then 0 else 1) + (if q then 0 else 1) ≤ s2.next := by
    have q1 := h1.next
    have q2 := h2.next
    simp only [tryS0, tryS1, edge_next] at q1 q2
    omega
  have m3 : Stage s2 (tryS3 s s2 s3 p q) (s.next + 2) := by
    cases p with
    | true => exact Stage.refl w2.fresh
    | false =>
      simp only [tryS3, Bool.false_eq_true, if_false] at n2 ⊢
      rw [← e3]
      exact (Frame.stage (build_frame els _ (s2.setCur (s.next + 2)) ⟨by simp; omega, w2.fresh⟩)).edge _ _
  have w3 : p = false → WF (s2.setCur (s.next + 2)) := by
    intro hp'
    subst hp'
    simp only [Bool.false_eq_true, if_false] at n2
    exact ⟨by simp; omega, w2.fresh⟩
  have z3 : p = false → Frame True (s2.setCur (s.next + 2)) s3 := by
    intro hp'
    have := build_frame els (tryEnv e s p q) _ (w3 hp')
    rw [e3] at this
    exact ⟨this.next, this.cur, this.code, this.pre, this.fresh, this.edges, fun _ => this.keep (by simp [tryEnv])⟩
  have w4 : q = false → WF ((tryS3 s s2 s3 p q).setCur (tryFinB s p)) := by
    intro hq'
    have q3 := m3.next
    refine ⟨?_, m3.fresh⟩
    subst hq'
    simp only [Bool.false_eq_true, if_false] at n2
    simp only [setCur_cur, setCur_next, tryFinB]
    split at n2 <;> simp_all <;> omega
  have z4 : q = false → Frame (e.tcs ≠ []) ((tryS3 s s2 s3 p q).setCur (tryFinB s p)) s4 := by
    intro hq'
    have := build_frame fin e _ (w4 hq')
    rw [e4] at this
    exact this
  have ed := toRoute_eds e (tryS4 s (tryS3 s s2 s3 p q) s4 p q) (if q then s.next else tryFinB s p)
  have er : ∀ r o tl, e.tcs = (r, o) :: tl → ((if q then s.next else tryFinB s p), r) ∈
      ((tryS4 s (tryS3 s s2 s3 p q) s4 p q).toRoute e (if q then s.next else tryFinB s p)).edges := by
    intro r o tl ht
    unfold B.toRoute
    rw [ht]
    simp
  generalize (tryS4 s (tryS3 s s2 s3 p q) s4 p q).toRoute e (if q then s.next else tryFinB s p) = s6 at *
  obtain ⟨f1, f2, f3, f4⟩ := ed
  replace f1 := fun b => congrFun f1 b
  subst hb
  have y1 := Fin.ofClosed (F := F) h1
  have y2 := Fin.ofClosed (F := F) h2
  have y3 := fun h => Fin.ofClosed (F := F) (z3 h)
  have y4 := fun h => Fin.ofClosed (F := F) (z4 h)
  obtain ⟨a1, a2, a3, a4, a5, a6, a7⟩ := h1
  obtain ⟨b1, b2, b3, b4, b5, b6, b7⟩ := h2
  obtain ⟨d1, d2, d3, d4, d5⟩ := h
  replace a7 := a7 (by simp [tryEnv])
  replace b7 := b7 (by simp [tryEnv])
  clear e1 e2 e3 e4 a4 b4
  have k1 := w1.cur
  have k2 := w2.cur
  simp only [tryS0, tryS1] at *
  bsimp
  cases p with
  | true =>
    cases q with
    | true =>
      simp only [tryS3, tryS4, tryFinB, tryDst, Bool.false_eq_true, if_false, if_true] at *
      clear z3 z4 w3 w4 m3 y3 y4
      have g2 : ∀ x, x ∈ s2.edges → x ∈ F.edges := fun x hx => d1 x (f4 x hx)
      have g1 : ∀ x, x ∈ s1.edges → x ∈ F.edges := fun x hx => g2 x (b6 x (.inr hx))
      have g0 := g2 _ (b6 _ (.inl rfl))
      have er' := fun r o tl ht => d1 _ (er r o tl ht)
      refine ⟨w0, y1 g1 ?_ ?_, w1', y2 g2 ?_ ?_, ?_, g0, (nomatch ·), (nomatch ·), er', trivial, ?_⟩
      all_goals clear y1 y2 d1 er er' a6 b6 f4 g1 g2 g0 hw w0 w1 w1' w2
      all_goals grind
    | false =>
      simp only [tryS3, tryS4, tryFinB, tryDst, Bool.false_eq_true, if_false, if_true] at *
      obtain ⟨t1, t2, t3, t4, t5, t6, t7⟩ := z4 trivial
      replace w4 := w4 trivial
      replace y4 := y4 trivial
      clear z3 z4 w3 m3 y3 t4
      bsimp
      have g3 : ∀ x, x ∈ s4.edges → x ∈ F.edges := fun x hx => d1 x (f4 x (.inr (.inr hx)))
      have g2 : ∀ x, x ∈ s2.edges → x ∈ F.edges := fun x hx => g3 x (t6 x hx)
      have g1 : ∀ x, x ∈ s1.edges → x ∈ F.edges := fun x hx => g2 x (b6 x (.inr hx))
      have g0 := g2 _ (b6 _ (.inl rfl))
      have er' := fun r o tl ht => d1 _ (er r o tl ht)
      have g5 := d1 _ (f4 _ (.inl rfl))
      have g6 := d1 _ (f4 _ (.inr (.inl rfl)))
      refine ⟨w0, y1 g1 ?_ ?_, w1', y2 g2 ?_ ?_, ?_, g0, (nomatch ·), fun _ => ⟨w4, y4 g3 ?_ ?_, ?_, g6, g5⟩, er',
        trivial, ?_⟩
      all_goals clear y1 y2 y4 d1 er er' a6 b6 f4 g1 g2 g0 g5 g6 g3 hw w0 w1 w1' w2 w4 t6
      all_goals grind
  | false =>
    obtain ⟨s3e, he3⟩ : ∃ s3e, tryS3 s s2 s3 false q = s3e := ⟨_, rfl⟩
    obtain ⟨u1, u2, u3, u4, u5, u6, u7⟩ := z3 rfl
    replace w3 := w3 rfl
    replace y3 := y3 rfl
    cases q with
    | true =>
      simp only [tryS3, tryS4, tryFinB, tryDst, Bool.false_eq_true, if_false, if_true] at *
      clear z3 z4 w4 m3 y4 u4
      bsimp
      have g3 : ∀ x, x ∈ s3.edges → x ∈ F.edges := fun x hx => d1 x (f4 x (.inr hx))
      have g2 : ∀ x, x ∈ s2.edges → x ∈ F.edges := fun x hx => g3 x (u6 x hx)
      have g1 : ∀ x, x ∈ s1.edges → x ∈ F.edges := fun x hx => g2 x (b6 x (.inr hx))
      have g0 := g2 _ (b6 _ (.inl rfl))
      have er' := fun r o tl ht => d1 _ (er r o tl ht)
      have g5 := d1 _ (f4 _ (.inl rfl))
      refine ⟨w0, y1 g1 ?_ ?_, w1', y2 g2 ?_ ?_, ?_, g0, fun _ => ⟨w3, y3 g3 ?_ ?_, ?_, g5⟩, (nomatch ·), er',
        trivial, ?_⟩
      all_goals clear y1 y2 y3 d1 er er' a6 b6 f4 g1 g2 g0 g5 g3 hw w0 w1 w1' w2 w3 u6 he3
      all_goals grind
    | false =>
      simp only [tryS3, tryS4, tryFinB, tryDst, Bool.false_eq_true, if_false, if_true] at *
      obtain ⟨t1, t2, t3, t4, t5, t6, t7⟩ := z4 trivial
      replace w4 := w4 trivial
      replace y4 := y4 trivial
      clear z3 z4 m3 u4 t4
      bsimp
      have g4 : ∀ x, x ∈ s4.edges → x ∈ F.edges := fun x hx => d1 x (f4 x (.inr (.inr hx)))
      have g3 : ∀ x, x ∈ s3.edges → x ∈ F.edges := fun x hx => g4 x (t6 x (.inr hx))
      have g2 : ∀ x, x ∈ s2.edges → x ∈ F.edges := fun x hx => g3 x (u6 x hx)
      have g1 : ∀ x, x ∈ s1.edges → x ∈ F.edges := fun x hx => g2 x (b6 x (.inr hx))
      have g0 := g2 _ (b6 _ (.inl rfl))
      have er' := fun r o tl ht => d1 _ (er r o tl ht)
      have g5 := d1 _ (f4 _ (.inl rfl))
      have g6 := d1 _ (f4 _ (.inr (.inl rfl)))
      have g7 := g4 _ (t6 _ (.inl rfl))
      refine ⟨w0, y1 g1 ?_ ?_, w1', y2 g2 ?_ ?_, ?_, g0, fun _ => ⟨w3, y3 g3 ?_ ?_, ?_, g7⟩,
        fun _ => ⟨w4, y4 g4 ?_ ?_, ?_, g6, g5⟩, er', trivial, ?_⟩
      all_goals clear y1 y2 y3 y4 d1 er er' a6 b6 f4 g1 g2 g0 g5 g6 g3 g4 g7 hw w0 w1 w1' w2 w3 w4 u6 t6 he3
      all_goals grind

end Codon.Flow
