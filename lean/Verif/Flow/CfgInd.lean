import Verif.Flow.CfgExec
/-!
# C08: the graph has every execution, the induction over executions

Helper lemmas for `CfgProps`.
-/
namespace Codon.Flow

/-- What is proved of each way to execute something, in a finished graph `F`. -/
def Claim (F : B) : Mode → Outc → List Instr → Prop
  | .node n, o, t => ∀ e s, WF s → EnvOk e → good n e.absT e.absL = true →
      Fin F (n.opn = true ∨ e.tcs ≠ []) s (build n e s) →
      ∃ c j, Go F s.cur (s.code s.cur).length t c j ∧
        Tgt F e (build n e s).cur ((build n e s).code (build n e s).cur).length o c j
  | .whileAt l c b, o, t => ∀ e s x, WF s → EnvOk e → good (.while_ l c b) e.absT e.absL = true →
      Fin F x s (build (.while_ l c b) e s) →
      ∃ c j, Go F (s.next + 1) 0 t c j ∧ Tgt F e s.next 0 o c j
  | .forAt l mr a b, o, t => ∀ e s it x, WF s → EnvOk e → good (.for_ l mr a it b) e.absT e.absL = true →
      Fin F x s (build (.for_ l mr a it b) e s) →
      ∃ c j, Go F (build it e (whileS1 s)).next 0 t c j ∧ Tgt F e s.next 0 o c j
  | .impAt _ _ _ _, _, _ => True
  | .core body hs els, o, t => ∀ e s fin x, WF s → EnvOk e → good (.tryc body hs els fin) e.absT e.absL = true →
      Fin F x s (build (.tryc body hs els fin) e s) →
      ∃ c j, Go F s.cur (s.code s.cur).length t c j ∧
        Tgt F (tryEnv e s els.isSkip fin.isSkip) (tryDst s els.isSkip fin.isSkip) 0 o c j
  | .clauses hs, o, t => ∀ e s r oo tl, WF s → EnvOk e → good hs e.absT e.absL = true → e.tcs = (r, oo) :: tl →
      F.code r = [] → Fin F True s (build hs e s) →
      ∃ c j, Go F r 0 t c j ∧ Tgt F e e.dst 0 o c j

theorem Go.to {F : B} {b i t c j d} (h : Go F b i t c j) {s : B} (hj : j = (s.code c).length)
    (hc : F.code c = s.code c) (he : (c, d) ∈ F.edges) : Go F b i t d 0 :=
  h.edge (by rw [hj, hc]) he

theorem Fin.top {F : B} {s s' : B} (h : Fin F True s s') (c : Prop) : Fin F c s s' := h.mono fun _ => trivial

theorem Fin.close {F : B} {s s' : B} (h : Fin F True s s') : F.code s'.cur = s'.code s'.cur := h.clo trivial

theorem exec_stop (F : B) (n : Node) : Claim F (.node n) .stop [] :=
  fun _ _ _ _ _ _ => ⟨_, _, .refl _ _, trivial⟩

theorem exec_op (F : B) (i : Instr) : Claim F (.node (.op i)) .normal [i] := by
  intro e s hw _ _ hf
  obtain ⟨h1, -⟩ := insert_go hw hf fun h => .inr h
  exact ⟨_, _, h1, rfl, rfl⟩

theorem exec_opRaise (F : B) (i : Instr) : Claim F (.node (.op i)) .raise [i] := by
  intro e s hw _ _ hf
  obtain ⟨h1, h2⟩ := insert_go hw hf fun h => .inr h
  cases ht : e.tcs with
  | nil => exact ⟨_, _, h1, fun r o tl hx => by rw [ht] at hx; cases hx⟩
  | cons x tl =>
    obtain ⟨r, o⟩ := x
    exact ⟨r, 0, h2 r o tl ht, fun r' o' tl' hx => by rw [ht] at hx; cases hx; exact ⟨rfl, rfl⟩⟩

theorem seq_split {F : B} {a b : Node} {e : Env} {s : B} (hw : WF s) (hg : good (.seq a b) e.absT e.absL = true)
    (hf : Fin F ((Node.seq a b).opn = true ∨ e.tcs ≠ []) s (build (.seq a b) e s)) :
    good a e.absT e.absL = true ∧ good b e.absT e.absL = true ∧ WF (build a e s) ∧
    Fin F (a.opn = true ∨ e.tcs ≠ []) s (build a e s) ∧
    Fin F (b.opn = true ∨ e.tcs ≠ []) (build a e s) (build b e (build a e s)) := by
  simp only [good, Bool.and_eq_true, Bool.not_eq_true'] at hg
  obtain ⟨⟨h1, h2⟩, h3⟩ := hg
  have f1 := build_frame a e s hw
  have f2 := build_frame b e _ (f1.wf hw)
  obtain ⟨q1, q2⟩ := Fin.split hw f1 f2 hf fun h => .inr h
  refine ⟨h1, h2, f1.wf hw, q1.mono ?_, q2⟩
  rintro (h | h)
  · rw [h3] at h; cases h
  · exact h

theorem exec_seq {F : B} {a b : Node} {o : Outc} {t1 t2 : List Instr} (ih1 : Claim F (.node a) .normal t1)
    (ih2 : Claim F (.node b) o t2) : Claim F (.node (.seq a b)) o (t1 ++ t2) := by
  intro e s hw he hg hf
  obtain ⟨g1, g2, w, f1, f2⟩ := seq_split hw hg hf
  obtain ⟨c, j, h1, rfl, rfl⟩ := ih1 e s hw he g1 f1
  obtain ⟨c, j, h2, h3⟩ := ih2 e _ w he g2 f2
  exact ⟨c, j, h1.trans h2, h3⟩

theorem exec_seqOut {F : B} {a b : Node} {o : Outc} {t1 : List Instr} (ih1 : Claim F (.node a) o t1)
    (ho : o ≠ .normal) : Claim F (.node (.seq a b)) o t1 := by
  intro e s hw he hg hf
  obtain ⟨g1, g2, w, f1, f2⟩ := seq_split hw hg hf
  obtain ⟨c, j, h1, h2⟩ := ih1 e s hw he g1 f1
  exact ⟨c, j, h1, h2.other ho⟩

theorem exec_ite {F : B} {cn t f : Node} {o : Outc} {t1 t2 : List Instr} (ih1 : Claim F (.node cn) .normal t1)
    (ih2 : Claim F (.node t) o t2 ∨ (Claim F (.node f) o t2 ∧ Exec (.node f) o t2)) :
    Claim F (.node (.ite cn t f)) o (t1 ++ t2) := by
  intro e s hw he hg hf
  simp only [good, Bool.and_eq_true] at hg
  obtain ⟨⟨g1, g2⟩, g3⟩ := hg
  obtain ⟨f1, f2, w1, w2, c2, e1, e2, hcur, hcode, hs1, hs2⟩ := ite_parts hw rfl rfl rfl rfl hf
  obtain ⟨c, j, h1, rfl, rfl⟩ := ih1 e s hw he g1 (f1.top _)
  rw [hcode, hcur]
  have norm : ∀ {b i tr c j nc nj} , Go F b i tr c j → Tgt F e nc nj o c j →
      (o = .normal → Go F c j [] (build cn e s).next 0) →
      ∃ c j, Go F b i tr c j ∧ Tgt F e (build cn e s).next 0 o c j := by
    intro b i tr c j nc nj q1 q2 q3
    by_cases ho : o = .normal
    · subst ho
      exact ⟨_, _, (q1.trans (q3 rfl)).cast (List.append_nil _), rfl, rfl⟩
    · exact ⟨_, _, q1, q2.other ho⟩
  rcases ih2 with ih2 | ⟨ih2, hx⟩
  · have h2 := h1.to rfl f1.close e1
    obtain ⟨c, j, h3, h4⟩ := ih2 e _ w2 he g2 (f2.top _)
    rw [c2] at h3
    refine norm (h2.trans h3) h4 fun ho => ?_
    subst ho
    obtain ⟨rfl, rfl⟩ := h4
    exact (Go.refl _ _).to rfl f2.close e2
  · cases hsk : f.isSkip with
    | true =>
      have hf' : f = .skip := by cases f <;> simp [Node.isSkip] at hsk ⊢
      subst hf'
      have h2 := h1.to rfl f1.close (hs1 hsk)
      cases hx with
      | stop => exact ⟨_, _, by simpa using h2, trivial⟩
      | skip => exact ⟨_, _, by simpa using h2, rfl, rfl⟩
    | false =>
      obtain ⟨w4, f4, c4, e4, e5⟩ := hs2 hsk
      have h2 := h1.to rfl f1.close e4
      obtain ⟨c, j, h3, h4⟩ := ih2 e _ w4 he g3 (f4.top _)
      rw [c4] at h3
      refine norm (h2.trans h3) h4 fun ho => ?_
      subst ho
      obtain ⟨rfl, rfl⟩ := h4
      exact (Go.refl _ _).to rfl f4.close e5

theorem exec_iteOut {F : B} {c t f : Node} {o : Outc} {t1 : List Instr} (ih1 : Claim F (.node c) o t1)
    (ho : o ≠ .normal) : Claim F (.node (.ite c t f)) o t1 := by
  intro e s hw he hg hf
  simp only [good, Bool.and_eq_true] at hg
  obtain ⟨⟨g1, g2⟩, g3⟩ := hg
  obtain ⟨f1, -⟩ := ite_parts hw rfl rfl rfl rfl hf
  obtain ⟨c, j, h1, h2⟩ := ih1 e s hw he g1 (f1.top _)
  exact ⟨c, j, h1, h2.other ho⟩

theorem exec_ternOut {F : B} {c t f : Node} {phi : Instr} {o : Outc} {t1 : List Instr}
    (ih1 : Claim F (.node c) o t1) (ho : o ≠ .normal) : Claim F (.node (.tern c t f phi)) o t1 := by
  intro e s hw he hg hf
  simp only [good, Bool.and_eq_true] at hg
  obtain ⟨⟨g1, g2⟩, g3⟩ := hg
  obtain ⟨w0, f1, k1, k2, -⟩ := tern_parts hw rfl rfl rfl rfl hf
  obtain ⟨c, j, h1, h2⟩ := ih1 e _ w0 he g1 (f1.top _)
  rw [k1, k2] at h1
  exact ⟨c, j, h1, h2.other ho⟩

theorem exec_tern {F : B} {c t f : Node} {phi : Instr} {t1 t2 : List Instr} (ih1 : Claim F (.node c) .normal t1)
    (ih2 : Claim F (.node t) .normal t2 ∨ Claim F (.node f) .normal t2) :
    Claim F (.node (.tern c t f phi)) .normal (t1 ++ t2 ++ [phi]) := by
  intro e s hw he hg hf
  simp only [good, Bool.and_eq_true] at hg
  obtain ⟨⟨g1, g2⟩, g3⟩ := hg
  have hp := hf.pre
  obtain ⟨w0, f1, k1, k2, w2, f2, c2, w4, f4, c4, e1, e2, e3, e4, hcur, hcode⟩ := tern_parts hw rfl rfl rfl rfl hf
  obtain ⟨c, j, h1, rfl, rfl⟩ := ih1 e _ w0 he g1 (f1.top _)
  rw [k1, k2] at h1
  rw [hcode, hcur] at hp
  rw [hcode, hcur]
  have hph : Go F s.next 0 [phi] s.next 1 := go_prefix (u := []) hp
  rcases ih2 with ih2 | ih2
  · have h2 := h1.to rfl f1.close e1
    obtain ⟨c, j, h3, rfl, rfl⟩ := ih2 e _ w2 he g2 (f2.top _)
    rw [c2] at h3
    exact ⟨_, _, ((h2.trans h3).to rfl f2.close e3).trans hph, rfl, rfl⟩
  · have h2 := h1.to rfl f1.close e2
    obtain ⟨c, j, h3, rfl, rfl⟩ := ih2 e _ w4 he g3 (f4.top _)
    rw [c4] at h3
    exact ⟨_, _, ((h2.trans h3).to rfl f4.close e4).trans hph, rfl, rfl⟩

theorem exec_ternArm {F : B} {c t f : Node} {phi : Instr} {o : Outc} {t1 t2 : List Instr}
    (ih1 : Claim F (.node c) .normal t1) (ho : o ≠ .normal)
    (ih2 : Claim F (.node t) o t2 ∨ Claim F (.node f) o t2) :
    Claim F (.node (.tern c t f phi)) o (t1 ++ t2) := by
  intro e s hw he hg hf
  simp only [good, Bool.and_eq_true] at hg
  obtain ⟨⟨g1, g2⟩, g3⟩ := hg
  obtain ⟨w0, f1, k1, k2, w2, f2, c2, w4, f4, c4, e1, e2, e3, e4, hcur, hcode⟩ := tern_parts hw rfl rfl rfl rfl hf
  obtain ⟨c, j, h1, rfl, rfl⟩ := ih1 e _ w0 he g1 (f1.top _)
  rw [k1, k2] at h1
  rcases ih2 with ih2 | ih2
  · have h2 := h1.to rfl f1.close e1
    obtain ⟨c, j, h3, h4⟩ := ih2 e _ w2 he g2 (f2.top _)
    rw [c2] at h3
    exact ⟨_, _, h2.trans h3, h4.other ho⟩
  · have h2 := h1.to rfl f1.close e2
    obtain ⟨c, j, h3, h4⟩ := ih2 e _ w4 he g3 (f4.top _)
    rw [c4] at h3
    exact ⟨_, _, h2.trans h3, h4.other ho⟩

/-! ### `while` -/

/-- The parts of a well-behaved `while`. -/
theorem while_good {F : B} {l : Nat} {c b : Node} {e : Env} {s : B} {x : Prop} (hw : WF s)
    (hg : good (.while_ l c b) e.absT e.absL = true) (hf : Fin F x s (build (.while_ l c b) e s)) :
    c.straight = true ∧ e.tcs = [] ∧ e.absL.all (·.1 != l) = true ∧
    ∀ t1, Exec (.node c) .normal t1 → Go F (s.next + 1) 0 t1 s.next 0 ∧
      Go F (s.next + 1) 0 t1 (whileS3 s (build c e (whileS1 s))).cur 0 := by
  simp only [good, Bool.and_eq_true] at hg
  obtain ⟨⟨⟨g1, g2⟩, g3⟩, g4⟩ := hg
  have ht : e.tcs = [] := by simpa [Env.absT] using g2
  obtain ⟨k0, e0, w1, f1, c1, w3, f3, c3, e1, e2, e3, hcur, hcode⟩ := while_parts hw rfl rfl rfl hf
  refine ⟨g1, ht, g4, fun t1 hx => ?_⟩
  obtain ⟨q1, -⟩ := straight_go g1 (c := True) (fun _ => trivial) _ w1 f1
  rw [← straight_exec g1 hx] at q1
  have hcu := straight_cur g1 ht (whileS1 s)
  have hcl := f1.close
  rw [c1] at q1
  refine ⟨q1.to rfl hcl e1, q1.to rfl hcl ?_⟩
  rw [hcu]
  exact e2

theorem exec_while {F : B} {l : Nat} {c b : Node} {o : Outc} {t : List Instr} (ih : Claim F (.whileAt l c b) o t) :
    Claim F (.node (.while_ l c b)) o t := by
  intro e s hw he hg hf
  obtain ⟨c, j, h1, h2⟩ := ih e s _ hw he hg hf
  obtain ⟨k0, e0, w1, f1, c1, w3, f3, c3, e1, e2, e3, hcur, hcode⟩ := while_parts hw rfl rfl rfl hf
  rw [hcode, hcur]
  exact ⟨c, j, ((Go.refl _ _).to rfl k0 e0).trans h1, h2⟩

theorem exec_whileEnd {F : B} {l : Nat} {c b : Node} {t : List Instr} (hx : Exec (.node c) .normal t) :
    Claim F (.whileAt l c b) .normal t := by
  intro e s x hw he hg hf
  exact ⟨_, _, ((while_good hw hg hf).2.2.2 t hx).1, rfl, rfl⟩

theorem exec_whileOut {F : B} {l : Nat} {c b : Node} {o : Outc} {t : List Instr} (ih : Claim F (.node c) o t)
    (ho : o ≠ .normal) : Claim F (.whileAt l c b) o t := by
  intro e s x hw he hg hf
  obtain ⟨g1, -⟩ := while_good hw hg hf
  obtain ⟨k0, e0, w1, f1, c1, -⟩ := while_parts hw rfl rfl rfl hf
  obtain ⟨c, j, h1, h2⟩ := ih e _ w1 he (straight_good g1 _ _).1 (f1.top _)
  rw [c1] at h1
  exact ⟨c, j, h1, h2.other ho⟩

/-- One round, up to the end of the body. -/
theorem while_body {F : B} {l : Nat} {c b : Node} {o : Outc} {t1 t2 : List Instr} (hx : Exec (.node c) .normal t1)
    (ih : Claim F (.node b) o t2) {e : Env} {s : B} {x : Prop} (hw : WF s) (he : EnvOk e)
    (hg : good (.while_ l c b) e.absT e.absL = true) (hf : Fin F x s (build (.while_ l c b) e s)) :
    ∃ c j, Go F (s.next + 1) 0 (t1 ++ t2) c j ∧ (o = .normal → Go F c j [] (s.next + 1) 0) ∧
      (o = .brk l → c = s.next ∧ j = 0) ∧ (o = .cont l → c = s.next + 1 ∧ j = 0) ∧
      (o.leaves l → Tgt F e s.next 0 o c j) := by
  obtain ⟨g1, ht, g4, hgo⟩ := while_good hw hg hf
  obtain ⟨k0, e0, w1, f1, c1, w3, f3, c3, e1, e2, e3, hcur, hcode⟩ := while_parts hw rfl rfl rfl hf
  have g3 : good b e.absT (e.absL ++ [(l, e.absT.length)]) = true := by
    simp only [good, Bool.and_eq_true] at hg
    exact hg.1.2
  rw [← absL_loop e (s.next + 1) s.next l] at g3
  obtain ⟨c, j, h1, h2⟩ := ih _ _ w3 (envOk_loop he _ _ _) g3 (f3.top _)
  rw [c3] at h1
  refine ⟨c, j, (hgo t1 hx).2.trans h1, ?_, tgt_loop g4 h2⟩
  rintro rfl
  obtain ⟨rfl, rfl⟩ := h2
  exact (Go.refl _ _).to rfl f3.close e3

theorem exec_whileLoop {F : B} {l : Nat} {c b : Node} {o1 o : Outc} {t1 t2 t3 : List Instr}
    (hx : Exec (.node c) .normal t1) (ih2 : Claim F (.node b) o1 t2) (ho : o1.loops l)
    (ih3 : Claim F (.whileAt l c b) o t3) : Claim F (.whileAt l c b) o (t1 ++ t2 ++ t3) := by
  intro e s x hw he hg hf
  obtain ⟨c, j, h1, h2, -, h4, -⟩ := while_body hx ih2 hw he hg hf
  obtain ⟨c', j', h5, h6⟩ := ih3 e s x hw he hg hf
  refine ⟨c', j', ?_, h6⟩
  rcases ho with rfl | rfl
  · exact h1.trans ((h2 rfl).trans h5)
  · obtain ⟨rfl, rfl⟩ := h4 rfl
    exact h1.trans h5

theorem exec_whileBrk {F : B} {l : Nat} {c b : Node} {t1 t2 : List Instr} (hx : Exec (.node c) .normal t1)
    (ih2 : Claim F (.node b) (.brk l) t2) : Claim F (.whileAt l c b) .normal (t1 ++ t2) := by
  intro e s x hw he hg hf
  obtain ⟨c, j, h1, -, h3, -, -⟩ := while_body hx ih2 hw he hg hf
  exact ⟨c, j, h1, h3 rfl⟩

theorem exec_whileBody {F : B} {l : Nat} {c b : Node} {o : Outc} {t1 t2 : List Instr}
    (hx : Exec (.node c) .normal t1) (ih2 : Claim F (.node b) o t2) (ho : o.leaves l) :
    Claim F (.whileAt l c b) o (t1 ++ t2) := by
  intro e s x hw he hg hf
  obtain ⟨c, j, h1, -, -, -, h5⟩ := while_body hx ih2 hw he hg hf
  exact ⟨c, j, h1, h5 ho⟩

/-! ### `for` -/

theorem exec_for {F : B} {l : Nat} {mr : Bool} {a : Instr} {it b : Node} {o : Outc} {t1 t2 : List Instr}
    (ih1 : Claim F (.node it) .normal t1) (ih2 : Claim F (.forAt l mr a b) o t2) :
    Claim F (.node (.for_ l mr a it b)) o (t1 ++ t2) := by
  intro e s hw he hg hf
  have hg' := hg
  simp only [good, Bool.and_eq_true] at hg'
  obtain ⟨⟨⟨g1, g2⟩, g3⟩, g4⟩ := hg'
  obtain ⟨k0, e0, w1, f1, c1, w3, f3, c3, e1, k1, e2, e3, k2, e4, e5, hcur, hcode⟩ := for_parts hw rfl rfl rfl hf
  obtain ⟨c, j, h1, rfl, rfl⟩ := ih1 e _ w1 he g2 (f1.top _)
  obtain ⟨c, j, h2, h3⟩ := ih2 e s it _ hw he hg hf
  rw [c1] at h1
  rw [hcode, hcur]
  exact ⟨c, j, ((Go.refl _ _).to rfl k0 e0).trans ((h1.to rfl f1.close e1).trans h2), h3⟩

theorem exec_forOut {F : B} {l : Nat} {mr : Bool} {a : Instr} {it b : Node} {o : Outc} {t1 : List Instr}
    (ih1 : Claim F (.node it) o t1) (ho : o ≠ .normal) : Claim F (.node (.for_ l mr a it b)) o t1 := by
  intro e s hw he hg hf
  have hg' := hg
  simp only [good, Bool.and_eq_true] at hg'
  obtain ⟨⟨⟨g1, g2⟩, g3⟩, g4⟩ := hg'
  obtain ⟨k0, e0, w1, f1, c1, -⟩ := for_parts hw rfl rfl rfl hf
  obtain ⟨c, j, h1, h2⟩ := ih1 e _ w1 he g2 (f1.top _)
  rw [c1] at h1
  exact ⟨c, j, ((Go.refl _ _).to rfl k0 e0).trans h1, h2.other ho⟩

theorem exec_forEnd (F : B) {l : Nat} {mr : Bool} {a : Instr} {b : Node} : Claim F (.forAt l mr a b) .normal [] := by
  intro e s it x hw he hg hf
  obtain ⟨k0, e0, w1, f1, c1, w3, f3, c3, e1, k1, e2, e3, k2, e4, e5, hcur, hcode⟩ := for_parts hw rfl rfl rfl hf
  exact ⟨_, _, (Go.refl _ _).edge (by rw [k1]; rfl) e2, rfl, rfl⟩

theorem exec_forRaise (F : B) {l : Nat} {a : Instr} {b : Node} : Claim F (.forAt l true a b) .raise [] := by
  intro e s it x hw he hg hf
  simp only [good, Bool.and_eq_true] at hg
  have ht : e.tcs = [] := by simpa [Env.absT] using hg.1.1.1
  exact ⟨_, _, .refl _ _, fun r o tl h => by rw [ht] at h; cases h⟩

theorem for_body {F : B} {l : Nat} {mr : Bool} {a : Instr} {it b : Node} {o : Outc} {t2 : List Instr}
    (ih : Claim F (.node b) o t2) {e : Env} {s : B} {x : Prop} (hw : WF s) (he : EnvOk e)
    (hg : good (.for_ l mr a it b) e.absT e.absL = true) (hf : Fin F x s (build (.for_ l mr a it b) e s)) :
    ∃ c j, Go F (build it e (whileS1 s)).next 0 ([a] ++ t2) c j ∧
      (o = .normal → Go F c j [] (build it e (whileS1 s)).next 0) ∧
      (o = .brk l → c = s.next ∧ j = 0) ∧ (o = .cont l → c = (build it e (whileS1 s)).next ∧ j = 0) ∧
      (o.leaves l → Tgt F e s.next 0 o c j) := by
  simp only [good, Bool.and_eq_true] at hg
  obtain ⟨⟨⟨g1, g2⟩, g3⟩, g4⟩ := hg
  obtain ⟨k0, e0, w1, f1, c1, w3, f3, c3, e1, k1, e2, e3, k2, e4, e5, hcur, hcode⟩ := for_parts hw rfl rfl rfl hf
  rw [← absL_loop e (build it e (whileS1 s)).next s.next l] at g3
  obtain ⟨c, j, h1, h2⟩ := ih _ _ w3 (envOk_loop he _ _ _) g3 (f3.top _)
  rw [c3] at h1
  have q1 : Go F (build it e (whileS1 s)).next 0 [] ((build it e (whileS1 s)).next + 1) 0 :=
    (Go.refl _ _).edge (by rw [k1]; rfl) e3
  have q2 : Go F ((build it e (whileS1 s)).next + 1) 0 [a] ((build it e (whileS1 s)).next + 1) 1 :=
    go_prefix (u := []) (by rw [k2]; exact List.prefix_rfl)
  have q3 := (q1.trans q2).edge (by rw [k2]; rfl) e4
  refine ⟨c, j, q3.trans h1, ?_, tgt_loop g4 h2⟩
  rintro rfl
  obtain ⟨rfl, rfl⟩ := h2
  exact (Go.refl _ _).to rfl f3.close e5

theorem exec_forLoop {F : B} {l : Nat} {mr : Bool} {a : Instr} {b : Node} {o1 o : Outc} {t2 t3 : List Instr}
    (ih2 : Claim F (.node b) o1 t2) (ho : o1.loops l) (ih3 : Claim F (.forAt l mr a b) o t3) :
    Claim F (.forAt l mr a b) o ([a] ++ t2 ++ t3) := by
  intro e s it x hw he hg hf
  obtain ⟨c, j, h1, h2, -, h4, -⟩ := for_body ih2 hw he hg hf
  obtain ⟨c', j', h5, h6⟩ := ih3 e s it x hw he hg hf
  refine ⟨c', j', ?_, h6⟩
  rcases ho with rfl | rfl
  · exact h1.trans ((h2 rfl).trans h5)
  · obtain ⟨rfl, rfl⟩ := h4 rfl
    exact h1.trans h5

theorem exec_forBrk {F : B} {l : Nat} {mr : Bool} {a : Instr} {b : Node} {t2 : List Instr}
    (ih2 : Claim F (.node b) (.brk l) t2) : Claim F (.forAt l mr a b) .normal ([a] ++ t2) := by
  intro e s it x hw he hg hf
  obtain ⟨c, j, h1, -, h3, -, -⟩ := for_body ih2 hw he hg hf
  exact ⟨c, j, h1, h3 rfl⟩

theorem exec_forBody {F : B} {l : Nat} {mr : Bool} {a : Instr} {b : Node} {o : Outc} {t2 : List Instr}
    (ih2 : Claim F (.node b) o t2) (ho : o.leaves l) : Claim F (.forAt l mr a b) o ([a] ++ t2) := by
  intro e s it x hw he hg hf
  obtain ⟨c, j, h1, -, -, -, h5⟩ := for_body ih2 hw he hg hf
  exact ⟨c, j, h1, h5 ho⟩

/-! ### Jumps -/

theorem exec_brk (F : B) (l : Nat) : Claim F (.node (.brk l)) (.brk l) [] := by
  intro e s hw he hg hf
  obtain ⟨lp, h1, h2⟩ := jumpGood_spec (e := e) (l := l) hg
  have hb : build (.brk l) e s = (s.jump e (some lp.end) lp.tcLen).insert e none := by simp only [build, h1]
  rw [hb] at hf
  obtain ⟨c, j, h3, h4⟩ := loopJump_go hw h2 (hf.mono fun _ => .inl rfl)
  exact ⟨c, j, h3, lp, h1, h4⟩

theorem exec_cont (F : B) (l : Nat) : Claim F (.node (.cont l)) (.cont l) [] := by
  intro e s hw he hg hf
  obtain ⟨lp, h1, h2⟩ := jumpGood_spec (e := e) (l := l) hg
  have hb : build (.cont l) e s = (s.jump e (some lp.nextIt) lp.tcLen).insert e none := by simp only [build, h1]
  rw [hb] at hf
  obtain ⟨c, j, h3, h4⟩ := loopJump_go hw h2 (hf.mono fun _ => .inl rfl)
  exact ⟨c, j, h3, lp, h1, h4⟩

theorem exec_ret (F : B) : Claim F (.node .ret) .ret [] := by
  intro e s hw he hg hf
  obtain ⟨c, j, h1, h2⟩ := ret_go hw (fun h => .inr h) hf
  exact ⟨c, j, h1, h2⟩

/-! ### `try` -/

theorem try_good {body hs els fin : Node} {e : Env} (s : B)
    (hg : good (.tryc body hs els fin) e.absT e.absL = true) :
    let e' := tryEnv e s els.isSkip fin.isSkip
    good body e'.absT e'.absL = true ∧ good hs e'.absT e'.absL = true ∧ good els e'.absT e'.absL = true ∧
      fin.straight = true := by
  simp only [good, Bool.and_eq_true] at hg
  simp only [absT_try, absL_try]
  exact ⟨hg.1.1.1, hg.1.1.2, hg.1.2, hg.2⟩

theorem exec_coreOut {F : B} {body hs els : Node} {o : Outc} {t1 : List Instr} (ih : Claim F (.node body) o t1)
    (ho : o ≠ .normal) : Claim F (.core body hs els) o t1 := by
  intro e s fin x hw he hg hf
  obtain ⟨g1, g2, g3, g4⟩ := try_good s hg
  obtain ⟨w0, f0, w1, f1, k0, e1, hel, hfi, hro, hcur, hcode⟩ := try_parts hw rfl rfl rfl rfl rfl rfl rfl hf
  obtain ⟨c, j, h1, h2⟩ := ih _ _ w0 (envOk_try he _ _ _) g1 (f0.top _)
  exact ⟨c, j, h1, h2.other ho⟩

theorem exec_coreCaught {F : B} {body hs els : Node} {o : Outc} {t1 t2 : List Instr}
    (ih1 : Claim F (.node body) .raise t1) (ih2 : Claim F (.clauses hs) o t2) :
    Claim F (.core body hs els) o (t1 ++ t2) := by
  intro e s fin x hw he hg hf
  obtain ⟨g1, g2, g3, g4⟩ := try_good s hg
  obtain ⟨w0, f0, w1, f1, k0, e1, hel, hfi, hro, hcur, hcode⟩ := try_parts hw rfl rfl rfl rfl rfl rfl rfl hf
  obtain ⟨c, j, h1, h2⟩ := ih1 _ _ w0 (envOk_try he _ _ _) g1 (f0.top _)
  obtain ⟨rfl, rfl⟩ := h2 _ _ _ rfl
  obtain ⟨c, j, h3, h4⟩ := ih2 _ _ _ _ _ w1 (envOk_try he _ _ _) g2 rfl k0 f1
  exact ⟨c, j, h1.trans h3, h4⟩

theorem exec_coreElse {F : B} {body hs els : Node} {o : Outc} {t1 t2 : List Instr}
    (ih1 : Claim F (.node body) .normal t1) (ih2 : Claim F (.node els) o t2) (hx : Exec (.node els) o t2) :
    Claim F (.core body hs els) o (t1 ++ t2) := by
  intro e s fin x hw he hg hf
  obtain ⟨g1, g2, g3, g4⟩ := try_good s hg
  obtain ⟨w0, f0, w1, f1, k0, e1, hel, hfi, hro, hcur, hcode⟩ := try_parts hw rfl rfl rfl rfl rfl rfl rfl hf
  obtain ⟨c, j, h1, rfl, rfl⟩ := ih1 _ _ w0 (envOk_try he _ _ _) g1 (f0.top _)
  have h2 : Go F s.cur (s.code s.cur).length t1 _ 0 := h1.to rfl f0.close e1
  cases hp : els.isSkip with
  | true =>
    have hf' : els = .skip := by cases els <;> simp [Node.isSkip] at hp ⊢
    subst hf'
    rw [hp] at h2
    simp only [if_true] at h2
    cases hx with
    | stop => exact ⟨_, _, by simpa using h2, trivial⟩
    | skip => exact ⟨_, _, by simpa using h2, rfl, rfl⟩
  | false =>
    rw [hp] at h2 hel g3
    simp only [Bool.false_eq_true, if_false] at h2
    obtain ⟨w3, f3, c3, e3⟩ := hel rfl
    obtain ⟨c, j, h3, h4⟩ := ih2 _ _ w3 (envOk_try he _ _ _) g3 (f3.top _)
    simp only [setCur_cur, setCur_code] at h3
    rw [c3] at h3
    by_cases ho : o = .normal
    · subst ho
      obtain ⟨rfl, rfl⟩ := h4
      exact ⟨_, _, (h2.trans h3).to rfl f3.close e3, rfl, rfl⟩
    · exact ⟨c, j, h2.trans h3, h4.other ho⟩

theorem exec_clause {F : B} {v : Option Instr} {h rest : Node} {o : Outc} {t : List Instr}
    (ih : Claim F (.node h) o t) : Claim F (.clauses (.ctch v h rest)) o (v.toList ++ t) := by
  intro e s r oo tl hw he hg ht hr hf
  simp only [good, Bool.and_eq_true] at hg
  obtain ⟨-, w0, f0, c0, k0, e1, e2, p0, w2, f2⟩ := ctch_parts hw ht rfl rfl hf
  obtain ⟨c, j, h1, h2⟩ := ih _ _ w0 he hg.1 (f0.top _)
  rw [c0, k0] at h1
  have q1 : Go F r 0 [] s.next 0 := (Go.refl _ _).edge (by rw [hr]; rfl) e1
  have q2 : Go F s.next 0 v.toList s.next v.toList.length := go_prefix (u := []) p0
  have q3 := (q1.trans q2).trans h1
  by_cases ho : o = .normal
  · subst ho
    obtain ⟨rfl, rfl⟩ := h2
    exact ⟨_, _, q3.to rfl f0.close e2, rfl, rfl⟩
  · exact ⟨c, j, q3, h2.other ho⟩

theorem exec_clauseNext {F : B} {v : Option Instr} {h rest : Node} {o : Outc} {t : List Instr}
    (ih : Claim F (.clauses rest) o t) : Claim F (.clauses (.ctch v h rest)) o t := by
  intro e s r oo tl hw he hg ht hr hf
  simp only [good, Bool.and_eq_true] at hg
  obtain ⟨hb, w0, f0, c0, k0, e1, e2, p0, w2, f2⟩ := ctch_parts hw ht rfl rfl hf
  rw [← hb] at f2
  exact ih _ _ r oo tl w2 he hg.2 ht hr f2

theorem exec_tryStop {F : B} {body hs els fin : Node} {t1 : List Instr} (ih : Claim F (.core body hs els) .stop t1) :
    Claim F (.node (.tryc body hs els fin)) .stop t1 := by
  intro e s hw he hg hf
  obtain ⟨c, j, h1, h2⟩ := ih e s fin _ hw he hg hf
  exact ⟨c, j, h1, trivial⟩

theorem try_leave {F : B} {body hs els fin : Node} {e : Env} {s : B} {x : Prop} (hw : WF s) (he : EnvOk e)
    (hf : Fin F x s (build (.tryc body hs els fin) e s)) : Leave F e s els.isSkip fin.isSkip := by
  obtain ⟨w0, f0, w1, f1, k0, e1, hel, hfi, hro, hcur, hcode⟩ := try_parts hw rfl rfl rfl rfl rfl rfl rfl hf
  exact ⟨k0, fun hq => (hfi hq).2.2.2.2, hro, he⟩

theorem straight_same {n : Node} (h : n.straight = true) (ho : n.ops = []) {e : Env} {s : B} : build n e s = s := by
  induction n generalizing s with
  | seq a b iha ihb =>
    simp only [Node.straight, Bool.and_eq_true] at h
    simp only [Node.ops, List.append_eq_nil_iff] at ho
    simp only [build]
    rw [iha h.1 ho.1, ihb h.2 ho.2]
  | op i => simp [Node.ops] at ho
  | skip => rfl
  | _ => simp [Node.straight] at h

theorem exec_tryc {F : B} {body hs els fin : Node} {o : Outc} {t1 t2 : List Instr}
    (ih1 : Claim F (.core body hs els) o t1) (ho : o ≠ .stop) (hx : Exec (.node fin) .normal t2) :
    Claim F (.node (.tryc body hs els fin)) o (t1 ++ t2) := by
  intro e s hw he hg hf
  obtain ⟨c, j, h1, h2⟩ := ih1 e s fin _ hw he hg hf
  have hL := try_leave hw he hf
  obtain ⟨g1, g2, g3, g4⟩ := try_good s hg
  obtain ⟨w0, f0, w1, f1, k0, e1, hel, hfi, hro, hcur, hcode⟩ := try_parts hw rfl rfl rfl rfl rfl rfl rfl hf
  rw [hcode, hcur]
  cases hq : fin.isSkip with
  | true =>
    have hf' : fin = .skip := by cases fin <;> simp [Node.isSkip] at hq ⊢
    subst hf'
    cases hx
    rw [hq] at hL h2
    obtain ⟨c', j', h3, h4⟩ := tgt_nofin hL h2
    exact ⟨c', j', h1.trans h3, h4⟩
  | false =>
    rw [hq] at hL h2
    obtain ⟨w4, f4, c4, e4, e5⟩ := hfi hq
    have h3 := tgt_fin hL ho h2
    obtain ⟨q1, q2⟩ := straight_go g4 (c := True) (fun _ => trivial) _ w4 f4
    rw [← straight_exec g4 hx] at q1 q2
    simp only [setCur_cur, setCur_code] at q1 q2
    rw [c4] at q1 q2
    by_cases ho' : o = .normal
    · subst ho'
      exact ⟨_, _, h1.trans (h3.trans (q1.to rfl f4.close e4)), rfl, rfl⟩
    · obtain ⟨c', j', h4, h5⟩ := tgt_pending (nc := s.next + 1) (nj := 0) hL ho' h2 q1 (fun r oo tl ht => by
          by_cases hne : t2 = []
          · subst hne
            rw [straight_same g4 (straight_exec g4 hx).symm] at f4
            have := f4.close
            simp only [setCur_cur, setCur_code] at this
            rw [c4] at this
            have q := hro r oo tl ht
            rw [hq] at q
            exact (Go.refl _ _).edge (by rw [this]; rfl) q
          · exact q2 r oo tl ht hne) (fun ht => by
          exact ⟨straight_cur g4 ht _, by rw [f4.close]⟩)
      exact ⟨c', j', h1.trans (h3.trans h4), h5⟩

theorem exec_tryFin {F : B} {body hs els fin : Node} {o o' : Outc} {t1 t2 : List Instr}
    (ih1 : Claim F (.core body hs els) o t1) (ho : o ≠ .stop) (ih2 : Claim F (.node fin) o' t2)
    (hx : Exec (.node fin) o' t2) (ho' : o' ≠ .normal) :
    Claim F (.node (.tryc body hs els fin)) o' (t1 ++ t2) := by
  intro e s hw he hg hf
  obtain ⟨c, j, h1, h2⟩ := ih1 e s fin _ hw he hg hf
  have hL := try_leave hw he hf
  obtain ⟨g1, g2, g3, g4⟩ := try_good s hg
  obtain ⟨w0, f0, w1, f1, k0, e1, hel, hfi, hro, hcur, hcode⟩ := try_parts hw rfl rfl rfl rfl rfl rfl rfl hf
  rw [hcode, hcur]
  cases hq : fin.isSkip with
  | true =>
    have hf' : fin = .skip := by cases fin <;> simp [Node.isSkip] at hq ⊢
    subst hf'
    cases hx with
    | stop => exact ⟨c, j, by simpa using h1, trivial⟩
    | skip => exact absurd rfl ho'
  | false =>
    rw [hq] at hL h2
    obtain ⟨w4, f4, c4, e4, e5⟩ := hfi hq
    have h3 := tgt_fin hL ho h2
    obtain ⟨c', j', h4, h5⟩ := ih2 e _ w4 he (straight_good g4 _ _).1 (f4.top _)
    simp only [setCur_cur, setCur_code] at h4
    rw [c4] at h4
    exact ⟨c', j', h1.trans (h3.trans h4), h5.other ho'⟩

/-- Every execution of a well-behaved statement is a walk in every finished graph it is part of. -/
theorem exec_claim (F : B) {m : Mode} {o : Outc} {t : List Instr} (h : Exec m o t) : Claim F m o t := by
  induction h with
  | stop n => exact exec_stop F n
  | skip => exact fun e s _ _ _ _ => ⟨_, _, .refl _ _, rfl, rfl⟩
  | op i => exact exec_op F i
  | opRaise i => exact exec_opRaise F i
  | seq _ _ ih1 ih2 => exact exec_seq ih1 ih2
  | seqOut _ ho ih => exact exec_seqOut ih ho
  | iteT _ _ ih1 ih2 => exact exec_ite ih1 (.inl ih2)
  | iteF _ hx ih1 ih2 => exact exec_ite ih1 (.inr ⟨ih2, hx⟩)
  | iteOut _ ho ih => exact exec_iteOut ih ho
  | ternT _ _ ih1 ih2 => exact exec_tern ih1 (.inl ih2)
  | ternF _ _ ih1 ih2 => exact exec_tern ih1 (.inr ih2)
  | ternOut _ ho ih => exact exec_ternOut ih ho
  | ternTOut _ _ ho ih1 ih2 => exact exec_ternArm ih1 ho (.inl ih2)
  | ternFOut _ _ ho ih1 ih2 => exact exec_ternArm ih1 ho (.inr ih2)
  | while_ _ ih => exact exec_while ih
  | whileEnd hx _ => exact exec_whileEnd hx
  | whileOut _ ho ih => exact exec_whileOut ih ho
  | whileLoop hx _ ho _ _ ih2 ih3 => exact exec_whileLoop hx ih2 ho ih3
  | whileBrk hx _ _ ih2 => exact exec_whileBrk hx ih2
  | whileBody hx _ ho _ ih2 => exact exec_whileBody hx ih2 ho
  | for_ _ _ ih1 ih2 => exact exec_for ih1 ih2
  | forOut _ ho ih => exact exec_forOut ih ho
  | forEnd => exact exec_forEnd F
  | forRaise => exact exec_forRaise F
  | forLoop _ ho _ ih2 ih3 => exact exec_forLoop ih2 ho ih3
  | forBrk _ ih2 => exact exec_forBrk ih2
  | forBody _ ho ih2 => exact exec_forBody ih2 ho
  | impFor => intro e s _ _ hg; simp [good] at hg
  | impStart => intro e s _ _ hg; simp [good] at hg
  | impStop => intro e s _ _ hg; simp [good] at hg
  | impEnd => trivial
  | impLoop => trivial
  | impBrk => trivial
  | impBody => trivial
  | brk l => exact exec_brk F l
  | cont l => exact exec_cont F l
  | ret => exact exec_ret F
  | tryc _ ho hx ih1 _ => exact exec_tryc ih1 ho hx
  | tryFin _ ho hx ho' ih1 ih2 => exact exec_tryFin ih1 ho ih2 hx ho'
  | tryStop _ ih => exact exec_tryStop ih
  | coreElse _ hx ih1 ih2 => exact exec_coreElse ih1 ih2 hx
  | coreCaught _ _ ih1 ih2 => exact exec_coreCaught ih1 ih2
  | coreUncaught _ ih => exact exec_coreOut ih (by simp)
  | coreOut _ ho _ ih => exact exec_coreOut ih ho
  | clause _ ih => exact exec_clause ih
  | clauseNext _ ih => exact exec_clauseNext ih

end Codon.Flow
