import Verif.Flow.CfgMain
/-!
# C08: the graph has every execution, the induction

Helper lemmas for `CfgProps`.
-/
namespace Codon.Flow

/-! ### Sequences of operations -/

def Node.ops : Node → List Instr
  | .op i => [i]
  | .seq a b => a.ops ++ b.ops
  | _ => []

theorem straight_good {n : Node} (h : n.straight = true) (tcs : List Bool) (loops : List (Nat × Nat)) :
    good n tcs loops = true ∧ n.opn = false := by
  induction n with
  | seq a b iha ihb =>
    simp only [Node.straight, Bool.and_eq_true] at h
    have ha := iha h.1
    have hb := ihb h.2
    simp [good, Node.opn, ha, hb]
  | _ => simp_all [Node.straight, good, Node.opn]

theorem straight_exec {n : Node} (h : n.straight = true) {t : List Instr} (hx : Exec (.node n) .normal t) :
    t = n.ops := by
  induction n generalizing t with
  | seq a b iha ihb =>
    simp only [Node.straight, Bool.and_eq_true] at h
    cases hx with
    | seq h1 h2 => rw [iha h.1 h1, ihb h.2 h2]; rfl
    | seqOut _ h2 => exact absurd rfl h2
  | op i => cases hx; rfl
  | skip => cases hx; rfl
  | _ => simp [Node.straight] at h

theorem straight_cur {n : Node} (h : n.straight = true) {e : Env} (ht : e.tcs = []) (s : B) :
    (build n e s).cur = s.cur := by
  induction n generalizing s with
  | seq a b iha ihb =>
    simp only [Node.straight, Bool.and_eq_true] at h
    simp only [build]
    rw [ihb h.2, iha h.1]
  | op i => simp [build, B.insert, ht]
  | skip => rfl
  | _ => simp [Node.straight] at h

theorem straight_go {F : B} {n : Node} (h : n.straight = true) {e : Env} {c : Prop} (hc : e.tcs ≠ [] → c) :
    ∀ s, WF s → Fin F c s (build n e s) →
    Go F s.cur (s.code s.cur).length n.ops (build n e s).cur ((build n e s).code (build n e s).cur).length ∧
    ∀ r o tl, e.tcs = (r, o) :: tl → n.ops ≠ [] → Go F s.cur (s.code s.cur).length n.ops r 0 := by
  induction n generalizing c with
  | seq a b iha ihb =>
    intro s hs hf
    simp only [Node.straight, Bool.and_eq_true] at h
    have h1 := build_frame a e s hs
    have h2 := build_frame b e _ (h1.wf hs)
    simp only [build] at hf ⊢
    obtain ⟨f1, f2⟩ := Fin.split hs h1 h2 hf hc
    obtain ⟨g1, g1'⟩ := iha h.1 (fun x => x) s hs f1
    obtain ⟨g2, g2'⟩ := ihb h.2 hc _ (h1.wf hs) f2
    refine ⟨g1.trans g2, fun r o tl ht hne => ?_⟩
    by_cases hb : b.ops = []
    · simp only [Node.ops, hb, List.append_nil] at hne ⊢
      exact g1' r o tl ht hne
    · exact g1.trans (g2' r o tl ht hb)
  | op i =>
    intro s hs hf
    obtain ⟨g1, g2⟩ := insert_go hs hf hc
    exact ⟨g1, fun r o tl ht _ => g2 r o tl ht⟩
  | skip => intro s hs hf; exact ⟨.refl _ _, fun r o tl _ hne => absurd rfl hne⟩
  | _ => simp [Node.straight] at h

/-! ### Environments -/

theorem absT_try (e : Env) (s : B) (p q : Bool) : (tryEnv e s p q).absT = (!q) :: e.absT := by
  cases q <;> simp [tryEnv, Env.absT]

theorem absL_try (e : Env) (s : B) (p q : Bool) : (tryEnv e s p q).absL = e.absL := rfl

theorem absT_loop (e : Env) (a b l : Nat) : (loopEnv e a b l).absT = e.absT := rfl

theorem absL_loop (e : Env) (a b l : Nat) : (loopEnv e a b l).absL = e.absL ++ [(l, e.absT.length)] := by
  simp [loopEnv, Env.absL, Env.absT]

theorem envOk_loop {e : Env} (h : EnvOk e) (a b l : Nat) : EnvOk (loopEnv e a b l) := by
  intro lp hl
  simp only [loopEnv, List.mem_append, List.mem_singleton] at hl
  rcases hl with hl | rfl
  · exact h lp hl
  · exact Nat.le_refl _

theorem envOk_try {e : Env} (h : EnvOk e) (s : B) (p q : Bool) : EnvOk (tryEnv e s p q) := by
  intro lp hl
  have := h lp hl
  simp only [tryEnv, List.length_cons]
  omega

theorem find_abs (e : Env) (l : Nat) :
    e.absL.find? (·.1 == l) = (e.find l).map fun lp => (lp.id, lp.tcLen) := by
  unfold Env.absL Env.find
  rw [List.find?_map]
  rfl

theorem jumpGood_spec {e : Env} {l : Nat} (h : good.jumpGood l e.absT e.absL = true) :
    ∃ lp, e.find l = some lp ∧ ((∀ x ∈ e.tcs.take (e.tcs.length - lp.tcLen), x.2 = none) ∨
      (lp.tcLen = 0 ∧ ∃ rb f, e.tcs.getLast? = some (rb, some f))) := by
  unfold good.jumpGood at h
  rw [find_abs] at h
  cases hf : e.find l with
  | none => rw [hf] at h; cases h
  | some lp =>
    rw [hf] at h
    refine ⟨lp, rfl, ?_⟩
    simp only [Option.map_some, Bool.or_eq_true, Bool.and_eq_true, List.all_eq_true, beq_iff_eq] at h
    rcases h with h | ⟨h1, h2⟩
    · refine .inl fun x hx => ?_
      have := h x.2.isSome (by
        simp only [Env.absT, List.length_map, ← List.map_take]
        exact List.mem_map_of_mem hx)
      cases hx2 : x.2 <;> simp_all
    · refine .inr ⟨h1, ?_⟩
      simp only [Env.absT, List.getLast?_map] at h2
      cases hl : e.tcs.getLast? with
      | none => rw [hl] at h2; cases h2
      | some x =>
        rw [hl] at h2
        obtain ⟨rb, o⟩ := x
        cases o with
        | none => simp at h2
        | some f => exact ⟨rb, f, rfl⟩

theorem find_loop_self {e : Env} {a b l : Nat} (h : e.absL.all (·.1 != l) = true) :
    (loopEnv e a b l).find l = some ⟨a, b, l, e.tcs.length⟩ := by
  simp only [Env.find, loopEnv, List.find?_append]
  have : e.loops.find? (·.id == l) = none := by
    rw [List.find?_eq_none]
    intro lp hlp hx
    rw [List.all_eq_true] at h
    have := h (lp.id, lp.tcLen) (List.mem_map_of_mem hlp)
    simp at hx
    simp [hx] at this
  simp [this]

theorem find_loop_other {e : Env} {a b l l' : Nat} {lp : Loop} (hl : l' ≠ l)
    (h : (loopEnv e a b l).find l' = some lp) : e.find l' = some lp := by
  simp only [Env.find, loopEnv, List.find?_append] at h
  cases hf : e.loops.find? (·.id == l') with
  | some x => rw [hf] at h; simpa [Env.find, hf] using h
  | none =>
    rw [hf] at h
    simp [Ne.symm hl] at h

theorem jumpTo_own {F : B} {e : Env} {t c j : Nat} (h : JumpTo F e t e.tcs.length c j) : c = t ∧ j = 0 := by
  rcases h with ⟨-, h1, h2⟩ | ⟨h0, rb, f, r, o, tl, -, -, ht, -, -⟩
  · exact ⟨h1, h2⟩
  · rw [ht] at h0; simp at h0

/-- Leaving the body of a loop. -/
theorem tgt_loop {F : B} {e : Env} {a b l nc nj nc' nj' : Nat} {o : Outc} {c j : Nat}
    (hl : e.absL.all (·.1 != l) = true) (h : Tgt F (loopEnv e a b l) nc nj o c j) :
    (o = .brk l → c = b ∧ j = 0) ∧ (o = .cont l → c = a ∧ j = 0) ∧ (o.leaves l → Tgt F e nc' nj' o c j) := by
  refine ⟨?_, ?_, ?_⟩
  · rintro rfl
    obtain ⟨lp, h1, h2⟩ := h
    rw [find_loop_self hl] at h1
    cases h1
    exact jumpTo_own (e := loopEnv e a b l) h2
  · rintro rfl
    obtain ⟨lp, h1, h2⟩ := h
    rw [find_loop_self hl] at h1
    cases h1
    exact jumpTo_own (e := loopEnv e a b l) h2
  · rintro ⟨h1, h2, h3⟩
    cases o with
    | normal => exact absurd rfl h1
    | brk l' =>
      obtain ⟨lp, h4, h5⟩ := h
      exact ⟨lp, find_loop_other (fun e => h3 (by rw [e])) h4, h5⟩
    | cont l' =>
      obtain ⟨lp, h4, h5⟩ := h
      exact ⟨lp, find_loop_other (fun e => h2 (by rw [e])) h4, h5⟩
    | ret => exact h
    | raise => exact h
    | stop => trivial

/-! ### Leaving `try` -/

/-- What is known of a `try` statement in the finished graph, for leaving it. -/
structure Leave (F : B) (e : Env) (s : B) (p q : Bool) : Prop where
  route : F.code s.next = []
  fin : q = false → (s.next, tryFinB s p) ∈ F.edges
  out : ∀ r o tl, e.tcs = (r, o) :: tl → ((if q then s.next else tryFinB s p), r) ∈ F.edges
  loops : EnvOk e

theorem find_ok {e : Env} (h : EnvOk e) {l : Nat} {lp : Loop} (hf : e.find l = some lp) :
    lp.tcLen ≤ e.tcs.length := h lp (List.mem_of_find?_eq_some hf)

/-- With a `finally` part, every outcome leads there. -/
theorem tgt_fin {F : B} {e : Env} {s : B} {p : Bool} (hL : Leave F e s p false) {o : Outc} {c j : Nat}
    (ho : o ≠ .stop) (h : Tgt F (tryEnv e s p false) (tryDst s p false) 0 o c j) : Go F c j [] (tryFinB s p) 0 := by
  have hr : Go F s.next 0 [] (tryFinB s p) 0 := (Go.refl _ _).edge (by rw [hL.route]; rfl) (hL.fin rfl)
  have hj : ∀ t k, k ≤ e.tcs.length → JumpTo F (tryEnv e s p false) t k c j → Go F c j [] (tryFinB s p) 0 := by
    intro t k hk hJ
    rcases hJ with ⟨h1, -, -⟩ | ⟨-, rb, f, r, o, tl, -, -, ht, rfl, rfl⟩
    · have := h1 (s.next, some (tryFinB s p)) (by
        simp only [tryEnv, List.length_cons, Bool.false_eq_true, if_false]
        rw [show e.tcs.length + 1 - k = (e.tcs.length - k) + 1 by omega, List.take_succ_cons]
        exact List.mem_cons_self)
      cases this
    · simp only [tryEnv, Bool.false_eq_true, if_false, List.cons.injEq, Prod.mk.injEq] at ht
      rw [← ht.1.1]; exact hr
  cases o with
  | normal => obtain ⟨rfl, rfl⟩ := h; exact .refl _ _
  | stop => exact absurd rfl ho
  | raise =>
    obtain ⟨rfl, rfl⟩ := h s.next (some (tryFinB s p)) e.tcs rfl
    exact hr
  | ret =>
    obtain ⟨r, o, tl, h1, rfl, rfl⟩ := h ⟨(s.next, some (tryFinB s p)), List.mem_cons_self, by simp⟩
    simp only [tryEnv, Bool.false_eq_true, if_false, List.cons.injEq, Prod.mk.injEq] at h1
    rw [← h1.1.1]; exact hr
  | brk l =>
    obtain ⟨lp, h1, h2⟩ := h
    exact hj _ _ (find_ok hL.loops h1) h2
  | cont l =>
    obtain ⟨lp, h1, h2⟩ := h
    exact hj _ _ (find_ok hL.loops h1) h2

theorem getLast?_try {e : Env} {s : B} {p q : Bool} (h : e.tcs ≠ []) :
    (tryEnv e s p q).tcs.getLast? = e.tcs.getLast? := by
  cases ht : e.tcs with
  | nil => exact absurd ht h
  | cons x tl => simp [tryEnv, ht, List.getLast?_cons_cons]

/-- Without a `finally` part. -/
theorem tgt_nofin {F : B} {e : Env} {s : B} {p : Bool} (hL : Leave F e s p true) {o : Outc} {c j : Nat}
    (h : Tgt F (tryEnv e s p true) (s.next + 1) 0 o c j) :
    ∃ c' j', Go F c j [] c' j' ∧ Tgt F e (s.next + 1) 0 o c' j' := by
  have hr : ∀ r o tl, e.tcs = (r, o) :: tl → Go F s.next 0 [] r 0 := fun r o tl ht =>
    (Go.refl _ _).edge (by rw [hL.route]; rfl) (hL.out r o tl ht)
  have hj : ∀ t k, k ≤ e.tcs.length → JumpTo F (tryEnv e s p true) t k c j →
      ∃ c' j', Go F c j [] c' j' ∧ JumpTo F e t k c' j' := by
    intro t k hk hJ
    rcases hJ with ⟨h1, rfl, rfl⟩ | ⟨h0, rb, f, r, o, tl, hl, hf, ht, rfl, rfl⟩
    · refine ⟨_, _, .refl _ _, .inl ⟨fun x hx => h1 x ?_, rfl, rfl⟩⟩
      simp only [tryEnv, List.length_cons, if_true]
      rw [show e.tcs.length + 1 - k = (e.tcs.length - k) + 1 by omega, List.take_succ_cons]
      exact List.mem_cons_of_mem _ hx
    · simp only [tryEnv, if_true, List.cons.injEq, Prod.mk.injEq] at ht
      obtain ⟨⟨rfl, -⟩, rfl⟩ := ht
      have hne : e.tcs ≠ [] := by
        intro h
        simp [tryEnv, h] at hl
      rw [getLast?_try hne] at hl
      cases ht : e.tcs with
      | nil => exact absurd ht hne
      | cons x tl =>
        obtain ⟨r, o⟩ := x
        exact ⟨r, 0, hr r o tl ht, .inr ⟨h0, rb, f, r, o, tl, hl, hf, ht, rfl, rfl⟩⟩
  cases o with
  | normal => exact ⟨c, j, .refl _ _, h⟩
  | stop => exact ⟨c, j, .refl _ _, trivial⟩
  | raise =>
    obtain ⟨rfl, rfl⟩ := h s.next none e.tcs rfl
    cases ht : e.tcs with
    | nil => exact ⟨_, _, .refl _ _, fun r o tl hx => by rw [ht] at hx; cases hx⟩
    | cons x tl =>
      obtain ⟨r, o⟩ := x
      exact ⟨r, 0, hr r o tl ht, fun r' o' tl' hx => by rw [ht] at hx; cases hx; exact ⟨rfl, rfl⟩⟩
  | ret =>
    by_cases hf : ∃ x ∈ e.tcs, x.2 ≠ none
    · obtain ⟨r, o, tl, h1, rfl, rfl⟩ := h (by
        obtain ⟨x, hx, hx'⟩ := hf
        exact ⟨x, List.mem_cons_of_mem _ hx, hx'⟩)
      simp only [tryEnv, if_true, List.cons.injEq, Prod.mk.injEq] at h1
      obtain ⟨⟨rfl, -⟩, rfl⟩ := h1
      cases ht : e.tcs with
      | nil => rw [ht] at hf; obtain ⟨x, hx, -⟩ := hf; cases hx
      | cons x tl =>
        obtain ⟨r, o⟩ := x
        exact ⟨r, 0, hr r o tl ht, fun _ => ⟨r, o, tl, ht, rfl, rfl⟩⟩
    · exact ⟨c, j, .refl _ _, fun h => absurd h hf⟩
  | brk l =>
    obtain ⟨lp, h1, h2⟩ := h
    obtain ⟨c', j', h3, h4⟩ := hj _ _ (find_ok hL.loops h1) h2
    exact ⟨c', j', h3, lp, h1, h4⟩
  | cont l =>
    obtain ⟨lp, h1, h2⟩ := h
    obtain ⟨c', j', h3, h4⟩ := hj _ _ (find_ok hL.loops h1) h2
    exact ⟨c', j', h3, lp, h1, h4⟩

/-- After the `finally` part, with a pending outcome. -/
theorem tgt_pending {F : B} {e : Env} {s : B} {p : Bool} (hL : Leave F e s p false) {o : Outc} {c j : Nat}
    (ho : o ≠ .normal) (h : Tgt F (tryEnv e s p false) (tryDst s p false) 0 o c j) {t2 : List Instr}
    {nc nj c4 j4 : Nat} (g4 : Go F (tryFinB s p) 0 t2 c4 j4)
    (hin : ∀ r o tl, e.tcs = (r, o) :: tl → Go F (tryFinB s p) 0 t2 r 0)
    (hout : e.tcs = [] → c4 = tryFinB s p ∧ j4 = (F.code c4).length) :
    ∃ c' j', Go F (tryFinB s p) 0 t2 c' j' ∧ Tgt F e nc nj o c' j' := by
  have hj : ∀ t k, k ≤ e.tcs.length → JumpTo F (tryEnv e s p false) t k c j →
      ∃ c' j', Go F (tryFinB s p) 0 t2 c' j' ∧ JumpTo F e t k c' j' := by
    intro t k hk hJ
    rcases hJ with ⟨h1, -, -⟩ | ⟨h0, rb, f, r, o, tl, hl, hf, ht, rfl, rfl⟩
    · have := h1 (s.next, some (tryFinB s p)) (by
        simp only [tryEnv, List.length_cons, Bool.false_eq_true, if_false]
        rw [show e.tcs.length + 1 - k = (e.tcs.length - k) + 1 by omega, List.take_succ_cons]
        exact List.mem_cons_self)
      cases this
    · cases ht : e.tcs with
      | nil =>
        simp only [tryEnv, Bool.false_eq_true, if_false, ht, List.getLast?_singleton, Option.some.injEq,
          Prod.mk.injEq] at hl
        obtain ⟨-, rfl⟩ := hl
        obtain ⟨rfl, h3⟩ := hout ht
        refine ⟨t, 0, g4.edge h3 hf, .inl ⟨?_, rfl, rfl⟩⟩
        rw [ht]
        intro x hx
        simp at hx
      | cons x tl =>
        obtain ⟨r, o⟩ := x
        rw [getLast?_try (by rw [ht]; simp)] at hl
        exact ⟨r, 0, hin r o tl ht, .inr ⟨h0, rb, f, r, o, tl, hl, hf, ht, rfl, rfl⟩⟩
  cases o with
  | normal => exact absurd rfl ho
  | stop => exact ⟨_, _, g4, trivial⟩
  | raise =>
    cases ht : e.tcs with
    | nil => exact ⟨_, _, g4, fun r o tl hx => by rw [ht] at hx; cases hx⟩
    | cons x tl =>
      obtain ⟨r, o⟩ := x
      exact ⟨r, 0, hin r o tl ht, fun r' o' tl' hx => by rw [ht] at hx; cases hx; exact ⟨rfl, rfl⟩⟩
  | ret =>
    cases ht : e.tcs with
    | nil => exact ⟨_, _, g4, by rw [Tgt, ht]; rintro ⟨x, hx, -⟩; cases hx⟩
    | cons x tl =>
      obtain ⟨r, o⟩ := x
      exact ⟨r, 0, hin r o tl ht, fun _ => ⟨r, o, tl, ht, rfl, rfl⟩⟩
  | brk l =>
    obtain ⟨lp, h1, h2⟩ := h
    obtain ⟨c', j', h3, h4⟩ := hj _ _ (find_ok hL.loops h1) h2
    exact ⟨c', j', h3, lp, h1, h4⟩
  | cont l =>
    obtain ⟨lp, h1, h2⟩ := h
    obtain ⟨c', j', h3, h4⟩ := hj _ _ (find_ok hL.loops h1) h2
    exact ⟨c', j', h3, lp, h1, h4⟩

end Codon.Flow
