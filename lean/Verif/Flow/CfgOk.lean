import Verif.Flow.CfgParts
import Verif.Flow.CfgTry
/-!
# C08: the graph is well-formed

Helper lemmas for `CfgProps`.
-/
namespace Codon.Flow

/-- `except` clauses are only used as such (`h`: is this a list of clauses?). -/
def Node.proper : Bool → Node → Bool
  | _, .skip => true
  | _, .op _ => true
  | _, .ret => true
  | _, .brk _ => true
  | _, .cont _ => true
  | _, .seq a b => a.proper false && b.proper false
  | _, .ite c t f => c.proper false && t.proper false && f.proper false
  | _, .tern c t f _ => c.proper false && t.proper false && f.proper false
  | _, .while_ _ c b => c.proper false && b.proper false
  | _, .for_ _ _ _ it b => it.proper false && b.proper false
  | _, .impFor _ x y _ _ b => x.proper false && y.proper false && b.proper false
  | _, .tryc b h els fin => b.proper false && h.proper true && els.proper false && fin.proper false
  | h, .ctch _ b rest => h && b.proper false && rest.proper true

/-- The blocks known to the visitor exist and are not the entry. -/
structure Rng (h : Bool) (e : Env) (n : Nat) : Prop where
  loops : ∀ lp ∈ e.loops, 1 ≤ lp.nextIt ∧ lp.nextIt < n ∧ 1 ≤ lp.end ∧ lp.end < n
  tcs : ∀ r o, (r, o) ∈ e.tcs → 1 ≤ r ∧ r < n
  fin : ∀ r f, (r, some f) ∈ e.tcs → 1 ≤ f ∧ f < n
  dst : h = true → 1 ≤ e.dst ∧ e.dst < n

theorem Rng.mono {h h' : Bool} {e : Env} {n m : Nat} (hr : Rng h e n) (hm : n ≤ m) (hh : h' = true → h = true) :
    Rng h' e m := by
  obtain ⟨a, b, c, d⟩ := hr
  refine ⟨fun lp hl => ?_, fun r o hl => ?_, fun r f hl => ?_, fun hx => ?_⟩
  · have := a lp hl; omega
  · have := b r o hl; omega
  · have := c r f hl; omega
  · have := d (hh hx); omega

theorem Rng.loop {h : Bool} {e : Env} {n m : Nat} (hr : Rng h e n) (hm : n ≤ m) {a b l : Nat} (ha : 1 ≤ a ∧ a < m)
    (hb : 1 ≤ b ∧ b < m) : Rng false (loopEnv e a b l) m := by
  have := hr.mono (h' := false) hm (by simp)
  refine ⟨fun lp hl => ?_, this.tcs, this.fin, by simp⟩
  simp only [loopEnv, List.mem_append, List.mem_singleton] at hl
  rcases hl with hl | rfl
  · exact this.loops lp hl
  · exact ⟨ha.1, ha.2, hb.1, hb.2⟩

/-- Edges join existing blocks and do not lead to the entry. -/
def EdgOk (s : B) : Prop := ∀ a b, (a, b) ∈ s.edges → a < s.next ∧ 1 ≤ b ∧ b < s.next

theorem EdgOk.edge {s : B} (h : EdgOk s) {a b : Nat} (ha : a < s.next) (hb : 1 ≤ b ∧ b < s.next) : EdgOk (s.edge a b) := by
  intro x y hxy
  simp only [edge_edges, List.mem_cons, Prod.mk.injEq] at hxy
  rcases hxy with ⟨rfl, rfl⟩ | hxy
  · exact ⟨ha, hb⟩
  · exact h x y hxy

theorem EdgOk.of {s s' : B} (h : EdgOk s) (he : s'.edges = s.edges) (hn : s.next ≤ s'.next) : EdgOk s' := by
  intro a b hab
  rw [he] at hab
  have := h a b hab
  omega

theorem EdgOk.newBlock {s : B} (h : EdgOk s) : EdgOk s.newBlock := h.of rfl (by simp)
theorem EdgOk.setCur {s : B} (h : EdgOk s) (b : Nat) : EdgOk (s.setCur b) := h.of rfl (by simp)
theorem EdgOk.push {s : B} (h : EdgOk s) (b : Nat) (i : Option Instr) : EdgOk (s.push b i) := h.of rfl (by simp)

theorem EdgOk.insert {s : B} {e : Env} {hh : Bool} (h : EdgOk s) (hw : s.cur < s.next) (h1 : 1 ≤ s.next)
    (hr : Rng hh e s.next) (i : Option Instr) : EdgOk (s.insert e i) := by
  unfold B.insert
  cases ht : e.tcs with
  | nil => exact h.push _ _
  | cons x tl =>
    obtain ⟨r, o⟩ := x
    have := hr.tcs r o (by rw [ht]; simp)
    refine (((h.newBlock.edge ?_ ?_).edge ?_ ?_).setCur _).push _ _ <;> simp <;> omega

theorem nearestFinally_mem {e : Env} {k f : Nat} (h : B.nearestFinally e k = some f) : ∃ r, (r, some f) ∈ e.tcs := by
  unfold B.nearestFinally at h
  obtain ⟨x, hx, hf⟩ := List.exists_of_findSome?_eq_some h
  refine ⟨x.1, ?_⟩
  rw [← hf]
  exact List.mem_of_mem_take (List.mem_reverse.1 hx)

theorem EdgOk.jump {s : B} {e : Env} {hh : Bool} (h : EdgOk s) (hw : s.cur < s.next)
    (hr : Rng hh e s.next) (cf : Option Nat) (k : Nat) (hc : ∀ t, cf = some t → 1 ≤ t ∧ t < s.next) :
    EdgOk (s.jump e cf k) := by
  unfold B.jump
  cases cf with
  | none =>
    simp only
    split
    · exact h
    · split
      · rename_i f r o tl hf ht
        exact h.edge hw (hr.tcs r o (by rw [ht]; simp))
      · exact h
  | some t =>
    simp only
    split
    · exact h.edge hw (hc t rfl)
    · split
      · rename_i f r o tl hf ht
        have h1 := hr.tcs r o (by rw [ht]; simp)
        obtain ⟨r', hr'⟩ := nearestFinally_mem hf
        exact (h.edge hw h1).edge (hr.fin r' f hr').2 (hc t rfl)
      · exact h.edge hw (hc t rfl)

theorem EdgOk.toRoute {s : B} {e : Env} {hh : Bool} (h : EdgOk s) (hr : Rng hh e s.next) {b : Nat} (hb : b < s.next) :
    EdgOk (s.toRoute e b) := by
  unfold B.toRoute
  cases ht : e.tcs with
  | nil => exact h
  | cons x tl =>
    obtain ⟨r, o⟩ := x
    exact h.edge hb (hr.tcs r o (by rw [ht]; simp))

theorem EdgOk.fromRoute {s : B} {e : Env} {hh : Bool} (h : EdgOk s) (hr : Rng hh e s.next) {b : Nat}
    (hb : 1 ≤ b ∧ b < s.next) : EdgOk (s.fromRoute e b) := by
  unfold B.fromRoute
  cases ht : e.tcs with
  | nil => exact h
  | cons x tl =>
    obtain ⟨r, o⟩ := x
    exact h.edge (hr.tcs r o (by rw [ht]; simp)).2 hb

/-- What is needed before building and holds after it. -/
structure Bld (s s' : B) : Prop where
  wf : WF s'
  next : s.next ≤ s'.next
  edg : EdgOk s'

theorem build_edges (n : Node) : ∀ (h : Bool) (e : Env) (s : B), n.proper h = true → Rng h e s.next → WF s → EdgOk s →
    1 ≤ s.next → Bld s (build n e s) := by
  have fr : ∀ (n : Node) e s, WF s → EdgOk (build n e s) → Bld s (build n e s) := fun n e s hw hx =>
    ⟨(build_frame n e s hw).wf hw, (build_frame n e s hw).next, hx⟩
  induction n with
  | skip => intro h e s _ _ hw he _; exact fr _ _ _ hw he
  | op i => intro h e s _ hr hw he h1; exact fr _ _ _ hw (he.insert hw.cur h1 hr _)
  | ret =>
    intro h e s _ hr hw he h1
    have ed := jump_eds e s none 0
    refine fr _ _ _ hw (EdgOk.insert (he.jump hw.cur hr none 0 (by simp)) ?_ ?_ (hh := h) ?_ _)
    · rw [ed.cur, ed.next]; exact hw.cur
    · rw [ed.next]; exact h1
    · rw [ed.next]; exact hr
  | brk l =>
    intro h e s _ hr hw he h1
    refine fr _ _ _ hw ?_
    simp only [build]
    split
    · rename_i lp hlp
      have hm := hr.loops lp (List.mem_of_find?_eq_some hlp)
      have ed := jump_eds e s (some lp.end) lp.tcLen
      refine EdgOk.insert (he.jump hw.cur hr _ _ ?_) ?_ ?_ (hh := h) ?_ _
      · intro t ht; cases ht; exact hm.2.2
      · rw [ed.cur, ed.next]; exact hw.cur
      · rw [ed.next]; exact h1
      · rw [ed.next]; exact hr
    · exact he
  | cont l =>
    intro h e s _ hr hw he h1
    refine fr _ _ _ hw ?_
    simp only [build]
    split
    · rename_i lp hlp
      have hm := hr.loops lp (List.mem_of_find?_eq_some hlp)
      have ed := jump_eds e s (some lp.nextIt) lp.tcLen
      refine EdgOk.insert (he.jump hw.cur hr _ _ ?_) ?_ ?_ (hh := h) ?_ _
      · intro t ht; cases ht; exact ⟨hm.1, hm.2.1⟩
      · rw [ed.cur, ed.next]; exact hw.cur
      · rw [ed.next]; exact h1
      · rw [ed.next]; exact hr
    · exact he
  | seq a b iha ihb =>
    intro h e s hp hr hw he h1
    simp only [Node.proper, Bool.and_eq_true] at hp
    have q1 := iha false e s hp.1 (hr.mono (Nat.le_refl _) (by simp)) hw he h1
    have q2 := ihb false e _ hp.2 (hr.mono q1.next (by simp)) q1.wf q1.edg (by have := q1.next; omega)
    exact fr _ _ _ hw q2.edg
  | ite c t f ihc iht ihf =>
    intro h e s hp hr hw he h1
    simp only [Node.proper, Bool.and_eq_true] at hp
    have q1 := ihc false e s hp.1.1 (hr.mono (Nat.le_refl _) (by simp)) hw he h1
    refine fr _ _ _ hw ?_
    have hb : build (.ite c t f) e s = if f.isSkip then iteEnd1 (build c e s) (build t e (iteS2 (build c e s)))
      else iteEnd2 (build c e s) (build t e (iteS2 (build c e s)))
        (build f e (iteS4 (build c e s) (build t e (iteS2 (build c e s))))) := rfl
    rw [hb]
    clear hb
    obtain ⟨w1, n1, e1⟩ := q1
    have k1 := w1.cur
    generalize build c e s = s1 at *
    have w2 : WF (iteS2 s1) := wf_open w1 rfl (by simp [iteS2]; omega) (by simp [iteS2])
    obtain ⟨w3, n3, e3⟩ := iht false e (iteS2 s1) hp.1.2 (hr.mono (by simp [iteS2]; omega) (by simp)) w2
      ((e1.newBlock.newBlock).setCur _) (by simp [iteS2])
    have k3 := w3.cur
    simp only [iteS2, setCur_next, newBlock_next] at n3
    change s1.next + 1 + 1 ≤ (build t e (iteS2 s1)).next at n3
    generalize build t e (iteS2 s1) = s3 at *
    split
    · refine (((e3.edge k3 ?_).edge ?_ ?_).edge ?_ ?_).setCur _ <;> (try simp only [edge_next]) <;> omega
    · have w4 : WF (iteS4 s1 s3) := ⟨by simp [iteS4], by simp [iteS4]; have := w3.fresh; grind⟩
      obtain ⟨w5, n5, e5⟩ := ihf false e _ hp.2 (hr.mono (by simp [iteS4]; omega) (by simp)) w4
        (((e3.edge k3 (by omega)).newBlock).setCur _) (by simp [iteS4])
      have k5 := w5.cur
      simp only [iteS4, setCur_next, newBlock_next, edge_next] at n5
      change s3.next + 1 ≤ (build f e (iteS4 s1 s3)).next at n5
      generalize build f e (iteS4 s1 s3) = s5 at *
      refine (((e5.edge k5 ?_).edge ?_ ?_).edge ?_ ?_).setCur _ <;> (try simp only [edge_next]) <;> omega
  | tern c t f phi ihc iht ihf =>
    intro h e s hp hr hw he h1
    simp only [Node.proper, Bool.and_eq_true] at hp
    have hsc := hw.cur
    have w0 : WF (ternS0 s) := wf_open hw rfl (by simp [ternS0]; omega) (by simp [ternS0]; omega)
    have q1 := ihc false e (ternS0 s) hp.1.1 (hr.mono (by simp [ternS0]; omega) (by simp)) w0
      (he.newBlock.newBlock.newBlock) (by simp [ternS0])
    have n1 := q1.next
    have k1 := q1.wf.cur
    simp only [ternS0, newBlock_next] at n1 k1
    have w2 : WF (ternS2 s (build c e (ternS0 s))) := ⟨by simp [ternS2, ternS0]; omega, q1.wf.fresh⟩
    have q2 := iht false e _ hp.1.2 (hr.mono (by simp [ternS2, ternS0]; omega) (by simp)) w2
      (((q1.edg.edge (by simp [ternS0]; omega) (by simp [ternS0]; omega)).edge (by simp [ternS0]; omega)
        (by simp [ternS0]; omega)).setCur _) (by simp [ternS2, ternS0]; omega)
    have n2 := q2.next
    have k2 := q2.wf.cur
    have n2' : s.next + 3 ≤ (build t e (ternS2 s (build c e (ternS0 s)))).next := by
      refine Nat.le_trans ?_ n2
      simp only [ternS2, ternS0, setCur_next, edge_next]
      omega
    have w4 : WF (ternS4 s (build t e (ternS2 s (build c e (ternS0 s))))) :=
      ⟨by simp [ternS4]; omega, q2.wf.fresh⟩
    have q3 := ihf false e _ hp.2 (hr.mono (by simp [ternS4]; omega) (by simp)) w4
      ((q2.edg.edge k2 (by omega)).setCur _) (by simp [ternS4]; omega)
    have n3 := q3.next
    have k3 := q3.wf.cur
    simp only [ternS4, setCur_next, edge_next] at n3
    refine fr _ _ _ hw ?_
    exact ((q3.edg.edge k3 (by simp only [ternS4] at *; omega)).push _ _).setCur _
  | while_ l c b ihc ihb =>
    intro h e s hp hr hw he h1
    simp only [Node.proper, Bool.and_eq_true] at hp
    have hsc := hw.cur
    have w0 : WF (whileS1 s) := wf_open hw rfl (by simp [whileS1]; omega) (by simp [whileS1])
    have q1 := ihc false e (whileS1 s) hp.1 (hr.mono (by simp [whileS1]; omega) (by simp)) w0
      ((he.newBlock.newBlock.setCur _).edge (by simp; omega) (by simp)) (by simp [whileS1])
    have n1 := q1.next
    have k1 := q1.wf.cur
    have n1' : s.next + 2 ≤ (build c e (whileS1 s)).next := by simpa [whileS1] using n1
    have w2 : WF (whileS3 s (build c e (whileS1 s))) := ⟨by simp [whileS3], by simp [whileS3]; have := q1.wf.fresh; grind⟩
    have q2 := ihb false (loopEnv e (s.next + 1) s.next l) _ hp.2
      (hr.loop (by simp [whileS3]; omega) (by simp [whileS3]; omega) (by simp [whileS3]; omega)) w2
      ((((q1.edg.edge k1 (by omega)).newBlock).setCur _).edge (by simp; omega) (by simp; omega)) (by simp [whileS3])
    have n2 := q2.next
    have k2 := q2.wf.cur
    simp only [whileS3, setCur_next, edge_next, newBlock_next] at n2
    refine fr _ _ _ hw ?_
    exact (q2.edg.edge k2 (by simp only [whileS3]; omega)).setCur _
  | for_ l mr a it b ihc ihb =>
    intro h e s hp hr hw he h1
    simp only [Node.proper, Bool.and_eq_true] at hp
    have hsc := hw.cur
    have w0 : WF (whileS1 s) := wf_open hw rfl (by simp [whileS1]; omega) (by simp [whileS1])
    have q1 := ihc false e (whileS1 s) hp.1 (hr.mono (by simp [whileS1]; omega) (by simp)) w0
      ((he.newBlock.newBlock.setCur _).edge (by simp; omega) (by simp)) (by simp [whileS1])
    have n1 := q1.next
    have k1 := q1.wf.cur
    have n1' : s.next + 2 ≤ (build it e (whileS1 s)).next := by simpa [whileS1] using n1
    have w2 : WF (forS3 s (build it e (whileS1 s)) a) :=
      ⟨by simp [forS3], by simp [forS3, push_code]; have := q1.wf.fresh; grind⟩
    have q2 := ihb false (loopEnv e (build it e (whileS1 s)).next s.next l) _ hp.2
      (hr.loop (by simp [forS3]; omega) (by simp [forS3]; omega) (by simp [forS3]; omega)) w2
      (by
        refine ((((((q1.edg.newBlock.newBlock.newBlock).edge ?_ ?_).edge ?_ ?_).edge ?_ ?_).push _ _).setCur _).edge ?_ ?_ <;>
          simp <;> omega) (by simp [forS3])
    have n2 := q2.next
    have k2 := q2.wf.cur
    have n2' : (build it e (whileS1 s)).next + 3 ≤ _ := n2
    refine fr _ _ _ hw ?_
    exact (q2.edg.edge (b := (build it e (whileS1 s)).next) k2 (by omega)).setCur _
  | impFor l x y a u b ihx ihy ihb =>
    intro h e s hp hr hw he h1
    simp only [Node.proper, Bool.and_eq_true] at hp
    have hsc := hw.cur
    have w0 : WF ((whileS1 s).push (s.next + 1) (some a)) :=
      ⟨by simp [whileS1], by simp [whileS1, push_code]; have := hw.fresh; grind⟩
    have q0 := ihx false e _ hp.1.1 (hr.mono (by simp [whileS1]; omega) (by simp)) w0
      (((he.newBlock.newBlock.setCur _).edge (by simp; omega) (by simp)).push _ _) (by simp [whileS1])
    have n0 := q0.next
    simp only [push_next] at n0
    have n0' : s.next + 2 ≤ (build x e ((whileS1 s).push (s.next + 1) (some a))).next := by simpa [whileS1] using n0
    have q1 := ihy false e _ hp.1.2 (hr.mono (by omega) (by simp)) q0.wf q0.edg (by omega)
    have n1 := q1.next
    have k1 := q1.wf.cur
    refine fr _ _ _ hw ?_
    have hb : build (.impFor l x y a u b) e s =
        let s2 := build y e (build x e ((whileS1 s).push (s.next + 1) (some a)))
        let s3 := (((((s2.newBlock.newBlock.newBlock.edge s2.cur s2.next).edge s2.next s.next).edge (s2.next + 1)
          s2.next).push (s2.next + 1) (some u)).setCur (s2.next + 2)).edge s2.next (s2.next + 2)
        let s4 := build b (loopEnv e s2.next s.next l) s3
        (s4.edge s4.cur s2.next).setCur s.next := rfl
    rw [hb]
    simp only
    have w1 := q1.wf
    have e1 := q1.edg
    clear hb q0 q1
    generalize build y e (build x e ((whileS1 s).push (s.next + 1) (some a))) = s2 at *
    have q2 := ihb false (loopEnv e s2.next s.next l)
      ((((((s2.newBlock.newBlock.newBlock.edge s2.cur s2.next).edge s2.next s.next).edge (s2.next + 1)
          s2.next).push (s2.next + 1) (some u)).setCur (s2.next + 2)).edge s2.next (s2.next + 2)) hp.2
      (hr.loop (by simp; omega) (by simp; omega) (by simp; omega))
      ⟨by simp, by simp [push_code]; have := w1.fresh; grind⟩
      (by
        refine ((((((e1.newBlock.newBlock.newBlock).edge ?_ ?_).edge ?_ ?_).edge ?_ ?_).push _ _).setCur _).edge ?_ ?_ <;>
          simp <;> omega) (by simp)
    have n2 := q2.next
    have k2 := q2.wf.cur
    simp only [setCur_next, edge_next, newBlock_next, push_next] at n2
    exact (q2.edg.edge k2 (by omega)).setCur _
  | ctch v b rest ihb ihr =>
    intro h e s hp hr hw he h1
    simp only [Node.proper, Bool.and_eq_true] at hp
    obtain ⟨⟨rfl, hp1⟩, hp2⟩ := hp
    have hd := hr.dst rfl
    have q1 := ihb false e ((s.newBlock.setCur s.next).push s.next v) hp1 (hr.mono (by simp) (by simp))
      ⟨by simp, by simp [push_code]; have := hw.fresh; grind⟩ ((he.newBlock.setCur _).push _ _) (by simp)
    have n1 := q1.next
    have k1 := q1.wf.cur
    simp only [setCur_next, newBlock_next, push_next] at n1
    have ed := fromRoute_eds e (build b e ((s.newBlock.setCur s.next).push s.next v)) s.next
    have e2 : EdgOk ((build b e ((s.newBlock.setCur s.next).push s.next v)).fromRoute e s.next) :=
      q1.edg.fromRoute (hr.mono (by omega) (fun h => h)) (by omega)
    have ed' := ed.edge ((build b e ((s.newBlock.setCur s.next).push s.next v)).fromRoute e s.next).cur e.dst
    have q2 := ihr true e _ hp2 (hr.mono (by rw [ed'.next]; omega) (fun h => h)) (ed'.wf q1.wf)
      (e2.edge (by rw [ed.cur, ed.next]; exact k1) (by rw [ed.next]; omega)) (by rw [ed'.next]; omega)
    exact fr _ _ _ hw q2.edg
  | tryc b hd els fin ihb ihh ihe ihf =>
    intro h e s hp hr hw he h1
    simp only [Node.proper, Bool.and_eq_true] at hp
    obtain ⟨⟨⟨hp1, hp2⟩, hp3⟩, hp4⟩ := hp
    refine fr _ _ _ hw ?_
    rw [build_try (p := els.isSkip) (q := fin.isSkip) rfl rfl rfl rfl rfl rfl rfl]
    have hsc := hw.cur
    generalize hpp : els.isSkip = p
    generalize hqq : fin.isSkip = q
    have w0 : WF (tryS0 s p q) := wf_open hw rfl (by simp [tryS0]; omega) (by simp [tryS0]; omega)
    have hrt : ∀ m, (tryS0 s p q).next ≤ m → Rng true (tryEnv e s p q) m := by
      intro m hm
      have hm' : s.next + 2 + (if p then 0 else 1) + (if q then 0 else 1) ≤ m := hm
      have hr' := hr.mono (m := m) (h' := false) (by omega) (by simp)
      refine ⟨hr'.loops, ?_, ?_, ?_⟩
      · intro r o hro
        simp only [tryEnv, List.mem_cons, Prod.mk.injEq] at hro
        rcases hro with ⟨rfl, -⟩ | hro
        · omega
        · exact hr'.tcs r o hro
      · intro r f hro
        simp only [tryEnv, List.mem_cons, Prod.mk.injEq] at hro
        rcases hro with ⟨-, hff⟩ | hro
        · cases q with
          | true => simp at hff
          | false =>
            simp only [Bool.false_eq_true, if_false, Option.some.injEq] at hff hm'
            subst hff
            unfold tryFinB
            split at hm' <;> simp_all <;> omega
        · exact hr'.fin r f hro
      · intro _
        simp only [tryEnv, tryDst, tryFinB]
        cases p <;> cases q <;> simp at hm' ⊢ <;> omega
    have q1 := ihb false (tryEnv e s p q) (tryS0 s p q) hp1 ((hrt _ (Nat.le_refl _)).mono (Nat.le_refl _) (by simp)) w0
      (he.of rfl (by simp [tryS0]; omega)) (by simp [tryS0]; omega)
    have n1 := q1.next
    have k1 := q1.wf.cur
    have m0 : s.next + 2 + (if p then 0 else 1) + (if q then 0 else 1) ≤ (build b (tryEnv e s p q) (tryS0 s p q)).next := n1
    generalize build b (tryEnv e s p q) (tryS0 s p q) = s1 at *
    have w1' : WF (tryS1 s s1 p q) := ((Eds.refl s1).edge _ _).wf q1.wf
    have q2 := ihh true (tryEnv e s p q) (tryS1 s s1 p q) hp2 (hrt _ n1) w1'
      (q1.edg.edge k1 (by
        simp only [tryDst, tryFinB]
        cases p <;> cases q <;> simp at m0 ⊢ <;> omega)) (by simp [tryS1]; omega)
    have n2 := q2.next
    have n2' : s1.next ≤ (build hd (tryEnv e s p q) (tryS1 s s1 p q)).next := n2
    have k2 := q2.wf.cur
    generalize build hd (tryEnv e s p q) (tryS1 s s1 p q) = s2 at *
    have key3 : Bld s2 (tryS3 s s2 (build els (tryEnv e s p q) (s2.setCur (s.next + 2))) p q) := by
      cases p with
      | true => exact ⟨q2.wf, Nat.le_refl _, q2.edg⟩
      | false =>
        simp only [Bool.false_eq_true, if_false] at m0
        have q3 := ihe false (tryEnv e s false q) (s2.setCur (s.next + 2)) hp3
          ((hrt _ (Nat.le_trans n1 n2')).mono (Nat.le_refl _) (by simp)) ⟨by simp; omega, q2.wf.fresh⟩ (q2.edg.setCur _) (by simp; omega)
        have n3 := q3.next
        simp only [setCur_next] at n3
        simp only [tryS3, Bool.false_eq_true, if_false]
        refine ⟨((Eds.refl _).edge _ _).wf q3.wf, n3, q3.edg.edge q3.wf.cur ?_⟩
        simp only [tryDst, tryFinB]
        cases q <;> simp at m0 ⊢ <;> omega
    generalize tryS3 s s2 (build els (tryEnv e s p q) (s2.setCur (s.next + 2))) p q = s3 at *
    have n3 := key3.next
    have key4 : EdgOk (tryS4 s s3 (build fin e (s3.setCur (tryFinB s p))) p q) ∧
        s3.next ≤ (tryS4 s s3 (build fin e (s3.setCur (tryFinB s p))) p q).next := by
      cases q with
      | true => exact ⟨key3.edg, Nat.le_refl _⟩
      | false =>
        simp only [Bool.false_eq_true, if_false] at m0
        have hfb : 1 ≤ tryFinB s p ∧ tryFinB s p < s3.next := by
          unfold tryFinB
          cases p <;> simp at m0 ⊢ <;> omega
        have q4 := ihf false e (s3.setCur (tryFinB s p)) hp4 (hr.mono (by simp; omega) (by simp))
          ⟨by simp; omega, key3.wf.fresh⟩ (key3.edg.setCur _) (by simp; omega)
        have n4 := q4.next
        simp only [setCur_next] at n4
        simp only [tryS4, Bool.false_eq_true, if_false]
        refine ⟨(q4.edg.edge q4.wf.cur (by omega)).edge (by simp; omega) (by simp; omega), n4⟩
    generalize tryS4 s s3 (build fin e (s3.setCur (tryFinB s p))) p q = s4 at *
    refine (key4.1.toRoute (hr.mono (by omega) (fun h => h)) ?_).setCur _
    have := key4.2
    unfold tryFinB
    cases p <;> cases q <;> simp at m0 ⊢ <;> omega

/-! ### The operations in the graph -/

/-- The operations of a body. -/
def Node.instrs : Node → List Instr
  | .skip => []
  | .op i => [i]
  | .ret => []
  | .brk _ => []
  | .cont _ => []
  | .seq a b => a.instrs ++ b.instrs
  | .ite c t f => c.instrs ++ t.instrs ++ f.instrs
  | .tern c t f phi => c.instrs ++ t.instrs ++ f.instrs ++ [phi]
  | .while_ _ c b => c.instrs ++ b.instrs
  | .for_ _ _ a it b => it.instrs ++ [a] ++ b.instrs
  | .impFor _ x y a u b => x.instrs ++ y.instrs ++ [a, u] ++ b.instrs
  | .tryc b h els fin => b.instrs ++ h.instrs ++ els.instrs ++ fin.instrs
  | .ctch v b rest => v.toList ++ b.instrs ++ rest.instrs

theorem insert_code_mem {e : Env} {s : B} {i : Option Instr} {b : Nat} {x : Instr}
    (h : x ∈ (s.insert e i).code b) : x ∈ s.code b ∨ x ∈ i.toList := by
  unfold B.insert at h
  split at h
  · simp only [push_code] at h
    split at h <;> simp_all
  · simp only [push_code, setCur_code, edge_code, newBlock_code] at h
    split at h <;> simp_all

theorem toRoute_code' (e : Env) (s : B) (b : Nat) : (s.toRoute e b).code = s.code := (toRoute_eds e s b).code

theorem build_instrs (n : Node) : ∀ (e : Env) (s : B) (b : Nat) (x : Instr),
    x ∈ (build n e s).code b → x ∈ s.code b ∨ x ∈ n.instrs := by
  induction n with
  | skip => intro e s b x h; exact .inl h
  | op i => intro e s b x h; simpa [Node.instrs] using insert_code_mem h
  | ret =>
    intro e s b x h
    have := insert_code_mem h
    rw [(jump_eds e s none 0).code] at this
    simpa [Node.instrs] using this
  | brk l =>
    intro e s b x h
    simp only [build] at h
    split at h
    · have := insert_code_mem h
      rw [(jump_eds e s _ _).code] at this
      simpa [Node.instrs] using this
    · exact .inl h
  | cont l =>
    intro e s b x h
    simp only [build] at h
    split at h
    · have := insert_code_mem h
      rw [(jump_eds e s _ _).code] at this
      simpa [Node.instrs] using this
    · exact .inl h
  | seq a c iha ihc =>
    intro e s b x h
    simp only [build] at h
    have h1 := ihc _ _ _ _ h
    have h2 := iha e s b x
    simp only [Node.instrs, List.mem_append]
    tauto
  | ite c t f ihc iht ihf =>
    intro e s b x h
    simp only [build] at h
    have h1 := ihc e s b x
    have h2 := iht e ((build c e s).newBlock.newBlock.setCur ((build c e s).next + 1)) b x
    simp only [Node.instrs, List.mem_append]
    split at h
    · simp only [setCur_code, edge_code, newBlock_code] at h h2
      tauto
    · simp only [setCur_code, edge_code, newBlock_code] at h h2
      have h3 := ihf _ _ _ _ h
      simp only [setCur_code, edge_code, newBlock_code] at h3
      tauto
  | tern c t f phi ihc iht ihf =>
    intro e s b x h
    simp only [build, setCur_code, push_code, edge_code] at h
    simp only [Node.instrs, List.mem_append]
    have h0 : x ∈ [phi] ∨ x ∈ (build f e (((build t e ((((build c e s.newBlock.newBlock.newBlock).edge (build c e s.newBlock.newBlock.newBlock).cur (s.next + 1)).edge (build c e s.newBlock.newBlock.newBlock).cur (s.next + 2)).setCur (s.next + 1))).edge (build t e ((((build c e s.newBlock.newBlock.newBlock).edge (build c e s.newBlock.newBlock.newBlock).cur (s.next + 1)).edge (build c e s.newBlock.newBlock.newBlock).cur (s.next + 2)).setCur (s.next + 1))).cur s.next).setCur (s.next + 2))).code b := by
      split at h
      · simp only [List.mem_append, Option.toList_some] at h
        tauto
      · exact .inr h
    rcases h0 with h0 | h0
    · exact .inr (.inr h0)
    · have h3 := ihf _ _ _ _ h0
      simp only [setCur_code, edge_code] at h3
      rcases h3 with h3 | h3
      · have h2 := iht _ _ _ _ h3
        simp only [setCur_code, edge_code] at h2
        rcases h2 with h2 | h2
        · have h1 := ihc _ _ _ _ h2
          simp only [newBlock_code] at h1
          tauto
        · tauto
      · tauto
  | while_ l c bd ihc ihb =>
    intro e s b x h
    simp only [build, setCur_code, edge_code] at h
    simp only [Node.instrs, List.mem_append]
    have h2 := ihb _ _ _ _ h
    simp only [setCur_code, edge_code, newBlock_code] at h2
    rcases h2 with h2 | h2
    · have h1 := ihc _ _ _ _ h2
      simp only [setCur_code, edge_code, newBlock_code] at h1
      tauto
    · tauto
  | for_ l mr a it bd ihc ihb =>
    intro e s b x h
    simp only [build, setCur_code, edge_code] at h
    simp only [Node.instrs, List.mem_append]
    have h2 := ihb _ _ _ _ h
    simp only [setCur_code, edge_code, newBlock_code, push_code] at h2
    rcases h2 with h2 | h2
    · have h3 : x ∈ [a] ∨ x ∈ (build it e (((s.newBlock.newBlock).setCur (s.next + 1)).edge s.cur (s.next + 1))).code b := by
        split at h2
        · simp only [List.mem_append, Option.toList_some] at h2
          tauto
        · exact .inr h2
      rcases h3 with h3 | h3
      · tauto
      · have h1 := ihc _ _ _ _ h3
        simp only [setCur_code, edge_code, newBlock_code] at h1
        tauto
    · tauto
  | impFor l st en a u bd ihx ihy ihb =>
    intro e s b x h
    simp only [build, setCur_code, edge_code] at h
    simp only [Node.instrs, List.mem_append, List.mem_cons, List.not_mem_nil, or_false]
    have h2 := ihb _ _ _ _ h
    simp only [setCur_code, edge_code, newBlock_code, push_code] at h2
    rcases h2 with h2 | h2
    · have h3 : x = u ∨ x ∈ (build en e (build st e ((((s.newBlock.newBlock).setCur (s.next + 1)).edge s.cur (s.next + 1)).push (s.next + 1) (some a)))).code b := by
        split at h2
        · simp only [List.mem_append, Option.toList_some, List.mem_singleton] at h2
          tauto
        · exact .inr h2
      rcases h3 with h3 | h3
      · tauto
      · have h1 := ihy _ _ _ _ h3
        rcases h1 with h1 | h1
        · have h0 := ihx _ _ _ _ h1
          simp only [setCur_code, edge_code, newBlock_code, push_code] at h0
          rcases h0 with h0 | h0
          · split at h0
            · simp only [List.mem_append, Option.toList_some, List.mem_singleton] at h0
              tauto
            · tauto
          · tauto
        · tauto
    · tauto
  | ctch v bd rest ihb ihr =>
    intro e s b x h
    simp only [build] at h
    simp only [Node.instrs, List.mem_append]
    have h2 := ihr _ _ _ _ h
    simp only [edge_code, (fromRoute_eds _ _ _).code] at h2
    rcases h2 with h2 | h2
    · have h1 := ihb _ _ _ _ h2
      simp only [setCur_code, newBlock_code, push_code] at h1
      rcases h1 with h1 | h1
      · split at h1
        · simp only [List.mem_append] at h1
          tauto
        · tauto
      · tauto
    · tauto
  | tryc bd hd els fin ihb ihh ihe ihf =>
    intro e s b x h
    rw [build_try (p := els.isSkip) (q := fin.isSkip) rfl rfl rfl rfl rfl rfl rfl] at h
    simp only [setCur_code, toRoute_code'] at h
    simp only [Node.instrs, List.mem_append]
    have f4 : x ∈ (tryS3 s (build hd (tryEnv e s els.isSkip fin.isSkip) (tryS1 s (build bd (tryEnv e s els.isSkip fin.isSkip) (tryS0 s els.isSkip fin.isSkip)) els.isSkip fin.isSkip)) (build els (tryEnv e s els.isSkip fin.isSkip) ((build hd (tryEnv e s els.isSkip fin.isSkip) (tryS1 s (build bd (tryEnv e s els.isSkip fin.isSkip) (tryS0 s els.isSkip fin.isSkip)) els.isSkip fin.isSkip)).setCur (s.next + 2))) els.isSkip fin.isSkip).code b ∨ x ∈ fin.instrs := by
      unfold tryS4 at h
      split at h
      · exact .inl h
      · simp only [edge_code] at h
        have := ihf _ _ _ _ h
        simpa only [setCur_code] using this
    rcases f4 with f4 | f4
    · have f3 : x ∈ (build hd (tryEnv e s els.isSkip fin.isSkip) (tryS1 s (build bd (tryEnv e s els.isSkip fin.isSkip) (tryS0 s els.isSkip fin.isSkip)) els.isSkip fin.isSkip)).code b ∨ x ∈ els.instrs := by
        unfold tryS3 at f4
        split at f4
        · exact .inl f4
        · simp only [edge_code] at f4
          have := ihe _ _ _ _ f4
          simpa only [setCur_code] using this
      rcases f3 with f3 | f3
      · have f2 := ihh _ _ _ _ f3
        simp only [tryS1, edge_code] at f2
        rcases f2 with f2 | f2
        · have f1 := ihb _ _ _ _ f2
          simp only [tryS0] at f1
          tauto
        · tauto
      · tauto
    · tauto

end Codon.Flow
