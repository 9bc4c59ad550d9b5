import Verif.Flow.CfgSpec
import Mathlib.Tactic.Common
/-!
# C08: the graph has every execution

Helper lemmas for `CfgProps`.
-/
namespace Codon.Flow

/-! ### What building changes -/

/-- Building only appends to the current block and to new blocks; inside `try` (`t`) only to new blocks. -/
structure Frame (t : Prop) (s s' : B) : Prop where
  next : s.next ≤ s'.next
  cur : s'.cur = s.cur ∨ (s.next ≤ s'.cur ∧ s'.cur < s'.next)
  code : ∀ b, b < s.next → b ≠ s.cur → s'.code b = s.code b
  pre : s.code s.cur <+: s'.code s.cur
  fresh : ∀ b, s'.next ≤ b → s'.code b = []
  edges : ∀ x, x ∈ s.edges → x ∈ s'.edges
  keep : t → s'.code s.cur = s.code s.cur

/-- The state is one the visitor can be in. -/
structure WF (s : B) : Prop where
  cur : s.cur < s.next
  fresh : ∀ b, s.next ≤ b → s.code b = []

theorem Frame.wf {t : Prop} {s s' : B} (h : Frame t s s') (hs : WF s) : WF s' :=
  ⟨by have := h.cur; have := h.next; have := hs.cur; omega, h.fresh⟩

theorem Frame.refl {t : Prop} {s : B} (hs : WF s) : Frame t s s :=
  ⟨Nat.le_refl _, .inl rfl, fun _ _ _ => rfl, List.prefix_rfl, hs.fresh, fun _ h => h, fun _ => rfl⟩

theorem Frame.trans {t : Prop} {s s1 s2 : B} (hs : WF s) (h1 : Frame t s s1) (h2 : Frame t s1 s2) :
    Frame t s s2 := by
  have hc := hs.cur
  have e1 := h1.next
  have e2 := h2.next
  have c1 := h1.cur
  have c2 := h2.cur
  refine ⟨by omega, by omega, ?_, ?_, h2.fresh, fun x hx => h2.edges x (h1.edges x hx), fun ht => ?_⟩
  · intro b hb hbc
    rw [h2.code b (by omega) (by omega), h1.code b hb hbc]
  · by_cases h : s1.cur = s.cur
    · have := h2.pre
      rw [h] at this
      exact h1.pre.trans this
    · rw [h2.code s.cur (by omega) (by omega)]
      exact h1.pre
  · by_cases h : s1.cur = s.cur
    · rw [← h1.keep ht, ← h]; exact h2.keep ht
    · rw [h2.code s.cur (by omega) (by omega)]
      exact h1.keep ht

/-- A frame that ends in a new block: `s'` is reached by creating blocks, building in some of them, and making a block
created at the start the current one. -/
theorem Frame.mk' {t : Prop} {s s' : B} (h1 : s.next ≤ s'.next) (h2 : s.next ≤ s'.cur ∧ s'.cur < s'.next)
    (h3 : ∀ b, b < s.next → b ≠ s.cur → s'.code b = s.code b) (h4 : s.code s.cur <+: s'.code s.cur)
    (h5 : ∀ b, s'.next ≤ b → s'.code b = []) (h6 : ∀ x, x ∈ s.edges → x ∈ s'.edges)
    (h7 : t → s'.code s.cur = s.code s.cur) : Frame t s s' :=
  ⟨h1, .inr h2, h3, h4, h5, h6, h7⟩

@[simp] theorem newBlock_code (s : B) : s.newBlock.code = s.code := rfl
@[simp] theorem newBlock_edges (s : B) : s.newBlock.edges = s.edges := rfl
@[simp] theorem newBlock_next (s : B) : s.newBlock.next = s.next + 1 := rfl
@[simp] theorem newBlock_cur (s : B) : s.newBlock.cur = s.cur := rfl
@[simp] theorem edge_code (s : B) (a b) : (s.edge a b).code = s.code := rfl
@[simp] theorem edge_edges (s : B) (a b) : (s.edge a b).edges = (a, b) :: s.edges := rfl
@[simp] theorem edge_next (s : B) (a b) : (s.edge a b).next = s.next := rfl
@[simp] theorem edge_cur (s : B) (a b) : (s.edge a b).cur = s.cur := rfl
@[simp] theorem setCur_code (s : B) (b) : (s.setCur b).code = s.code := rfl
@[simp] theorem setCur_edges (s : B) (b) : (s.setCur b).edges = s.edges := rfl
@[simp] theorem setCur_next (s : B) (b) : (s.setCur b).next = s.next := rfl
@[simp] theorem setCur_cur (s : B) (b) : (s.setCur b).cur = b := rfl
@[simp] theorem push_edges (s : B) (b i) : (s.push b i).edges = s.edges := rfl
@[simp] theorem push_next (s : B) (b i) : (s.push b i).next = s.next := rfl
@[simp] theorem push_cur (s : B) (b i) : (s.push b i).cur = s.cur := rfl
theorem push_code (s : B) (b i c) : (s.push b i).code c = if c = b then s.code c ++ i.toList else s.code c := rfl
@[simp] theorem push_code_same (s : B) (b i) : (s.push b i).code b = s.code b ++ i.toList := by simp [push_code]
theorem push_code_ne (s : B) {b i c} (h : c ≠ b) : (s.push b i).code c = s.code c := by simp [push_code, h]

/-- Adding edges changes nothing else. -/
structure Eds (s s' : B) : Prop where
  code : s'.code = s.code
  next : s'.next = s.next
  cur : s'.cur = s.cur
  edges : ∀ x, x ∈ s.edges → x ∈ s'.edges

theorem Eds.refl (s : B) : Eds s s := ⟨rfl, rfl, rfl, fun _ h => h⟩

theorem Eds.edge {s s' : B} (h : Eds s s') (a b : Nat) : Eds s (s'.edge a b) :=
  ⟨h.code, h.next, h.cur, fun x hx => List.mem_cons_of_mem _ (h.edges x hx)⟩

theorem jump_eds (e : Env) (s : B) (cf : Option Nat) (k : Nat) : Eds s (s.jump e cf k) := by
  unfold B.jump
  cases cf with
  | none =>
    simp only
    split
    · exact Eds.refl s
    · split
      · exact (Eds.refl s).edge _ _
      · exact Eds.refl s
  | some t =>
    simp only
    split
    · exact (Eds.refl s).edge _ _
    · split
      · exact ((Eds.refl s).edge _ _).edge _ _
      · exact (Eds.refl s).edge _ _

theorem Eds.frame {t : Prop} {s s1 s2 : B} (h : Eds s s1) (h2 : Frame t s1 s2) : Frame t s s2 := by
  obtain ⟨a, b, c, d, e, f, g⟩ := h2
  rw [h.next, h.cur, h.code] at *
  exact ⟨a, b, c, d, e, fun x hx => f x (h.edges x hx), g⟩

theorem Frame.eds {t : Prop} {s s1 s2 : B} (h : Frame t s s1) (h2 : Eds s1 s2) : Frame t s s2 := by
  obtain ⟨a, b, c, d, e, f, g⟩ := h
  refine ⟨?_, ?_, ?_, ?_, ?_, fun x hx => h2.edges x (f x hx), ?_⟩
  all_goals (try rw [h2.next]) 
  all_goals (try rw [h2.cur])
  all_goals (try rw [h2.code])
  all_goals assumption

theorem Eds.wf {s s' : B} (h : Eds s s') (hs : WF s) : WF s' :=
  ⟨by rw [h.cur, h.next]; exact hs.cur, by rw [h.next, h.code]; exact hs.fresh⟩

theorem insert_frame (e : Env) (s : B) (hs : WF s) (i : Option Instr) :
    Frame (e.tcs ≠ []) s (s.insert e i) := by
  have hc := hs.cur
  unfold B.insert
  split
  · rename_i hn
    refine ⟨Nat.le_refl _, .inl rfl, ?_, ?_, ?_, fun _ h => h, fun h => absurd hn h⟩
    · intro b _ hb; rw [push_code_ne _ hb]
    · simp
    · intro b hb
      have : b ≠ s.cur := by simp at hb; omega
      rw [push_code_ne _ this]; exact hs.fresh b hb
  · refine ⟨?_, .inr ?_, ?_, ?_, ?_, ?_, ?_⟩
    · simp
    · simp
    · intro b hb hbc
      rw [push_code_ne _ (by omega)]; rfl
    · rw [push_code_ne _ (by omega)]; exact List.prefix_rfl
    · intro b hb
      simp at hb
      rw [push_code_ne _ (by omega)]
      exact hs.fresh b (by omega)
    · intro x hx; simp [hx]
    · intro _
      rw [push_code_ne _ (by omega)]; rfl

theorem jumpInsert_frame (e : Env) (s : B) (hs : WF s) (cf : Option Nat) (k : Nat) :
    Frame (e.tcs ≠ []) s ((s.jump e cf k).insert e none) :=
  (jump_eds e s cf k).frame (insert_frame e _ ((jump_eds e s cf k).wf hs) none)

theorem fromRoute_eds (e : Env) (s : B) (b : Nat) : Eds s (s.fromRoute e b) := by
  unfold B.fromRoute
  split
  · exact Eds.refl _
  · exact (Eds.refl _).edge _ _

theorem toRoute_eds (e : Env) (s : B) (b : Nat) : Eds s (s.toRoute e b) := by
  unfold B.toRoute
  split
  · exact Eds.refl _
  · exact (Eds.refl _).edge _ _

theorem tryBlocks_eq (s : B) (p q : Bool) : s.tryBlocks p q =
    { s with next := s.next + 2 + (if p then 0 else 1) + (if q then 0 else 1) } := by
  cases p <;> cases q <;> rfl

theorem wf_open {s : B} (hs : WF s) {s' : B} (hc : s'.code = s.code) (hn : s.next ≤ s'.next) (hcur : s'.cur < s'.next) :
    WF s' := ⟨hcur, fun b hb => by rw [hc]; exact hs.fresh b (by omega)⟩

/-- `s'` is reached from `s` by building in block `b` (which exists in `s`) and in new blocks. -/
structure Stage (s s' : B) (b : Nat) : Prop where
  next : s.next ≤ s'.next
  code : ∀ c, c < s.next → c ≠ b → s'.code c = s.code c
  fresh : ∀ c, s'.next ≤ c → s'.code c = []
  edges : ∀ x, x ∈ s.edges → x ∈ s'.edges

theorem Stage.refl {s : B} {b : Nat} (h : ∀ c, s.next ≤ c → s.code c = []) : Stage s s b :=
  ⟨Nat.le_refl _, fun _ _ _ => rfl, h, fun _ h => h⟩

theorem Frame.stage {t : Prop} {s s' : B} {b : Nat} (h : Frame t (s.setCur b) s') : Stage s s' b :=
  ⟨h.next, h.code, h.fresh, h.edges⟩

theorem Stage.edge {s s' : B} {b : Nat} (h : Stage s s' b) (x y : Nat) : Stage s (s'.edge x y) b :=
  ⟨h.next, h.code, h.fresh, fun z hz => List.mem_cons_of_mem _ (h.edges z hz)⟩

theorem build_frame (n : Node) : ∀ (e : Env) (s : B), WF s → Frame (e.tcs ≠ []) s (build n e s) := by
  induction n with
  | skip => intro e s hs; exact Frame.refl hs
  | op i => intro e s hs; exact insert_frame e s hs _
  | seq a b iha ihb =>
    intro e s hs
    have h1 := iha e s hs
    exact h1.trans hs (ihb e _ (h1.wf hs))
  | ite c t f ihc iht ihf =>
    intro e s hs
    have h1 := ihc e s hs
    have w1 := h1.wf hs
    simp only [build]
    generalize build c e s = s1 at *
    have h2 := iht e ((s1.newBlock.newBlock).setCur (s1.next + 1)) (wf_open w1 rfl (by simp; omega) (by simp))
    generalize build t e ((s1.newBlock.newBlock).setCur (s1.next + 1)) = s3 at *
    obtain ⟨a1, a2, a3, a4, a5, a6, a7⟩ := h1
    obtain ⟨b1, b2, b3, b4, b5, b6, b7⟩ := h2
    have := hs.cur
    have := w1.cur
    simp at b1 b2 b3 b4 b5 b6 b7
    split
    · refine Frame.mk' ?_ ?_ ?_ ?_ ?_ ?_ ?_ <;> simp <;> grind
    · have h3 := ihf e ((s3.edge s3.cur s1.next).newBlock.setCur s3.next) ⟨by simp, by simp; grind⟩
      simp only [edge_next]
      generalize build f e ((s3.edge s3.cur s1.next).newBlock.setCur s3.next) = s5 at *
      obtain ⟨c1, c2, c3, c4, c5, c6, c7⟩ := h3
      simp at c1 c2 c3 c4 c5 c6 c7
      refine Frame.mk' ?_ ?_ ?_ ?_ ?_ ?_ ?_ <;> simp <;> grind
  | tern c t f phi ihc iht ihf =>
    intro e s hs
    have hsc := hs.cur
    have hsf := hs.fresh
    have h1 := ihc e s.newBlock.newBlock.newBlock (wf_open hs rfl (by simp; omega) (by simp; omega))
    simp only [build]
    generalize build c e s.newBlock.newBlock.newBlock = s1 at *
    obtain ⟨a1, a2, a3, a4, a5, a6, a7⟩ := h1
    simp at a1 a2 a3 a4 a5 a6 a7
    have h2 := iht e (((s1.edge s1.cur (s.next + 1)).edge s1.cur (s.next + 2)).setCur (s.next + 1))
      ⟨by simp; omega, by simpa using a5⟩
    generalize build t e (((s1.edge s1.cur (s.next + 1)).edge s1.cur (s.next + 2)).setCur (s.next + 1)) = s2 at *
    obtain ⟨b1, b2, b3, b4, b5, b6, b7⟩ := h2
    simp at b1 b2 b3 b4 b5 b6 b7
    have h3 := ihf e ((s2.edge s2.cur s.next).setCur (s.next + 2)) ⟨by simp; omega, by simpa using b5⟩
    generalize build f e ((s2.edge s2.cur s.next).setCur (s.next + 2)) = s3 at *
    obtain ⟨c1, c2, c3, c4, c5, c6, c7⟩ := h3
    simp at c1 c2 c3 c4 c5 c6 c7
    refine Frame.mk' ?_ ?_ ?_ ?_ ?_ ?_ ?_ <;> simp [push_code] <;> grind
  | while_ l c b ihc ihb =>
    intro e s hs
    have hsc := hs.cur
    have hsf := hs.fresh
    simp only [build]
    have h1 := ihc e (((s.newBlock.newBlock).setCur (s.next + 1)).edge s.cur (s.next + 1))
      (wf_open hs rfl (by simp; omega) (by simp))
    generalize build c e (((s.newBlock.newBlock).setCur (s.next + 1)).edge s.cur (s.next + 1)) = s2 at *
    obtain ⟨a1, a2, a3, a4, a5, a6, a7⟩ := h1
    simp at a1 a2 a3 a4 a5 a6 a7
    simp only [edge_next]
    have h2 := ihb { e with loops := e.loops ++ [⟨s.next + 1, s.next, l, e.tcs.length⟩] }
      (((s2.edge s2.cur s.next).newBlock.setCur s2.next).edge (s.next + 1) s2.next) ⟨by simp, by simp; grind⟩
    generalize build b { e with loops := e.loops ++ [⟨s.next + 1, s.next, l, e.tcs.length⟩] }
      (((s2.edge s2.cur s.next).newBlock.setCur s2.next).edge (s.next + 1) s2.next) = s4 at *
    obtain ⟨b1, b2, b3, b4, b5, b6, b7⟩ := h2
    simp at b1 b2 b3 b4 b5 b6 b7
    refine Frame.mk' ?_ ?_ ?_ ?_ ?_ ?_ ?_ <;> simp <;> grind
  | for_ l mr a it b ihi ihb =>
    intro e s hs
    have hsc := hs.cur
    have hsf := hs.fresh
    simp only [build]
    have h1 := ihi e (((s.newBlock.newBlock).setCur (s.next + 1)).edge s.cur (s.next + 1))
      (wf_open hs rfl (by simp; omega) (by simp))
    generalize build it e (((s.newBlock.newBlock).setCur (s.next + 1)).edge s.cur (s.next + 1)) = s2 at *
    obtain ⟨a1, a2, a3, a4, a5, a6, a7⟩ := h1
    simp at a1 a2 a3 a4 a5 a6 a7
    generalize hs3 : (((((s2.newBlock.newBlock.newBlock.edge s2.cur s2.next).edge s2.next s.next).edge s2.next
      (s2.next + 1)).push (s2.next + 1) (some a)).setCur (s2.next + 2)).edge (s2.next + 1) (s2.next + 2) = s3
    have q1 : s3.next = s2.next + 3 := by rw [← hs3]; rfl
    have q2 : s3.cur = s2.next + 2 := by rw [← hs3]; rfl
    have q3 : ∀ b, s3.code b = if b = s2.next + 1 then s2.code b ++ [a] else s2.code b := by
      intro b; rw [← hs3]; rfl
    have q4 : ∀ x, x ∈ s2.edges → x ∈ s3.edges := by intro x hx; rw [← hs3]; simp [hx]
    have h2 := ihb { e with loops := e.loops ++ [⟨s2.next, s.next, l, e.tcs.length⟩] } s3
      ⟨by omega, by intro b hb; rw [q3, if_neg (by omega)]; exact a5 b (by omega)⟩
    generalize build b { e with loops := e.loops ++ [⟨s2.next, s.next, l, e.tcs.length⟩] } s3 = s4 at *
    obtain ⟨b1, b2, b3, b4, b5, b6, b7⟩ := h2
    refine Frame.mk' ?_ ?_ ?_ ?_ ?_ ?_ ?_ <;> simp <;> grind
  | impFor l start stop a upd b ih1 ih2 ihb =>
    intro e s hs
    have hsc := hs.cur
    have hsf := hs.fresh
    simp only [build]
    generalize hs1 : (((s.newBlock.newBlock).setCur (s.next + 1)).edge s.cur (s.next + 1)).push (s.next + 1)
      (some a) = s1
    have p1 : s1.next = s.next + 2 := by rw [← hs1]; rfl
    have p2 : s1.cur = s.next + 1 := by rw [← hs1]; rfl
    have p3 : ∀ b, s1.code b = if b = s.next + 1 then s.code b ++ [a] else s.code b := by
      intro b; rw [← hs1]; rfl
    have p4 : ∀ x, x ∈ s.edges → x ∈ s1.edges := by intro x hx; rw [← hs1]; simp [hx]
    have w1 : WF s1 := ⟨by omega, by intro b hb; rw [p3, if_neg (by omega)]; exact hsf b (by omega)⟩
    have h1 := ih1 e s1 w1
    have h1' := h1.trans w1 (ih2 e _ (h1.wf w1))
    generalize build stop e (build start e s1) = s2 at *
    obtain ⟨a1, a2, a3, a4, a5, a6, a7⟩ := h1'
    generalize hs3 : (((((s2.newBlock.newBlock.newBlock.edge s2.cur s2.next).edge s2.next s.next).edge
      (s2.next + 1) s2.next).push (s2.next + 1) (some upd)).setCur (s2.next + 2)).edge s2.next (s2.next + 2) = s3
    have q1 : s3.next = s2.next + 3 := by rw [← hs3]; rfl
    have q2 : s3.cur = s2.next + 2 := by rw [← hs3]; rfl
    have q3 : ∀ b, s3.code b = if b = s2.next + 1 then s2.code b ++ [upd] else s2.code b := by
      intro b; rw [← hs3]; rfl
    have q4 : ∀ x, x ∈ s2.edges → x ∈ s3.edges := by intro x hx; rw [← hs3]; simp [hx]
    have h2 := ihb { e with loops := e.loops ++ [⟨s2.next, s.next, l, e.tcs.length⟩] } s3
      ⟨by omega, by intro b hb; rw [q3, if_neg (by omega)]; exact a5 b (by omega)⟩
    generalize build b { e with loops := e.loops ++ [⟨s2.next, s.next, l, e.tcs.length⟩] } s3 = s4 at *
    obtain ⟨b1, b2, b3, b4, b5, b6, b7⟩ := h2
    refine Frame.mk' ?_ ?_ ?_ ?_ ?_ ?_ ?_ <;> simp <;> grind
  | brk l =>
    intro e s hs
    simp only [build]
    split
    · exact jumpInsert_frame e s hs _ _
    · exact Frame.refl hs
  | cont l =>
    intro e s hs
    simp only [build]
    split
    · exact jumpInsert_frame e s hs _ _
    · exact Frame.refl hs
  | ret => intro e s hs; exact jumpInsert_frame e s hs _ _
  | tryc body hs els fin ihb ihh ihe ihf =>
    intro e s hw
    have hsc := hw.cur
    have hsf := hw.fresh
    simp only [build]
    generalize hp : els.isSkip = p
    generalize hq : fin.isSkip = q
    generalize hd : (if q = true then s.next + 1 else if p = true then s.next + 2 else s.next + 3) = dst
    generalize hf : (if p = true then s.next + 2 else s.next + 3) = finB at *
    have he : ({ e with tcs := (s.next, if q = true then none else some finB) :: e.tcs, dst := dst } : Env).tcs ≠ [] := by
      simp
    generalize ({ e with tcs := (s.next, if q = true then none else some finB) :: e.tcs, dst := dst } : Env) = e' at *
    rw [tryBlocks_eq]
    have h1 := ihb e' { s with next := s.next + 2 + (if p then 0 else 1) + (if q then 0 else 1) }
      (wf_open hw rfl (by simp; omega) (by simp; omega))
    have w1 := h1.wf (wf_open hw rfl (by simp; omega) (by simp; omega))
    generalize build body e' { s with next := s.next + 2 + (if p then 0 else 1) + (if q then 0 else 1) } = s1 at *
    have h2 := ihh e' _ (((Eds.refl s1).edge s1.cur (if p = true then dst else s.next + 2)).wf w1)
    have w2 := h2.wf (((Eds.refl s1).edge s1.cur (if p = true then dst else s.next + 2)).wf w1)
    generalize build hs e' (s1.edge s1.cur (if p = true then dst else s.next + 2)) = s2 at *
    obtain ⟨a1, a2, a3, a4, a5, a6, a7⟩ := h1
    obtain ⟨b1, b2, b3, b4, b5, b6, b7⟩ := h2
    simp only [edge_code, edge_edges, edge_next, edge_cur] at *
    generalize hs3 : (if p = true then s2 else
      (build els e' (s2.setCur (s.next + 2))).edge (build els e' (s2.setCur (s.next + 2))).cur dst) = s3
    have h3 : Stage s2 s3 (s.next + 2) := by
      cases p with
      | true => rw [← hs3]; exact Stage.refl w2.fresh
      | false =>
        rw [← hs3]
        simp only [Bool.false_eq_true, if_false] at a1 ⊢
        exact (Frame.stage (ihe e' (s2.setCur (s.next + 2)) ⟨by simp; omega, w2.fresh⟩)).edge _ _
    generalize hs4 : (if q = true then s3 else
      ((build fin e (s3.setCur finB)).edge (build fin e (s3.setCur finB)).cur (s.next + 1)).edge s.next finB) = s4
    have h4 : Stage s3 s4 finB := by
      cases q with
      | true => rw [← hs4]; exact Stage.refl h3.fresh
      | false =>
        rw [← hs4]
        have := h3.next
        simp only [Bool.false_eq_true, if_false] at a1 ⊢
        have hlt : finB < s3.next := by rw [← hf]; split at a1 <;> simp_all <;> omega
        exact ((Frame.stage (ihf e (s3.setCur finB) ⟨hlt, h3.fresh⟩)).edge _ _).edge _ _
    have h5 := toRoute_eds e s4 (if q = true then s.next else finB)
    generalize s4.toRoute e (if q = true then s.next else finB) = s5 at *
    obtain ⟨c1, c2, c3, c4⟩ := h3
    obtain ⟨d1, d2, d3, d4⟩ := h4
    obtain ⟨f1, f2, f3, f4⟩ := h5
    have g1 : s.next + 2 ≤ finB := by grind
    have g2 : s.next + 2 ≤ s1.next := by grind
    have a7 := a7 he
    have b7 := b7 he
    clear hs3 hs4 ihb ihh ihe ihf hp hq hw w1 w2 hd hf
    refine Frame.mk' ?_ ?_ ?_ ?_ ?_ ?_ ?_ <;> simp <;> grind
  | ctch v h rest ihh ihr =>
    intro e s hs
    have hsc := hs.cur
    have hsf := hs.fresh
    simp only [build]
    generalize hs1 : (s.newBlock.setCur s.next).push s.next v = s1
    have p1 : s1.next = s.next + 1 := by rw [← hs1]; rfl
    have p2 : s1.cur = s.next := by rw [← hs1]; rfl
    have p3 : ∀ b, s1.code b = if b = s.next then s.code b ++ v.toList else s.code b := by
      intro b; rw [← hs1]; rfl
    have p4 : ∀ x, x ∈ s.edges → x ∈ s1.edges := by intro x hx; rw [← hs1]; simp [hx]
    have w1 : WF s1 := ⟨by omega, by intro b hb; rw [p3, if_neg (by omega)]; exact hsf b (by omega)⟩
    have h1 := ihh e s1 w1
    generalize build h e s1 = s2 at *
    have h2 := fromRoute_eds e s2 s.next
    generalize s2.fromRoute e s.next = s3 at *
    have h3 := (h1.eds (h2.edge s3.cur e.dst))
    have h4 := h3.trans w1 (ihr e _ (h3.wf w1))
    generalize build rest e (s3.edge s3.cur e.dst) = s4 at *
    obtain ⟨b1, b2, b3, b4, b5, b6, b7⟩ := h4
    refine Frame.mk' ?_ ?_ ?_ ?_ ?_ ?_ ?_ <;> grind

end Codon.Flow
