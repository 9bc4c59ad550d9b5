import Verif.NpFwd.Spec
/-! # Lemmas for C75 -/
namespace Codon.NpFwd

variable {V : Type}

/-- Two results are related. -/
inductive R2 {α β : Type} (R : α → β → Prop) : Option α → Option β → Prop where
  | none : R2 R none none
  | some {a b} : R a b → R2 R (some a) (some b)

/-- States that agree and can be reached. -/
structure Sim (y k : Nat) (s t : State V) : Prop where
  ag : Agree y k s t
  ws : Wf y k s
  wt : Wf y k t

/-- `y` and its arrays are left alone. -/
structure Keep (y k : Nat) (s s' : State V) : Prop where
  env : s'.env y = s.env y
  mem : ∀ n, s'.mem (k, n) = s.mem (k, n)

theorem Keep.refl {y k : Nat} (s : State V) : Keep y k s s := ⟨rfl, fun _ => rfl⟩

theorem Keep.trans {y k : Nat} {a b c : State V} (h1 : Keep y k a b) (h2 : Keep y k b c) : Keep y k a c :=
  ⟨h2.env.trans h1.env, fun n => (h2.mem n).trans (h1.mem n)⟩

/-- No array of site `k`. -/
def NotArr (k : Nat) (v : Val V) : Prop := ∀ n, v ≠ .arr (k, n)

theorem Agree.refl (y k : Nat) (s : State V) : Agree y k s s := ⟨fun _ _ => rfl, fun _ _ => rfl, fun _ _ => rfl⟩

theorem call_sim {y k : Nat} {f : Call V} (hb : Blind y k f.run) (hn : NotFrom k f.run) {s t : State V} (h : Sim y k s t) :
    R2 (fun a b => a.2 = b.2 ∧ Sim y k a.1 b.1 ∧ Keep y k s a.1 ∧ NotArr k a.2) (f.run s) (f.run t) := by
  have h1 := hb s t h.ag h.ws h.wt
  cases hs : f.run s with
  | none =>
    cases ht : f.run t with
    | none => exact .none
    | some b => rw [hs, ht] at h1; exact h1.elim
  | some a =>
    cases ht : f.run t with
    | none => rw [hs, ht] at h1; exact h1.elim
    | some b =>
      obtain ⟨a1, a2⟩ := a
      obtain ⟨b1, b2⟩ := b
      rw [hs, ht] at h1
      obtain ⟨e, ha, w1, w2, ke, km⟩ := h1
      exact .some ⟨e, ⟨ha, w1, w2⟩, ⟨ke, km⟩, fun n he => hn s a1 n (by rw [hs]; exact congrArg (fun v => some (a1, v)) he)⟩

/-- What is allowed as a leaf of other statements. -/
def LeafOk (y k : Nat) (a : Leaf V) : Prop := a.Plain y ∨ ∃ f, a = .call f ∧ Blind y k f.run ∧ NotFrom k f.run ∧ f.Sound

theorem leaf_sim {y k : Nat} {a : Leaf V} (ha : LeafOk y k a) {s t : State V} (h : Sim y k s t) :
    R2 (fun a b => a.2 = b.2 ∧ Sim y k a.1 b.1 ∧ Keep y k s a.1 ∧ NotArr k a.2) (a.run s) (a.run t) := by
  rcases ha with hp | ⟨f, rfl, hb, hn, _⟩
  · cases a with
    | var x =>
      have hx : x ≠ y := hp
      show R2 _ ((s.env x).map fun v => (s, v)) ((t.env x).map fun v => (t, v))
      rw [← h.ag.env x hx]
      cases he : s.env x with
      | none => exact .none
      | some v => exact .some ⟨rfl, h, Keep.refl s, fun n hv => h.ws.priv x hx n (by rw [he]; exact congrArg some hv)⟩
    | num c => exact .some ⟨rfl, h, Keep.refl s, fun n hv => by cases hv⟩
    | call f => exact hp.elim
  · exact call_sim hb hn h

/-- No array of site `k`, for operands. -/
def OpdOk (k : Nat) : Opd V → Prop
  | .val v => NotArr k v
  | .tmp _ => True

theorem read_sim {y k : Nat} {s t : State V} (h : Sim y k s t) {o : Opd V} (ho : OpdOk k o) : s.readOpd o = t.readOpd o := by
  cases o with
  | tmp c => rfl
  | val v =>
    cases v with
    | imm c => rfl
    | arr l =>
      refine h.ag.mem l fun hl => ?_
      exact ho l.2 (by rw [← hl])

theorem tree_sim {y k : Nat} (u : Tree V) : (∀ p ∈ u.leaves, LeafOk y k p.2) → ∀ {s t : State V}, Sim y k s t →
    R2 (fun a b => a.2 = b.2 ∧ Sim y k a.1 b.1 ∧ Keep y k s a.1 ∧ OpdOk k a.2) (u.run s) (u.run t) := by
  induction u with
  | leaf id a =>
    intro hl s t h
    have h1 := leaf_sim (hl (id, a) (by simp [Tree.leaves])) h
    simp only [Tree.run]
    simp only at h1
    generalize a.run s = P1 at h1 ⊢
    generalize a.run t = P2 at h1 ⊢
    cases h1 with
    | none => exact .none
    | some hr => exact .some ⟨congrArg Opd.val hr.1, hr.2.1, hr.2.2.1, hr.2.2.2⟩
  | bin op l r ihl ihr =>
    intro hl s t h
    have h1 := ihl (fun p hp => hl p (by simp [Tree.leaves, hp])) h
    simp only [Tree.run]
    generalize l.run s = P1 at h1 ⊢
    generalize l.run t = P2 at h1 ⊢
    cases h1 with
    | none => exact .none
    | @some a b hr =>
      obtain ⟨s1, x⟩ := a
      obtain ⟨t1, x'⟩ := b
      obtain ⟨he, hs1, hk1, ho1⟩ := hr
      simp only at he hs1 hk1 ho1
      subst he
      have h2 := ihr (fun p hp => hl p (by simp [Tree.leaves, hp])) hs1
      simp only
      generalize r.run s1 = P1 at h2 ⊢
      generalize r.run t1 = P2 at h2 ⊢
      cases h2 with
      | none => exact .none
      | @some a b hr =>
        obtain ⟨s2, z⟩ := a
        obtain ⟨t2, z'⟩ := b
        obtain ⟨he, hs2, hk2, ho2⟩ := hr
        simp only at he hs2 hk2 ho2
        subst he
        simp only
        rw [← read_sim hs2 ho1, ← read_sim hs2 ho2]
        cases s2.readOpd x with
        | none => exact .none
        | some cx =>
          cases s2.readOpd z with
          | none => exact .none
          | some cz =>
            simp only
            cases op cx cz with
            | none => exact .none
            | some c => exact .some ⟨rfl, hs2, hk1.trans hk2, trivial⟩

theorem store_wf {y k site : Nat} {x : Var} {c : V} (hs : site ≠ k) {s : State V} (h : Wf y k s) : Wf y k (s.store site x c) := by
  constructor
  · intro j n hn
    simp only [State.store] at hn ⊢
    rw [if_neg]
    · refine h.fresh j n ?_
      split at hn <;> omega
    · intro he
      have h1 : j = site := congrArg Prod.fst he
      have h2 : n = s.cnt site := congrArg Prod.snd he
      rw [if_pos h1, h1] at hn
      omega
  · intro z l hz
    simp only [State.store] at hz ⊢
    split
    · exact Option.some_ne_none c
    · rename_i hl
      split at hz
      · exact absurd (Val.arr.inj (Option.some.inj hz)).symm hl
      · exact h.live z l hz
  · intro z hz n
    simp only [State.store]
    split
    · intro he
      have h1 := Val.arr.inj (Option.some.inj he)
      exact hs (congrArg Prod.fst h1)
    · exact h.priv z hz n

theorem store_sim {y k site : Nat} {x : Var} {c : V} (hs : site ≠ k) {s t : State V} (h : Sim y k s t) : Sim y k (s.store site x c) (t.store site x c) := by
  refine ⟨⟨?_, ?_, ?_⟩, store_wf hs h.ws, store_wf hs h.wt⟩
  · intro z hz
    simp only [State.store]
    rw [h.ag.cnt site hs, h.ag.env z hz]
  · intro l hl
    simp only [State.store]
    rw [h.ag.cnt site hs, h.ag.mem l hl]
  · intro j hj
    simp only [State.store]
    rw [h.ag.cnt j hj]

theorem store_keep {y k site : Nat} {x : Var} {c : V} (hs : site ≠ k) (hx : x ≠ y) (s : State V) : Keep y k s (s.store site x c) := by
  constructor
  · simp only [State.store]
    rw [if_neg (Ne.symm hx)]
  · intro n
    simp only [State.store]
    rw [if_neg]
    intro he
    exact hs (congrArg Prod.fst he).symm

theorem stmt_sim {y k : Nat} {st : Stmt V} (ha : st.Apart y k) {s t : State V} (h : Sim y k s t) :
    R2 (fun a b => Sim y k a b ∧ Keep y k s a) (st.run s) (st.run t) := by
  cases st with
  | np site x u =>
    obtain ⟨h1, h2, -, h3⟩ := ha
    simp only [Stmt.run]
    have h4 := tree_sim u.tree h3 h
    generalize u.tree.run s = P1 at h4 ⊢
    generalize u.tree.run t = P2 at h4 ⊢
    cases h4 with
    | none => exact .none
    | @some a b hr =>
      obtain ⟨s1, o⟩ := a
      obtain ⟨t1, o'⟩ := b
      obtain ⟨he, hs1, hk1, ho1⟩ := hr
      simp only at he hs1 hk1 ho1
      subst he
      simp only
      rw [← read_sim hs1 ho1]
      cases s1.readOpd o with
      | none => exact .none
      | some c => exact .some ⟨store_sim h1 hs1, hk1.trans (store_keep h1 h2 s1)⟩
  | opt site x u => exact ha.elim
  | copy x z =>
    obtain ⟨hx, hz⟩ := ha
    simp only [Stmt.run]
    rw [← h.ag.env z hz]
    cases he : s.env z with
    | none => exact .none
    | some v =>
      have hw : ∀ w : State V, Wf y k w → w.env z = some v → Wf y k { w with env := fun q => if q = x then some v else w.env q } := by
        intro w hw hv
        refine ⟨hw.fresh, fun q l hq => ?_, fun q hq n => ?_⟩
        · simp only at hq ⊢
          split at hq
          · exact hw.live z l (hv.trans hq)
          · exact hw.live q l hq
        simp only
        split
        · intro h5
          exact hw.priv z hz n (hv.trans h5)
        · exact hw.priv q hq n
      refine .some ⟨⟨⟨fun q hq => ?_, h.ag.mem, h.ag.cnt⟩, hw s h.ws he, hw t h.wt (by rw [← h.ag.env z hz, he])⟩, ⟨?_, fun _ => rfl⟩⟩
      · simp only
        rw [h.ag.env q hq]
      · simp only
        rw [if_neg (Ne.symm hx)]
  | call f =>
    obtain ⟨hb, hn, -⟩ := ha
    simp only [Stmt.run]
    have h1 := call_sim hb hn h
    generalize f.run s = P1 at h1 ⊢
    generalize f.run t = P2 at h1 ⊢
    cases h1 with
    | none => exact .none
    | some hr => exact .some ⟨hr.2.1, hr.2.2.1⟩

theorem stmts_sim {y k : Nat} (ts : List (Stmt V)) : (∀ st ∈ ts, st.Apart y k) → ∀ {s t : State V}, Sim y k s t →
    R2 (fun a b => Sim y k a b ∧ Keep y k s a) (runStmts ts s) (runStmts ts t) := by
  induction ts with
  | nil => intro _ s t h; exact .some ⟨h, Keep.refl s⟩
  | cons st ts ih =>
    intro ha s t h
    have h1 := stmt_sim (ha st (by simp)) h
    simp only [runStmts]
    generalize st.run s = P1 at h1 ⊢
    generalize st.run t = P2 at h1 ⊢
    cases h1 with
    | none => exact .none
    | @some a b hr =>
      simp only
      have h2 := ih (fun q hq => ha q (by simp [hq])) hr.1
      revert h2
      generalize runStmts ts a = p
      generalize runStmts ts b = q
      intro h2
      cases h2 with
      | none => exact .none
      | some h3 => exact .some ⟨h3.1, hr.2.trans h3.2⟩

theorem runStmts_append (as bs : List (Stmt V)) (s : State V) : runStmts (as ++ bs) s = (runStmts as s).bind (runStmts bs) := by
  induction as generalizing s with
  | nil => rfl
  | cons a as ih =>
    simp only [List.cons_append, runStmts]
    cases a.run s with
    | none => rfl
    | some s1 => exact ih s1

/-! ### Statements without side effects -/

/-- Variables and arrays that exist stay as they are. -/
structure Ext (vids : List Var) (s s' : State V) : Prop where
  env : ∀ x ∈ vids, s'.env x = s.env x
  mem : ∀ l c, s.mem l = some c → s'.mem l = some c

theorem Ext.refl (vids : List Var) (s : State V) : Ext vids s s := ⟨fun _ _ => rfl, fun _ _ h => h⟩

theorem Ext.trans {vids : List Var} {a b c : State V} (h1 : Ext vids a b) (h2 : Ext vids b c) : Ext vids a c :=
  ⟨fun x hx => (h2.env x hx).trans (h1.env x hx), fun l d hd => h2.mem l d (h1.mem l d hd)⟩

theorem call_ext {f : Call V} (hs : f.Sound) (he : f.se = false) (vids : List Var) {s s' : State V} {v : Val V} (h : f.run s = some (s', v)) : Ext vids s s' := by
  have h1 := hs he s s' v h
  exact ⟨fun x _ => by rw [h1.1], h1.2⟩

/-- A leaf without side effects. -/
def Leaf.Quiet : Leaf V → Prop
  | .call f => f.se = false
  | _ => True

theorem leaf_ext {y k : Nat} {a : Leaf V} (ha : LeafOk y k a) (hq : a.Quiet) (vids : List Var) {s s' : State V} {v : Val V} (h : a.run s = some (s', v)) : Ext vids s s' := by
  cases a with
  | var x =>
    simp only [Leaf.run, Option.map_eq_some_iff] at h
    obtain ⟨w, _, hw⟩ := h
    cases hw
    exact Ext.refl _ _
  | num c =>
    simp only [Leaf.run] at h
    cases h
    exact Ext.refl _ _
  | call f =>
    rcases ha with hp | ⟨g, hg, _, _, hs⟩
    · exact hp.elim
    · cases hg
      exact call_ext hs hq vids h

theorem tree_ext {y k : Nat} (vids : List Var) (u : Tree V) : (∀ p ∈ u.leaves, LeafOk y k p.2) → (∀ p ∈ u.leaves, p.2.Quiet) →
    ∀ {s s' : State V} {o : Opd V}, u.run s = some (s', o) → Ext vids s s' := by
  induction u with
  | leaf id a =>
    intro h1 h2 s s' o h
    simp only [Tree.run, Option.map_eq_some_iff] at h
    obtain ⟨r, hr, he⟩ := h
    cases he
    exact leaf_ext (h1 (id, a) (by simp [Tree.leaves])) (h2 (id, a) (by simp [Tree.leaves])) vids hr
  | bin op l r ihl ihr =>
    intro h1 h2 s s' o h
    simp only [Tree.run] at h
    cases hl : l.run s with
    | none => rw [hl] at h; cases h
    | some a =>
      obtain ⟨s1, x⟩ := a
      rw [hl] at h
      simp only at h
      cases hr : r.run s1 with
      | none => rw [hr] at h; cases h
      | some b =>
        obtain ⟨s2, z⟩ := b
        rw [hr] at h
        simp only at h
        split at h
        · simp only [Option.map_eq_some_iff] at h
          obtain ⟨c, _, hc⟩ := h
          cases hc
          exact (ihl (fun p hp => h1 p (by simp [Tree.leaves, hp])) (fun p hp => h2 p (by simp [Tree.leaves, hp])) hl).trans
            (ihr (fun p hp => h1 p (by simp [Tree.leaves, hp])) (fun p hp => h2 p (by simp [Tree.leaves, hp])) hr)
        · cases h

theorem store_ext {y k site : Nat} {x : Var} {c : V} {vids : List Var} (hx : x ∉ vids) {s : State V} (hw : Wf y k s) : Ext vids s (s.store site x c) := by
  constructor
  · intro z hz
    simp only [State.store]
    rw [if_neg]
    intro he
    exact hx (he ▸ hz)
  · intro l d hd
    simp only [State.store]
    rw [if_neg]
    · exact hd
    · intro he
      rw [he, hw.fresh site (s.cnt site) (Nat.le_refl _)] at hd
      cases hd

/-- A statement that can be passed. -/
def Stmt.Quiet (vids : List Var) (st : Stmt V) : Prop := ∀ n ∈ st.nodes, n.okPast vids = true

theorem stmt_ext {y k : Nat} {vids : List Var} {st : Stmt V} (ha : st.Apart y k) (hq : st.Quiet vids) {s s' : State V} (hw : Wf y k s) (h : st.run s = some s') : Ext vids s s' := by
  cases st with
  | np site x u =>
    have hsim := stmt_sim ha ⟨Agree.refl y k s, hw, hw⟩
    obtain ⟨h1, h2, -, h3⟩ := ha
    have hq1 : ∀ p ∈ u.tree.leaves, p.2.Quiet := by
      intro p hp
      have h5 := hq (.leaf p.1 p.2) (by simp only [Stmt.nodes, List.mem_append, List.mem_map]; exact Or.inl ⟨p, hp, rfl⟩)
      cases hpl : p.2 with
      | var z => trivial
      | num c => trivial
      | call f =>
        rw [hpl] at h5
        show f.se = false
        simpa [Node.okPast] using h5
    have hx : x ∉ vids := by
      have h5 := hq (.asg (some site) x) (by simp [Stmt.nodes])
      simpa [Node.okPast] using h5
    simp only [Stmt.run] at h
    have hts := tree_sim u.tree h3 ⟨Agree.refl y k s, hw, hw⟩
    cases ht : u.tree.run s with
    | none => rw [ht] at h; cases h
    | some a =>
      obtain ⟨s1, o⟩ := a
      rw [ht] at h hts
      simp only [Option.map_eq_some_iff] at h
      obtain ⟨c, _, hc⟩ := h
      subst hc
      have hw1 : Wf y k s1 := by
        cases hts with
        | some hr => exact hr.2.1.ws
      exact (tree_ext vids u.tree h3 hq1 ht).trans (store_ext hx hw1)
  | opt site x u => exact ha.elim
  | copy x z =>
    have hx : x ∉ vids := by
      have h5 := hq (.asg none x) (by simp [Stmt.nodes])
      simpa [Node.okPast] using h5
    simp only [Stmt.run, Option.map_eq_some_iff] at h
    obtain ⟨v, _, hv⟩ := h
    subst hv
    refine ⟨fun q hq => ?_, fun l c hc => hc⟩
    simp only
    rw [if_neg]
    intro he
    exact hx (he ▸ hq)
  | call f =>
    have h5 := hq (.call f) (by simp [Stmt.nodes])
    simp only [Stmt.run, Option.map_eq_some_iff] at h
    obtain ⟨r, hr, he⟩ := h
    obtain ⟨r1, r2⟩ := r
    subst he
    exact call_ext ha.2.2 (by simpa [Node.okPast] using h5) vids hr

theorem stmts_ext {y k : Nat} {vids : List Var} (ts : List (Stmt V)) : (∀ st ∈ ts, st.Apart y k) → (∀ st ∈ ts, st.Quiet vids) →
    ∀ {s s' : State V}, Wf y k s → runStmts ts s = some s' → Ext vids s s' := by
  induction ts with
  | nil =>
    intro _ _ s s' _ h
    cases h
    exact Ext.refl _ _
  | cons st ts ih =>
    intro h1 h2 s s' hw h
    have hsim := stmt_sim (h1 st (by simp)) ⟨Agree.refl y k s, hw, hw⟩
    simp only [runStmts] at h
    cases hr : st.run s with
    | none => rw [hr] at h; cases h
    | some s1 =>
      rw [hr] at h hsim
      have hw1 : Wf y k s1 := by
        cases hsim with
        | some hh => exact hh.1.ws
      exact (stmt_ext (h1 st (by simp)) (h2 st (by simp)) hw hr).trans
        (ih (fun q hq => h1 q (by simp [hq])) (fun q hq => h2 q (by simp [hq])) hw1 h)

/-! ### Expressions without calls -/

/-- No call. -/
def Leaf.Simple : Leaf V → Prop
  | .call _ => False
  | _ => True

/-- Value of a leaf. -/
def Leaf.valOf (s : State V) : Leaf V → Option (Val V)
  | .var x => s.env x
  | .num c => some (.imm c)
  | .call _ => none

/-- Contents of an expression. -/
def Tree.val (s : State V) : Tree V → Option V
  | .leaf _ a => (a.valOf s).bind s.read
  | .bin op l r =>
    match l.val s, r.val s with
    | some cx, some cy => op cx cy
    | _, _ => none

theorem run_simple (u : Tree V) (s : State V) : (∀ p ∈ u.leaves, p.2.Simple) →
    (∀ r, u.run s = some r → r.1 = s) ∧ (u.run s).bind (fun r => r.1.readOpd r.2) = u.val s := by
  induction u with
  | leaf id a =>
    intro hl
    have h := hl (id, a) (by simp [Tree.leaves])
    cases a with
    | var x =>
      simp only [Tree.run, Leaf.run, Tree.val, Leaf.valOf]
      cases s.env x with
      | none => exact ⟨fun r h => (by cases h), rfl⟩
      | some v => exact ⟨fun r h => (by cases h; rfl), rfl⟩
    | num c => exact ⟨fun r h => (by cases h; rfl), rfl⟩
    | call f => exact h.elim
  | bin op l r ihl ihr =>
    intro hl
    obtain ⟨l1, l2⟩ := ihl fun p hp => hl p (by simp [Tree.leaves, hp])
    obtain ⟨r1, r2⟩ := ihr fun p hp => hl p (by simp [Tree.leaves, hp])
    simp only [Tree.run, Tree.val]
    rw [← l2, ← r2]
    cases hlr : l.run s with
    | none => exact ⟨fun r h => (by cases h), rfl⟩
    | some a =>
      obtain ⟨s1, x⟩ := a
      have he : s1 = s := l1 _ hlr
      subst he
      simp only [Option.bind_some]
      cases hrr : r.run s1 with
      | none =>
        refine ⟨fun r h => (by cases h), ?_⟩
        cases s1.readOpd x <;> rfl
      | some b =>
        obtain ⟨s2, z⟩ := b
        have he : s2 = s1 := r1 _ hrr
        subst he
        simp only [Option.bind_some]
        cases s2.readOpd x with
        | none => exact ⟨fun r h => (by cases h), rfl⟩
        | some cx =>
          cases s2.readOpd z with
          | none => exact ⟨fun r h => (by cases h), rfl⟩
          | some cz =>
            simp only
            cases op cx cz with
            | none => exact ⟨fun r h => (by cases h), rfl⟩
            | some c => exact ⟨fun r h => (by cases h; rfl), rfl⟩

theorem np_simple {u : NUnit V} (site : Nat) (x : Var) (s : State V) (hl : ∀ p ∈ u.tree.leaves, p.2.Simple) :
    (Stmt.np site x u).run s = (u.tree.val s).map fun c => s.store site x c := by
  obtain ⟨h1, h2⟩ := run_simple u.tree s hl
  simp only [Stmt.run]
  rw [← h2]
  cases h : u.tree.run s with
  | none => rfl
  | some r =>
    obtain ⟨s1, o⟩ := r
    have := h1 _ h
    simp only at this
    subst this
    rfl

theorem runLeaves_simple (ls : List (Nat × Leaf V)) (s : State V) : (∀ p ∈ ls, p.2.Simple) → (ls.map Prod.fst).Nodup → ∀ m,
    ∃ m', runLeaves ls s m = some (s, m') ∧ (∀ p ∈ ls, m' p.1 = p.2.valOf s) ∧ ∀ i, i ∉ ls.map Prod.fst → m' i = m i := by
  induction ls with
  | nil => intro _ _ m; exact ⟨m, rfl, fun p hp => (by cases hp), fun i _ => rfl⟩
  | cons p ls ih =>
    intro h1 h2 m
    obtain ⟨id, a⟩ := p
    have hs := h1 (id, a) (by simp)
    simp only [List.map_cons, List.nodup_cons] at h2
    have key : ∀ v : Option (Val V), a.valOf s = v → runLeaves ((id, a) :: ls) s m = runLeaves ls s (fun i => if i = id then v else m i) →
        ∃ m', runLeaves ((id, a) :: ls) s m = some (s, m') ∧ (∀ p ∈ (id, a) :: ls, m' p.1 = p.2.valOf s) ∧ ∀ i, i ∉ ((id, a) :: ls).map Prod.fst → m' i = m i := by
      intro v hv hr
      obtain ⟨m', e1, e2, e3⟩ := ih (fun q hq => h1 q (by simp [hq])) h2.2 (fun i => if i = id then v else m i)
      refine ⟨m', by rw [hr, e1], fun q hq => ?_, fun i hi => ?_⟩
      · rcases List.mem_cons.1 hq with rfl | hq
        · rw [e3 _ h2.1]
          simp only [if_pos, hv]
        · exact e2 q hq
      · simp only [List.map_cons, List.mem_cons, not_or] at hi
        rw [e3 i hi.2, if_neg hi.1]
    cases a with
    | var x => exact key _ rfl rfl
    | num c => exact key _ rfl rfl
    | call f => exact hs.elim

theorem compute_simple (u : Tree V) (s : State V) (m : Nat → Option (Val V)) : (∀ p ∈ u.leaves, m p.1 = p.2.valOf s) → u.compute s m = u.val s := by
  induction u with
  | leaf id a =>
    intro h
    simp only [Tree.compute, Tree.val]
    rw [h (id, a) (by simp [Tree.leaves])]
  | bin op l r ihl ihr =>
    intro h
    simp only [Tree.compute, Tree.val]
    rw [ihl fun p hp => h p (by simp [Tree.leaves, hp]), ihr fun p hp => h p (by simp [Tree.leaves, hp])]
    cases l.val s <;> cases r.val s <;> rfl

theorem replace_leaves (id : Nat) (t u : Tree V) : ∀ p ∈ (Tree.replace id t u).leaves, p ∈ u.leaves ∨ p ∈ t.leaves := by
  induction u with
  | leaf i a =>
    intro p hp
    simp only [Tree.replace] at hp
    split at hp
    · exact Or.inr hp
    · exact Or.inl hp
  | bin op l r ihl ihr =>
    intro p hp
    simp only [Tree.replace, Tree.leaves, List.mem_append] at hp ⊢
    rcases hp with hp | hp
    · rcases ihl p hp with h | h
      · exact Or.inl (Or.inl h)
      · exact Or.inr h
    · rcases ihr p hp with h | h
      · exact Or.inl (Or.inr h)
      · exact Or.inr h

theorem opt_simple {u : NUnit V} (site : Nat) (x : Var) (s : State V) (h1 : ∀ p ∈ u.leaves, p.2.Simple) (h2 : (u.leaves.map Prod.fst).Nodup)
    (h3 : ∀ p ∈ u.tree.leaves, p ∈ u.leaves) : (Stmt.opt site x u).run s = (u.tree.val s).map fun c => s.store site x c := by
  obtain ⟨m', e1, e2, _⟩ := runLeaves_simple u.leaves s h1 h2 fun _ => none
  simp only [Stmt.run]
  rw [e1]
  simp only
  rw [compute_simple u.tree s m' fun p hp => e2 p (h3 p hp)]

theorem val_replace {y k : Nat} {s t : State V} (h : Sim y k s t) {src : Tree V} {id : Nat} {l : Loc} {c : V} (hy : s.env y = some (.arr l)) (hm : s.mem l = some c)
    (hc : src.val t = some c) (u : Tree V) : (∀ p ∈ u.leaves, if p.1 = id then p.2 = .var y else p.2.Plain y) → (Tree.replace id src u).val t = u.val s := by
  induction u with
  | leaf i a =>
    intro hl
    have h1 := hl (i, a) (by simp [Tree.leaves])
    simp only [Tree.replace]
    split
    · rename_i hi
      simp only [hi, if_pos] at h1
      subst h1
      simp only [Tree.val, Leaf.valOf, hy, Option.bind_some, State.read, hm]
      exact hc
    · rename_i hi
      simp only [if_neg hi] at h1
      cases a with
      | var x =>
        have hx : x ≠ y := h1
        simp only [Tree.val, Leaf.valOf]
        rw [← h.ag.env x hx]
        cases hv : s.env x with
        | none => rfl
        | some v =>
          simp only [Option.bind_some]
          exact (read_sim h (o := .val v) fun n hn => h.ws.priv x hx n (by rw [hv, hn])).symm
      | num d => rfl
      | call f => exact h1.elim
  | bin op a b iha ihb =>
    intro hl
    simp only [Tree.replace, Tree.val]
    rw [iha fun p hp => hl p (by simp [Tree.leaves, hp]), ihb fun p hp => hl p (by simp [Tree.leaves, hp])]

theorem leafVars_mem {ls : List (Nat × Leaf V)} {i : Nat} {x : Var} (h : (i, Leaf.var x) ∈ ls) : x ∈ leafVars ls := by
  induction ls with
  | nil => cases h
  | cons p ls ih =>
    rcases List.mem_cons.1 h with rfl | h
    · simp [leafVars]
    · rename_i h0
      clear h0
      obtain ⟨j, a⟩ := p
      cases a with
      | var z => simp only [leafVars, List.mem_cons]; exact Or.inr (ih h)
      | num c => simp only [leafVars]; exact ih h
      | call f => simp only [leafVars, List.mem_append]; exact Or.inr (ih h)

/-- The contents of an expression of variables and numbers do not change when nothing that it uses is changed.  (An array that does not exist has no contents; it cannot come into being under a name
that is in use.) -/
theorem val_ext {s s' : State V} (u : Tree V) (vids : List Var) (he : Ext vids s s') (hd : ∀ x ∈ vids, ∀ l, s.env x = some (.arr l) → s.mem l ≠ none) :
    (∀ p ∈ u.leaves, p.2.Simple ∧ ∀ x, p.2 = .var x → x ∈ vids) → u.val s' = u.val s := by
  induction u with
  | leaf i a =>
    intro hl
    obtain ⟨h1, h2⟩ := hl (i, a) (by simp [Tree.leaves])
    cases a with
    | var x =>
      have hx := h2 x rfl
      simp only [Tree.val, Leaf.valOf]
      rw [he.env x hx]
      cases hv : s.env x with
      | none => rfl
      | some v =>
        cases v with
        | imm c => rfl
        | arr l =>
          simp only [Option.bind_some, State.read]
          cases hm : s.mem l with
          | none => exact absurd hm (hd x hx l hv)
          | some c => exact he.mem l c hm
    | num d => rfl
    | call f => exact h1.elim
  | bin op a b iha ihb =>
    intro hl
    simp only [Tree.val]
    rw [iha fun p hp => hl p (by simp [Tree.leaves, hp]), ihb fun p hp => hl p (by simp [Tree.leaves, hp])]

end Codon.NpFwd
