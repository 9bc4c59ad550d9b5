import Verif.NpFwd.Lemmas
/-! # One block, the decision and whole functions, for C75 -/
namespace Codon.NpFwd

variable {V : Type}

theorem plain_simple {y : Var} {a : Leaf V} (h : a.Plain y) : a.Simple := by
  cases a with
  | var x => trivial
  | num c => trivial
  | call f => exact h.elim

/-- After the assignment of `y`, the states of the two programs agree. -/
theorem src_sim {y k : Nat} {s t : State V} (h : Sim y k s t) (c : V) : Sim y k (s.store k y c) t := by
  refine ⟨⟨?_, ?_, ?_⟩, ⟨?_, ?_, ?_⟩, h.wt⟩
  · intro x hx
    simp only [State.store]
    rw [if_neg hx, h.ag.env x hx]
  · intro l hl
    simp only [State.store]
    rw [if_neg, h.ag.mem l hl]
    intro he
    exact hl (congrArg Prod.fst he)
  · intro j hj
    simp only [State.store]
    rw [if_neg hj, h.ag.cnt j hj]
  · intro j n hn
    simp only [State.store] at hn ⊢
    rw [if_neg]
    · refine h.ws.fresh j n ?_
      split at hn <;> omega
    · intro he
      have h1 : j = k := congrArg Prod.fst he
      have h2 : n = s.cnt k := congrArg Prod.snd he
      rw [if_pos h1, h1] at hn
      omega
  · intro z l hz
    simp only [State.store] at hz ⊢
    split
    · exact Option.some_ne_none c
    · rename_i hl
      split at hz
      · exact absurd (Val.arr.inj (Option.some.inj hz)).symm hl
      · exact h.ws.live z l hz
  · intro z hz n
    simp only [State.store]
    rw [if_neg hz]
    exact h.ws.priv z hz n

/-- Agreement of the values of expressions that do not use `y`. -/
theorem val_sim {y k : Nat} {s t : State V} (h : Sim y k s t) (u : Tree V) : (∀ p ∈ u.leaves, p.2.Plain y) → u.val s = u.val t := by
  induction u with
  | leaf i a =>
    intro hl
    have h1 := hl (i, a) (by simp [Tree.leaves])
    cases a with
    | var x =>
      have hx : x ≠ y := h1
      simp only [Tree.val, Leaf.valOf]
      rw [← h.ag.env x hx]
      cases hv : s.env x with
      | none => rfl
      | some v => exact read_sim h (o := .val v) fun n hn => h.ws.priv x hx n (by rw [hv, hn])
    | num d => rfl
    | call f => exact h1.elim
  | bin op a b iha ihb =>
    intro hl
    simp only [Tree.val]
    rw [iha fun p hp => hl p (by simp [Tree.leaves, hp]), ihb fun p hp => hl p (by simp [Tree.leaves, hp])]

theorem replace_none {src : Tree V} {id : Nat} {t : State V} (h : src.val t = none) (dst : Tree V) : id ∈ dst.leaves.map Prod.fst → (Tree.replace id src dst).val t = none := by
  induction dst with
  | leaf i a =>
    intro hin
    simp only [Tree.leaves, List.map_cons, List.map_nil, List.mem_singleton] at hin
    simp only [Tree.replace]
    rw [if_pos hin.symm, h]
  | bin op a b iha ihb =>
    intro hin
    simp only [Tree.leaves, List.map_append, List.mem_append] at hin
    simp only [Tree.replace, Tree.val]
    rcases hin with hin | hin
    · rw [iha hin]
    · rw [ihb hin]
      cases (Tree.replace id src a).val t <;> rfl

/-- The part of a block from the assignment of `y` to its use. -/
theorem segment_sim {y k j id : Nat} {z : Var} {src dst : Tree V} {mid : List (Stmt V)} {s t : State V} (h : Sim y k s t) (hj : j ≠ k)
    (hsrc : ∀ p ∈ src.leaves, p.2.Plain y) (hdst : ∀ p ∈ dst.leaves, if p.1 = id then p.2 = .var y else p.2.Plain y)
    (hin : id ∈ dst.leaves.map Prod.fst) (hid : ((dst.leaves ++ src.leaves).map Prod.fst).Nodup)
    (hmid : ∀ st ∈ mid, st.Apart y k) (hq : ∀ st ∈ mid, st.Quiet (leafVars src.leaves)) :
    R2 (Sim y k) (runStmts (.np k y (unitOf src) :: (mid ++ [.np j z (unitOf dst)])) s)
      (runStmts (mid ++ [.opt j z ((unitOf dst).forward id (unitOf src))]) t) := by
  have hs1 : ∀ p ∈ src.leaves, p.2.Simple := fun p hp => plain_simple (hsrc p hp)
  have hd1 : ∀ p ∈ dst.leaves, p.2.Simple := by
    intro p hp
    have h1 := hdst p hp
    split at h1
    · rw [h1]; trivial
    · exact plain_simple h1
  have hrun : ∀ t2 : State V, (Stmt.opt j z ((unitOf dst).forward id (unitOf src))).run t2 =
      ((Tree.replace id src dst).val t2).map fun c => t2.store j z c := by
    intro t2
    refine opt_simple (u := (unitOf dst).forward id (unitOf src)) j z t2 ?_ hid ?_
    · intro p hp
      rcases List.mem_append.1 hp with hp | hp
      · exact hd1 p hp
      · exact hs1 p hp
    · intro p hp
      exact List.mem_append.2 (replace_leaves id src dst p hp)
  have hvid : ∀ p ∈ src.leaves, p.2.Simple ∧ ∀ x, p.2 = .var x → x ∈ leafVars src.leaves := by
    intro p hp
    refine ⟨hs1 p hp, fun x hx => leafVars_mem (i := p.1) ?_⟩
    rw [← hx]
    exact hp
  simp only [runStmts]
  rw [np_simple (u := unitOf src) k y s hs1]
  show R2 _ (match (src.val s).map fun c => s.store k y c with | none => none | some s1 => _) _
  rw [val_sim h src hsrc]
  cases hv : src.val t with
  | none =>
    show R2 _ none _
    rw [runStmts_append]
    cases hm : runStmts mid t with
    | none => exact .none
    | some t2 =>
      simp only [Option.bind_some, runStmts]
      rw [hrun]
      have h2 : src.val t2 = none := by
        rw [val_ext src _ (stmts_ext mid hmid hq h.wt hm) (fun x _ l hl => h.wt.live x l hl) hvid, hv]
      rw [replace_none h2 dst hin]
      exact .none
  | some c =>
    show R2 _ (runStmts (mid ++ [.np j z (unitOf dst)]) (s.store k y c)) _
    rw [runStmts_append, runStmts_append]
    have hsim := src_sim h c
    have h1 := stmts_sim mid hmid hsim
    cases hm : runStmts mid t with
    | none =>
      rw [hm] at h1
      generalize runStmts mid (s.store k y c) = P1 at h1 ⊢
      cases h1 with
      | none => exact .none
    | some t2 =>
      rw [hm] at h1
      have h2 : src.val t2 = some c := by
        rw [val_ext src _ (stmts_ext mid hmid hq h.wt hm) (fun x _ l hl => h.wt.live x l hl) hvid, hv]
      generalize runStmts mid (s.store k y c) = P1 at h1 ⊢
      cases h1 with
      | @some s2 _ hr =>
        simp only [Option.bind_some, runStmts]
        rw [hrun, np_simple (u := unitOf dst) j z s2 hd1]
        have hy : s2.env y = some (.arr (k, s.cnt k)) := by
          rw [hr.2.env]
          simp [State.store]
        have hc : s2.mem (k, s.cnt k) = some c := by
          rw [hr.2.mem]
          simp [State.store]
        rw [val_replace hr.1 hy hc h2 dst hdst]
        show R2 _ (match (dst.val s2).map fun c => s2.store j z c with | none => none | some s1 => _) _
        cases dst.val s2 with
        | none => exact .none
        | some d => exact .some (store_sim hj hr.1)

/-! ### The decision -/

theorem scan_skip {k id : Nat} {vids : List Var} (ns ms : List (Node V)) : (∀ n ∈ ns, n.isAsg k = false) →
    scan true true k id vids false (ns ++ ms) = scan true true k id vids false ms := by
  induction ns with
  | nil => intro _; rfl
  | cons n ns ih =>
    intro h
    have h1 := h n (by simp)
    simp only [List.cons_append, scan, h1, Bool.and_false, Bool.false_eq_true, if_false, Bool.false_and, Bool.not_false, if_true]
    exact ih fun q hq => h q (by simp [hq])

theorem scan_go {k id : Nat} {vids : List Var} (ns ms : List (Node V)) : (∀ n ∈ ns, n.isLeaf id = false) →
    (scan true true k id vids true (ns ++ ms)).2 = true → ∀ n ∈ ns, n.okPast vids = true := by
  induction ns with
  | nil => intro _ _ n hn; cases hn
  | cons n ns ih =>
    intro h h2
    have h1 := h n (by simp)
    simp only [List.cons_append, scan, h1, Bool.and_false, Bool.false_eq_true, if_false, Bool.not_true, Bool.false_and] at h2
    cases hok : n.okPast vids with
    | false => rw [hok] at h2; simp at h2
    | true =>
      rw [hok] at h2
      simp only [if_true] at h2
      intro q hq
      rcases List.mem_cons.1 hq with rfl | hq
      · exact hok
      · exact ih (fun q hq => h q (by simp [hq])) h2 q hq

theorem nodes_site {k : Nat} {st : Stmt V} (h : k ∉ sitesOf [st]) : ∀ n ∈ st.nodes, n.isAsg k = false := by
  intro n hn
  cases st with
  | np site x u =>
    simp only [sitesOf, List.mem_singleton] at h
    simp only [Stmt.nodes, List.mem_append, List.mem_map, List.mem_singleton] at hn
    rcases hn with ⟨p, _, rfl⟩ | rfl
    · rfl
    · simp only [Node.isAsg, beq_eq_false_iff_ne]
      exact Ne.symm h
  | opt site x u =>
    simp only [sitesOf, List.mem_singleton] at h
    simp only [Stmt.nodes, List.mem_append, List.mem_map, List.mem_singleton] at hn
    rcases hn with ⟨p, _, rfl⟩ | rfl
    · rfl
    · simp only [Node.isAsg, beq_eq_false_iff_ne]
      exact Ne.symm h
  | copy x z =>
    simp only [Stmt.nodes, List.mem_singleton] at hn
    subst hn
    rfl
  | call f =>
    simp only [Stmt.nodes, List.mem_singleton] at hn
    subst hn
    rfl

theorem nodes_id {id : Nat} {ts : List (Stmt V)} (h : id ∉ idsOf ts) : ∀ n ∈ ts.flatMap Stmt.nodes, n.isLeaf id = false := by
  induction ts with
  | nil => intro n hn; cases hn
  | cons st ts ih =>
    intro n hn
    simp only [List.flatMap_cons, List.mem_append] at hn
    cases st with
    | np site x u =>
      simp only [idsOf, List.mem_append, not_or] at h
      rcases hn with hn | hn
      · simp only [Stmt.nodes, List.mem_append, List.mem_map, List.mem_singleton] at hn
        rcases hn with ⟨p, hp, rfl⟩ | rfl
        · simp only [Node.isLeaf, beq_eq_false_iff_ne]
          exact fun he => h.1 (List.mem_map.2 ⟨p, hp, he⟩)
        · rfl
      · exact ih h.2 n hn
    | opt site x u =>
      simp only [idsOf, List.mem_append, not_or] at h
      rcases hn with hn | hn
      · simp only [Stmt.nodes, List.mem_append, List.mem_map, List.mem_singleton] at hn
        rcases hn with ⟨p, hp, rfl⟩ | rfl
        · simp only [Node.isLeaf, beq_eq_false_iff_ne]
          exact fun he => h.1 (List.mem_map.2 ⟨p, hp, he⟩)
        · rfl
      · exact ih h.2 n hn
    | copy x z =>
      rcases hn with hn | hn
      · simp only [Stmt.nodes, List.mem_singleton] at hn
        subst hn
        rfl
      · exact ih h n hn
    | call f =>
      rcases hn with hn | hn
      · simp only [Stmt.nodes, List.mem_singleton] at hn
        subst hn
        rfl
      · exact ih h n hn

theorem sites_one {k : Nat} {ts : List (Stmt V)} (h : k ∉ sitesOf ts) : ∀ st ∈ ts, k ∉ sitesOf [st] := by
  induction ts with
  | nil => intro st hs; cases hs
  | cons t ts ih =>
    have h2 : k ∉ sitesOf [t] ∧ k ∉ sitesOf ts := by
      cases t <;> simp_all [sitesOf]
    intro st hs
    rcases List.mem_cons.1 hs with rfl | hs
    · exact h2.1
    · exact ih h2.2 st hs

/-- If the expression can be forwarded within a block, then everything in between can be passed. -/
theorem can_quiet {p : Prog V} {b k j id y z : Nat} {src dst : Tree V} {pre mid post : List (Stmt V)} {term : Term V}
    (hb : p[b]? = some ⟨pre ++ .np k y (unitOf src) :: (mid ++ .np j z (unitOf dst) :: post), term⟩)
    (hcan : canForward p k (unitOf src) b id b = true) (hk : k ∉ sitesOf pre) (hid : id ∉ idsOf mid) :
    ∀ st ∈ mid, st.Quiet (leafVars src.leaves) := by
  simp only [canForward, Bool.and_eq_true] at hcan
  have h1 := hcan.2
  simp only [dfs, List.nil_append, if_true, List.headD_cons, alongPath, beq_self_eq_true, Bool.and_true] at h1
  have hgl : ([b] : List Nat).getLastD 0 = b := rfl
  rw [hgl] at h1
  have hnodes : nodesOf p b = pre.flatMap Stmt.nodes ++ (src.leaves.map (fun q => Node.leaf q.1 q.2) ++ ((.asg (some k) y) :: (mid.flatMap Stmt.nodes ++ (Stmt.np j z (unitOf dst) :: post).flatMap Stmt.nodes))) := by
    simp only [nodesOf, List.getD_eq_getElem?_getD, hb, Option.getD_some]
    simp [Stmt.nodes, unitOf]
  rw [hnodes] at h1
  simp only [beq_self_eq_true] at h1
  rw [scan_skip _ _ (by
    intro n hn
    obtain ⟨st, hs, hn⟩ := List.mem_flatMap.1 hn
    exact nodes_site (sites_one hk st hs) n hn)] at h1
  rw [scan_skip _ _ (by
    intro n hn
    obtain ⟨q, _, rfl⟩ := List.mem_map.1 hn
    rfl)] at h1
  have hstart : ∀ ms : List (Node V), scan true true k id (leafVars (unitOf src).tree.leaves) false (.asg (some k) y :: ms) =
      scan true true k id (leafVars (unitOf src).tree.leaves) true ms := by
    intro ms
    simp [scan, Node.isAsg]
  rw [hstart] at h1
  have h2 := scan_go _ _ (nodes_id hid) h1
  intro st hs n hn
  exact h2 n (List.mem_flatMap.2 ⟨st, hs, hn⟩)

/-! ### Whole functions -/

theorem rewrite_apart {k j : Nat} {u : NUnit V} {ts : List (Stmt V)} (h1 : k ∉ sitesOf ts) (h2 : j ∉ sitesOf ts) : ts.flatMap (rewrite k j u) = ts := by
  induction ts with
  | nil => rfl
  | cons t ts ih =>
    have h3 : k ∉ sitesOf ts ∧ j ∉ sitesOf ts := by cases t <;> simp_all [sitesOf]
    rw [List.flatMap_cons, ih h3.1 h3.2]
    cases t with
    | np site x v =>
      simp only [sitesOf, List.mem_cons, not_or] at h1 h2
      simp only [rewrite]
      rw [if_neg (Ne.symm h1.1), if_neg (Ne.symm h2.1)]
      rfl
    | opt site x v => rfl
    | copy x z => rfl
    | call f => rfl

theorem apart_site {y k : Nat} {ts : List (Stmt V)} (h : ∀ st ∈ ts, st.Apart y k) : k ∉ sitesOf ts := by
  induction ts with
  | nil => simp [sitesOf]
  | cons t ts ih =>
    have h1 := ih fun q hq => h q (by simp [hq])
    have h2 := h t (by simp)
    cases t with
    | np site x v =>
      simp only [sitesOf, List.mem_cons, not_or]
      exact ⟨Ne.symm h2.1, h1⟩
    | opt site x v => exact h2.elim
    | copy x z => exact h1
    | call f => exact h1

theorem term_sim {y k : Nat} {t : Term V} (h : t.Apart y k) {s s' : State V} (hs : Sim y k s s') : t.next s = t.next s' := by
  cases t with
  | ret => rfl
  | goto b => rfl
  | branch cond b c =>
    simp only [Term.next]
    rw [h s s' hs.ag hs.ws hs.wt]

theorem run_sim {y k j : Nat} {u : NUnit V} {p : Prog V}
    (hblk : ∀ blk ∈ p, blk.term.Apart y k ∧ ∀ s t, Sim y k s t → R2 (Sim y k) (runStmts blk.body s) (runStmts (blk.body.flatMap (rewrite k j u)) t)) :
    ∀ fuel b s t, Sim y k s t → Same y k (run p fuel b s) (run (rewriteProg k j u p) fuel b t) := by
  intro fuel
  induction fuel with
  | zero => intro b s t h; exact ⟨rfl, h.ag⟩
  | succ fuel ih =>
    intro b s t h
    simp only [run, rewriteProg, List.getElem?_map]
    cases hb : p[b]? with
    | none => exact ⟨rfl, h.ag⟩
    | some blk =>
      obtain ⟨h1, h2⟩ := hblk blk (List.mem_of_getElem? hb)
      have h3 := h2 s t h
      simp only [Option.map_some]
      generalize runStmts blk.body s = P1 at h3 ⊢
      generalize runStmts (blk.body.flatMap (rewrite k j u)) t = P2 at h3 ⊢
      cases h3 with
      | none => trivial
      | @some s1 t1 h4 =>
        simp only
        rw [← term_sim h1 h4]
        cases blk.term.next s1 with
        | none => exact ⟨rfl, h4.ag⟩
        | some b' => exact ih b' s1 t1 h4

end Codon.NpFwd
