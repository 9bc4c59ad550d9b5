import Verif.NpFwd.Block
/-!
# C75: forwarding a NumPy expression to its only use does not change what a program does

Full statement: whenever the pass moves the expression assigned to `y` to the use of `y` and deletes the assignment, the program ends with an exception if and only if it did before, and otherwise with the
same variables and arrays, apart from `y` itself.
-/
namespace Codon.NpFwd

variable {V : Type}

/-- Within one block: the assignment of `y` and its only use are in block `b` of any function, the decision of the pass is to forward, the leaves of both expressions are variables and numbers, and the
other statements have nothing to do with `y` (the calls among them may do anything else).  Then the two functions do the same, for any number of steps from any block and any states that agree.
Missing: other blocks, expressions that have themselves been forwarded to, and leaves that are calls; for all three there are violations below. -/
theorem c75_block_partial {p : Prog V} {b k j id y z : Nat} {src dst : Tree V} {pre mid post : List (Stmt V)} {term : Term V}
    (hb : p[b]? = some ⟨pre ++ .np k y (unitOf src) :: (mid ++ .np j z (unitOf dst) :: post), term⟩)
    (hcan : canForward p k (unitOf src) b id b = true)
    (hsrc : ∀ q ∈ src.leaves, q.2.Plain y) (hdst : ∀ q ∈ dst.leaves, if q.1 = id then q.2 = .var y else q.2.Plain y)
    (hin : id ∈ dst.leaves.map Prod.fst) (hid : ((dst.leaves ++ src.leaves).map Prod.fst).Nodup) (hmid : id ∉ idsOf mid)
    (hj : j ≠ k) (hsites : j ∉ sitesOf (pre ++ mid ++ post))
    (hstm : ∀ st ∈ pre ++ mid ++ post, st.Apart y k) (hterm : ∀ blk ∈ p, blk.term.Apart y k)
    (hother : ∀ i blk, p[i]? = some blk → i ≠ b → (∀ st ∈ blk.body, st.Apart y k) ∧ j ∉ sitesOf blk.body)
    (fuel b0 : Nat) {s t : State V} (hag : Agree y k s t) (hws : Wf y k s) (hwt : Wf y k t) :
    Same y k (run p fuel b0 s) (run (rewriteProg k j ((unitOf dst).forward id (unitOf src)) p) fuel b0 t) := by
  have hpre : ∀ st ∈ pre, st.Apart y k := fun st h => hstm st (by simp [h])
  have hmi : ∀ st ∈ mid, st.Apart y k := fun st h => hstm st (by simp [h])
  have hpo : ∀ st ∈ post, st.Apart y k := fun st h => hstm st (by simp [h])
  have hsp : ∀ as bs : List (Stmt V), sitesOf (as ++ bs) = sitesOf as ++ sitesOf bs := by
    intro as bs
    induction as with
    | nil => rfl
    | cons a as ih => cases a <;> simp [sitesOf, ih]
  rw [hsp, hsp] at hsites
  simp only [List.mem_append, not_or] at hsites
  refine run_sim (fun blk hblk => ⟨hterm blk hblk, fun s t h => ?_⟩) fuel b0 s t ⟨hag, hws, hwt⟩
  obtain ⟨i, hi⟩ := List.mem_iff_getElem?.1 hblk
  by_cases hib : i = b
  · subst hib
    rw [hb] at hi
    cases hi
    simp only [List.flatMap_append, List.flatMap_cons]
    rw [rewrite_apart (apart_site hpre) hsites.1.1, rewrite_apart (apart_site hmi) hsites.1.2, rewrite_apart (apart_site hpo) hsites.2]
    have e1 : rewrite k j ((unitOf dst).forward id (unitOf src)) (.np k y (unitOf src)) = [] := by simp [rewrite]
    have e2 : rewrite k j ((unitOf dst).forward id (unitOf src)) (.np j z (unitOf dst)) = [.opt j z ((unitOf dst).forward id (unitOf src))] := by
      simp [rewrite, hj]
    rw [e1, e2, List.nil_append]
    have e3 : pre ++ .np k y (unitOf src) :: (mid ++ .np j z (unitOf dst) :: post) = pre ++ ((.np k y (unitOf src) :: (mid ++ [.np j z (unitOf dst)])) ++ post) := by simp
    have e4 : pre ++ (mid ++ ([.opt j z ((unitOf dst).forward id (unitOf src))] ++ post)) = pre ++ ((mid ++ [.opt j z ((unitOf dst).forward id (unitOf src))]) ++ post) := by simp
    rw [e3, e4, runStmts_append pre, runStmts_append pre]
    have h1 := stmts_sim pre hpre h
    generalize runStmts pre s = P1 at h1 ⊢
    generalize runStmts pre t = P2 at h1 ⊢
    cases h1 with
    | none => exact .none
    | @some s1 t1 hr =>
      simp only [Option.bind_some]
      rw [runStmts_append _ post, runStmts_append _ post]
      have h2 := segment_sim (id := id) (z := z) (src := src) (dst := dst) (mid := mid) hr.1 hj hsrc hdst hin hid hmi
        (can_quiet hb hcan (apart_site hpre) hmid)
      revert h2
      generalize runStmts (.np k y (unitOf src) :: (mid ++ [.np j z (unitOf dst)])) s1 = P3
      generalize runStmts (mid ++ [.opt j z ((unitOf dst).forward id (unitOf src))]) t1 = P4
      intro h2
      cases h2 with
      | none => exact .none
      | @some s2 t2 h3 =>
        simp only [Option.bind_some]
        have h4 := stmts_sim post hpo h3
        revert h4
        generalize runStmts post s2 = P5
        generalize runStmts post t2 = P6
        intro h4
        cases h4 with
        | none => exact .none
        | some h5 => exact .some h5.1
  · obtain ⟨h1, h2⟩ := hother i blk hi hib
    rw [rewrite_apart (apart_site h1) h2]
    have h3 := stmts_sim blk.body h1 h
    revert h3
    generalize runStmts blk.body s = P5
    generalize runStmts blk.body t = P6
    intro h3
    cases h3 with
    | none => exact .none
    | some h5 => exact .some h5.1

/-! ### Programs -/

/-- Operations on arrays of numbers. -/
def arrOp (f : Int → Int → Int) (a b : List Int) : Option (List Int) := if a.length = b.length then some (List.zipWith f a b) else none

/-- Variables `a`, `b`, `c` (0, 1, 2) with arrays; `y`, `z`, `w` are 3, 4, 5. -/
def st0 : State (List Int) where
  env x := if x ≤ 2 then some (.arr (100 + x, 0)) else none
  mem l := if l = (100, 0) then some [1, 2] else if l = (101, 0) then some [10, 20] else if l = (102, 0) then some [5, 5] else none
  cnt k := if 100 ≤ k ∧ k ≤ 102 then 1 else 0

/-- `a[0] = 7`, giving `c`. -/
def setA : Call (List Int) where
  run s :=
    match s.env 0, s.env 2 with
    | some (.arr l), some v => (s.mem l).map fun d => ({ s with mem := fun q => if q = l then some (d.set 0 7) else s.mem q }, v)
    | _, _ => none
  se := true
  uses := [0, 2]

/-- `a + b`. -/
def tAB : Tree (List Int) := .bin (arrOp (· + ·)) (.leaf 10 (.var 0)) (.leaf 11 (.var 1))

/-- `y * c`. -/
def tYC : Tree (List Int) := .bin (arrOp (· * ·)) (.leaf 12 (.var 3)) (.leaf 13 (.var 2))

/-- Contents of `z` after at most 10 blocks. -/
def zAfter (p : Prog (List Int)) : Option (Option (List Int)) := (run p 10 0 st0).map fun r => (r.1.env 4).bind r.1.read

/-- How often a variable is used, and how often assigned: `canForwardVariable` (forward.cpp:159-184) holds for a variable with one assignment that comes before its one use. -/
def usesOf (y : Var) (p : Prog V) : Nat × Nat :=
  let ns : List (Node V) := p.flatMap fun b => b.body.flatMap Stmt.nodes
  (ns.countP fun n => match n with
    | .leaf _ (.var x) => x == y
    | _ => false, ns.countP fun n => match n with
    | .asg _ x => x == y
    | _ => false)

/-- `y = a + b; w = c * c; z = y * c`, and a branch back to the beginning. -/
def okProg : Prog (List Int) :=
  [⟨[.np 0 3 (unitOf tAB), .np 2 5 (unitOf (.bin (arrOp (· * ·)) (.leaf 14 (.var 2)) (.leaf 15 (.var 2)))), .np 1 4 (unitOf tYC)], .goto 1⟩, ⟨[.copy 0 4], .goto 0⟩]

example : canForward okProg 0 (unitOf tAB) 0 12 0 = true ∧ usesOf 3 okProg = (1, 1) := by decide +kernel

/-- The hypotheses of the theorem hold for this program. -/
example (fuel b0 : Nat) : Same 3 0 (run okProg fuel b0 st0) (run (rewriteProg 0 1 ((unitOf tYC).forward 12 (unitOf tAB)) okProg) fuel b0 st0) := by
  refine c75_block_partial (b := 0) (k := 0) (j := 1) (id := 12) (y := 3) (z := 4) (src := tAB) (dst := tYC) (pre := [])
    (mid := [.np 2 5 (unitOf (.bin (arrOp (· * ·)) (.leaf 14 (.var 2)) (.leaf 15 (.var 2))))]) (post := []) (term := .goto 1)
    rfl (by decide +kernel) ?_ ?_ (by decide) (by decide) (by decide) (by decide) (by decide) ?_ ?_ ?_ fuel b0 (Agree.refl _ _ _) ?_ ?_
  · intro q hq
    simp only [tAB, Tree.leaves, List.cons_append, List.nil_append, List.mem_cons, List.not_mem_nil, or_false] at hq
    rcases hq with rfl | rfl <;> simp [Leaf.Plain]
  · intro q hq
    simp only [tYC, Tree.leaves, List.cons_append, List.nil_append, List.mem_cons, List.not_mem_nil, or_false] at hq
    rcases hq with rfl | rfl <;> simp [Leaf.Plain]
  · intro st hst
    simp only [List.nil_append, List.append_nil, List.mem_singleton] at hst
    subst hst
    refine ⟨by decide, by decide, rfl, fun q hq => Or.inl ?_⟩
    simp only [unitOf, Tree.leaves, List.cons_append, List.nil_append, List.mem_cons, List.not_mem_nil, or_false] at hq
    rcases hq with rfl | rfl <;> simp [Leaf.Plain]
  · intro blk hblk
    simp only [okProg, List.mem_cons, List.not_mem_nil, or_false] at hblk
    rcases hblk with rfl | rfl <;> trivial
  · intro i blk hi hne
    match i, hne with
    | 1, _ =>
      cases hi
      refine ⟨fun st hst => ?_, by simp [sitesOf]⟩
      simp only [List.mem_singleton] at hst
      subst hst
      exact ⟨by decide, by decide⟩
    | n + 2, _ => simp [okProg] at hi
  all_goals
    refine ⟨fun j n hn => ?_, fun x l hx => ?_, fun x _ n hx => ?_⟩
    · simp only [st0] at hn ⊢
      have : ∀ q, 100 ≤ q → q ≤ 102 → (j, n) ≠ (q, 0) := by
        intro q h1 h2 he
        have e1 : j = q := congrArg Prod.fst he
        have e2 : n = 0 := congrArg Prod.snd he
        rw [if_pos (by omega)] at hn
        omega
      rw [if_neg (this 100 (by omega) (by omega)), if_neg (this 101 (by omega) (by omega)), if_neg (this 102 (by omega) (by omega))]
    · simp only [st0] at hx ⊢
      split at hx
      · cases hx
        rename_i h
        match x, h with
        | 0, _ => decide
        | 1, _ => decide
        | 2, _ => decide
      · cases hx
    · simp only [st0] at hx
      split at hx
      · have := congrArg Prod.fst (Val.arr.inj (Option.some.inj hx))
        simp only at this
        omega
      · cases hx

example : zAfter okProg = zAfter (rewriteProg 0 1 ((unitOf tYC).forward 12 (unitOf tAB)) okProg) ∧ zAfter okProg ≠ some none := by decide +kernel

/-- An expression is not forwarded if evaluating one of its leaves has side effects; and if the use is in another block, this is the only reason not to (see below). -/
theorem c75_effect (p : Prog V) (k : Nat) (u : NUnit V) (b id c : Nat) (i : Nat) (f : Call V) (hf : (i, Leaf.call f) ∈ u.tree.leaves) (hs : f.se = true) :
    canForward p k u b id c = false := by
  have h : ∀ ls : List (Nat × Leaf V), (i, Leaf.call f) ∈ ls → leavesPure ls = false := by
    intro ls
    induction ls with
    | nil => intro h; cases h
    | cons q ls ih =>
      intro h
      obtain ⟨j, a⟩ := q
      rcases List.mem_cons.1 h with h | h
      · cases h
        simp [leavesPure, hs]
      · have h2 := ih h
        cases a with
        | var x => exact h2
        | num c => exact h2
        | call g => simp [leavesPure, h2]
  rw [canForward, h _ hf, Bool.false_and]

example : (13, Leaf.call setA) ∈ (Tree.bin (arrOp (· * ·)) (.leaf 12 (.var 3)) (.leaf 13 (.call setA))).leaves ∧ setA.se = true := ⟨by simp [Tree.leaves], rfl⟩

/-! ### Deviations -/

/-- If the use is in another block, then nothing that happens in between is looked at: the only condition that is left is that the leaves have no side effects (as a successor is followed only if it is on
the path already, forward.cpp:147). -/
theorem c75_otherBlock_violation (p : Prog V) (k : Nat) (u : NUnit V) (b id c : Nat) (hbc : b ≠ c) (hself : b ∉ succs p b) :
    canForward p k u b id c = leavesPure u.tree.leaves := by
  have h : dfs p k id (leafVars u.tree.leaves) c (p.length + 1) b [] = true := by
    simp only [dfs, List.nil_append, if_neg hbc, List.all_eq_true]
    intro x hx
    rw [if_neg]
    intro h1
    simp only [List.contains_eq_mem, List.mem_singleton, decide_eq_true_eq] at h1
    exact hself (h1 ▸ hx)
  rw [canForward, h, Bool.and_true]

/-- Leaves without side effects. -/
theorem c75_pure (ls : List (Nat × Leaf V)) (h : ∀ q ∈ ls, ∀ f, q.2 = .call f → f.se = false) : leavesPure ls = true := by
  induction ls with
  | nil => rfl
  | cons q ls ih =>
    obtain ⟨j, a⟩ := q
    have h1 := ih fun q hq => h q (by simp [hq])
    cases a with
    | var x => exact h1
    | num c => exact h1
    | call g => simp [leavesPure, h1, h (j, .call g) (by simp) g rfl]

/-- `y = a + b; if …: a[0] = 7`, then `z = y * c`. -/
def branchProg : Prog (List Int) :=
  [⟨[.np 0 3 (unitOf tAB)], .branch (fun _ => true) 1 2⟩, ⟨[.call setA], .goto 2⟩, ⟨[.np 1 4 (unitOf tYC)], .ret⟩]

/-- **Deviation**: `y = a + b; if …: a[0] = 7`, then `z = y * c`: the expression is forwarded past the assignment of the element. -/
theorem c75_branch_violation : canForward branchProg 0 (unitOf tAB) 0 12 2 = true ∧ usesOf 3 branchProg = (1, 1) ∧ zAfter branchProg = some (some [55, 110]) ∧
    zAfter (rewriteProg 0 1 ((unitOf tYC).forward 12 (unitOf tAB)) branchProg) = some (some [85, 110]) := by decide +kernel

/-- `w + b`. -/
def tWB : Tree (List Int) := .bin (arrOp (· + ·)) (.leaf 16 (.var 5)) (.leaf 17 (.var 1))

/-- `y = a + b; w = y * c; a = c; z = w + b`. -/
def chainProg : Prog (List Int) := [⟨[.np 0 3 (unitOf tAB), .np 1 5 (unitOf tYC), .copy 0 2, .np 2 4 (unitOf tWB)], .ret⟩]

/-- **Deviation**: `y = a + b; w = y * c; a = c; z = w + b`: `a + b` is forwarded to `w` and `w` to `z`.  Whether `w` can be moved past `a = c` is decided by the variables of `y * c` alone, before `y` is
replaced by `a + b`. -/
theorem c75_chain_violation : canForward chainProg 0 (unitOf tAB) 0 12 0 = true ∧ canForward chainProg 1 (unitOf tYC) 0 16 0 = true ∧ usesOf 3 chainProg = (1, 1) ∧ usesOf 5 chainProg = (1, 1) ∧
    zAfter chainProg = some (some [65, 130]) ∧
    zAfter (rewriteProg 1 2 ((unitOf tWB).forward 16 ((unitOf tYC).forward 12 (unitOf tAB))) (rewriteProg 0 99 (unitOf tAB) chainProg)) = some (some [85, 145]) := by decide +kernel

/-- `y * f()` where `f` does `a[0] = 7` and gives `c`. -/
def tYF : Tree (List Int) := .bin (arrOp (· * ·)) (.leaf 12 (.var 3)) (.leaf 13 (.call setA))

/-- `y = a + b; z = y * f()`. -/
def callProg : Prog (List Int) := [⟨[.np 0 3 (unitOf tAB), .np 1 4 (unitOf tYF)], .ret⟩]

/-- **Deviation**: `y = a + b; z = y * f()` where `f` changes an element of `a`: the leaves of the forwarded expression come after the ones that are there, so that `f` is called before `a` is read. -/
theorem c75_call_violation : canForward callProg 0 (unitOf tAB) 0 12 0 = true ∧ usesOf 3 callProg = (1, 1) ∧ zAfter callProg = some (some [55, 110]) ∧
    zAfter (rewriteProg 0 1 ((unitOf tYF).forward 12 (unitOf tAB)) callProg) = some (some [85, 110]) := by decide +kernel

end Codon.NpFwd
