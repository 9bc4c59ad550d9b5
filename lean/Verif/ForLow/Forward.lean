import Verif.ForLow.Lemmas
/-!
# Whatever the source does, the lowered program does
-/
namespace Codon.ForLow
open Codon.Omp (w)

variable {W : World} {N : Nat}

theorem S.heap_eq {s s' : St W} (h : S N s s') : s.heap = s'.heap := h.2

theorem heap_same (s : St W) : ({ s with heap := s.heap } : St W) = s := rfl

/-- One turn of the counted loop over a list up to the body. -/
theorem lbody_ev {x p j : Nat} {q : Nat} {i : Int} {v : Val} {b : Term} {s s1 : St W} {r : Res} (hp : s.vars p = .ptr q) (hj : s.vars j = .int i)
    (hl : W.load s.heap q i = some v) (h : Ev W b (s.set x v) r s1) : Ev W (lbody x p j b) s r s1 := by
  refine .seq (.op (.op (.pair (.var p s) (.var j s)) ?_) (.assign x v s)) h
  rw [hp, hj]
  exact .index q i s v hl

theorem lbody_ub {x p j : Nat} {q : Nat} {i : Int} {b : Term} {s : St W} (hp : s.vars p = .ptr q) (hj : s.vars j = .int i)
    (hl : W.load s.heap q i = none) : Ev W (lbody x p j b) s .ub s := by
  refine .seqL (.opL (.op (.pair (.var p s) (.var j s)) ?_) (fun h => h)) (fun h => h)
  rw [hp, hj]
  exact .indexUb q i s hl

theorem wrap3 {j n : Nat} {l : Int} {B : Term} {s s1 : St W} {r : Res} (hn : s.vars n = .int l) (h : Ev W (.impLoop j 0 1 l B) s r s1) :
    Ev W (.impFor j (.pair (.const (.int 0)) (.var n)) 1 B) s r s1 := by
  refine .impFor (.pair (.const _ s) ?_) h
  have := Ev.var (W := W) n s
  rwa [hn] at this

theorem wrap2 {v p : Nat} {q r0 : Nat} {B : Term} {s s1 : St W} {r : Res} (hv : s.vars v = .lst r0) (hq : W.ptr s.heap r0 = some q)
    (h : Ev W B (s.set p (.ptr q)) r s1) : Ev W (.seq (.op (.assign p) (.op .ptr (.var v))) B) s r s1 := by
  refine .seq (.op (.op (.var v s) ?_) (.assign p (.ptr q) s)) h
  rw [hv]
  exact .ptr r0 s q hq

theorem wrap2_ub {v p : Nat} {r0 : Nat} {B : Term} {s : St W} (hv : s.vars v = .lst r0) (hq : W.ptr s.heap r0 = none) :
    Ev W (.seq (.op (.assign p) (.op .ptr (.var v))) B) s .ub s := by
  refine .seqL (.opL (.op (.var v s) ?_) (fun h => h)) (fun h => h)
  rw [hv]
  exact .ptrUb r0 s hq

theorem wrap1 {v n : Nat} {l : Int} {r0 : Nat} {B : Term} {s s1 : St W} {r : Res} (hv : s.vars v = .lst r0) (hq : W.len s.heap r0 = some l)
    (h : Ev W B (s.set n (.int l)) r s1) : Ev W (.seq (.op (.assign n) (.op .len (.var v))) B) s r s1 := by
  refine .seq (.op (.op (.var v s) ?_) (.assign n (.int l) s)) h
  rw [hv]
  exact .len r0 s l hq

theorem wrap1_ub {v n : Nat} {r0 : Nat} {B : Term} {s : St W} (hv : s.vars v = .lst r0) (hq : W.len s.heap r0 = none) :
    Ev W (.seq (.op (.assign n) (.op .len (.var v))) B) s .ub s := by
  refine .seqL (.opL (.op (.var v s) ?_) (fun h => h)) (fun h => h)
  rw [hv]
  exact .lenUb r0 s hq

/-- All forms of the counted loop over a list. -/
theorem fwd_forms {x : Nat} {g : ListGen} {b t' : Term} {c : St W → Prop} (hl : Low W N (.genLoop x (.list g) b) t' c) {s s' s1 : St W} {r : Res}
    (hs : S N s s') (hc : c s') (hub : (∀ i l q, ¬ At W s.heap g i l q) → r = .ub ∧ s1 = s)
    (hid : ∀ b', Low W N b b' (fun _ => True) → x < N → ∃ s1', Ev W (.genLoop x (.list g) b') s' r s1' ∧ S N s1 s1')
    (core : ∀ v n p j b', Fresh N x v n p j b' → Low W N b b' (fun _ => True) → ∀ (s'' : St W) i l q, S N s s'' → At W s.heap g i l q →
      s''.vars p = .ptr q → ∃ s1', Ev W (.impLoop j i 1 l (lbody x p j b')) s'' r s1' ∧ S N s1 s1') :
    ∃ s1', Ev W t' s' r s1' ∧ S N s1 s1' := by
  have e := hs.heap_eq
  cases hl with
  | genLoop hx hb => exact hid _ hb hx
  | @list1 _ v n p j r0 _ b' hf hb =>
    cases hlen : W.len s'.heap r0 with
    | none =>
      obtain ⟨rfl, rfl⟩ := hub (fun i l q a => by cases a with | fresh _ _ _ h1 h2 => rw [e, hlen] at h1; cases h1)
      exact ⟨s', wrap1_ub hc hlen, hs⟩
    | some l =>
      have hs2 : S N s (s'.set n (.int l)) := hs.setR hf.hn _
      have hv2 : (s'.set n (.int l)).vars v = .lst r0 := by rw [set_ne hf.nv]; exact hc
      cases hptr : W.ptr s'.heap r0 with
      | none =>
        obtain ⟨rfl, rfl⟩ := hub (fun i l q a => by cases a with | fresh _ _ _ h1 h2 => rw [e, hptr] at h2; cases h2)
        exact ⟨_, wrap1 hc hlen (wrap2_ub hv2 hptr), hs2⟩
      | some q =>
        obtain ⟨s1', h1, h2⟩ := core v n p j b' hf hb _ 0 l q (hs2.setR hf.hp (.ptr q))
          (.fresh r0 l q (by rw [e]; exact hlen) (by rw [e]; exact hptr)) set_same
        exact ⟨s1', wrap1 hc hlen (wrap2 hv2 hptr (wrap3 (by rw [set_ne hf.pn, set_same]) h1)), h2⟩
  | @list2 _ v n p j r0 l _ b' hf hb =>
    obtain ⟨hv, hn, hlen⟩ := hc
    cases hptr : W.ptr s'.heap r0 with
    | none =>
      obtain ⟨rfl, rfl⟩ := hub (fun i l q a => by cases a with | fresh _ _ _ h1 h2 => rw [e, hptr] at h2; cases h2)
      exact ⟨_, wrap2_ub hv hptr, hs⟩
    | some q =>
      obtain ⟨s1', h1, h2⟩ := core v n p j b' hf hb _ 0 l q (hs.setR hf.hp (.ptr q))
        (.fresh r0 l q (by rw [e]; exact hlen) (by rw [e]; exact hptr)) set_same
      exact ⟨s1', wrap2 hv hptr (wrap3 (by rw [set_ne hf.pn]; exact hn) h1), h2⟩
  | @list3 _ v n p j r0 l q _ b' hf hb =>
    obtain ⟨hn, hlen, hp, hptr⟩ := hc
    obtain ⟨s1', h1, h2⟩ := core v n p j b' hf hb _ 0 l q hs (.fresh r0 l q (by rw [e]; exact hlen) (by rw [e]; exact hptr)) hp
    exact ⟨s1', wrap3 hn h1, h2⟩
  | @list4 _ v n p j r0 l q _ b' hf hb =>
    obtain ⟨hlen, hp, hptr⟩ := hc
    exact core v n p j b' hf hb _ 0 l q hs (.fresh r0 l q (by rw [e]; exact hlen) (by rw [e]; exact hptr)) hp
  | @list5 _ v n p j i l q _ b' hf hb => exact core v n p j b' hf hb _ _ l q hs (.yielded i l q) hc

theorem check_done {h h' : W.H} {i l : Int} {q : Nat} (e : ListGen.check W h i l q = .done h') : impDone i 1 l = true ∧ h' = h := by
  unfold ListGen.check at e
  split at e
  · split at e <;> cases e
  · cases e
    exact ⟨by simp only [impDone]; rw [if_pos (by omega)]; simpa using ‹¬ i < l›, rfl⟩

theorem check_stop {h h' : W.H} {i l : Int} {q : Nat} {r : Res} (e : ListGen.check W h i l q = .stop r h') :
    impDone i 1 l = false ∧ W.load h q i = none ∧ r = .ub ∧ h' = h := by
  unfold ListGen.check at e
  split at e
  · split at e <;> cases e
    exact ⟨by simp only [impDone]; rw [if_pos (by omega)]; simpa using ‹i < l›, by assumption, rfl, rfl⟩
  · cases e

theorem check_yield {h h' : W.H} {i l : Int} {q : Nat} {v : Val} {g : ListGen} (e : ListGen.check W h i l q = .yield v g h') :
    impDone i 1 l = false ∧ W.load h q i = some v ∧ g = .yielded i l q ∧ h' = h := by
  unfold ListGen.check at e
  split at e
  · split at e <;> cases e
    exact ⟨by simp only [impDone]; rw [if_pos (by omega)]; simpa using ‹i < l›, by assumption, rfl, rfl⟩
  · cases e

/-- Without `At` the list is invalid. -/
theorem not_at {h : W.H} {g : ListGen} (hn : ∀ i l q, ¬ At W h g i l q) : g.resume W h = .stop .ub h := by
  cases g with
  | fresh r =>
    simp only [ListGen.resume]
    cases h1 : W.len h r with
    | none => rfl
    | some l =>
      cases h2 : W.ptr h r with
      | none => rfl
      | some q => exact absurd (.fresh r l q h1 h2) (hn 0 l q)
  | yielded i l q => exact absurd (.yielded i l q) (hn _ _ _)

theorem pair_inv {a b : Term} {s s2 : St W} {v : Val} (h : Ev W (.pair a b) s (.val v) s2) :
    ∃ va s1 vb, v = .pair va vb ∧ Ev W a s (.val va) s1 ∧ Ev W b s1 (.val vb) s2 := by
  cases h with
  | pair h1 h2 => exact ⟨_, _, _, rfl, h1, h2⟩
  | pairL _ hr => exact absurd trivial hr
  | pairR _ _ hr => exact absurd trivial hr

theorem leave_ub : Res.leave .ub = .ub := rfl

theorem forward {t : Term} {s s1 : St W} {r : Res} (h : Ev W t s r s1) : ∀ t' c, Low W N t t' c → ∀ s', S N s s' → c s' →
    ∃ s1', Ev W t' s' r s1' ∧ S N s1 s1' := by
  induction h with
  | cut t s => intro t' c hl s' hs hc; exact ⟨s', .cut t' s', hs⟩
  | const v s => intro t' c hl s' hs hc; cases hl; exact ⟨s', .const v s', hs⟩
  | var x s =>
    intro t' c hl s' hs hc; cases hl with
    | var _ hx => exact ⟨s', hs.1 x hx ▸ .var x s', hs⟩
  | pair h1 h2 i1 i2 =>
    intro t' c hl s' hs hc; cases hl with
    | pair la lb =>
      obtain ⟨q1, e1, g1⟩ := i1 _ _ la s' hs trivial
      obtain ⟨q2, e2, g2⟩ := i2 _ _ lb q1 g1 trivial
      exact ⟨q2, .pair e1 e2, g2⟩
  | pairL h1 hr i1 =>
    intro t' c hl s' hs hc; cases hl with
    | pair la lb =>
      obtain ⟨q1, e1, g1⟩ := i1 _ _ la s' hs trivial
      exact ⟨q1, .pairL e1 hr, g1⟩
  | pairR h1 h2 hr i1 i2 =>
    intro t' c hl s' hs hc; cases hl with
    | pair la lb =>
      obtain ⟨q1, e1, g1⟩ := i1 _ _ la s' hs trivial
      obtain ⟨q2, e2, g2⟩ := i2 _ _ lb q1 g1 trivial
      exact ⟨q2, .pairR e1 e2 hr, g2⟩
  | op h1 h2 i1 =>
    intro t' c hl s' hs hc; cases hl with
    | op hf la =>
      obtain ⟨q1, e1, g1⟩ := i1 _ _ la s' hs trivial
      obtain ⟨q2, e2, g2⟩ := op_fwd h2 hf g1
      exact ⟨q2, .op e1 e2, g2⟩
  | opL h1 hr i1 =>
    intro t' c hl s' hs hc; cases hl with
    | op hf la =>
      obtain ⟨q1, e1, g1⟩ := i1 _ _ la s' hs trivial
      exact ⟨q1, .opL e1 hr, g1⟩
  | seq h1 h2 i1 i2 =>
    intro t' c hl s' hs hc; cases hl with
    | seq la lb =>
      obtain ⟨q1, e1, g1⟩ := i1 _ _ la s' hs trivial
      obtain ⟨q2, e2, g2⟩ := i2 _ _ lb q1 g1 trivial
      exact ⟨q2, .seq e1 e2, g2⟩
  | seqL h1 hr i1 =>
    intro t' c hl s' hs hc; cases hl with
    | seq la lb =>
      obtain ⟨q1, e1, g1⟩ := i1 _ _ la s' hs trivial
      exact ⟨q1, .seqL e1 hr, g1⟩
  | iteT h1 hv h2 i1 i2 =>
    intro t' c hl s' hs hc; cases hl with
    | ite lc la lb =>
      obtain ⟨q1, e1, g1⟩ := i1 _ _ lc s' hs trivial
      obtain ⟨q2, e2, g2⟩ := i2 _ _ la q1 g1 trivial
      exact ⟨q2, .iteT e1 hv e2, g2⟩
  | iteF h1 hv h2 i1 i2 =>
    intro t' c hl s' hs hc; cases hl with
    | ite lc la lb =>
      obtain ⟨q1, e1, g1⟩ := i1 _ _ lc s' hs trivial
      obtain ⟨q2, e2, g2⟩ := i2 _ _ lb q1 g1 trivial
      exact ⟨q2, .iteF e1 hv e2, g2⟩
  | iteL h1 hr i1 =>
    intro t' c hl s' hs hc; cases hl with
    | ite lc la lb =>
      obtain ⟨q1, e1, g1⟩ := i1 _ _ lc s' hs trivial
      exact ⟨q1, .iteL e1 hr, g1⟩
  | whileEnd h1 hv i1 =>
    intro t' c hl s' hs hc; cases hl with
    | «while» lc la =>
      obtain ⟨q1, e1, g1⟩ := i1 _ _ lc s' hs trivial
      exact ⟨q1, .whileEnd e1 hv, g1⟩
  | whileL h1 hr i1 =>
    intro t' c hl s' hs hc; cases hl with
    | «while» lc la =>
      obtain ⟨q1, e1, g1⟩ := i1 _ _ lc s' hs trivial
      exact ⟨q1, .whileL e1 hr, g1⟩
  | whileLeave h1 hv h2 hr i1 i2 =>
    intro t' c hl s' hs hc; cases hl with
    | «while» lc la =>
      obtain ⟨q1, e1, g1⟩ := i1 _ _ lc s' hs trivial
      obtain ⟨q2, e2, g2⟩ := i2 _ _ la q1 g1 trivial
      exact ⟨q2, .whileLeave e1 hv e2 hr, g2⟩
  | whileNext h1 hv h2 hr h3 i1 i2 i3 =>
    intro t' c hl s' hs hc
    have hl' := hl
    cases hl with
    | «while» lc la =>
      obtain ⟨q1, e1, g1⟩ := i1 _ _ lc s' hs trivial
      obtain ⟨q2, e2, g2⟩ := i2 _ _ la q1 g1 trivial
      obtain ⟨q3, e3, g3⟩ := i3 _ _ hl' q2 g2 trivial
      exact ⟨q3, .whileNext e1 hv e2 hr e3, g3⟩
  | brk s => intro t' c hl s' hs hc; cases hl; exact ⟨s', .brk s', hs⟩
  | cont s => intro t' c hl s' hs hc; cases hl; exact ⟨s', .cont s', hs⟩
  | tryExc h1 h2 i1 i2 =>
    intro t' c hl s' hs hc; cases hl with
    | «try» hx la lb =>
      obtain ⟨q1, e1, g1⟩ := i1 _ _ la s' hs trivial
      obtain ⟨q2, e2, g2⟩ := i2 _ _ lb _ (g1.setL hx _) trivial
      exact ⟨q2, .tryExc e1 e2, g2⟩
  | tryOk h1 hr i1 =>
    intro t' c hl s' hs hc; cases hl with
    | «try» hx la lb =>
      obtain ⟨q1, e1, g1⟩ := i1 _ _ la s' hs trivial
      exact ⟨q1, .tryOk e1 hr, g1⟩
  | @«for» x k a body s v s1 g r s2 h1 hm h2 i1 i2 =>
    intro t' c hl s' hs hc; cases hl with
    | «for» hx la lb =>
      obtain ⟨q1, e1, g1⟩ := i1 _ _ la s' hs trivial
      obtain ⟨q2, e2, g2⟩ := i2 _ _ (.genLoop hx lb) q1 g1 trivial
      exact ⟨q2, .for e1 hm e2, g2⟩
    | range1 hx la lb =>
      obtain ⟨q1, e1, g1⟩ := i1 _ _ la s' hs trivial
      cases v <;> simp only [mkIter, reduceCtorEq] at hm
      cases hm
      obtain ⟨q2, e2, g2⟩ := i2 _ _ (.rangeLoop hx (.fresh _ _ _ (by omega)) lb) q1 g1 trivial
      exact ⟨q2, .impFor (.pair (.const _ s') e1) e2, g2⟩
    | range2 hx la ld lb =>
      obtain ⟨q1, e1, g1⟩ := i1 _ _ (.pair la ld) s' hs trivial
      unfold mkIter at hm
      split at hm <;> first | cases hm | skip
      · rename_i ek; cases ek
      · obtain ⟨q2, e2, g2⟩ := i2 _ _ (.rangeLoop hx (.fresh _ _ _ (by omega)) lb) q1 g1 trivial
        exact ⟨q2, .impFor e1 e2, g2⟩
      all_goals (rename_i ek; cases ek)
    | @range3 _ _ a' _ _ d d' c hx hc0 la ld lb =>
      obtain ⟨q1, e1, g1⟩ := i1 _ _ (.pair la (.pair ld (.const _))) s' hs trivial
      obtain ⟨va, sa, u, rfl, ha, hb⟩ := pair_inv e1
      obtain ⟨vd, sd, uc, rfl, hd, hk⟩ := pair_inv hb
      cases hk
      cases va <;> cases vd <;> simp only [mkIter, reduceCtorEq] at hm
      rw [if_neg hc0] at hm
      cases hm
      obtain ⟨q2, e2, g2⟩ := i2 _ _ (.rangeLoop hx (.fresh _ _ _ hc0) lb) q1 g1 trivial
      exact ⟨q2, .impFor (.pair ha hd) e2, g2⟩
    | @list _ vv n p j _ a' _ b' hf la lb =>
      obtain ⟨q1, e1, g1⟩ := i1 _ _ la s' hs trivial
      cases v <;> simp only [mkIter, reduceCtorEq] at hm
      cases hm
      obtain ⟨q2, e2, g2⟩ := i2 _ _ (.list1 (v := vv) hf lb) _ (g1.setR hf.hv _) set_same
      exact ⟨q2, .seq (.op e1 (.assign _ _ _)) e2, g2⟩
  | @forErr x k a body s v s1 r h1 hm i1 =>
    intro t' c hl s' hs hc; cases hl with
    | «for» hx la lb =>
      obtain ⟨q1, e1, g1⟩ := i1 _ _ la s' hs trivial
      exact ⟨q1, .forErr e1 hm, g1⟩
    | range1 hx la lb =>
      obtain ⟨q1, e1, g1⟩ := i1 _ _ la s' hs trivial
      cases v <;> simp only [mkIter, reduceCtorEq] at hm <;> cases hm <;>
        exact ⟨q1, .impForType (.pair (.const _ s') e1) (by intro _ _ e; cases e), g1⟩
    | range2 hx la ld lb =>
      obtain ⟨q1, e1, g1⟩ := i1 _ _ (.pair la ld) s' hs trivial
      have : r = .ub ∧ ∀ i n, v ≠ .pair (.int i) (.int n) := by
        unfold mkIter at hm
        split at hm <;> first | cases hm | skip
        · rename_i ek; cases ek
        · refine ⟨rfl, fun i n e => ?_⟩
          subst e
          simp_all
      obtain ⟨rfl, hne⟩ := this
      exact ⟨q1, .impForType e1 hne, g1⟩
    | @range3 _ _ a' _ _ d d' c hx hc0 la ld lb =>
      obtain ⟨q1, e1, g1⟩ := i1 _ _ (.pair la (.pair ld (.const _))) s' hs trivial
      obtain ⟨va, sa, u, rfl, ha, hb⟩ := pair_inv e1
      obtain ⟨vd, sd, uc, rfl, hd, hk⟩ := pair_inv hb
      cases hk
      have : r = .ub ∧ ∀ i n, Val.pair va vd ≠ .pair (.int i) (.int n) := by
        cases va <;> cases vd <;> simp only [mkIter, reduceCtorEq] at hm <;> first
          | (cases hm; exact ⟨rfl, by intro _ _ e; cases e⟩)
          | (rw [if_neg hc0] at hm; cases hm)
      obtain ⟨rfl, hne⟩ := this
      exact ⟨q1, .impForType (.pair ha hd) hne, g1⟩
    | @list _ vv n p j _ a' _ b' hf la lb =>
      obtain ⟨q1, e1, g1⟩ := i1 _ _ la s' hs trivial
      have : r = .ub ∧ ∀ k, v ≠ .lst k := by
        cases v <;> simp only [mkIter, reduceCtorEq] at hm <;> cases hm <;> exact ⟨rfl, by intro _ e; cases e⟩
      obtain ⟨rfl, hne⟩ := this
      refine ⟨_, .seq (.op e1 (.assign _ _ _)) (.seqL (.opL (.op (.var _ _) (.lenType _ _ ?_)) (fun h => h)) (fun h => h)), g1.setR hf.hv _⟩
      rw [set_same]; exact hne
  | @forCut x k a body s v s1 h1 i1 =>
    intro t' c hl s' hs hc; cases hl with
    | «for» hx la lb =>
      obtain ⟨q1, e1, g1⟩ := i1 _ _ la s' hs trivial
      exact ⟨q1, .forCut e1, g1⟩
    | range1 hx la lb =>
      obtain ⟨q1, e1, g1⟩ := i1 _ _ la s' hs trivial
      exact ⟨q1, .impForCut (.pair (.const _ _) e1), g1⟩
    | range2 hx la ld lb =>
      obtain ⟨q1, e1, g1⟩ := i1 _ _ (.pair la ld) s' hs trivial
      exact ⟨q1, .impForCut e1, g1⟩
    | @range3 _ _ a' _ _ d d' c hx hc0 la ld lb =>
      obtain ⟨q1, e1, g1⟩ := i1 _ _ (.pair la (.pair ld (.const _))) s' hs trivial
      obtain ⟨va, sa, u, rfl, ha, hb⟩ := pair_inv e1
      obtain ⟨vd, sd, uc, rfl, hd, hk⟩ := pair_inv hb
      cases hk
      · exact ⟨q1, .impForCut (.pair ha hd), g1⟩
    | @list _ vv n p j _ a' _ b' hf la lb =>
      obtain ⟨q1, e1, g1⟩ := i1 _ _ la s' hs trivial
      exact ⟨_, .seq (.op e1 (.assign _ _ _)) (.cut _ _), g1.setR hf.hv _⟩
  | @forL x k a body s r s1 h1 hr i1 =>
    intro t' c hl s' hs hc; cases hl with
    | «for» hx la lb =>
      obtain ⟨q1, e1, g1⟩ := i1 _ _ la s' hs trivial
      exact ⟨q1, .forL e1 hr, g1⟩
    | range1 hx la lb =>
      obtain ⟨q1, e1, g1⟩ := i1 _ _ la s' hs trivial
      exact ⟨q1, .impForL (.pairR (.const _ _) e1 hr) hr, g1⟩
    | range2 hx la ld lb =>
      obtain ⟨q1, e1, g1⟩ := i1 _ _ (.pair la ld) s' hs trivial
      exact ⟨q1, .impForL e1 hr, g1⟩
    | @range3 _ _ a' _ _ d d' c hx hc0 la ld lb =>
      obtain ⟨q1, e1, g1⟩ := i1 _ _ (.pair la (.pair ld (.const _))) s' hs trivial
      have : ∀ b', Ev W (.impFor x (.pair a' d') c b') s' r q1 := by
        intro b'
        cases e1 with
        | cut => exact .cut _ _
        | pair => exact absurd trivial hr
        | pairL ha _ => exact .impForL (.pairL ha hr) hr
        | pairR ha hb _ =>
          cases hb with
          | cut => exact .impForL (.pairR ha (.cut _ _) hr) hr
          | pair => exact absurd trivial hr
          | pairL hd _ => exact .impForL (.pairR ha hd hr) hr
          | pairR hd hk _ =>
            cases hk with
            | cut => exact .impForCut (.pair ha hd)
            | const => exact absurd trivial hr
      exact ⟨q1, this _, g1⟩
    | @list _ vv n p j _ a' _ b' hf la lb =>
      obtain ⟨q1, e1, g1⟩ := i1 _ _ la s' hs trivial
      exact ⟨q1, .seqL (.opL e1 hr) hr, g1⟩
  | @genDone x g body s h hres =>
    intro t' c hl s' hs hc
    have hid : ∀ b', ∃ s1', Ev W (.genLoop x g b') s' (.val .unit) s1' ∧ S N { s with heap := h } s1' := fun b' =>
      ⟨_, .genDone (hs.heap_eq ▸ hres), hs.heap h⟩
    cases hres with
    | rangeDone g _ hg =>
      cases hl with
      | genLoop => exact hid _
      | rangeLoop hx hm lb =>
        rcases match_resume hm with ⟨h1, _⟩ | ⟨_, h2, _⟩
        · exact ⟨s', .impDone h1, hs⟩
        · rw [hg] at h2; cases h2
    | listDone g _ hg =>
      refine fwd_forms hl hs hc ?_ (fun b' _ _ => hid b') ?_
      · intro hn; rw [not_at hn] at hg; cases hg
      · intro v n p j b' hf lb s'' i l q hs2 ha hp
        rw [ha.resume] at hg
        obtain ⟨h1, _⟩ := check_done hg
        exact ⟨s'', .impDone h1, hs2⟩
    | otherDone g _ h' hg => cases hl; exact hid _
  | @genStop x g body s r h hres =>
    intro t' c hl s' hs hc
    have hid : ∀ b', ∃ s1', Ev W (.genLoop x g b') s' r s1' ∧ S N { s with heap := h } s1' := fun b' =>
      ⟨_, .genStop (hs.heap_eq ▸ hres), hs.heap h⟩
    cases hres with
    | listStop g _ r hg =>
      refine fwd_forms hl hs hc ?_ (fun b' _ _ => hid b') ?_
      · intro hn; rw [not_at hn] at hg; cases hg; exact ⟨rfl, rfl⟩
      · intro v n p j b' hf lb s'' i l q hs2 ha hp
        rw [ha.resume] at hg
        obtain ⟨h1, h2, rfl, _⟩ := check_stop hg
        refine ⟨_, .impLeave h1 (lbody_ub (q := q) (i := i) (by rw [set_ne (Ne.symm hf.pj)]; exact hp) set_same ?_) (fun h => h), hs2.setR hf.hj _⟩
        rw [set_heap, ← hs2.heap_eq]; exact h2
    | otherStop g _ e h' hg => cases hl; exact hid _
    | otherCut g _ h' hg => cases hl; exact hid _
  | @genLeave x g body s v g' h r s1 hres hb hr ib =>
    intro t' c hl s' hs hc
    have hid : ∀ b', Low W N body b' (fun _ => True) → x < N → ∃ s1', Ev W (.genLoop x g b') s' r.leave s1' ∧ S N s1 s1' := by
      intro b' lb hx
      obtain ⟨q1, e1, g1⟩ := ib _ _ lb _ ((hs.heap h).setL hx v) trivial
      exact ⟨q1, .genLeave (hs.heap_eq ▸ hres) e1 hr, g1⟩
    cases hres with
    | rangeYield g _ i g' hg =>
      cases hl with
      | genLoop hx lb => exact hid _ lb hx
      | rangeLoop hx hm lb =>
        rcases match_resume hm with ⟨_, h2⟩ | ⟨h1, h2, _⟩
        · rw [hg] at h2; cases h2
        · rw [hg] at h2; cases h2
          obtain ⟨q1, e1, g1⟩ := ib _ _ lb _ (hs.setL hx _) trivial
          exact ⟨q1, .impLeave h1 e1 hr, g1⟩
    | listYield g _ v g' hg =>
      refine fwd_forms hl hs hc ?_ hid ?_
      · intro hn; rw [not_at hn] at hg; cases hg
      · intro vv n p j b' hf lb s'' i l q hs2 ha hp
        rw [ha.resume] at hg
        obtain ⟨h1, h2, h3, _⟩ := check_yield hg
        obtain ⟨q1, e1, g1⟩ := ib _ _ lb _ ((hs2.setR hf.hj (.int i)).setL hf.hx v) trivial
        refine ⟨_, .impLeave h1 (lbody_ev (q := q) (i := i) (by rw [set_ne (Ne.symm hf.pj)]; exact hp) set_same ?_ e1) hr, g1⟩
        rw [set_heap, ← hs2.heap_eq]; exact h2
    | otherYield g _ v g' h' hg =>
      cases hl with
      | genLoop hx lb => exact hid _ lb hx
  | @genNext x g body s v g' h r s1 q s2 hres hb hr hn ib ih =>
    intro t' c hl s' hs hc
    have hid : ∀ b', Low W N body b' (fun _ => True) → x < N → ∃ s1', Ev W (.genLoop x g b') s' q s1' ∧ S N s2 s1' := by
      intro b' lb hx
      obtain ⟨q1, e1, g1⟩ := ib _ _ lb _ ((hs.heap h).setL hx v) trivial
      obtain ⟨q2, e2, g2⟩ := ih _ _ (.genLoop hx lb) _ g1 trivial
      exact ⟨q2, .genNext (hs.heap_eq ▸ hres) e1 hr e2, g2⟩
    cases hres with
    | rangeYield g _ i g' hg =>
      cases hl with
      | genLoop hx lb => exact hid _ lb hx
      | rangeLoop hx hm lb =>
        rcases match_resume hm with ⟨_, h2⟩ | ⟨h1, h2, hm'⟩
        · rw [hg] at h2; cases h2
        · rw [hg] at h2; cases h2
          obtain ⟨q1, e1, g1⟩ := ib _ _ lb _ (hs.setL hx _) trivial
          obtain ⟨q2, e2, g2⟩ := ih _ _ (.rangeLoop hx hm' lb) _ g1 trivial
          exact ⟨q2, .impNext h1 e1 hr e2, g2⟩
    | listYield g _ v g' hg =>
      refine fwd_forms hl hs hc ?_ hid ?_
      · intro hn; rw [not_at hn] at hg; cases hg
      · intro vv n p j b' hf lb s'' i l qq hs2 ha hp
        rw [ha.resume] at hg
        obtain ⟨h1, h2, rfl, _⟩ := check_yield hg
        have hp1 : ((s''.set j (.int i)).set x v).vars p = .ptr qq := by
          have := hf.hx; have := hf.hp
          rw [set_ne (by omega), set_ne (Ne.symm hf.pj)]; exact hp
        obtain ⟨q1, e1, g1⟩ := ib _ _ lb _ ((hs2.setR hf.hj (.int i)).setL hf.hx v) trivial
        obtain ⟨q2, e2, g2⟩ := ih _ _ (.list5 hf lb) _ g1 (by rw [frame e1 hf.pb]; exact hp1)
        refine ⟨_, .impNext h1 (lbody_ev (q := qq) (i := i) (by rw [set_ne (Ne.symm hf.pj)]; exact hp) set_same ?_ e1) hr e2, g2⟩
        rw [set_heap, ← hs2.heap_eq]; exact h2
    | otherYield g _ v g' h' hg =>
      cases hl with
      | genLoop hx lb => exact hid _ lb hx
  | impFor h1 h2 i1 i2 =>
    intro t' c hl s' hs hc; cases hl with
    | impFor hx la lb =>
      obtain ⟨q1, e1, g1⟩ := i1 _ _ la s' hs trivial
      obtain ⟨q2, e2, g2⟩ := i2 _ _ (.impLoop hx lb) q1 g1 trivial
      exact ⟨q2, .impFor e1 e2, g2⟩
  | impForType h1 hr i1 =>
    intro t' c hl s' hs hc; cases hl with
    | impFor hx la lb =>
      obtain ⟨q1, e1, g1⟩ := i1 _ _ la s' hs trivial
      exact ⟨q1, .impForType e1 hr, g1⟩
  | impForCut h1 i1 =>
    intro t' c hl s' hs hc; cases hl with
    | impFor hx la lb =>
      obtain ⟨q1, e1, g1⟩ := i1 _ _ la s' hs trivial
      exact ⟨q1, .impForCut e1, g1⟩
  | impForL h1 hr i1 =>
    intro t' c hl s' hs hc; cases hl with
    | impFor hx la lb =>
      obtain ⟨q1, e1, g1⟩ := i1 _ _ la s' hs trivial
      exact ⟨q1, .impForL e1 hr, g1⟩
  | impDone hd => intro t' c hl s' hs hc; cases hl; exact ⟨s', .impDone hd, hs⟩
  | impLeave hd h1 hr i1 =>
    intro t' c hl s' hs hc; cases hl with
    | impLoop hx lb =>
      obtain ⟨q1, e1, g1⟩ := i1 _ _ lb _ (hs.setL hx _) trivial
      exact ⟨q1, .impLeave hd e1 hr, g1⟩
  | impNext hd h1 hr h2 i1 i2 =>
    intro t' c hl s' hs hc; cases hl with
    | impLoop hx lb =>
      obtain ⟨q1, e1, g1⟩ := i1 _ _ lb _ (hs.setL hx _) trivial
      obtain ⟨q2, e2, g2⟩ := i2 _ _ (.impLoop hx lb) _ g1 trivial
      exact ⟨q2, .impNext hd e1 hr e2, g2⟩

end Codon.ForLow
