import Verif.Operator.Spec
/-!
# The rewritten expressions simulate Python
-/
namespace Codon.Operator
variable {σ ε V α β γ δ : Type}

/-- `q` does what `p` does, from any temporary variables with `P`; `Q` relates the values and the temporary variables afterwards. -/
def Sim (P : Tmps V → Prop) (p : M σ ε α) (q : M (σ × Tmps V) ε β) (Q : α → β → Tmps V → Prop) : Prop :=
  ∀ s t, P t →
    (p s = none ∧ q (s, t) = none) ∨
    (∃ s' e t', p s = some (s', .error e) ∧ q (s, t) = some ((s', t'), .error e)) ∨
    (∃ s' v w t', p s = some (s', .ok v) ∧ q (s, t) = some ((s', t'), .ok w) ∧ Q v w t')

theorem Sim.conseq {P P' : Tmps V → Prop} {p : M σ ε α} {q : M (σ × Tmps V) ε β} {Q Q' : α → β → Tmps V → Prop}
    (h : Sim P p q Q) (hP : ∀ t, P' t → P t) (hQ : ∀ v w t, Q v w t → Q' v w t) : Sim P' p q Q' := by
  intro s t ht
  rcases h s t (hP t ht) with h | h | ⟨s', v, w, t', h1, h2, h3⟩
  · exact .inl h
  · exact .inr (.inl h)
  · exact .inr (.inr ⟨s', v, w, t', h1, h2, hQ _ _ _ h3⟩)

theorem Sim.bind {P : Tmps V → Prop} {p : M σ ε α} {q : M (σ × Tmps V) ε β} {Q : α → β → Tmps V → Prop}
    {f : α → M σ ε γ} {g : β → M (σ × Tmps V) ε δ} {R : γ → δ → Tmps V → Prop}
    (h : Sim P p q Q) (hf : ∀ v w t, Q v w t → Sim (· = t) (f v) (g w) R) : Sim P (andThen p f) (andThen q g) R := by
  intro s t ht
  rcases h s t ht with ⟨h1, h2⟩ | ⟨s', e, t', h1, h2⟩ | ⟨s', v, w, t', h1, h2, h3⟩
  · left; simp [andThen, h1, h2]
  · right; left; exact ⟨s', e, t', by simp [andThen, h1], by simp [andThen, h2]⟩
  · have := hf v w t' h3 s' t' rfl
    simpa [andThen, h1, h2] using this

theorem Sim.ret {t0 : Tmps V} {v : α} {w : β} {Q : α → β → Tmps V → Prop} (h : Q v w t0) :
    Sim (σ := σ) (ε := ε) (· = t0) (ret v) (ret w) Q := by
  rintro s t rfl
  exact .inr (.inr ⟨s, v, w, t, rfl, rfl, h⟩)

theorem Sim.lift {t0 : Tmps V} {p : M σ ε α} {Q : α → α → Tmps V → Prop} (h : ∀ v, Q v v t0) :
    Sim (· = t0) p (lift p) Q := by
  rintro s t rfl
  cases hp : p s with
  | none => left; exact ⟨rfl, by simp [Operator.lift, hp]⟩
  | some r =>
    obtain ⟨s', r⟩ := r
    cases r with
    | error e => right; left; exact ⟨s', e, t, rfl, by simp [Operator.lift, hp]⟩
    | ok v => right; right; exact ⟨s', v, v, t, rfl, by simp [Operator.lift, hp], h v⟩

theorem Sim.strengthen {P : Tmps V → Prop} {p : M σ ε α} {q : M (σ × Tmps V) ε β} {Q : α → β → Tmps V → Prop} {Z : α → Prop}
    (h : Sim P p q Q) (hZ : ∀ s s' v, p s = some (s', .ok v) → Z v) : Sim P p q (fun v w t => Q v w t ∧ Z v) := by
  intro s t ht
  rcases h s t ht with h | h | ⟨s', v, w, t', h1, h2, h3⟩
  · exact .inl h
  · exact .inr (.inl h)
  · exact .inr (.inr ⟨s', v, w, t', h1, h2, h3, hZ _ _ _ h1⟩)

theorem andThen_ok {σ : Type} {m : M σ ε α} {f : α → M σ ε β} {s s' : σ} {v : β} (h : andThen m f s = some (s', .ok v)) :
    ∃ s1 x, m s = some (s1, .ok x) ∧ f x s1 = some (s', .ok v) := by
  unfold andThen at h
  cases hm : m s with
  | none => rw [hm] at h; simp at h
  | some r =>
    obtain ⟨s1, r⟩ := r
    rw [hm] at h
    cases r with
    | error e => simp at h
    | ok x => exact ⟨s1, x, rfl, h⟩

theorem pyOp_bool {ops : Ops σ ε V} {op : BinOp} (h : op.boolValued ops) (x y : V) (s s' : σ) (v : V)
    (hv : pyOp ops op x y s = some (s', .ok v)) : ∃ b, v = ops.ofBool b := by
  cases op with
  | magic n => exact h x y s s' v hv
  | isin =>
    obtain ⟨s1, b, _, h2⟩ := andThen_ok hv
    simp only [ret, Option.some.injEq, Prod.mk.injEq, Except.ok.injEq] at h2
    exact ⟨b, h2.2.symm⟩
  | notin =>
    obtain ⟨s1, b, _, h2⟩ := andThen_ok hv
    simp only [ret, Option.some.injEq, Prod.mk.injEq, Except.ok.injEq] at h2
    exact ⟨!b, h2.2.symm⟩

theorem linksPy_bool {ops : Ops σ ε V} {call : Nat → V → M σ ε V} {a : V} : ∀ (ls : Links σ ε V) (_ : ls.boolValued ops) (x : V) (s s' : σ) (v : V),
    linksPy ops call a x ls s = some (s', .ok v) → ∃ b, v = ops.ofBool b
  | .last op e, h, x, s, s', v, hv => by
    rw [linksPy] at hv
    obtain ⟨s1, y, _, h2⟩ := andThen_ok hv
    exact pyOp_bool h _ _ _ _ _ h2
  | .more op e ls, h, x, s, s', v, hv => by
    rw [linksPy] at hv
    obtain ⟨s1, y, _, h2⟩ := andThen_ok hv
    obtain ⟨s2, z, h3, h4⟩ := andThen_ok h2
    split at h4
    · exact linksPy_bool ls h.2 _ _ _ _ h4
    · simp only [ret, Option.some.injEq, Prod.mk.injEq, Except.ok.injEq] at h4
      rw [← h4.2]
      exact pyOp_bool h.1 _ _ _ _ _ h3

theorem andThen_assoc {σ : Type} (m : M σ ε α) (f : α → M σ ε β) (g : β → M σ ε γ) :
    andThen (andThen m f) g = andThen m fun a => andThen (f a) g := by
  funext s; unfold andThen; cases m s with
  | none => rfl
  | some r => obtain ⟨s', r⟩ := r; cases r <;> rfl

@[simp] theorem ret_andThen {σ : Type} (a : α) (f : α → M σ ε β) : andThen (ret a) f = f a := rfl

@[simp] theorem andThen_ret {σ : Type} (m : M σ ε α) : (andThen m fun a => ret a) = m := by
  funext s; unfold andThen ret; cases m s with
  | none => rfl
  | some r => obtain ⟨s', r⟩ := r; cases r <;> rfl

/-- Only the temporary variables from `n` up to `n'` differ. -/
def Agree (n n' : Nat) (t t' : Tmps V) : Prop := ∀ k, k < n ∨ n' ≤ k → t' k = t k

theorem Agree.refl (n n' : Nat) (t : Tmps V) : Agree n n' t t := fun _ _ => rfl

theorem Agree.trans {n n' : Nat} {t t' t'' : Tmps V} (h : Agree n n' t t') (h' : Agree n n' t' t'') : Agree n n' t t'' :=
  fun k hk => (h' k hk).trans (h k hk)

theorem Agree.mono {n n' m m' : Nat} {t t' : Tmps V} (h : Agree n n' t t') (h1 : m ≤ n) (h2 : n' ≤ m') : Agree m m' t t' :=
  fun k hk => h k (by omega)

theorem Agree.set {n n' k : Nat} (t : Tmps V) (v : V) (h1 : n ≤ k) (h2 : k < n') :
    Agree n n' t (fun j => if j = k then some v else t j) := by
  intro j hj
  have : j ≠ k := by omega
  simp [this]

/-- A binary operator other than `and`/`or`, followed by more. -/
theorem sim_bin (ops : Ops σ ε V) (call : Nat → V → M σ ε V) (a : V) {op : BinOp} {l r : Core σ ε V} {pl pr : M σ ε V} {n1 n2 n3 : Nat}
    {P : Tmps V → Prop} {R : V → Tmps V → Prop} {t0 : Tmps V} {K : V → V → M σ ε γ} {K' : V → M (σ × Tmps V) ε δ}
    {Q : γ → δ → Tmps V → Prop} {Z : V → Prop} (hZ : ∀ x y s s' z, pyOp ops op x y s = some (s', .ok z) → Z z) (h12 : n1 ≤ n2) (h23 : n2 ≤ n3) (hP0 : P t0)
    (hPst : ∀ t t', P t → Agree n2 n3 t t' → P t') (hRst : ∀ w t t', R w t → Agree n1 n2 t t' → R w t')
    (hl : ∀ t1, P t1 → Sim (· = t1) pl (evalC ops call a l) (fun v w t => v = w ∧ Agree n1 n2 t1 t))
    (hr : ∀ t1, Sim (· = t1) pr (evalC ops call a r) (fun v w t => v = w ∧ R w t ∧ Agree n2 n3 t1 t))
    (hord : (∃ n, op = .magic n) ∨ (∃ x, pl = ret x) ∨ ∃ y, pr = ret y)
    (hK : ∀ y z t, Z z → R y t → Agree n1 n3 t0 t → Sim (· = t) (K y z) (K' z) Q) :
    Sim (· = t0) (andThen pl fun x => andThen pr fun y => andThen (pyOp ops op x y) fun z => K y z)
      (andThen (evalC ops call a (lowerBin op l r)) K') Q := by
  have fin : ∀ x y t, R y t → Agree n1 n3 t0 t → (¬ ∃ n, op = .magic n) →
      Sim (· = t) (andThen (pyOp ops op x y) fun z => K y z)
        (andThen (andThen (lift (ops.contains y x)) fun b => ret (ops.ofBool (if op = .isin then b else !b))) K') Q := by
    intro x y t hR hA hop
    have h1 : Sim (· = t) (pyOp ops op x y)
        (andThen (lift (ops.contains y x)) fun b => ret (ops.ofBool (if op = .isin then b else !b))) (fun v w t' => v = w ∧ t' = t) := by
      cases op with
      | magic n => exact absurd ⟨n, rfl⟩ hop
      | isin =>
        simp only [pyOp, if_true]
        refine Sim.bind (Q := fun v w t' => v = w ∧ t' = t) (Sim.lift fun v => ⟨rfl, rfl⟩) ?_
        rintro v w _ ⟨rfl, rfl⟩
        exact Sim.ret ⟨rfl, rfl⟩
      | notin =>
        simp only [pyOp, reduceCtorEq, if_false]
        refine Sim.bind (Q := fun v w t' => v = w ∧ t' = t) (Sim.lift fun v => ⟨rfl, rfl⟩) ?_
        rintro v w _ ⟨rfl, rfl⟩
        exact Sim.ret ⟨rfl, rfl⟩
    refine Sim.bind (h1.strengthen (hZ x y)) ?_
    rintro v w _ ⟨⟨rfl, rfl⟩, hz⟩
    exact hK y _ _ hz hR hA
  by_cases hm : ∃ n, op = .magic n
  · obtain ⟨n, rfl⟩ := hm
    simp only [lowerBin, evalC, andThen_assoc]
    refine Sim.bind (hl t0 hP0) ?_
    rintro x _ t1 ⟨rfl, hA1⟩
    refine Sim.bind (hr t1) ?_
    rintro y _ t2 ⟨rfl, hR, hA2⟩
    refine Sim.bind (Q := fun v w t' => (v = w ∧ t' = t2) ∧ Z v) ((Sim.lift fun v => ⟨rfl, rfl⟩).strengthen (hZ x y)) ?_
    rintro z _ _ ⟨⟨rfl, rfl⟩, hz⟩
    exact hK y _ _ hz hR ((hA1.mono (Nat.le_refl _) h23).trans (hA2.mono h12 (Nat.le_refl _)))
  · have hq : andThen (evalC ops call a (lowerBin op l r)) K' =
        andThen (evalC ops call a r) fun y => andThen (evalC ops call a l) fun x =>
          andThen (andThen (lift (ops.contains y x)) fun b => ret (ops.ofBool (if op = .isin then b else !b))) K' := by
      cases op with
      | magic n => exact absurd ⟨n, rfl⟩ hm
      | isin => simp only [lowerBin, evalC, andThen_assoc, if_true]
      | notin =>
        simp only [lowerBin, evalC, andThen_assoc, ret_andThen, ops.truth_ofBool, reduceCtorEq, if_false]
    rw [hq]
    have hord : (∃ x, pl = ret x) ∨ ∃ y, pr = ret y := hord.resolve_left hm
    rcases hord with ⟨x, rfl⟩ | ⟨y, rfl⟩
    · simp only [ret_andThen]
      refine Sim.bind (hr t0) ?_
      rintro y _ t1 ⟨rfl, hR, hA1⟩
      have hl' := hl t1 (hPst _ _ hP0 hA1)
      have := Sim.bind (f := fun x => andThen (pyOp ops op x y) fun z => K y z)
        (g := fun x => andThen (andThen (lift (ops.contains y x)) fun b => ret (ops.ofBool (if op = .isin then b else !b))) K') (R := Q) hl' (by
          rintro x _ t2 ⟨rfl, hA2⟩
          exact fin x y t2 (hRst _ _ _ hR hA2) ((hA1.mono h12 (Nat.le_refl _)).trans (hA2.mono (Nat.le_refl _) h23)) hm)
      simpa only [ret_andThen] using this
    · have hr' := hr t0
      have := Sim.bind (f := fun y' => andThen pl fun x => andThen (pyOp ops op x y') fun z => K y' z)
        (g := fun y => andThen (evalC ops call a l) fun x =>
          andThen (andThen (lift (ops.contains y x)) fun b => ret (ops.ofBool (if op = .isin then b else !b))) K') (R := Q) hr' (by
          rintro y _ t1 ⟨rfl, hR, hA1⟩
          refine Sim.bind (hl t1 (hPst _ _ hP0 hA1)) ?_
          rintro x _ t2 ⟨rfl, hA2⟩
          exact fin x y t2 (hRst _ _ _ hR hA2) ((hA1.mono h12 (Nat.le_refl _)).trans (hA2.mono (Nat.le_refl _) h23)) hm)
      simpa only [ret_andThen] using this

/-- The relation of the values: equal, or equally true. -/
def RelV (ops : Ops σ ε V) (val : Bool) (v w : V) : Prop := if val then v = w else ops.truth v = ops.truth w

theorem RelV.truth {ops : Ops σ ε V} {val : Bool} {v w : V} (h : RelV ops val v w) : ops.truth v = ops.truth w := by
  unfold RelV at h; split at h
  · rw [h]
  · exact h

theorem RelV.refl (ops : Ops σ ε V) (val : Bool) (v : V) : RelV ops val v v := by unfold RelV; split <;> rfl

theorem simple_py (ops : Ops σ ε V) (call : Nat → V → M σ ε V) (a : V) {e : Expr σ ε V} (h : e.simple = true) :
    ∃ x, evalPy ops call a e = ret x := by
  cases e <;> simp [Expr.simple] at h
  · exact ⟨_, by rw [evalPy]⟩
  · exact ⟨_, by rw [evalPy]⟩

theorem order_py (ops : Ops σ ε V) (call : Nat → V → M σ ε V) (a : V) {op : BinOp} {s : Bool} {pl : M σ ε V} {e : Expr σ ε V}
    (h : orderOk op s e.simple) (hs : s = true → ∃ x, pl = ret x) :
    (∃ n, op = .magic n) ∨ (∃ x, pl = ret x) ∨ ∃ y, evalPy ops call a e = ret y := by
  cases op with
  | magic n => exact .inl ⟨n, rfl⟩
  | isin => rcases h with h | h
            · exact .inr (.inl (hs h))
            · exact .inr (.inr (simple_py ops call a h))
  | notin => rcases h with h | h
             · exact .inr (.inl (hs h))
             · exact .inr (.inr (simple_py ops call a h))

mutual
theorem lower_le (b : Bool) (n : Nat) : ∀ e : Expr σ ε V, n ≤ (lower b n e).1
  | .const _ => by simp [lower]
  | .arg => by simp [lower]
  | .leaf _ => by simp [lower]
  | .bin op l r => by
    have h1 := lower_le b n l
    have h2 := lower_le b (lower b n l).1 r
    simp only [lower]; omega
  | .land l r => by
    have h1 := lower_le b n l
    have h2 := lower_le b (lower b n l).1 r
    simp only [lower]; split <;> simp only <;> omega
  | .lor l r => by
    have h1 := lower_le b n l
    have h2 := lower_le b (lower b n l).1 r
    simp only [lower]; split <;> simp only <;> omega
  | .lnot e => by
    have h1 := lower_le b n e
    simp only [lower]; omega
  | .ife c x y => by
    have h1 := lower_le true n c
    have h2 := lower_le b (lower true n c).1 x
    have h3 := lower_le b (lower b (lower true n c).1 x).1 y
    simp only [lower]; omega
  | .chain e ls => by
    have h1 := lower_le true n e
    have h2 := lowerLinks_le (lower true n e).1 (lower true n e).2 ls
    simp only [lower]; omega
  | .call f e => by
    have h1 := lower_le b n e
    simp only [lower]; omega
theorem lowerLinks_le (n : Nat) (l : Core σ ε V) : ∀ ls : Links σ ε V, n ≤ (lowerLinks n l ls).1
  | .last op e => by
    have h1 := lower_le true n e
    simp only [lowerLinks]; omega
  | .more op e ls => by
    have h1 := lower_le true (n + 1) e
    have h2 := lowerLinks_le (lower true (n + 1) e).1 (.tmp n) ls
    simp only [lowerLinks]; omega
end

/-- What a rewritten expression has to do. -/
def Good (ops : Ops σ ε V) (call : Nat → V → M σ ε V) (a : V) (val : Bool) (n n' : Nat) (p : M σ ε V) (c : Core σ ε V) : Prop :=
  ∀ t0, Sim (· = t0) p (evalC ops call a c) (fun v w t => RelV ops val v w ∧ Agree n n' t0 t)

theorem Good.eq {ops : Ops σ ε V} {call : Nat → V → M σ ε V} {a : V} {n n' : Nat} {p : M σ ε V} {c : Core σ ε V}
    (h : Good ops call a true n n' p c) (t0 : Tmps V) : Sim (· = t0) p (evalC ops call a c) (fun v w t => v = w ∧ Agree n n' t0 t) := by
  simpa [RelV] using h t0

theorem Sim.getTmp {t0 : Tmps V} {k : Nat} {v w : V} {Q : V → V → Tmps V → Prop} (hk : t0 k = some w) (h : Q v w t0) :
    Sim (σ := σ) (ε := ε) (· = t0) (Operator.ret v) (getTmp k) Q := by
  rintro s t rfl
  exact .inr (.inr ⟨s, v, w, t, rfl, by simp [Operator.getTmp, hk], h⟩)

theorem Sim.setTmp {t0 : Tmps V} {k : Nat} {v w : V} {Q : V → V → Tmps V → Prop}
    (h : Q v w (fun j => if j = k then some w else t0 j)) :
    Sim (σ := σ) (ε := ε) (· = t0) (Operator.ret v) (setTmp k w) Q := by
  rintro s t rfl
  exact .inr (.inr ⟨s, v, w, _, rfl, rfl, h⟩)

theorem good_assign {ops : Ops σ ε V} {call : Nat → V → M σ ε V} {a : V} {n n' k : Nat} {p : M σ ε V} {c : Core σ ε V} {val : Bool}
    (h : Good ops call a val n n' p c) (t0 : Tmps V) :
    Sim (· = t0) p (evalC ops call a (.assign k c))
      (fun v w t => RelV ops val v w ∧ t k = some w ∧ Agree (min n k) (max n' (k + 1)) t0 t) := by
  rw [← andThen_ret p]
  simp only [evalC]
  refine Sim.bind (h t0) ?_
  rintro v w t ⟨hR, hA⟩
  refine Sim.setTmp ⟨hR, by simp, ?_⟩
  exact (hA.mono (by omega) (by omega)).trans (Agree.set t w (by omega) (by omega))

mutual
theorem lower_good (ops : Ops σ ε V) (call : Nat → V → M σ ε V) (a : V) (val b : Bool) (n : Nat) :
    ∀ e : Expr σ ε V, e.Ok ops val b → Good ops call a val n (lower b n e).1 (evalPy ops call a e) (lower b n e).2
  | .const v, _ => by
    intro t0; simp only [lower, evalC, evalPy]
    exact Sim.ret ⟨RelV.refl _ _ _, Agree.refl _ _ _⟩
  | .arg, _ => by
    intro t0; simp only [lower, evalC, evalPy]
    exact Sim.ret ⟨RelV.refl _ _ _, Agree.refl _ _ _⟩
  | .leaf run, _ => by
    intro t0; simp only [lower, evalC, evalPy]
    exact Sim.lift fun v => ⟨RelV.refl _ _ _, Agree.refl _ _ _⟩
  | .bin op l r, h => by
    simp only [Expr.Ok] at h
    obtain ⟨hl, hr, ho⟩ := h
    have gl := lower_good ops call a true b n l hl
    have gr := lower_good ops call a true b (lower b n l).1 r hr
    have e1 := lower_le b n l
    have e2 := lower_le b (lower b n l).1 r
    intro t0
    simp only [lower, evalPy]
    have := sim_bin ops call a (op := op) (P := fun _ => True) (R := fun _ _ => True) (t0 := t0) (K := fun _ z => ret z) (K' := fun z => ret z)
      (Q := fun v w t => RelV ops val v w ∧ Agree n (lower b (lower b n l).1 r).1 t0 t) (Z := fun _ => True) (fun _ _ _ _ _ _ => trivial) e1 e2 trivial (fun _ _ _ _ => trivial)
      (fun _ _ _ _ _ => trivial) (fun t1 _ => gl.eq t1)
      (fun t1 => (gr.eq t1).conseq (fun _ h => h) (fun v w t h => ⟨h.1, trivial, h.2⟩))
      (order_py ops call a ho (fun hs => simple_py ops call a hs))
      (fun y z t _ _ hA => Sim.ret ⟨RelV.refl _ _ _, hA⟩)
    simpa only [andThen_ret] using this
  | .land l r, h => by
    simp only [Expr.Ok] at h
    obtain ⟨hv, hl, hr⟩ := h
    have gl := lower_good ops call a val b n l hl
    have gr := lower_good ops call a val b (lower b n l).1 r hr
    have e1 := lower_le b n l
    have e2 := lower_le b (lower b n l).1 r
    intro t0
    simp only [lower, evalPy]
    cases b with
    | true =>
      have hval : val = false := by cases val <;> simp_all
      subst hval
      simp only [if_true, evalC]
      refine Sim.bind (gl t0) ?_
      rintro v w t ⟨hR, hA⟩
      rw [← hR.truth]
      split
      · rw [← andThen_ret (evalPy ops call a r)]
        refine Sim.bind (gr t) ?_
        rintro v' w' t' ⟨hR', hA'⟩
        refine Sim.ret ⟨?_, (hA.mono (Nat.le_refl _) e2).trans (hA'.mono e1 (Nat.le_refl _))⟩
        simp only [RelV, Bool.false_eq_true, if_false, ops.truth_ofBool]
        exact hR'.truth
      · next hf =>
        refine Sim.ret ⟨?_, hA.mono (Nat.le_refl _) e2⟩
        simp only [RelV, Bool.false_eq_true, if_false, ops.truth_ofBool]
        simpa using hf
    | false =>
      simp only [Bool.false_eq_true, if_false]
      rw [evalC.eq_9]
      refine Sim.bind (good_assign gl t0) ?_
      rintro v w t ⟨hR, ht, hA⟩
      rw [← hR.truth]
      have hA' : Agree n ((lower false (lower false n l).1 r).1 + 1) t0 t := hA.mono (by omega) (by omega)
      split
      · exact (gr t).conseq (fun _ h => h) (fun v w t' h => ⟨h.1, hA'.trans (h.2.mono (by omega) (by omega))⟩)
      · simp only [evalC]
        exact Sim.getTmp ht ⟨hR, hA'⟩
  | .lor l r, h => by
    simp only [Expr.Ok] at h
    obtain ⟨hv, hl, hr⟩ := h
    have gl := lower_good ops call a val b n l hl
    have gr := lower_good ops call a val b (lower b n l).1 r hr
    have e1 := lower_le b n l
    have e2 := lower_le b (lower b n l).1 r
    intro t0
    simp only [lower, evalPy]
    cases b with
    | true =>
      have hval : val = false := by cases val <;> simp_all
      subst hval
      simp only [if_true, evalC]
      refine Sim.bind (gl t0) ?_
      rintro v w t ⟨hR, hA⟩
      rw [← hR.truth]
      split
      · next hf =>
        refine Sim.ret ⟨?_, hA.mono (Nat.le_refl _) e2⟩
        simp only [RelV, Bool.false_eq_true, if_false, ops.truth_ofBool]
        simpa using hf
      · rw [← andThen_ret (evalPy ops call a r)]
        refine Sim.bind (gr t) ?_
        rintro v' w' t' ⟨hR', hA'⟩
        refine Sim.ret ⟨?_, (hA.mono (Nat.le_refl _) e2).trans (hA'.mono e1 (Nat.le_refl _))⟩
        simp only [RelV, Bool.false_eq_true, if_false, ops.truth_ofBool]
        exact hR'.truth
    | false =>
      simp only [Bool.false_eq_true, if_false]
      rw [evalC.eq_9]
      refine Sim.bind (good_assign gl t0) ?_
      rintro v w t ⟨hR, ht, hA⟩
      rw [← hR.truth]
      have hA' : Agree n ((lower false (lower false n l).1 r).1 + 1) t0 t := hA.mono (by omega) (by omega)
      split
      · simp only [evalC]
        exact Sim.getTmp ht ⟨hR, hA'⟩
      · exact (gr t).conseq (fun _ h => h) (fun v w t' h => ⟨h.1, hA'.trans (h.2.mono (by omega) (by omega))⟩)
  | .lnot e, h => by
    simp only [Expr.Ok] at h
    have g := lower_good ops call a false b n e h
    intro t0
    simp only [lower, evalPy, evalC, andThen_assoc, ret_andThen, ops.truth_ofBool]
    refine Sim.bind (g t0) ?_
    rintro v w t ⟨hR, hA⟩
    rw [hR.truth]
    exact Sim.ret ⟨RelV.refl _ _ _, hA⟩
  | .ife c x y, h => by
    simp only [Expr.Ok] at h
    obtain ⟨hc, hx, hy⟩ := h
    have gc := lower_good ops call a false true n c hc
    have gx := lower_good ops call a val b (lower true n c).1 x hx
    have gy := lower_good ops call a val b (lower b (lower true n c).1 x).1 y hy
    have e1 := lower_le true n c
    have e2 := lower_le b (lower true n c).1 x
    have e3 := lower_le b (lower b (lower true n c).1 x).1 y
    intro t0
    simp only [lower, evalPy, evalC]
    refine Sim.bind (gc t0) ?_
    rintro v w t ⟨hR, hA⟩
    rw [← hR.truth]
    split
    · exact (gx t).conseq (fun _ h => h) (fun v w t' h => ⟨h.1, (hA.mono (by omega) (by omega)).trans (h.2.mono (by omega) (by omega))⟩)
    · exact (gy t).conseq (fun _ h => h) (fun v w t' h => ⟨h.1, (hA.mono (by omega) (by omega)).trans (h.2.mono (by omega) (by omega))⟩)
  | .chain e ls, h => by
    simp only [Expr.Ok] at h
    obtain ⟨he, hls, hbv⟩ := h
    have g := lower_good ops call a true true n e he
    have e1 := lower_le true n e
    intro t0
    simp only [lower, evalPy]
    exact links_good ops call a val ls hls hbv e1 (P := fun _ => True) (fun t1 _ => g.eq t1) (fun hs => simple_py ops call a hs)
      (fun _ _ _ _ => trivial) t0 trivial
  | .call f e, h => by
    simp only [Expr.Ok] at h
    have g := lower_good ops call a true b n e h
    intro t0
    simp only [lower, evalPy, evalC]
    refine Sim.bind (g.eq t0) ?_
    rintro v _ t ⟨rfl, hA⟩
    exact Sim.lift fun v => ⟨RelV.refl _ _ _, hA⟩
theorem links_good (ops : Ops σ ε V) (call : Nat → V → M σ ε V) (a : V) (val : Bool) {n1 n : Nat} {l : Core σ ε V} {pl : M σ ε V} {s : Bool} :
    ∀ ls : Links σ ε V, ls.Ok ops s → (val = true → ls.boolValued ops) → n1 ≤ n → ∀ {P : Tmps V → Prop},
      (∀ t1, P t1 → Sim (· = t1) pl (evalC ops call a l) (fun v w t => v = w ∧ Agree n1 n t1 t)) →
      (s = true → ∃ x, pl = ret x) →
      (∀ t t', P t → Agree n (lowerLinks n l ls).1 t t' → P t') →
      ∀ t0, P t0 → Sim (· = t0) (andThen pl fun x => linksPy ops call a x ls) (evalC ops call a (lowerLinks n l ls).2)
        (fun v w t => RelV ops val v w ∧ Agree n1 (lowerLinks n l ls).1 t0 t)
  | .last op e, h, _, hn, P, hl, hs, hPst, t0, hP0 => by
    simp only [Links.Ok] at h
    have g := lower_good ops call a true true n e h.1
    have e1 := lower_le true n e
    simp only [lowerLinks] at hPst ⊢
    simp only [linksPy]
    have := sim_bin ops call a (op := op) (P := P) (R := fun _ _ => True) (t0 := t0) (K := fun _ z => ret z) (K' := fun z => ret z)
      (Q := fun v w t => RelV ops val v w ∧ Agree n1 (lower true n e).1 t0 t) (Z := fun _ => True) (fun _ _ _ _ _ _ => trivial) hn e1 hP0 hPst
      (fun _ _ _ _ _ => trivial) hl
      (fun t1 => (g.eq t1).conseq (fun _ h => h) (fun v w t h => ⟨h.1, trivial, h.2⟩))
      (order_py ops call a h.2 hs)
      (fun y z t _ _ hA => Sim.ret ⟨RelV.refl _ _ _, hA⟩)
    simpa only [andThen_ret] using this
  | .more op e ls, h, hbv, hn, P, hl, hs, hPst, t0, hP0 => by
    simp only [Links.Ok] at h
    obtain ⟨he, ho, hls⟩ := h
    have g := lower_good ops call a true true (n + 1) e he
    have e1 := lower_le true (n + 1) e
    have e2 := lowerLinks_le (lower true (n + 1) e).1 (.tmp n) ls
    simp only [lowerLinks] at hPst ⊢
    simp only [linksPy]
    rw [evalC.eq_9]
    refine sim_bin ops call a (op := op) (P := P) (R := fun w t => t n = some w) (t0 := t0)
      (K := fun y z => if ops.truth z then linksPy ops call a y ls else ret z) (n3 := (lower true (n + 1) e).1)
      (Z := fun z => val = true → ∃ b, z = ops.ofBool b) (fun x y s s' z hz h => pyOp_bool (hbv h).1 x y s s' z hz) hn (by omega) hP0
      (fun t t' hP hA => hPst t t' hP (hA.mono (by omega) (by omega)))
      (fun w t t' hR hA => (hA n (by omega)).trans hR) hl
      (fun t1 => (good_assign g t1).conseq (fun _ h => h) (fun v w t h => ⟨by simpa [RelV] using h.1, h.2.1, h.2.2.mono (by omega) (by omega)⟩))
      (order_py ops call a ho hs) ?_
    intro y z t hz hR hA
    have hA' : Agree n1 (lowerLinks (lower true (n + 1) e).1 (.tmp n) ls).1 t0 t := hA.mono (Nat.le_refl _) (by omega)
    split
    · have := links_good ops call a val (pl := ret y) (l := .tmp n) (n1 := (lower true (n + 1) e).1) ls hls (fun h => (hbv h).2) (Nat.le_refl _)
        (P := fun t => t n = some y)
        (fun t1 ht1 => by rw [evalC]; exact Sim.getTmp ht1 ⟨rfl, Agree.refl _ _ _⟩) (fun _ => ⟨y, rfl⟩)
        (fun t t' hP hA => (hA n (by omega)).trans hP) t hR
      rw [ret_andThen] at this
      have this := this.strengthen (Z := fun v => val = true → ∃ b, v = ops.ofBool b)
        (fun s s' v hv h => linksPy_bool ls (hbv h).2 y s s' v hv)
      rw [← andThen_ret (linksPy ops call a y ls), evalC.eq_8]
      refine Sim.bind this ?_
      rintro v w t' ⟨⟨hR', hA''⟩, hb⟩
      refine Sim.ret ⟨?_, hA'.trans (hA''.mono (by omega) (Nat.le_refl _))⟩
      cases val with
      | true =>
        obtain ⟨b, rfl⟩ := hb rfl
        simp only [RelV, if_true] at hR' ⊢
        rw [← hR', ops.truth_ofBool]
      | false =>
        simp only [RelV, Bool.false_eq_true, if_false, ops.truth_ofBool] at hR' ⊢
        exact hR'
    · next hf =>
      rw [evalC.eq_2]
      refine Sim.ret ⟨?_, hA'⟩
      cases val with
      | true =>
        obtain ⟨b, rfl⟩ := hz rfl
        rw [ops.truth_ofBool] at hf
        simp only [RelV, if_true]
        cases b <;> simp_all
      | false =>
        simp only [RelV, Bool.false_eq_true, if_false, ops.truth_ofBool]
        simpa using hf
end

/-- A function body that is rewritten well does what Python does. -/
theorem runBody_good (ops : Ops σ ε V) (call : Nat → V → M σ ε V) (b : Bool) (e : Expr σ ε V) (h : e.Ok ops true b) (a : V) :
    runBody ops call (lower b 0 e).2 a = evalPy ops call a e := by
  funext s
  unfold runBody
  rcases (lower_good ops call a true b 0 e h).eq (fun _ => none) s _ rfl with ⟨h1, h2⟩ | ⟨s', e, t', h1, h2⟩ | ⟨s', v, w, t', h1, h2, h3, _⟩
  · rw [h1, h2]
  · rw [h1, h2]
  · rw [h1, h2, h3]

/-- The same when only the truth of the value is looked at. -/
theorem runBody_truth (ops : Ops σ ε V) (call : Nat → V → M σ ε V) (b : Bool) (e : Expr σ ε V) (h : e.Ok ops false b) (a : V) :
    (andThen (runBody ops call (lower b 0 e).2 a) fun v => ret (ops.truth v)) = andThen (evalPy ops call a e) fun v => ret (ops.truth v) := by
  funext s
  unfold runBody andThen
  dsimp only
  rcases lower_good ops call a false b 0 e h (fun _ => none) s _ rfl with ⟨h1, h2⟩ | ⟨s', e, t', h1, h2⟩ | ⟨s', v, w, t', h1, h2, h3, _⟩
  · rw [h1, h2]
  · rw [h1, h2]
  · rw [h1, h2]
    simp only [ret, h3.truth]

/-- Calls do what they do in Python. -/
theorem runC_good (ops : Ops σ ε V) (funs : Nat → Expr σ ε V) (flag : Nat → Bool) (h : ∀ f, (funs f).Ok ops true (flag f)) :
    ∀ d, runC ops funs flag d = runPy ops funs d
  | 0 => by funext f a; simp only [runC, runPy]
  | d + 1 => by
    funext f a
    simp only [runC, runPy]
    rw [runC_good ops funs flag h d, runBody_good ops _ _ _ (h f)]

end Codon.Operator
