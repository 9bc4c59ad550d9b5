import Verif.Ctl.Pattern
/-!
# The code for patterns and for unrolled loops
-/

namespace Verif.Ctl

/-- Temporaries below `k` are the same. -/
def AgreeAll (k : Nat) (a b : Tm) : Prop :=
  ∀ i, i < k → b.va i = a.va i ∧ b.tu i = a.tu i ∧ b.fl i = a.fl i

theorem AgreeAll.refl (k a) : AgreeAll k a a := fun _ _ => ⟨rfl, rfl, rfl⟩

theorem AgreeAll.trans {k a b c} (h : AgreeAll k a b) (g : AgreeAll k b c) : AgreeAll k a c :=
  fun i hi => ⟨(g i hi).1.trans (h i hi).1, (g i hi).2.1.trans (h i hi).2.1,
    (g i hi).2.2.trans (h i hi).2.2⟩

theorem AgreeAll.mono {k l a b} (h : AgreeAll k a b) (hl : l ≤ k) : AgreeAll l a b :=
  fun i hi => h i (by omega)

/-- Copies of a suite, made with temporaries from `k0` on, have the effect `F` when the
subject of the `match` (temporary `m`) is `v0`. -/
def SimM (N k0 m : Nat) (v0 : Val) (F : St → St × Out) (mk : Nat → R (Tgt × Nat)) : Prop :=
  ∀ k1, k0 ≤ k1 → ∃ t k2 t', mk k1 = .ok (t, k2) ∧ k1 ≤ k2 ∧
    revisit (some none) t = .ok t' ∧
    ∀ s τ, τ.va m = v0 → ∃ τ', runT N t' (s, τ) = (((F s).1, τ'), (F s).2) ∧ AgreeAll k0 τ τ'

theorem path_append (v w : Val) (ix : List Int) (i : Int) (h : v.path ix = some w) :
    v.path (ix ++ [i]) = w.index i := by
  induction ix generalizing v with
  | nil =>
    simp only [Val.path, Option.some.injEq] at h
    subst h
    simp only [List.nil_append, Val.path]
    cases v.index i <;> rfl
  | cons j ix ih =>
    simp only [Val.path] at h
    simp only [List.cons_append, Val.path]
    split at h
    · exact ih _ h
    · cases h

/-- A suite under a test. -/
theorem SimM.test {N k0 m v0 F mk} (path : Path) (v : Val) (t : Test) (b : Bool)
    (hp : path.tmp = m) (hv : v0.path path.ix = some v) (hb : t.run v = some b)
    (h : SimM N k0 m v0 F mk) :
    SimM N k0 m v0 (fun s => if b then F s else (s, .norm))
      (fun k => do let (s, k) ← mk k; .ok (.test path t s, k)) := by
  intro k1 hk
  obtain ⟨t0, k2, t0', h1, h2, h3, h4⟩ := h k1 hk
  refine ⟨.test path t t0, k2, .test path t t0', by simp [h1, bind, Except.bind], h2,
    by simp [revisit, h3, bind, Except.bind], fun s τ hτ => ?_⟩
  simp only [runT, hp, hτ, hv, hb]
  cases b
  · exact ⟨τ, by simp, .refl _ _⟩
  · simpa using h4 s τ hτ

theorem SimM.congr {N k0 m v0 F G mk} (h : SimM N k0 m v0 F mk) (e : F = G) :
    SimM N k0 m v0 G mk := e ▸ h

/-- A name bound before a suite. -/
theorem SimM.bindP {N k0 m v0 F mk} (path : Path) (v : Val) (x : Nat)
    (hp : path.tmp = m) (hv : v0.path path.ix = some v) (h : SimM N k0 m v0 F mk) :
    SimM N k0 m v0 (fun s => F (s.set x v))
      (fun k => do let (s, k) ← mk k; .ok (.seq (.bindP x path) s, k)) := by
  intro k1 hk
  obtain ⟨t0, k2, t0', h1, h2, h3, h4⟩ := h k1 hk
  refine ⟨.seq (.bindP x path) t0, k2, .seq (.bindP x path) t0',
    by simp [h1, bind, Except.bind], h2,
    by simp [revisit, h3, bind, Except.bind], fun s τ hτ => ?_⟩
  simp only [runT, hp, hτ, hv]
  exact h4 (s.set x v) τ hτ

/-- Copies of a suite can be made with temporaries from `k0` on. -/
def OkM (k0 : Nat) (mk : Nat → R (Tgt × Nat)) : Prop :=
  ∀ k1, k0 ≤ k1 → ∃ t k2 t', mk k1 = .ok (t, k2) ∧ k1 ≤ k2 ∧
    revisit (some none) t = .ok t'

theorem SimM.ok {N k0 m v0 F mk} (h : SimM N k0 m v0 F mk) : OkM k0 mk := fun k1 hk => by
  obtain ⟨t, k2, t', h1, h2, h3, _⟩ := h k1 hk
  exact ⟨t, k2, t', h1, h2, h3⟩

mutual
theorem okM_tp (k0 : Nat) : ∀ (p : Pat) (path : Path) (mk), OkM k0 mk → OkM k0 (tp path mk p)
  | .int i, path, mk, h, k1, hk => by
    obtain ⟨t, k2, t', h1, h2, h3⟩ := h k1 hk
    exact ⟨_, _, _, by simp only [tp, h1, bind, Except.bind]; rfl, h2,
      by simp only [revisit, h3, bind, Except.bind]; rfl⟩
  | .bool i, path, mk, h, k1, hk => by
    obtain ⟨t, k2, t', h1, h2, h3⟩ := h k1 hk
    exact ⟨_, _, _, by simp only [tp, h1, bind, Except.bind]; rfl, h2,
      by simp only [revisit, h3, bind, Except.bind]; rfl⟩
  | .str i, path, mk, h, k1, hk => by
    obtain ⟨t, k2, t', h1, h2, h3⟩ := h k1 hk
    exact ⟨_, _, _, by simp only [tp, h1, bind, Except.bind]; rfl, h2,
      by simp only [revisit, h3, bind, Except.bind]; rfl⟩
  | .range a b, path, mk, h, k1, hk => by
    obtain ⟨t, k2, t', h1, h2, h3⟩ := h k1 hk
    exact ⟨_, _, _, by simp only [tp, h1, bind, Except.bind]; rfl, h2,
      by simp only [revisit, h3, bind, Except.bind]; rfl⟩
  | .tup ps, path, mk, h, k1, hk => by
    obtain ⟨t, k2, t', h1, h2, h3⟩ := okM_tps k0 ps path 0 mk h k1 hk
    exact ⟨_, _, _, by simp only [tp, h1, bind, Except.bind]; rfl, h2,
      by simp only [revisit, h3, bind, Except.bind]; rfl⟩
  | .lst ps, path, mk, h, k1, hk => by
    obtain ⟨t, k2, t', h1, h2, h3⟩ := okM_tps k0 ps path 0 mk h k1 hk
    exact ⟨_, _, _, by simp only [tp, h1, bind, Except.bind]; rfl, h2,
      by simp only [revisit, h3, bind, Except.bind]; rfl⟩
  | .lstE ps qs, path, mk, h, k1, hk => by
    obtain ⟨t, k2, t', h1, h2, h3⟩ :=
      okM_tps k0 ps path 0 _ (okM_tps k0 qs path (-(qs.length : Int)) mk h) k1 hk
    exact ⟨_, _, _, by simp only [tp, h1, bind, Except.bind]; rfl, h2,
      by simp only [revisit, h3, bind, Except.bind]; rfl⟩
  | .alt p q, path, mk, h, k1, hk => by
    obtain ⟨t, k2, t', h1, h2, h3⟩ := okM_tp k0 p path mk h k1 hk
    obtain ⟨u, k3, u', g1, g2, g3⟩ := okM_tp k0 q path mk h k2 (by omega)
    exact ⟨_, _, _, by simp only [tp, h1, g1, bind, Except.bind]; rfl, by omega,
      by simp only [revisit, h3, g3, bind, Except.bind]; rfl⟩
  | .wild, path, mk, h, k1, hk => h k1 hk
  | .var x, path, mk, h, k1, hk => by
    obtain ⟨t, k2, t', h1, h2, h3⟩ := h k1 hk
    exact ⟨_, _, _, by simp only [tp, h1, bind, Except.bind]; rfl, h2,
      by simp only [revisit, h3, bind, Except.bind]; rfl⟩
  | .bind x p, path, mk, h, k1, hk => by
    obtain ⟨t, k2, t', h1, h2, h3⟩ := okM_tp k0 p path mk h k1 hk
    exact ⟨_, _, _, by simp only [tp, h1, bind, Except.bind]; rfl, h2,
      by simp only [revisit, h3, bind, Except.bind]; rfl⟩
theorem okM_tps (k0 : Nat) : ∀ (ps : Pats) (path : Path) (i : Int) (mk), OkM k0 mk →
    OkM k0 (tps path i mk ps)
  | .nil, path, i, mk, h => h
  | .cons p ps, path, i, mk, h => okM_tp k0 p _ _ (okM_tps k0 ps path (i + 1) mk h)
end

theorem bindOk (x : R (Tgt × Nat)) (f g : Tgt → Tgt) :
    (do let (s, k) ← (do let (s, k) ← x; .ok (f s, k)); (.ok (g s, k) : R (Tgt × Nat))) =
    (do let (s, k) ← x; .ok (g (f s), k)) := by
  cases x <;> rfl

theorem OkM.test {k0 mk} (path : Path) (t : Test) (h : OkM k0 mk) :
    OkM k0 (fun k => do let (s, k) ← mk k; .ok (.test path t s, k)) := by
  intro k1 hk
  obtain ⟨t0, k2, t0', h1, h2, h3⟩ := h k1 hk
  exact ⟨.test path t t0, k2, .test path t t0', by simp [h1, bind, Except.bind], h2,
    by simp [revisit, h3, bind, Except.bind]⟩

/-- A suite under a test that fails. -/
theorem OkM.no {N k0 m v0 F mk} (path : Path) (v : Val) (t : Test)
    (hp : path.tmp = m) (hv : v0.path path.ix = some v) (hb : t.run v = some false)
    (e : ∀ s, F s = (s, .norm)) (h : OkM k0 mk) :
    SimM N k0 m v0 F (fun k => do let (s, k) ← mk k; .ok (.test path t s, k)) := by
  intro k1 hk
  obtain ⟨t0, k2, t0', h1, h2, h3⟩ := h k1 hk
  refine ⟨.test path t t0, k2, .test path t t0', by simp [h1, bind, Except.bind], h2,
    by simp [revisit, h3, bind, Except.bind], fun s τ hτ => ?_⟩
  simp only [runT, hp, hτ, hv, hb, e]
  exact ⟨τ, rfl, .refl _ _⟩

mutual
theorem tp_sim (N k0 m : Nat) (v0 : Val) (hm : m < k0) :
    ∀ (p : Pat) (path : Path) (v : Val) (F) (mk), path.tmp = m →
    v0.path path.ix = some v → SimM N k0 m v0 F mk →
    SimM N k0 m v0 (semP F p v) (tp path mk p)
  | .int i, path, v, F, mk, hp, hv, h => by
    have e : tp path mk (.int i) = (fun k => do
        let (s, k) ← (do let (s, k) ← mk k; .ok (.test path (.eqInt i) s, k))
        .ok (.test path .isInt s, k)) := by
      funext k; rw [bindOk]; rfl
    rw [e]
    cases v with
    | int j =>
      refine ((h.test path _ (.eqInt i) (j == i) hp hv rfl).test path _ .isInt true hp hv
        rfl).congr ?_
      funext s; simp [semP]
    | _ => exact OkM.no path _ .isInt hp hv rfl (fun s => by simp only [semP]) (h.ok.test path (.eqInt i))
  | .bool i, path, v, F, mk, hp, hv, h => by
    have e : tp path mk (.bool i) = (fun k => do
        let (s, k) ← (do let (s, k) ← mk k; .ok (.test path (.eqBool i) s, k))
        .ok (.test path .isBool s, k)) := by
      funext k; rw [bindOk]; rfl
    rw [e]
    cases v with
    | bool j =>
      refine ((h.test path _ (.eqBool i) (j == i) hp hv rfl).test path _ .isBool true hp hv
        rfl).congr ?_
      funext s; simp [semP]
    | _ => exact OkM.no path _ .isBool hp hv rfl (fun s => by simp only [semP]) (h.ok.test path (.eqBool i))
  | .str i, path, v, F, mk, hp, hv, h => by
    have e : tp path mk (.str i) = (fun k => do
        let (s, k) ← (do let (s, k) ← mk k; .ok (.test path (.eqStr i) s, k))
        .ok (.test path .isStr s, k)) := by
      funext k; rw [bindOk]; rfl
    rw [e]
    cases v with
    | str j =>
      refine ((h.test path _ (.eqStr i) (j == i) hp hv rfl).test path _ .isStr true hp hv
        rfl).congr ?_
      funext s; simp [semP]
    | _ => exact OkM.no path _ .isStr hp hv rfl (fun s => by simp only [semP]) (h.ok.test path (.eqStr i))
  | .range a b, path, v, F, mk, hp, hv, h => by
    have e : tp path mk (.range a b) = (fun k => do
        let (s, k) ← (do
          let (s, k) ← (do let (s, k) ← mk k; .ok (.test path (.le b) s, k))
          .ok (.test path (.ge a) s, k))
        .ok (.test path .isInt s, k)) := by
      funext k; simp only [tp]; cases mk k <;> rfl
    rw [e]
    cases v with
    | int j =>
      refine (((h.test path _ (.le b) (decide (j ≤ b)) hp hv rfl).test path _ (.ge a)
        (decide (j ≥ a)) hp hv rfl).test path _ .isInt true hp hv rfl).congr ?_
      funext s
      simp only [semP, ite_true, decide_eq_true_eq, ge_iff_le]
      by_cases h1 : a ≤ j <;> by_cases h2 : j ≤ b <;> simp [h1, h2]
    | _ => exact OkM.no path _ .isInt hp hv rfl (fun s => by simp only [semP]) ((h.ok.test path (.le b)).test path (.ge a))
  | .tup ps, path, v, F, mk, hp, hv, h => by
    have e : tp path mk (.tup ps) = (fun k => do
        let (s, k) ← (do
          let (s, k) ← tps path 0 mk ps k; .ok (.test path (.lenEq ps.length) s, k))
        .ok (.test path .isTup s, k)) := by
      funext k; rw [bindOk]; rfl
    rw [e]
    cases v with
    | tup ws =>
      by_cases hl : ws.length = ps.length
      · have ht := tps_sim N k0 m v0 hm ps path 0 (.tup ws) ws F mk hp hv
          (fun j hj => by simp [Val.index]) hl h
        refine ((ht.test path _ (.lenEq ps.length) (ws.length == ps.length) hp hv rfl).test
          path _ .isTup true hp hv rfl).congr ?_
        funext s; simp [semP, hl]
      · refine ((OkM.no (F := fun s => (s, .norm)) path _ (.lenEq ps.length) hp hv
          (by simp [Test.run, hl]) (fun _ => rfl) (okM_tps k0 ps path 0 mk h.ok)).test
          path _ .isTup true hp hv rfl).congr ?_
        funext s; simp [semP, hl]
    | _ => exact OkM.no path _ .isTup hp hv rfl (fun s => by simp only [semP]) ((okM_tps k0 ps path 0 mk h.ok).test path (.lenEq ps.length))
  | .lst ps, path, v, F, mk, hp, hv, h => by
    have e : tp path mk (.lst ps) = (fun k => do
        let (s, k) ← (do
          let (s, k) ← tps path 0 mk ps k; .ok (.test path (.lenEq ps.length) s, k))
        .ok (.test path .isLst s, k)) := by
      funext k; rw [bindOk]; rfl
    rw [e]
    cases v with
    | lst ws =>
      by_cases hl : ws.length = ps.length
      · have ht := tps_sim N k0 m v0 hm ps path 0 (.lst ws) ws F mk hp hv
          (fun j hj => by simp [Val.index]) hl h
        refine ((ht.test path _ (.lenEq ps.length) (ws.length == ps.length) hp hv rfl).test
          path _ .isLst true hp hv rfl).congr ?_
        funext s; simp [semP, hl]
      · refine ((OkM.no (F := fun s => (s, .norm)) path _ (.lenEq ps.length) hp hv
          (by simp [Test.run, hl]) (fun _ => rfl) (okM_tps k0 ps path 0 mk h.ok)).test
          path _ .isLst true hp hv rfl).congr ?_
        funext s; simp [semP, hl]
    | _ => exact OkM.no path _ .isLst hp hv rfl (fun s => by simp only [semP]) ((okM_tps k0 ps path 0 mk h.ok).test path (.lenEq ps.length))
  | .lstE ps qs, path, v, F, mk, hp, hv, h => by
    have e : tp path mk (.lstE ps qs) = (fun k => do
        let (s, k) ← (do
          let (s, k) ← tps path 0 (tps path (-(qs.length : Int)) mk qs) ps k
          .ok (.test path (.lenGe (ps.length + qs.length)) s, k))
        .ok (.test path .isLst s, k)) := by
      funext k; rw [bindOk]; rfl
    rw [e]
    have hno : OkM k0 (tps path 0 (tps path (-(qs.length : Int)) mk qs) ps) :=
      okM_tps k0 ps path 0 _ (okM_tps k0 qs path _ mk h.ok)
    cases v with
    | lst ws =>
      by_cases hl : ps.length + qs.length ≤ ws.length
      · have hq := tps_sim N k0 m v0 hm qs path (-(qs.length : Int)) (.lst ws)
          (ws.drop (ws.length - qs.length)) F mk hp hv
          (fun j hj => by
            have : j < qs.length := by simp at hj; omega
            have h1 : ¬ (0 : Int) ≤ -(qs.length : Int) + j := by omega
            have h2 : (0 : Int) ≤ -(qs.length : Int) + j + ws.length := by omega
            have h3 : (-(qs.length : Int) + j + ws.length).toNat = ws.length - qs.length + j := by
              omega
            simp [Val.index, h1, h2, h3]) (by simp; omega) h
        have ht := tps_sim N k0 m v0 hm ps path 0 (.lst ws) (ws.take ps.length) _ _ hp hv
          (fun j hj => by
            have : j < ps.length := by simp at hj; omega
            simp [Val.index, List.getElem?_take, this]) (by simp; omega) hq
        refine ((ht.test path _ (.lenGe (ps.length + qs.length)) true hp hv
          (by simp [Test.run, hl])).test path _ .isLst true hp hv rfl).congr ?_
        funext s; simp [semP, hl]
      · refine ((OkM.no (F := fun s => (s, .norm)) path _ (.lenGe (ps.length + qs.length)) hp hv
          (by simpa [Test.run] using hl) (fun _ => rfl) hno).test
          path _ .isLst true hp hv rfl).congr ?_
        funext s; simp [semP, hl]
    | _ => exact OkM.no path _ .isLst hp hv rfl (fun s => by simp only [semP]) (hno.test path (.lenGe (ps.length + qs.length)))
  | .alt p q, path, v, F, mk, hp, hv, h => by
    intro k1 hk
    obtain ⟨t1, k2, t1', a1, a2, a3, a4⟩ := tp_sim N k0 m v0 hm p path v F mk hp hv h k1 hk
    obtain ⟨t2, k3, t2', b1, b2, b3, b4⟩ :=
      tp_sim N k0 m v0 hm q path v F mk hp hv h k2 (by omega)
    refine ⟨.seq t1 t2, k3, .seq t1' t2', by simp [tp, a1, b1, bind, Except.bind], by omega,
      by simp [revisit, a3, b3, bind, Except.bind], fun s τ hτ => ?_⟩
    obtain ⟨τ1, c1, c2⟩ := a4 s τ hτ
    simp only [runT, c1, semP]
    generalize semP F p v s = r at *
    obtain ⟨s1, o1⟩ := r
    cases o1 <;> try exact ⟨τ1, rfl, c2⟩
    obtain ⟨τ2, d1, d2⟩ := b4 s1 τ1 (by rw [(c2 m hm).1, hτ])
    exact ⟨τ2, d1, c2.trans d2⟩
  | .wild, path, v, F, mk, hp, hv, h => h
  | .var x, path, v, F, mk, hp, hv, h => h.bindP path v x hp hv
  | .bind x p, path, v, F, mk, hp, hv, h =>
    (tp_sim N k0 m v0 hm p path v F mk hp hv h).bindP path v x hp hv
theorem tps_sim (N k0 m : Nat) (v0 : Val) (hm : m < k0) :
    ∀ (ps : Pats) (path : Path) (i : Int) (w : Val) (vs : List Val) (F) (mk), path.tmp = m →
    v0.path path.ix = some w → (∀ j : Nat, j < vs.length → w.index (i + j) = vs[j]?) →
    vs.length = ps.length → SimM N k0 m v0 F mk →
    SimM N k0 m v0 (semPs F ps vs) (tps path i mk ps)
  | .nil, path, i, w, vs, F, mk, hp, hv, hi, hl, h => by
    cases vs with
    | nil => exact h
    | cons => simp [Pats.length] at hl
  | .cons p ps, path, i, w, vs, F, mk, hp, hv, hi, hl, h => by
    cases vs with
    | nil => simp [Pats.length] at hl
    | cons v vs =>
      simp only [Pats.length, List.length_cons, Nat.add_right_cancel_iff] at hl
      have h0 := hi 0 (by simp)
      simp only [Int.natCast_zero, Int.add_zero, List.getElem?_cons_zero] at h0
      have hr := tps_sim N k0 m v0 hm ps path (i + 1) w vs F mk hp hv
        (fun j hj => by
          have := hi (j + 1) (by simp; omega)
          simp only [List.getElem?_cons_succ] at this
          rw [← this]; congr 1; omega) hl h
      exact tp_sim N k0 m v0 hm p ⟨path.tmp, path.ix ++ [i]⟩ v _ _ hp
        (by rw [path_append v0 w path.ix i hv, h0]) hr
end

end Verif.Ctl
