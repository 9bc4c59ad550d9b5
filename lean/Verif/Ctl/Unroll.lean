import Verif.Ctl.Loops
/-!
# Unrolled loops
-/

namespace Verif.Ctl

/-- Temporaries below `k` are the same but for the flag `g`. -/
def AgreeX (k g : Nat) (a b : Tm) : Prop :=
  ∀ i, i < k → b.va i = a.va i ∧ b.tu i = a.tu i ∧ (i ≠ g → b.fl i = a.fl i)

theorem AgreeX.trans {k g a b c} (h : AgreeX k g a b) (h' : AgreeX k g b c) : AgreeX k g a c :=
  fun i hi => ⟨(h' i hi).1.trans (h i hi).1, (h' i hi).2.1.trans (h i hi).2.1,
    fun e => ((h' i hi).2.2 e).trans ((h i hi).2.2 e)⟩

theorem AgreeX.refl (k g a) : AgreeX k g a a := fun _ _ => ⟨rfl, rfl, fun _ => rfl⟩

theorem Rel.agreeX {he k o a b g l} (h : Rel ⟨some none, some (some g)⟩ he k o a b)
    (hl : l ≤ k) : AgreeX l g a b :=
  fun i hi => ⟨(h i (by omega)).1, (h i (by omega)).2.1, fun e =>
    (h i (by omega)).2.2.1 (by simp) (by simpa using fun e' => e e'.symm)⟩

theorem agreeX_setFlag (k g : Nat) (a : Tm) (b : Bool) :
    AgreeX k g a { a with fl := upd a.fl g b } :=
  fun i _ => ⟨rfl, rfl, fun e => by simp [upd, e]⟩

/-- The components are where the code looks for them. -/
def Holds (f : Nat → Val) : TSrc → St → Tm → Prop
  | .usr y, s, _ => s.tups y = f
  | .tmp t, _, τ => τ.tu t = f

/-- The source of the components is left alone by the body. -/
def Stable (k0 : Nat) (B : St → St × Out) : TSrc → Prop
  | .usr y => ∀ s, (B s).1.tups y = s.tups y
  | .tmp t => t < k0

theorem copies_sim (n k0 g x : Nat) (src : TSrc) (B : St → St × Out) (mk : Nat → R (Tgt × Nat))
    (f : Nat → Val) (hg : g < k0) (hs : Stable k0 B src)
    (h : SimV (n + 1) ⟨some none, some (some g)⟩ false k0 B mk) :
    ∀ (m i k1 : Nat), k0 ≤ k1 → ∃ t k2 t', copies g x src mk i m k1 = .ok (t, k2) ∧ k1 ≤ k2 ∧
      (∀ r, revisit r t = .ok t') ∧
      (∀ s τ, τ.fl g = false → ∃ τ', runT (n + 1) t' (s, τ) = ((s, τ'), .norm) ∧
        τ'.fl g = false ∧ AgreeX k0 g τ τ') ∧
      (∀ s τ, τ.fl g = true → Holds f src s τ →
        ∃ τ', runT (n + 1) t' (s, τ) =
          (((itemsS x B ((List.range' i m).map f) s).1, τ'),
            if (itemsS x B ((List.range' i m).map f) s).2 = .brk then .norm
            else (itemsS x B ((List.range' i m).map f) s).2) ∧
          (((itemsS x B ((List.range' i m).map f) s).2 = .norm ∨
            (itemsS x B ((List.range' i m).map f) s).2 = .brk) → τ'.fl g = false) ∧
          AgreeX k0 g τ τ') := by
  intro m
  induction m with
  | zero =>
    intro i k1 hk
    refine ⟨.setFlag g false, k1, .setFlag g false, rfl, Nat.le_refl _, fun _ => rfl, ?_, ?_⟩
    · exact fun s τ _ => ⟨_, rfl, by simp [upd], agreeX_setFlag _ _ _ _⟩
    · intro s τ _ _
      exact ⟨_, rfl, fun _ => by simp [upd], agreeX_setFlag _ _ _ _⟩
  | succ m ih =>
    intro i k1 hk
    obtain ⟨b, k2, b', b1, b2, b3, b4⟩ := h k1 hk
    obtain ⟨t, k3, t', c1, c2, c3, c4, c5⟩ := ih (i + 1) k2 (by omega)
    refine ⟨.seq (.loop (some g) (.flag g) (.seq (.item x src i) (.seq b (.brk true)))) t, k3,
      .seq (.loop (some g) (.flag g) (.seq (.item x src i) (.seq b' (.brk true)))) t', ?_,
      by omega, fun r => ?_, ?_, ?_⟩
    · simp [copies, b1, c1, bind, Except.bind]
    · simp only at b3
      simp [revisit, b3, c3, bind, Except.bind]
    · intro s τ hτ
      obtain ⟨τ', d1, d2, d3⟩ := c4 s τ hτ
      exact ⟨τ', by simp [runT, loopT, TCond.run, hτ, d1], d2, d3⟩
    · intro s τ hτ hH
      have hitem : runT (n + 1) (.item x src i) (s, τ) = ((s.set x (f i), τ), .norm) := by
        cases src with
        | usr y => simp only [Holds] at hH; simp [runT, hH]
        | tmp t => simp only [Holds] at hH; simp [runT, hH]
      obtain ⟨τ1, d1, d2⟩ := b4 (s.set x (f i)) τ
      have hstab : (τ1.tu = τ1.tu) → Holds f src (B (s.set x (f i))).1 τ1 := by
        intro _
        cases src with
        | usr y =>
          simp only [Holds, Stable] at hH hs ⊢
          rw [hs]; exact hH
        | tmp t =>
          simp only [Holds, Stable] at hH hs ⊢
          rw [(d2 t (by omega)).2.1]; exact hH
      have hH1 := hstab rfl
      have hX : AgreeX k0 g τ τ1 := d2.agreeX hk
      have hfl := (d2 g (by omega)).2.2
      simp only [List.range'_succ, List.map_cons, itemsS, runT, loopT, TCond.run, hτ, hitem, d1]
      generalize B (s.set x (f i)) = r at *
      obtain ⟨s1, o⟩ := r
      simp only at hfl
      cases o
      case norm =>
        obtain ⟨τ2, e1, e2, e3⟩ := c5 s1 τ1 (by rw [hfl.2.1 (.inl rfl), hτ]) hH1
        exact ⟨τ2, by simp only [tr, e1], e2, hX.trans e3⟩
      case cont =>
        obtain ⟨τ2, e1, e2, e3⟩ := c5 s1 τ1 (by rw [hfl.2.1 (.inr rfl), hτ]) hH1
        exact ⟨τ2, by simp only [tr, e1], e2, hX.trans e3⟩
      case brk =>
        obtain ⟨τ2, e1, e2, e3⟩ := c4 s1 τ1 (hfl.2.2.1 rfl trivial)
        exact ⟨τ2, by simp [tr, e1], fun _ => e2, hX.trans e3⟩
      all_goals exact ⟨τ1, rfl, fun h => by simp at h, hX⟩

theorem itemsS_brk_norm (x B vs s) :
    (match itemsS x B vs s with
      | (s, .brk) => (s, .norm)
      | r => r) = ((itemsS x B vs s).1, if (itemsS x B vs s).2 = .brk then .norm
        else (itemsS x B vs s).2) := by
  generalize itemsS x B vs s = r
  obtain ⟨a, o⟩ := r
  cases o <;> rfl

theorem unroll_sim (n : Nat) (V : Ctx) (he : Bool) (m : Nat) (it : TIter) (x : Nat)
    (B : St → St × Out) (mk : Nat → Nat → R (Tgt × Nat)) (k0 : Nat)
    (hit : ∀ y, it = .var y → ∀ s, (B s).1.tups y = s.tups y)
    (h : ∀ g k1, g < k1 → SimV (n + 2) ⟨some none, some (some g)⟩ false k1 B (mk g)) :
    SimV (n + 2) V he k0
      (fun s => match itemsS x B (it.eval m s).1 (it.eval m s).2 with
        | (s, .brk) => (s, .norm)
        | r => r) (unroll m it x mk) := by
  intro k1 hk
  cases it with
  | var y =>
    have hsim := fun f => copies_sim (n + 1) (k1 + 1) k1 x (.usr y) B (mk k1) f (by omega)
      (hit y rfl) (h k1 (k1 + 1) (by omega)) m 0 (k1 + 1) (Nat.le_refl _)
    obtain ⟨t, k2, t', a1, a2, a3, _, _⟩ := hsim fun _ => .int 0
    refine ⟨.seq (.setFlag k1 true) (.loop none (.flag k1) t), k2,
      .seq (.setFlag k1 true) (.loop none (.flag k1) t'),
      by simp [unroll, a1, bind, Except.bind], by omega,
      by simp [revisit, a3, bind, Except.bind], fun s τ => ?_⟩
    obtain ⟨u, k2', u', b1, b2, b3, b4, b5⟩ := hsim (s.tups y)
    rw [a1] at b1; cases b1
    have := (a3 none).symm.trans (b3 none)
    cases this
    obtain ⟨τ1, d1, d2, d3⟩ := b5 s { τ with fl := upd τ.fl k1 true } (by simp [upd]) rfl
    have hag : AgreeAll k1 τ τ1 := fun i hi => by
      have := d3 i (by omega)
      refine ⟨this.1, this.2.1, ?_⟩
      rw [this.2.2 (by omega)]; simp [upd, show i ≠ k1 by omega]
    simp only []
    rw [itemsS_brk_norm]
    simp only [TIter.eval, List.range_eq_range', runT, loopT, TCond.run]
    simp only [show upd τ.fl k1 true k1 = true by simp [upd], d1]
    have hco := itemsS_out x B ((List.range' 0 m).map (s.tups y)) s
    generalize itemsS x B ((List.range' 0 m).map (s.tups y)) s = r at *
    obtain ⟨s1, o⟩ := r
    cases o
    case norm =>
      exact ⟨τ1, by simp [d2 (.inl rfl), tr], hag.rel (by simp)⟩
    case brk =>
      exact ⟨τ1, by simp [d2 (.inr rfl), tr], hag.rel (by simp)⟩
    case cont => exact absurd rfl hco
    all_goals
      refine ⟨τ1, ?_, hag.rel (by simp)⟩
      rcases V.sl with _ | _ | g <;> simp [tr]
  | expr e =>
    have hsim := fun f => copies_sim (n + 1) (k1 + 2) k1 x (.tmp (k1 + 1)) B (mk k1) f (by omega)
      (by simp [Stable]) (h k1 (k1 + 2) (by omega)) m 0 (k1 + 2) (Nat.le_refl _)
    obtain ⟨t, k2, t', a1, a2, a3, _, _⟩ := hsim fun _ => .int 0
    refine ⟨.seq (.setFlag k1 true) (.loop none (.flag k1) (.seq (.setTup (k1 + 1) e) t)), k2,
      .seq (.setFlag k1 true) (.loop none (.flag k1) (.seq (.setTup (k1 + 1) e) t')),
      by simp [unroll, a1, bind, Except.bind], by omega,
      by simp [revisit, a3, bind, Except.bind], fun s τ => ?_⟩
    obtain ⟨u, k2', u', b1, b2, b3, b4, b5⟩ := hsim (e s).1
    rw [a1] at b1; cases b1
    have := (a3 none).symm.trans (b3 none)
    cases this
    obtain ⟨τ1, d1, d2, d3⟩ := b5 (e s).2
      { τ with fl := upd τ.fl k1 true, tu := upd τ.tu (k1 + 1) (e s).1 } (by simp [upd])
      (by simp [Holds, upd])
    have hag : AgreeAll k1 τ τ1 := fun i hi => by
      have := d3 i (by omega)
      refine ⟨this.1, ?_, ?_⟩
      · rw [this.2.1]; simp [upd, show i ≠ k1 + 1 by omega]
      · rw [this.2.2 (by omega)]; simp [upd, show i ≠ k1 by omega]
    simp only []
    rw [itemsS_brk_norm]
    simp only [TIter.eval, List.range_eq_range', runT, loopT, TCond.run]
    simp only [show upd τ.fl k1 true k1 = true by simp [upd], d1]
    have hco := itemsS_out x B ((List.range' 0 m).map (e s).1) (e s).2
    generalize itemsS x B ((List.range' 0 m).map (e s).1) (e s).2 = r at *
    obtain ⟨s1, o⟩ := r
    cases o
    case norm =>
      exact ⟨τ1, by simp [d2 (.inl rfl), tr], hag.rel (by simp)⟩
    case brk =>
      exact ⟨τ1, by simp [d2 (.inr rfl), tr], hag.rel (by simp)⟩
    case cont => exact absurd rfl hco
    all_goals
      refine ⟨τ1, ?_, hag.rel (by simp)⟩
      rcases V.sl with _ | _ | g <;> simp [tr]

end Verif.Ctl
