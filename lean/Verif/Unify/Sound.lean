import Verif.Unify.Lemmas
/-!
# Soundness of unification: lemmas
-/
namespace Codon.Unify

/-! ### Resolving -/

theorem Res.det {k : Kinds} {t r1 r2 : Ty} (h1 : Res k t r1) (h2 : Res k t r2) : r1 = r2 := by
  induction h1 generalizing r2 with
  | var hk =>
    cases h2 with
    | var _ => rfl
    | gen _ => rfl
    | fol hk' _ => rw [hk] at hk'; cases hk'
  | gen hk =>
    cases h2 with
    | var _ => rfl
    | gen _ => rfl
    | fol hk' _ => rw [hk] at hk'; cases hk'
  | fol hk _ ih =>
    cases h2 with
    | var hk' => rw [hk] at hk'; cases hk'
    | gen hk' => rw [hk] at hk'; cases hk'
    | fol hk' h => rw [hk] at hk'; cases hk'; exact ih h
  | lit => cases h2; rfl
  | cls _ _ ih1 ih2 => cases h2 with | cls a b => rw [ih1 a, ih2 b]
  | nil => cases h2; rfl
  | cons _ _ ih1 ih2 => cases h2 with | cons a b => rw [ih1 a, ih2 b]

/-- `k'` has the links of `k`, and links variables only. -/
structure Ext (k k' : Kinds) : Prop where
  link : ∀ a t, k a = .link t → k' a = .link t
  generic : ∀ a, k a = .generic ↔ k' a = .generic

theorem Ext.refl (k : Kinds) : Ext k k := ⟨fun _ _ h => h, fun _ => Iff.rfl⟩

theorem Ext.trans {a b c : Kinds} (h1 : Ext a b) (h2 : Ext b c) : Ext a c :=
  ⟨fun x t h => h2.link x t (h1.link x t h), fun x => (h1.generic x).trans (h2.generic x)⟩

theorem Ext.unbound {k k' : Kinds} (h : Ext k k') {a : Nat} (hu : k' a = .unbound) : k a = .unbound := by
  cases hk : k a with
  | unbound => rfl
  | generic => rw [(h.generic a).1 hk] at hu; cases hu
  | link t => rw [h.link a t hk] at hu; cases hu

/-- Following in two stages. -/
theorem Res.stage {k k' : Kinds} (e : Ext k k') {t r : Ty} (h : Res k t r) (r' : Ty) :
    Res k' t r' ↔ Res k' r r' := by
  induction h generalizing r' with
  | var _ => exact Iff.rfl
  | gen _ => exact Iff.rfl
  | fol hk _ ih =>
    rw [← ih]
    constructor
    · intro h
      have hk' := e.link _ _ hk
      cases h with
      | var h => rw [hk'] at h; cases h
      | gen h => rw [hk'] at h; cases h
      | fol h hr => rw [hk'] at h; cases h; exact hr
    · intro h; exact .fol (e.link _ _ hk) h
  | lit => exact Iff.rfl
  | cls _ _ ih1 ih2 =>
    constructor
    · intro h; cases h with | cls a b => exact .cls ((ih1 _).1 a) ((ih2 _).1 b)
    · intro h; cases h with | cls a b => exact .cls ((ih1 _).2 a) ((ih2 _).2 b)
  | nil => exact Iff.rfl
  | cons _ _ ih1 ih2 =>
    constructor
    · intro h; cases h with | cons a b => exact .cons ((ih1 _).1 a) ((ih2 _).1 b)
    · intro h; cases h with | cons a b => exact .cons ((ih1 _).2 a) ((ih2 _).2 b)

theorem Sim.refl (k : Kinds) (ids : Nat → Int) (t : Ty) : Sim k ids t t := by
  induction t with
  | link a => exact .link
  | lit v => exact .lit
  | cls n gs hs ih1 ih2 => exact .cls ih1 ih2
  | nil => exact .nil
  | cons t ts ih1 ih2 => exact .cons ih1 ih2

theorem Sim.symm {k : Kinds} {ids : Nat → Int} {t u : Ty} (h : Sim k ids t u) : Sim k ids u t := by
  induction h with
  | link => exact .link
  | gen a b c => exact .gen b a c.symm
  | lit => exact .lit
  | litCls => exact .clsLit
  | clsLit => exact .litCls
  | int1 a b _ => exact .int2 a b
  | int2 a b _ => exact .int1 a b
  | cls _ _ a b => exact .cls a b
  | nil => exact .nil
  | cons _ _ a b => exact .cons a b

theorem IsInt.res {k : Kinds} {t r : Ty} (h : IsInt t) (hr : Res k t r) : IsInt r := by
  rcases h with ⟨gs, hs, rfl⟩ | ⟨v, rfl⟩
  · cases hr; exact Or.inl ⟨_, _, rfl⟩
  · cases hr; exact Or.inr ⟨v, rfl⟩

/-- Similar types stay similar when further variables are linked. -/
theorem Sim.ext {k k' : Kinds} {ids : Nat → Int} (e : Ext k k') {t u : Ty} (h : Sim k ids t u) :
    ∀ {r s : Ty}, Res k' t r → Res k' u s → Sim k' ids r s := by
  induction h with
  | link => intro r s h1 h2; rw [h1.det h2]; exact Sim.refl _ _ _
  | gen a b c =>
    intro r s h1 h2
    have a' := (e.generic _).1 a
    have b' := (e.generic _).1 b
    cases h1 with
    | var h => rw [a'] at h; cases h
    | fol h _ => rw [a'] at h; cases h
    | gen _ =>
      cases h2 with
      | var h => rw [b'] at h; cases h
      | fol h _ => rw [b'] at h; cases h
      | gen _ => exact .gen a' b' c
  | lit => intro r s h1 h2; cases h1; cases h2; exact .lit
  | litCls => intro r s h1 h2; cases h1; cases h2 with | cls a b => cases a; cases b; exact .litCls
  | clsLit => intro r s h1 h2; cases h2; cases h1 with | cls a b => cases a; cases b; exact .clsLit
  | int1 a _ ih =>
    intro r s h1 h2
    cases h2 with
    | cls x y => cases x with | cons x1 x2 => exact .int1 (a.res h1) (ih x1 .lit)
  | int2 a _ ih =>
    intro r s h1 h2
    cases h1 with
    | cls x y => cases x with | cons x1 x2 => exact .int2 (a.res h2) (ih x1 .lit)
  | cls _ _ ih1 ih2 =>
    intro r s h1 h2
    cases h1 with
    | cls a b => cases h2 with | cls c d => exact .cls (ih1 a c) (ih2 b d)
  | nil => intro r s h1 h2; cases h1; cases h2; exact .nil
  | cons _ _ ih1 ih2 =>
    intro r s h1 h2
    cases h1 with
    | cons a b => cases h2 with | cons c d => exact .cons (ih1 a c) (ih2 b d)

/-- The followed types are the same. -/
def SimT (k : Kinds) (ids : Nat → Int) (t u : Ty) : Prop :=
  ∀ r s, Res k t r → Res k u s → Sim k ids r s

theorem SimT.symm {k : Kinds} {ids : Nat → Int} {t u : Ty} (h : SimT k ids t u) : SimT k ids u t :=
  fun r s h1 h2 => (h s r h2 h1).symm

theorem SimT.ext {k k' : Kinds} {ids : Nat → Int} (hk : Acyclic k) (e : Ext k k') {t u : Ty}
    (h : SimT k ids t u) : SimT k' ids t u := by
  intro r s h1 h2
  obtain ⟨r0, hr0⟩ := hk t
  obtain ⟨s0, hs0⟩ := hk u
  exact (h r0 s0 hr0 hs0).ext e ((hr0.stage e r).1 h1) ((hs0.stage e s).1 h2)

/-! ### Reachability -/

theorem hiddenLink (a : Nat) : HiddenClosed (.link a) := trivial

theorem hiddenLit (v : Lit) : HiddenClosed (.lit v) := trivial

theorem Sim.nil_right {k : Kinds} {ids : Nat → Int} {t : Ty} (h : Sim k ids t .nil) : t = .nil := by
  cases h with
  | nil => rfl
  | int2 a _ => rcases a with ⟨_, _, h⟩ | ⟨_, h⟩ <;> cases h


theorem Closed.noReach {k : Kinds} {t : Ty} (h : Closed t) (b : Nat) : ¬ Reach k t b := by
  intro hr
  induction hr with
  | here => exact h
  | fol _ _ _ => exact h
  | gs _ ih => exact ih h.1
  | hs _ ih => exact ih h.2
  | hd _ ih => exact ih h.1
  | tl _ ih => exact ih h.2

theorem Closed.hidden {t : Ty} (h : Closed t) : HiddenClosed t := by
  induction t with
  | link a => trivial
  | lit v => trivial
  | cls n gs hs ih1 ih2 => exact ⟨ih1 h.1, h.2⟩
  | nil => trivial
  | cons t ts ih1 ih2 => exact ⟨ih1 h.1, ih2 h.2⟩

/-- All variables met in `t` satisfy `P`. -/
def VarsIn (k : Kinds) (t : Ty) (P : Nat → Prop) : Prop := ∀ b, Reach k t b → k b = .unbound → P b

theorem Closed.varsIn {k : Kinds} {t : Ty} (h : Closed t) (P : Nat → Prop) : VarsIn k t P :=
  fun b hb => absurd hb (h.noReach b)

/-- The kinds after linking `a` to `t`. -/
def linkTo (k : Kinds) (a : Nat) (t : Ty) : Kinds := fun b => if b = a then .link t else k b

theorem linkTo_ext {k : Kinds} {a : Nat} (hk : k a = .unbound) (t : Ty) : Ext k (linkTo k a t) := by
  constructor
  · intro b u hb
    have : b ≠ a := by rintro rfl; rw [hk] at hb; cases hb
    simp [linkTo, this, hb]
  · intro b
    by_cases hb : b = a
    · subst hb; simp [linkTo, hk]
    · simp [linkTo, hb]

theorem linkTo_reach {k : Kinds} {a : Nat} {t X : Ty} {b : Nat} (h : Reach (linkTo k a t) X b) :
    Reach k X b ∨ Reach k t b := by
  induction h with
  | here => exact Or.inl .here
  | @fol c u b hk _ ih =>
    by_cases hc : c = a
    · subst hc
      simp [linkTo] at hk
      subst hk
      rcases ih with h | h <;> exact Or.inr h
    · simp only [linkTo, if_neg hc] at hk
      rcases ih with h | h
      · exact Or.inl (.fol hk h)
      · exact Or.inr h
  | gs _ ih => exact ih.imp .gs id
  | hs _ ih => exact ih.imp .hs id
  | hd _ ih => exact ih.imp .hd id
  | tl _ ih => exact ih.imp .tl id

theorem linkTo_varsIn {k : Kinds} {a : Nat} (hk : k a = .unbound) {t X : Ty} {P : Nat → Prop}
    (ht : VarsIn k t P) (hX : VarsIn k X P) : VarsIn (linkTo k a t) X P := by
  intro b hb hu
  have hu' := (linkTo_ext hk t).unbound hu
  rcases linkTo_reach hb with h | h
  · exact hX b h hu'
  · exact ht b h hu'

theorem linkTo_res {k : Kinds} {a : Nat} {t X r : Ty} (h : Res k X r) (ha : ¬ Reach k X a) :
    Res (linkTo k a t) X r := by
  induction h with
  | @var b hk =>
    have : b ≠ a := by rintro rfl; exact ha .here
    exact .var (by simp [linkTo, this, hk])
  | @gen b hk =>
    have : b ≠ a := by rintro rfl; exact ha .here
    exact .gen (by simp [linkTo, this, hk])
  | @fol b u r hk _ ih =>
    have : b ≠ a := by rintro rfl; exact ha .here
    exact .fol (t := u) (by simp [linkTo, this, hk]) (ih (fun h => ha (.fol hk h)))
  | lit => exact .lit
  | cls _ _ ih1 ih2 => exact .cls (ih1 (fun h => ha (.gs h))) (ih2 (fun h => ha (.hs h)))
  | nil => exact .nil
  | cons _ _ ih1 ih2 => exact .cons (ih1 (fun h => ha (.hd h))) (ih2 (fun h => ha (.tl h)))

theorem linkTo_acyclic {k : Kinds} {a : Nat} {t : Ty} (hac : Acyclic k)
    (ht : ¬ Reach k t a) : Acyclic (linkTo k a t) := by
  obtain ⟨rt, hrt⟩ := hac t
  have hrt' : Res (linkTo k a t) t rt := linkTo_res hrt ht
  have key : ∀ X r, Res k X r → ∃ r', Res (linkTo k a t) X r' := by
    intro X r h
    induction h with
    | @var b hk =>
      by_cases hb : b = a
      · subst hb; exact ⟨rt, .fol (t := t) (by simp [linkTo]) hrt'⟩
      · exact ⟨_, .var (by simp [linkTo, hb, hk])⟩
    | @gen b hk =>
      by_cases hb : b = a
      · subst hb; exact ⟨rt, .fol (t := t) (by simp [linkTo]) hrt'⟩
      · exact ⟨_, .gen (by simp [linkTo, hb, hk])⟩
    | @fol b u r hk _ ih =>
      by_cases hb : b = a
      · subst hb; exact ⟨rt, .fol (t := t) (by simp [linkTo]) hrt'⟩
      · obtain ⟨r', hr'⟩ := ih
        exact ⟨r', .fol (t := u) (by simp [linkTo, hb, hk]) hr'⟩
    | lit => exact ⟨_, .lit⟩
    | cls _ _ ih1 ih2 =>
      obtain ⟨r1, h1⟩ := ih1
      obtain ⟨r2, h2⟩ := ih2
      exact ⟨_, .cls h1 h2⟩
    | nil => exact ⟨_, .nil⟩
    | cons _ _ ih1 ih2 =>
      obtain ⟨r1, h1⟩ := ih1
      obtain ⟨r2, h2⟩ := ih2
      exact ⟨_, .cons h1 h2⟩
  intro X
  obtain ⟨r, hr⟩ := hac X
  exact key X r hr

/-! ### Following a chain -/

theorem follow_spec {f : Nat} {h : Heap} {t t' : Ty} (hf : follow f h t = some t') :
    (∀ k', Ext (kinds h) k' → ∀ r, Res k' t r ↔ Res k' t' r) ∧
    (∀ b, Reach (kinds h) t' b → Reach (kinds h) t b) ∧
    (∀ b, t' = .link b → ∀ u, (h b).kind ≠ .link u) ∧
    (HiddenClosed t → (∀ a u, (h a).kind = .link u → HiddenClosed u) → HiddenClosed t') := by
  induction f generalizing t with
  | zero => simp [follow] at hf
  | succ f ih =>
    cases t with
    | link a =>
      rw [follow] at hf
      split at hf
      · rename_i u hk
        obtain ⟨h1, h2, h3, h4⟩ := ih hf
        refine ⟨?_, fun b hb => .fol hk (h2 b hb), h3, fun _ hh => h4 (hh a u hk) hh⟩
        intro k' e r
        rw [← h1 k' e r]
        have hk' := e.link a u hk
        constructor
        · intro h
          cases h with
          | var h => rw [hk'] at h; cases h
          | gen h => rw [hk'] at h; cases h
          | fol h hr => rw [hk'] at h; cases h; exact hr
        · intro h; exact .fol hk' h
      · rename_i hk
        simp at hf
        subst hf
        refine ⟨fun _ _ _ => Iff.rfl, fun b hb => hb, ?_, fun h _ => h⟩
        intro b hb u hu
        cases hb
        exact hk u hu
    | _ =>
      simp [follow] at hf
      subst hf
      exact ⟨fun _ _ _ => Iff.rfl, fun b hb => hb, by simp, fun h _ => h⟩

/-! ### The invariant and the effect of a run -/

/-- The invariant; `L` says whether the levels are part of it. -/
structure Inv (L : Prop) (h : Heap) : Prop where
  wf : WF h
  acyclic : Acyclic (kinds h)
  levels : L → LevelsOk h

structure Effect (L : Prop) (st st' : St) (t u : Ty) : Prop where
  inv : Inv L st'.heap
  ext : Ext (kinds st.heap) (kinds st'.heap)
  ids : ∀ a, (st'.heap a).id = (st.heap a).id
  level : ∀ a, (st'.heap a).level ≤ (st.heap a).level
  vars : ∀ P, VarsIn (kinds st.heap) t P → VarsIn (kinds st.heap) u P →
    ∀ X, VarsIn (kinds st.heap) X P → VarsIn (kinds st'.heap) X P
  frame : ∀ a, (st.heap a).kind = .unbound → VarsIn (kinds st.heap) t (· ≠ a) →
    VarsIn (kinds st.heap) u (· ≠ a) → st'.heap a = st.heap a

variable {L : Prop}

theorem Effect.refl {st : St} (h : Inv L st.heap) (t u : Ty) : Effect L st st t u :=
  ⟨h, Ext.refl _, fun _ => rfl, fun _ => Int.le_refl _, fun _ _ _ _ hX => hX, fun _ _ _ _ => rfl⟩

/-- Effects compose; the second run works on types made of variables of the first. -/
theorem Effect.trans {st st1 st2 : St} {t u t1 u1 : Ty} (h1 : Effect L st st1 t u)
    (h2 : Effect L st1 st2 t1 u1)
    (ht : ∀ P, VarsIn (kinds st.heap) t P → VarsIn (kinds st.heap) u P → VarsIn (kinds st.heap) t1 P)
    (hu : ∀ P, VarsIn (kinds st.heap) t P → VarsIn (kinds st.heap) u P → VarsIn (kinds st.heap) u1 P) :
    Effect L st st2 t u := by
  refine ⟨h2.inv, h1.ext.trans h2.ext, fun a => (h2.ids a).trans (h1.ids a),
    fun a => Int.le_trans (h2.level a) (h1.level a), ?_, ?_⟩
  · intro P a b X hX
    exact h2.vars P (h1.vars P a b _ (ht P a b)) (h1.vars P a b _ (hu P a b)) X (h1.vars P a b X hX)
  · intro a hk a1 a2
    have e1 := h1.frame a hk a1 a2
    rw [← e1]
    exact h2.frame a (by rw [e1]; exact hk) (h1.vars _ a1 a2 _ (ht _ a1 a2)) (h1.vars _ a1 a2 _ (hu _ a1 a2))

/-- An effect for smaller types is one for larger types. -/
theorem Effect.mono {st st' : St} {t u t' u' : Ty} (h : Effect L st st' t u)
    (ht : ∀ P, VarsIn (kinds st.heap) t' P → VarsIn (kinds st.heap) u' P → VarsIn (kinds st.heap) t P)
    (hu : ∀ P, VarsIn (kinds st.heap) t' P → VarsIn (kinds st.heap) u' P → VarsIn (kinds st.heap) u P) :
    Effect L st st' t' u' :=
  ⟨h.inv, h.ext, h.ids, h.level, fun P a b X hX => h.vars P (ht P a b) (hu P a b) X hX,
    fun a hk x y => h.frame a hk (ht _ x y) (hu _ x y)⟩

theorem kinds_set_same (h : Heap) (a : Nat) (c : Cell) (hc : c.kind = (h a).kind) :
    kinds (h.set a c) = kinds h := by
  funext b
  simp only [kinds, Heap.set]
  by_cases hb : b = a
  · rw [if_pos hb, hc, hb]
  · rw [if_neg hb]

/-- A change of level, static kind or trait. -/
theorem Effect.cell {st : St} {a : Nat} {c : Cell} {un : Undo} {t u : Ty} (h : Inv L st.heap)
    (hk : c.kind = (st.heap a).kind) (hid : c.id = (st.heap a).id) (hl : c.level ≤ (st.heap a).level)
    (hl' : c.kind ≠ .unbound → c.level = (st.heap a).level)
    (htr : ∀ x, c.trait = some x → Closed x)
    (ha : Reach (kinds st.heap) t a ∨ Reach (kinds st.heap) u a) :
    Effect L st ⟨st.heap.set a c, un⟩ t u := by
  have hkk := kinds_set_same st.heap a c hk
  have hkind : ∀ b, (st.heap.set a c b).kind = (st.heap b).kind := fun b => congrFun hkk b
  have hidd : ∀ b, (st.heap.set a c b).id = (st.heap b).id := by
    intro b
    by_cases hb : b = a
    · subst hb; simp [Heap.set, hid]
    · simp [Heap.set, hb]
  have hlev : ∀ b, (st.heap.set a c b).level ≤ (st.heap b).level := by
    intro b
    by_cases hb : b = a
    · subst hb; simpa [Heap.set] using hl
    · simp [Heap.set, hb]
  refine ⟨⟨⟨?_, ?_, ?_⟩, ?_, ?_⟩, ?_, hidd, hlev, ?_, ?_⟩
  · intro x y hx hy e
    exact h.wf.ids x y (by rw [← hkind]; exact hx) (by rw [← hkind]; exact hy) (by
      rw [← hidd x, ← hidd y]; exact e)
  · intro x y hy
    by_cases hx : x = a
    · subst hx; exact htr y (by simpa [Heap.set] using hy)
    · exact h.wf.traits x y (by simpa [Heap.set, hx] using hy)
  · intro x y hy
    exact h.wf.hidden x y (by rw [← hkind]; exact hy)
  · change Acyclic (kinds (st.heap.set a c))
    rw [hkk]; exact h.acyclic
  · intro hL x y b hx hb hu
    rw [hkk] at hb
    rw [hkind] at hx hu
    have h1 := h.levels hL x y b hx hb hu
    have h2 := hlev b
    have h3 : (st.heap.set a c x).level = (st.heap x).level := by
      by_cases hxa : x = a
      · subst hxa
        have := hl' (by rw [hk, hx]; simp)
        simpa [Heap.set] using this
      · simp [Heap.set, hxa]
    show (st.heap.set a c b).level ≤ (st.heap.set a c x).level
    omega
  · rw [show kinds (st.heap.set a c) = kinds st.heap from hkk]; exact Ext.refl _
  · intro P _ _ X hX
    rw [show kinds (st.heap.set a c) = kinds st.heap from hkk]; exact hX
  · intro b hb h1 h2
    have : b ≠ a := by
      rintro rfl
      rcases ha with ha | ha
      · exact h1 b ha hb rfl
      · exact h2 b ha hb rfl
    simp [Heap.set, this]

/-- The occurs check. -/
theorem occurs_effect : ∀ (f : Nat) (st : St) (a : Nat) (t : Ty) (r : Bool) (st' : St),
    Inv L st.heap → HiddenClosed t → occurs true f st a t = some (r, st') →
    Effect L st st' (.link a) t ∧ kinds st'.heap = kinds st.heap ∧
    (∀ b, (st'.heap b).trait = (st.heap b).trait) ∧
    (st'.heap a).level = (st.heap a).level ∧
    (r = false → ∀ b, Reach (kinds st.heap) t b → (st.heap b).kind = .unbound →
      (st.heap b).id ≠ (st.heap a).id ∧ (st'.heap b).level ≤ (st.heap a).level) := by
  intro f
  induction f with
  | zero => intro st a t r st' _ _ h; simp [occurs] at h
  | succ f ih =>
    intro st a t r st' hinv hh h
    cases t with
    | link c =>
      rw [occurs] at h
      split at h
      · rename_i hk
        split at h
        · simp at h
          obtain ⟨rfl, rfl⟩ := h
          exact ⟨Effect.refl hinv _ _, rfl, fun _ => rfl, rfl, by simp⟩
        · rename_i hid
          have hreach : ∀ b, Reach (kinds st.heap) (.link c) b → b = c := by
            intro b hb
            cases hb with
            | here => rfl
            | fol hk' _ => rw [show kinds st.heap c = (st.heap c).kind from rfl, hk] at hk'; cases hk'
          split at h
          · rename_i hd
            simp at hd
            simp only [Option.some.injEq, Prod.mk.injEq] at h
            obtain ⟨rfl, rfl⟩ := h
            have hca : a ≠ c := by rintro rfl; exact hid rfl
            refine ⟨Effect.cell hinv rfl rfl (by simp; omega) (by simp [hk])
              (fun x hx => hinv.wf.traits c x hx) (Or.inr .here), kinds_set_same _ _ _ rfl, ?_, ?_, ?_⟩
            · intro b
              by_cases hb : b = c
              · subst hb; simp [Heap.set]
              · simp [Heap.set, hb]
            · simp [Heap.set, hca]
            · intro _ b hb hu
              have := hreach b hb
              subst this
              exact ⟨hid, by simp [Heap.set]⟩
          · rename_i hd
            simp at hd
            simp at h
            obtain ⟨rfl, rfl⟩ := h
            refine ⟨Effect.refl hinv _ _, rfl, fun _ => rfl, rfl, ?_⟩
            intro _ b hb hu
            have := hreach b hb
            subst this
            exact ⟨hid, hd⟩
      · rename_i t hk
        obtain ⟨h1, h2, h3, h4, h5⟩ := ih st a t r st' hinv (hinv.wf.hidden c t hk) h
        refine ⟨h1.mono (fun P x _ => x) (fun P _ y b hb => y b (.fol hk hb)), h2, h3, h4, ?_⟩
        intro hr b hb hu
        cases hb with
        | here => rw [hk] at hu; cases hu
        | fol hk' hb =>
          rw [show kinds st.heap c = (st.heap c).kind from rfl, hk] at hk'
          cases hk'
          exact h5 hr b hb hu
      · rename_i hk
        simp at h
        obtain ⟨rfl, rfl⟩ := h
        refine ⟨Effect.refl hinv _ _, rfl, fun _ => rfl, rfl, ?_⟩
        intro _ b hb hu
        cases hb with
        | here => rw [hk] at hu; cases hu
        | fol hk' _ => rw [show kinds st.heap c = (st.heap c).kind from rfl, hk] at hk'; cases hk'
    | lit v =>
      simp [occurs] at h
      obtain ⟨rfl, rfl⟩ := h
      exact ⟨Effect.refl hinv _ _, rfl, fun _ => rfl, rfl, fun _ b hb => by cases hb⟩
    | cls n gs hs =>
      rw [occurs] at h
      obtain ⟨h1, h2, h3, h4, h5⟩ := ih st a gs r st' hinv hh.1 h
      refine ⟨h1.mono (fun P x _ => x) (fun P _ y b hb => y b (.gs hb)), h2, h3, h4, ?_⟩
      intro hr b hb hu
      cases hb with
      | gs hb => exact h5 hr b hb hu
      | hs hb => exact absurd hb (hh.2.noReach b)
    | nil =>
      simp [occurs] at h
      obtain ⟨rfl, rfl⟩ := h
      exact ⟨Effect.refl hinv _ _, rfl, fun _ => rfl, rfl, fun _ b hb => by cases hb⟩
    | cons t ts =>
      rw [occurs] at h
      split at h
      · cases h
      · rename_i st1 h1
        simp at h
        obtain ⟨rfl, rfl⟩ := h
        obtain ⟨h1, h2, h3, h4, h5⟩ := ih st a t true _ hinv hh.1 h1
        exact ⟨h1.mono (fun P x _ => x) (fun P _ y b hb => y b (.hd hb)), h2, h3, h4, by simp⟩
      · rename_i st1 h1
        obtain ⟨h1, h2, h3, h4, h5⟩ := ih st a t false _ hinv hh.1 h1
        obtain ⟨g1, g2, g3, g4, g5⟩ := ih st1 a ts r _ h1.inv hh.2 h
        refine ⟨?_, g2.trans h2, fun b => (g3 b).trans (h3 b), g4.trans h4, ?_⟩
        · exact (h1.mono (fun P x _ => x) (fun P _ y b hb => y b (.hd hb))).trans g1 (fun P x _ => x)
            (fun P _ y b hb => y b (.tl hb))
        · intro hr b hb hu
          cases hb with
          | hd hb =>
            obtain ⟨p, q⟩ := h5 rfl b hb hu
            exact ⟨p, Int.le_trans (g1.level b) q⟩
          | tl hb =>
            have hu1 : (st1.heap b).kind = .unbound := by
              rw [show (st1.heap b).kind = kinds st1.heap b from rfl, h2]; exact hu
            obtain ⟨p, q⟩ := g5 hr b (by rw [h2]; exact hb) hu1
            rw [h1.ids b, h1.ids a] at p
            exact ⟨p, by omega⟩

theorem adjustStatic_effect {f : Nat} {st : St} {a : Nat} {t : Ty} {r : Bool} {st' : St}
    (hinv : Inv L st.heap) (h : adjustStatic true f st a t = some (r, st')) :
    Effect L st st' (.link a) t ∧ kinds st'.heap = kinds st.heap := by
  unfold adjustStatic at h
  split at h
  · cases h
  · split at h
    · simp at h; obtain ⟨-, rfl⟩ := h; exact ⟨Effect.refl hinv _ _, rfl⟩
    · split at h
      · rw [if_pos rfl] at h
        simp only [Option.some.injEq, Prod.mk.injEq] at h
        obtain ⟨-, rfl⟩ := h
        exact ⟨Effect.cell hinv rfl rfl (Int.le_refl _) (fun _ => rfl)
          (fun x hx => hinv.wf.traits a x hx) (Or.inl .here), kinds_set_same _ _ _ rfl⟩
      · simp at h; obtain ⟨-, rfl⟩ := h; exact ⟨Effect.refl hinv _ _, rfl⟩

/-- Linking a variable. -/
theorem setLink_effect {f : Nat} {st : St} {a : Nat} {t : Ty} {s : Int} {st' : St} (hinv : Inv L st.heap)
    (hh : HiddenClosed t) (hk : (st.heap a).kind = .unbound)
    (ha : VarsIn (kinds st.heap) t (· ≠ a))
    (hl : VarsIn (kinds st.heap) t (fun b => (st.heap b).level ≤ (st.heap a).level))
    (h : setLink true f st a t = some (s, st')) :
    s = 0 ∧ Effect L st st' (.link a) t ∧ SimT (kinds st'.heap) (fun a => (st.heap a).id) (.link a) t := by
  unfold setLink at h
  rw [if_pos rfl] at h
  split at h
  · cases h
  · rename_i t' hf
    simp only [Option.some.injEq, Prod.mk.injEq] at h
    obtain ⟨rfl, rfl⟩ := h
    obtain ⟨f1, f2, f3, f4⟩ := follow_spec hf
    have hh' := f4 hh hinv.wf.hidden
    have ha' : ¬ Reach (kinds st.heap) t' a := fun hr => ha a (f2 a hr) hk rfl
    have hkk : kinds (st.heap.set a { st.heap a with kind := .link t' }) = linkTo (kinds st.heap) a t' := by
      funext b
      by_cases hb : b = a
      · subst hb; simp [kinds, Heap.set, linkTo]
      · simp [kinds, Heap.set, linkTo, hb]
    have hext := linkTo_ext (k := kinds st.heap) hk t'
    have e1 : Effect L st ⟨st.heap.set a { st.heap a with kind := .link t' },
        { st.undo with linked := st.undo.linked ++ [a] }⟩ (.link a) t := by
      have hlev : ∀ b, (st.heap.set a { st.heap a with kind := .link t' } b).level = (st.heap b).level := by
        intro b
        by_cases hb : b = a
        · subst hb; simp [Heap.set]
        · simp [Heap.set, hb]
      have hidd : ∀ b, (st.heap.set a { st.heap a with kind := .link t' } b).id = (st.heap b).id := by
        intro b
        by_cases hb : b = a
        · subst hb; simp [Heap.set]
        · simp [Heap.set, hb]
      have hunb : ∀ b, (st.heap.set a { st.heap a with kind := .link t' } b).kind = .unbound →
          (st.heap b).kind = .unbound := by
        intro b hb
        refine hext.unbound (a := b) ?_
        rw [← hkk]; exact hb
      refine ⟨⟨⟨?_, ?_, ?_⟩, ?_, ?_⟩, ?_, hidd, fun b => Int.le_of_eq (hlev b), ?_, ?_⟩
      · intro x y hx hy e
        rw [hidd, hidd] at e
        exact hinv.wf.ids x y (hunb x hx) (hunb y hy) e
      · intro x y hy
        apply hinv.wf.traits x y
        by_cases hx : x = a
        · subst hx; simpa [Heap.set] using hy
        · simpa [Heap.set, hx] using hy
      · intro x y hy
        by_cases hx : x = a
        · subst hx
          simp [Heap.set] at hy
          subst hy
          exact hh'
        · exact hinv.wf.hidden x y (by simpa [Heap.set, hx] using hy)
      · change Acyclic (kinds (st.heap.set a _))
        rw [hkk]
        exact linkTo_acyclic hinv.acyclic ha'
      · intro hL x y b hx hb hu
        change Reach (kinds (st.heap.set a _)) y b at hb
        rw [hkk] at hb
        change (st.heap.set a _ b).level ≤ (st.heap.set a _ x).level
        rw [hlev, hlev]
        have hu' := hunb b hu
        have hta : Reach (kinds st.heap) t' b → (st.heap b).level ≤ (st.heap a).level :=
          fun hr => hl b (f2 b hr) hu'
        by_cases hxa : x = a
        · subst hxa
          simp [Heap.set] at hx
          subst hx
          rcases linkTo_reach hb with hb | hb <;> exact hta hb
        · have hx' : (st.heap x).kind = .link y := by simpa [Heap.set, hxa] using hx
          by_cases hya : Reach (kinds st.heap) y a
          · have h1 := hinv.levels hL x y a hx' hya hk
            rcases linkTo_reach hb with hb | hb
            · exact hinv.levels hL x y b hx' hb hu'
            · exact Int.le_trans (hta hb) h1
          · -- `a` is not met from `y`
            have hstay : ∀ X, ¬ Reach (kinds st.heap) X a → ∀ c, Reach (linkTo (kinds st.heap) a t') X c →
                Reach (kinds st.heap) X c := by
              intro X hX c hc
              induction hc with
              | here => exact .here
              | @fol d v c hd _ ih =>
                have hda : d ≠ a := by rintro rfl; exact hX .here
                simp only [linkTo, if_neg hda] at hd
                exact .fol hd (ih (fun hr => hX (.fol hd hr)))
              | gs _ ih => exact .gs (ih (fun hr => hX (.gs hr)))
              | hs _ ih => exact .hs (ih (fun hr => hX (.hs hr)))
              | hd _ ih => exact .hd (ih (fun hr => hX (.hd hr)))
              | tl _ ih => exact .tl (ih (fun hr => hX (.tl hr)))
            exact hinv.levels hL x y b hx' (hstay y hya b hb) hu'
      · rw [hkk]; exact hext
      · intro P _ hP X hX
        rw [hkk]
        exact linkTo_varsIn hk (fun b hb hu => hP b (f2 b hb) hu) hX
      · intro b hb h1 _
        have : b ≠ a := by rintro rfl; exact h1 b .here hb rfl
        simp [Heap.set, this]
    have e2 : Effect L ⟨st.heap.set a { st.heap a with kind := .link t' },
          { st.undo with linked := st.undo.linked ++ [a] }⟩
        (passTrait ⟨st.heap.set a { st.heap a with kind := .link t' },
          { st.undo with linked := st.undo.linked ++ [a] }⟩ a t') t' t' ∧
        kinds (passTrait ⟨st.heap.set a { st.heap a with kind := .link t' },
          { st.undo with linked := st.undo.linked ++ [a] }⟩ a t').heap =
        kinds (st.heap.set a { st.heap a with kind := .link t' }) := by
      unfold passTrait
      split
      · rename_i b
        split
        · exact ⟨Effect.cell e1.inv rfl rfl (Int.le_refl _) (fun _ => rfl)
            (fun x hx => e1.inv.wf.traits a x hx) (Or.inl .here), kinds_set_same _ _ _ rfl⟩
        · exact ⟨Effect.refl e1.inv _ _, rfl⟩
      · exact ⟨Effect.refl e1.inv _ _, rfl⟩
    refine ⟨rfl, e1.trans e2.1 (fun P _ y b hb hu => y b (f2 b hb) hu)
      (fun P _ y b hb hu => y b (f2 b hb) hu), ?_⟩
    rw [e2.2, hkk]
    intro r s hr hs
    rw [f1 _ hext] at hs
    have : linkTo (kinds st.heap) a t' a = .link t' := by simp [linkTo]
    cases hr with
    | var h => rw [this] at h; cases h
    | gen h => rw [this] at h; cases h
    | fol h hr => rw [this] at h; cases h; rw [hr.det hs]; exact Sim.refl _ _ _

/-- What the recursive call is assumed to do. -/
def Sound (L : Prop) (rec : St → Ty → Ty → Option (Int × St)) : Prop :=
  ∀ st t u s st', Inv L st.heap → HiddenClosed t → HiddenClosed u → rec st t u = some (s, st') →
    Effect L st st' t u ∧ -1 ≤ s ∧
    (s ≠ -1 → SimT (kinds st'.heap) (fun a => (st.heap a).id) t u)

theorem ids_eq {st st' : St} {t u : Ty} (e : Effect L st st' t u) :
    (fun a => (st'.heap a).id) = fun a => (st.heap a).id := funext e.ids

theorem bindVar_sound {rec : St → Ty → Ty → Option (Int × St)} (hrec : Sound L rec) {f : Nat} {st : St}
    {a : Nat} {t : Ty} {s : Int} {st' : St} (hinv : Inv L st.heap) (hh : HiddenClosed t)
    (h : bindVar rec true f st a t = some (s, st')) :
    Effect L st st' (.link a) t ∧ -1 ≤ s ∧
    (s ≠ -1 → SimT (kinds st'.heap) (fun a => (st.heap a).id) (.link a) t) := by
  unfold bindVar at h
  split at h
  · cases h
  · rename_i st1 h1
    simp at h
    obtain ⟨rfl, rfl⟩ := h
    exact ⟨(occurs_effect _ _ _ _ _ _ hinv hh h1).1, by omega, by omega⟩
  · rename_i st1 h1
    obtain ⟨o1, o2, o3, o4, o5⟩ := occurs_effect _ _ _ _ _ _ hinv hh h1
    split at h
    · cases h
    · rename_i s2 st2 h2
      -- the trait
      have key : Effect L st1 st2 t .nil ∧ -1 ≤ s2 := by
        split at h2
        · simp at h2
          obtain ⟨rfl, rfl⟩ := h2
          exact ⟨Effect.refl o1.inv _ _, by omega⟩
        · rename_i tr htr
          have hcl := o1.inv.wf.traits a tr htr
          unfold traitUnify at h2
          split at h2
          · cases h2
          · split at h2
            · simp at h2; obtain ⟨rfl, rfl⟩ := h2; exact ⟨Effect.refl o1.inv _ _, by omega⟩
            · simp at h2; obtain ⟨rfl, rfl⟩ := h2; exact ⟨Effect.refl o1.inv _ _, by omega⟩
          · obtain ⟨r1, r2, -⟩ := hrec _ _ _ _ _ o1.inv hh hcl.hidden h2
            exact ⟨r1.mono (fun P x _ => x) (fun P _ _ => hcl.varsIn P), r2⟩
      obtain ⟨k1, k2⟩ := key
      have hst2 : Effect L st st2 (.link a) t := o1.trans k1 (fun P _ y => y)
        (fun P _ _ b hb => by cases hb)
      split at h
      · simp at h
        obtain ⟨rfl, rfl⟩ := h
        exact ⟨hst2, by omega, by omega⟩
      · split at h
        · cases h
        · rename_i hs2 hk2
          have hk2 : (st2.heap a).kind = .unbound := by simpa using hk2
          have hk1 : (st1.heap a).kind = .unbound := k1.ext.unbound hk2
          have hk0 : (st.heap a).kind = .unbound := o1.ext.unbound hk1
          -- `a` is not met from `t`
          have hna : VarsIn (kinds st1.heap) t (· ≠ a) := by
            intro b hb hu
            rw [o2] at hb hu
            have := (o5 rfl b hb hu).1
            rintro rfl
            exact this rfl
          have hna2 : VarsIn (kinds st2.heap) t (· ≠ a) :=
            k1.vars _ hna (fun b hb => by cases hb) t hna
          have hlv : VarsIn (kinds st1.heap) t (fun b => (st1.heap b).level ≤ (st1.heap a).level) := by
            intro b hb hu
            rw [o2] at hb hu
            have := (o5 rfl b hb hu).2
            omega
          have hlv2 : VarsIn (kinds st2.heap) t (fun b => (st2.heap b).level ≤ (st2.heap a).level) := by
            have := k1.vars _ hlv (fun b hb => by cases hb) t hlv
            have hfa := k1.frame a hk1 hna (fun b hb => by cases hb)
            intro b hb hu
            have h1 := this b hb hu
            have h2 := k1.level b
            rw [hfa]
            omega
          obtain ⟨l1, l2, l3⟩ := setLink_effect k1.inv hh hk2 hna2 hlv2 h
          subst l1
          refine ⟨hst2.trans l2 (fun P x _ => x) (fun P _ y => y), by omega, fun _ => ?_⟩
          rw [← ids_eq hst2]
          exact l3

theorem unifyVar_sound {rec : St → Ty → Ty → Option (Int × St)} (hrec : Sound L rec) {f : Nat} {st : St}
    {a : Nat} {t : Ty} {s : Int} {st' : St} (hinv : Inv L st.heap) (hh : HiddenClosed t)
    (ha : ∀ u, (st.heap a).kind ≠ .link u)
    (h : unifyVar rec true f st a t = some (s, st')) :
    Effect L st st' (.link a) t ∧ -1 ≤ s ∧
    (s ≠ -1 → SimT (kinds st'.heap) (fun a => (st.heap a).id) (.link a) t) := by
  unfold unifyVar at h
  split at h
  · cases h
  · rename_i st1 h1
    simp at h
    obtain ⟨rfl, rfl⟩ := h
    exact ⟨(adjustStatic_effect hinv h1).1, by omega, by omega⟩
  · rename_i st1 h1
    obtain ⟨e1, e2⟩ := adjustStatic_effect hinv h1
    have hk1 : ∀ b, (st1.heap b).kind = (st.heap b).kind := fun b => congrFun e2 b
    -- from `st1` on
    suffices hmain : Effect L st1 st' (.link a) t ∧ -1 ≤ s ∧
        (s ≠ -1 → SimT (kinds st'.heap) (fun a => (st1.heap a).id) (.link a) t) by
      obtain ⟨m1, m2, m3⟩ := hmain
      refine ⟨e1.trans m1 (fun P x _ => x) (fun P _ y => y), m2, fun hs => ?_⟩
      rw [← ids_eq e1]
      exact m3 hs
    split at h
    · rename_i b
      split at h
      · rename_i t2 hkb
        obtain ⟨r1, r2, r3⟩ := hrec _ _ _ _ _ e1.inv (e1.inv.wf.hidden b t2 hkb) (hiddenLink _) h
        refine ⟨r1.mono (fun P _ y c hc => y c (.fol hkb hc)) (fun P x _ => x), r2, fun hs => ?_⟩
        intro r s hr hs'
        have hb' := r1.ext.link b t2 hkb
        cases hs' with
        | var hv => rw [hb'] at hv; cases hv
        | gen hv => rw [hb'] at hv; cases hv
        | fol hv hs' => rw [hb'] at hv; cases hv; exact (r3 hs).symm _ _ hr hs'
      · rename_i hnl
        have hnl' : ∀ u, (st1.heap b).kind ≠ .link u := fun u hu => hnl u hu
        split at h
        · simp at h
          obtain ⟨rfl, rfl⟩ := h
          exact ⟨Effect.refl e1.inv _ _, by omega, by omega⟩
        · rename_i hkeq
          have hkeq : (st1.heap a).kind = (st1.heap b).kind := by simpa using hkeq
          split at h
          · rename_i hid
            simp at h
            obtain ⟨rfl, rfl⟩ := h
            refine ⟨Effect.refl e1.inv _ _, by omega, fun _ => ?_⟩
            cases hka : (st1.heap a).kind with
            | unbound =>
              have hab := e1.inv.wf.ids a b hka (by rw [← hkeq]; exact hka) hid
              subst hab
              intro r s hr hs
              rw [hr.det hs]
              exact Sim.refl _ _ _
            | generic =>
              have hkb : (st1.heap b).kind = .generic := by rw [← hkeq]; exact hka
              intro r s hr hs
              have hka' : kinds st1.heap a = .generic := hka
              have hkb' : kinds st1.heap b = .generic := hkb
              cases hr with
              | var hv => rw [hka'] at hv; cases hv
              | fol hv _ => rw [hka'] at hv; cases hv
              | gen _ =>
                cases hs with
                | var hv => rw [hkb'] at hv; cases hv
                | fol hv _ => rw [hkb'] at hv; cases hv
                | gen _ => exact .gen hka' hkb' hid
            | link u => exact absurd (by rw [← hk1]; exact hka) (ha u)
          · split at h
            · rw [if_pos rfl] at h
              simp at h
              obtain ⟨rfl, rfl⟩ := h
              exact ⟨Effect.refl e1.inv _ _, by omega, by omega⟩
            · split at h
              · obtain ⟨r1, r2, r3⟩ := hrec _ _ _ _ _ e1.inv (hiddenLink _) (hiddenLink _) h
                exact ⟨r1.mono (fun P _ y => y) (fun P x _ => x), r2, fun hs => (r3 hs).symm⟩
              · exact bindVar_sound hrec e1.inv hh h
    · split at h
      · simp at h
        obtain ⟨rfl, rfl⟩ := h
        exact ⟨Effect.refl e1.inv _ _, by omega, by omega⟩
      · exact bindVar_sound hrec e1.inv hh h

/-- `t` is the class `n`, possibly as a literal type. -/
def AsClass (t : Ty) (n : String) (gs hs : Ty) : Prop :=
  t = .cls n gs hs ∨ ∃ v, t = .lit v ∧ n = v.name ∧ gs = .nil ∧ hs = .nil

theorem AsClass.reach {t : Ty} {n : String} {gs hs : Ty} (h : AsClass t n gs hs) {k : Kinds} {P : Nat → Prop}
    (hP : VarsIn k t P) : VarsIn k gs P ∧ VarsIn k hs P := by
  rcases h with rfl | ⟨v, rfl, rfl, rfl, rfl⟩
  · exact ⟨fun b hb => hP b (.gs hb), fun b hb => hP b (.hs hb)⟩
  · exact ⟨fun b hb => (by cases hb), fun b hb => (by cases hb)⟩

theorem AsClass.hidden {t : Ty} {n : String} {gs hs : Ty} (h : AsClass t n gs hs) (hh : HiddenClosed t) :
    HiddenClosed gs ∧ HiddenClosed hs := by
  rcases h with rfl | ⟨v, rfl, rfl, rfl, rfl⟩
  · exact ⟨hh.1, hh.2.hidden⟩
  · exact ⟨trivial, trivial⟩

theorem Lit.name_inj_kind {v w : Lit} (h : v.name = w.name) : v.kind = w.kind := by
  cases v <;> cases w <;> simp_all [Lit.name, Lit.kind]

theorem Lit.name_ne_Int (v : Lit) : v.name ≠ "Int" := by cases v <;> simp [Lit.name]

theorem AsClass.isInt {t : Ty} {gs hs : Ty} (h : AsClass t "int" gs hs) : IsInt t := by
  rcases h with rfl | ⟨v, rfl, hn, rfl, rfl⟩
  · exact Or.inl ⟨_, _, rfl⟩
  · cases v with
    | int v => exact Or.inr ⟨v, rfl⟩
    | str s => simp [Lit.name] at hn
    | bool b => simp [Lit.name] at hn

theorem unifyClass_sound {rec : St → Ty → Ty → Option (Int × St)} (hrec : Sound L rec) {st : St}
    {this that : Ty} {n : String} {gs hs : Ty} {n2 : String} {gs2 hs2 : Ty} {s : Int} {st' : St}
    (hinv : Inv L st.heap) (h1 : AsClass this n gs hs) (h2 : AsClass that n2 gs2 hs2)
    (hh1 : HiddenClosed this) (hh2 : HiddenClosed that)
    (hlit : ∀ v w, this = .lit v → that = .lit w → v.kind ≠ w.kind)
    (h : unifyClass rec st this that n gs hs n2 gs2 hs2 = some (s, st')) :
    Effect L st st' this that ∧ -1 ≤ s ∧
    (s ≠ -1 → SimT (kinds st'.heap) (fun a => (st.heap a).id) this that) := by
  unfold unifyClass at h
  split at h
  · obtain ⟨r1, r2, r3⟩ := hrec _ _ _ _ _ hinv hh2 hh1 h
    exact ⟨r1.mono (fun P _ y => y) (fun P x _ => x), r2, fun hs => (r3 hs).symm⟩
  · split at h
    · rename_i hn
      obtain ⟨rfl, rfl⟩ := hn
      split at h
      · rename_i g gs'
        rcases h1 with rfl | ⟨v, rfl, hv, -, -⟩
        · obtain ⟨r1, r2, r3⟩ := hrec _ _ _ _ _ hinv hh1.1.1 (hiddenLit _) h
          refine ⟨r1.mono (fun P x _ b hb => x b (.gs (.hd hb))) (fun P _ _ b hb => by cases hb), r2,
            fun hs => ?_⟩
          intro r q hr hq
          cases hr with
          | cls x y => cases x with | cons x1 x2 => exact .int2 (h2.isInt.res hq) (r3 hs _ _ x1 .lit)
        · exact absurd hv.symm (Lit.name_ne_Int v)
      · cases h
    · split at h
      · cases h
      · split at h
        · simp at h
          obtain ⟨rfl, rfl⟩ := h
          exact ⟨Effect.refl hinv _ _, by omega, by omega⟩
        · rename_i hnn
          have hnn : n = n2 := by simpa using hnn
          subst hnn
          split at h
          · simp at h
            obtain ⟨rfl, rfl⟩ := h
            exact ⟨Effect.refl hinv _ _, by omega, by omega⟩
          · split at h
            · cases h
            · rename_i s1 st1 r1
              obtain ⟨a1, a2, a3⟩ := hrec _ _ _ _ _ hinv (h1.hidden hh1).1 (h2.hidden hh2).1 r1
              have e1 : Effect L st st1 this that := a1.mono (fun P x _ => (h1.reach x).1)
                (fun P _ y => (h2.reach y).1)
              split at h
              · simp at h
                obtain ⟨rfl, rfl⟩ := h
                exact ⟨e1, by omega, by omega⟩
              · rename_i hs1
                split at h
                · cases h
                · rename_i s2 st2 r2
                  obtain ⟨b1, b2, b3⟩ := hrec _ _ _ _ _ a1.inv (h1.hidden hh1).2 (h2.hidden hh2).2 r2
                  have e2 : Effect L st st2 this that := e1.trans b1 (fun P x _ => (h1.reach x).2)
                    (fun P _ y => (h2.reach y).2)
                  split at h
                  · simp at h
                    obtain ⟨rfl, rfl⟩ := h
                    exact ⟨e2, by omega, by omega⟩
                  · rename_i hs2
                    simp at h
                    obtain ⟨rfl, rfl⟩ := h
                    refine ⟨e2, by omega, fun _ => ?_⟩
                    have g1 := (a3 hs1).ext a1.inv.acyclic b1.ext
                    have g2 := b3 hs2
                    rw [ids_eq a1] at g2
                    intro r q hr hq
                    rcases h1 with rfl | ⟨v, rfl, rfl, rfl, rfl⟩
                    · cases hr with
                      | cls x y =>
                        rcases h2 with rfl | ⟨w, rfl, rfl, rfl, rfl⟩
                        · cases hq with | cls x' y' => exact .cls (g1 _ _ x x') (g2 _ _ y y')
                        · cases hq
                          have hx := g1 _ _ x .nil
                          have hy := g2 _ _ y .nil
                          rw [hx.nil_right, hy.nil_right]
                          exact .clsLit
                    · cases hr
                      rcases h2 with rfl | ⟨w, rfl, hvw, rfl, rfl⟩
                      · cases hq with
                        | cls x' y' =>
                          have hx := g1 _ _ .nil x'
                          have hy := g2 _ _ .nil y'
                          rw [hx.symm.nil_right, hy.symm.nil_right]
                          exact .litCls
                      · exact absurd (Lit.name_inj_kind hvw) (hlit v w rfl rfl)

/-- Replacing the second type by what it is linked to. -/
theorem Sound.follow {f : Nat} {st st' : St} {this t t' : Ty} {s : Int} (hf : follow f st.heap t = some t')
    (h : Effect L st st' this t' ∧ -1 ≤ s ∧
      (s ≠ -1 → SimT (kinds st'.heap) (fun a => (st.heap a).id) this t')) :
    Effect L st st' this t ∧ -1 ≤ s ∧
      (s ≠ -1 → SimT (kinds st'.heap) (fun a => (st.heap a).id) this t) := by
  obtain ⟨f1, f2, -, -⟩ := follow_spec hf
  obtain ⟨h1, h2, h3⟩ := h
  refine ⟨h1.mono (fun P x _ => x) (fun P _ y b hb => y b (f2 b hb)), h2, fun hs => ?_⟩
  intro r q hr hq
  exact h3 hs r q hr ((f1 _ h1.ext q).1 hq)

theorem unify_sound : ∀ f, Sound L (unify true f) := by
  intro f
  induction f with
  | zero => intro st t u s st' _ _ _ h; simp [unify] at h
  | succ f ih =>
    intro st t u s st' hinv ht hu h
    cases t with
    | link a =>
      rw [unify] at h
      split at h
      · rename_i t1 hk
        obtain ⟨r1, r2, r3⟩ := ih _ _ _ _ _ hinv (hinv.wf.hidden a t1 hk) hu h
        refine ⟨r1.mono (fun P x _ b hb => x b (.fol hk hb)) (fun P _ y => y), r2, fun hs => ?_⟩
        intro r q hr hq
        have hk' := r1.ext.link a t1 hk
        cases hr with
        | var hv => rw [hk'] at hv; cases hv
        | gen hv => rw [hk'] at hv; cases hv
        | fol hv hr => rw [hk'] at hv; cases hv; exact r3 hs _ _ hr hq
      · rename_i hk
        exact unifyVar_sound ih hinv hu (fun u hu => hk u hu) h
    | lit v =>
      rw [unify] at h
      split at h
      · cases h
      · rename_i w hf
        refine Sound.follow hf ?_
        split at h
        · simp at h
          obtain ⟨rfl, rfl⟩ := h
          refine ⟨Effect.refl hinv _ _, by split <;> omega, ?_⟩
          intro hs
          split at hs
          · rename_i hvw
            subst hvw
            intro r q hr hq
            cases hr
            cases hq
            exact .lit
          · omega
        · rename_i hkk
          exact unifyClass_sound ih hinv (Or.inr ⟨v, rfl, rfl, rfl, rfl⟩) (Or.inr ⟨w, rfl, rfl, rfl, rfl⟩)
            trivial trivial (by rintro v' w' h1 h2; cases h1; cases h2; exact hkk) h
      · rename_i n gs hs hf
        refine Sound.follow hf ?_
        have hh := (follow_spec hf).2.2.2 hu hinv.wf.hidden
        exact unifyClass_sound ih hinv (Or.inr ⟨v, rfl, rfl, rfl, rfl⟩) (Or.inl rfl)
            trivial hh (by intro v' w' _ h2; cases h2) h
      · obtain ⟨r1, r2, r3⟩ := ih _ _ _ _ _ hinv hu (hiddenLit _) h
        exact ⟨r1.mono (fun P _ y => y) (fun P x _ => x), r2, fun hs => (r3 hs).symm⟩
      · cases h
    | cls n gs hs =>
      rw [unify] at h
      split at h
      · cases h
      · rename_i w hf
        refine Sound.follow hf ?_
        exact unifyClass_sound ih hinv (Or.inl rfl) (Or.inr ⟨w, rfl, rfl, rfl, rfl⟩)
            ht trivial (by intro v' w' h1 _; cases h1) h
      · rename_i n2 gs2 hs2 hf
        refine Sound.follow hf ?_
        have hh := (follow_spec hf).2.2.2 hu hinv.wf.hidden
        exact unifyClass_sound ih hinv (Or.inl rfl) (Or.inl rfl) ht hh (by intro v' w' h1 _; cases h1) h
      · obtain ⟨r1, r2, r3⟩ := ih _ _ _ _ _ hinv hu ht h
        exact ⟨r1.mono (fun P _ y => y) (fun P x _ => x), r2, fun hs => (r3 hs).symm⟩
      · cases h
    | nil =>
      cases u with
      | nil =>
        simp [unify] at h
        obtain ⟨rfl, rfl⟩ := h
        refine ⟨Effect.refl hinv _ _, by omega, fun _ r q hr hq => ?_⟩
        cases hr
        cases hq
        exact .nil
      | _ => simp [unify] at h
    | cons t ts =>
      cases u with
      | cons u us =>
        rw [unify] at h
        split at h
        · cases h
        · rename_i s1 st1 r1
          obtain ⟨a1, a2, a3⟩ := ih _ _ _ _ _ hinv ht.1 hu.1 r1
          have e1 : Effect L st st1 (.cons t ts) (.cons u us) :=
            a1.mono (fun P x _ b hb => x b (.hd hb)) (fun P _ y b hb => y b (.hd hb))
          split at h
          · simp at h
            obtain ⟨rfl, rfl⟩ := h
            exact ⟨e1, by omega, by omega⟩
          · rename_i hs1
            split at h
            · cases h
            · rename_i s2 st2 r2
              obtain ⟨b1, b2, b3⟩ := ih _ _ _ _ _ a1.inv ht.2 hu.2 r2
              have e2 : Effect L st st2 (.cons t ts) (.cons u us) :=
                e1.trans b1 (fun P x _ b hb => x b (.tl hb)) (fun P _ y b hb => y b (.tl hb))
              split at h
              · simp at h
                obtain ⟨rfl, rfl⟩ := h
                exact ⟨e2, by omega, by omega⟩
              · rename_i hs2
                simp at h
                obtain ⟨rfl, rfl⟩ := h
                refine ⟨e2, by omega, fun _ => ?_⟩
                have g1 := (a3 hs1).ext a1.inv.acyclic b1.ext
                have g2 := b3 hs2
                rw [ids_eq a1] at g2
                intro r q hr hq
                cases hr with
                | cons x y => cases hq with | cons x' y' => exact .cons (g1 _ _ x x') (g2 _ _ y y')
      | _ => simp [unify] at h

end Codon.Unify
