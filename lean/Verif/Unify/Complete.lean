import Verif.Unify.Lemmas
/-!
# Unification finds a solution whenever there is one

A *solution* gives every variable a closed type so that every link is an equation.
-/
namespace Codon.Unify

/-- Types without links.  Generics are told apart by their number. -/
inductive Term where
  | gen (id : Int)
  | lit (v : Lit)
  | cls (name : String) (gs hs : Term)
  | nil
  | cons (t ts : Term)
  deriving DecidableEq, Repr

/-- The type with all variables replaced. -/
def inst (σ : Nat → Term) : Ty → Term
  | .link a => σ a
  | .lit v => .lit v
  | .cls n gs hs => .cls n (inst σ gs) (inst σ hs)
  | .nil => .nil
  | .cons t ts => .cons (inst σ t) (inst σ ts)

/-- A literal or a class. -/
def Term.Proper : Term → Prop
  | .lit _ => True
  | .cls _ _ _ => True
  | _ => False

/-- Not a list of generics. -/
def Term.NoList : Term → Prop
  | .nil => False
  | .cons _ _ => False
  | _ => True

def Term.kind : Term → LitKind
  | .lit v => v.kind
  | _ => .runtime

/-- `σ` is a solution of the links in the heap: a variable stands for a literal type or a class, a generic for
itself, and a link for what it is linked to. -/
structure Solves (σ : Nat → Term) (h : Heap) : Prop where
  noList : ∀ a, (σ a).NoList
  var : ∀ a, (h a).kind = .unbound → (σ a).Proper
  gen : ∀ a, (h a).kind = .generic → σ a = .gen (h a).id
  link : ∀ a t, (h a).kind = .link t → σ a = inst σ t

/-- `σ` respects the static kinds: a static variable stands for a literal type of its kind, and variables that
stand for one type are of one kind.  All solutions do when no variable is static, and so do the solutions in
which only the static variables stand for literal types. -/
structure KindsOk (σ : Nat → Term) (h : Heap) : Prop where
  kind : ∀ a, (h a).kind = .unbound → (h a).sk = .runtime ∨ (h a).sk = (σ a).kind
  same : ∀ a b, (h a).kind = .unbound → (h b).kind = .unbound → σ a = σ b → (h a).sk = (h b).sk

/-- Heaps without traits. -/
structure Plain (h : Heap) : Prop where
  ids : ∀ a b, (h a).kind = .unbound → (h b).kind = .unbound → (h a).id = (h b).id → a = b
  traits : ∀ a, (h a).kind = .unbound → (h a).trait = none
  gens : ∀ a b, (h a).kind = .generic → (h b).kind = .generic → (h a).id = (h b).id → (h a).sk = (h b).sk

structure Good (σ : Nat → Term) (h : Heap) : Prop where
  plain : Plain h
  solves : Solves σ h
  kinds : KindsOk σ h

/-- The number of constructors. -/
def Term.sz : Term → Nat
  | .cls _ gs hs => gs.sz + hs.sz + 1
  | .cons t ts => t.sz + ts.sz + 1
  | _ => 1

theorem inst_noList {σ : Nat → Term} {h : Heap} (hs : Solves σ h) {t : Ty} (ht : (inst σ t).NoList ↔ False) :
    t = .nil ∨ ∃ x xs, t = .cons x xs := by
  cases t with
  | link a => exact absurd (hs.noList a) (by simpa [inst] using ht)
  | lit v => simp [inst, Term.NoList] at ht
  | cls n gs hs => simp [inst, Term.NoList] at ht
  | nil => exact Or.inl rfl
  | cons x xs => exact Or.inr ⟨x, xs, rfl⟩

theorem size_eq {σ : Nat → Term} {h : Heap} (hs : Solves σ h) : ∀ (t u : Ty), inst σ t = inst σ u → t.size = u.size := by
  intro t
  induction t with
  | cons x xs _ ih =>
    intro u e
    rcases inst_noList hs (t := u) (by rw [← e]; simp [inst, Term.NoList]) with rfl | ⟨y, ys, rfl⟩
    · simp [inst] at e
    · simp only [inst, Term.cons.injEq] at e
      simp [Ty.size, ih ys e.2]
  | nil =>
    intro u e
    rcases inst_noList hs (t := u) (by rw [← e]; simp [inst, Term.NoList]) with rfl | ⟨y, ys, rfl⟩
    · rfl
    · simp [inst] at e
  | link a =>
    intro u e
    cases u with
    | cons y ys => exact absurd (hs.noList a) (by simp only [inst] at e; rw [e]; simp [Term.NoList])
    | _ => rfl
  | lit v =>
    intro u e
    cases u with
    | cons y ys => simp [inst] at e
    | _ => rfl
  | cls n gs hs' _ _ =>
    intro u e
    cases u with
    | cons y ys => simp [inst] at e
    | _ => rfl

theorem follow_inst {σ : Nat → Term} {h : Heap} (hs : Solves σ h) : ∀ (f : Nat) (t t' : Ty),
    follow f h t = some t' → inst σ t' = inst σ t ∧ (∀ b, t' = .link b → ∀ u, (h b).kind ≠ .link u) := by
  intro f
  induction f with
  | zero => intro t t' hf; simp [follow] at hf
  | succ f ih =>
    intro t t' hf
    cases t with
    | link a =>
      rw [follow] at hf
      split at hf
      · rename_i u hk
        obtain ⟨e1, e2⟩ := ih u t' hf
        exact ⟨by rw [e1]; exact (hs.link a u hk).symm, e2⟩
      · rename_i hk
        simp only [Option.some.injEq] at hf
        subst hf
        refine ⟨rfl, ?_⟩
        intro b hb u hu
        cases hb
        exact hk u hu
    | lit v => simp [follow] at hf; subst hf; simp
    | cls n gs hs => simp [follow] at hf; subst hf; simp
    | nil => simp [follow] at hf; subst hf; simp
    | cons x xs => simp [follow] at hf; subst hf; simp

/-- Two heaps that differ in levels only. -/
structure LevelEq (h h' : Heap) : Prop where
  kind : ∀ a, (h' a).kind = (h a).kind
  id : ∀ a, (h' a).id = (h a).id
  sk : ∀ a, (h' a).sk = (h a).sk
  trait : ∀ a, (h' a).trait = (h a).trait

theorem LevelEq.refl (h : Heap) : LevelEq h h := ⟨fun _ => rfl, fun _ => rfl, fun _ => rfl, fun _ => rfl⟩

theorem LevelEq.trans {a b c : Heap} (h1 : LevelEq a b) (h2 : LevelEq b c) : LevelEq a c :=
  ⟨fun x => (h2.kind x).trans (h1.kind x), fun x => (h2.id x).trans (h1.id x),
    fun x => (h2.sk x).trans (h1.sk x), fun x => (h2.trait x).trans (h1.trait x)⟩

theorem LevelEq.good {σ : Nat → Term} {h h' : Heap} (e : LevelEq h h') (g : Good σ h) : Good σ h' := by
  obtain ⟨⟨p1, p2, p3⟩, ⟨s1, s2, s3, s4⟩, ⟨k1, k2⟩⟩ := g
  constructor
  · constructor <;> (simp only [e.kind, e.id, e.sk, e.trait]; assumption)
  · constructor <;> (try simp only [e.kind, e.id, e.sk, e.trait]) <;> assumption
  · constructor <;> (simp only [e.kind, e.id, e.sk, e.trait]; assumption)

/-- `occurs` changes levels only, and what it finds is a proper part. -/
theorem occurs_complete {σ : Nat → Term} : ∀ (f : Nat) (st : St) (a : Nat) (t : Ty) (r : Bool) (st' : St),
    Good σ st.heap → (st.heap a).kind = .unbound → occurs true f st a t = some (r, st') →
    LevelEq st.heap st'.heap ∧ (r = true → (σ a).sz ≤ (inst σ t).sz ∧
      ((inst σ t).sz = (σ a).sz → ∃ b, t = .link b)) := by
  intro f
  induction f with
  | zero => intro st a t r st' _ _ h; simp [occurs] at h
  | succ f ih =>
    intro st a t r st' hg ha h
    cases t with
    | link b =>
      rw [occurs] at h
      split at h
      · rename_i hk
        split at h
        · rename_i hid
          simp only [Option.some.injEq, Prod.mk.injEq] at h
          obtain ⟨rfl, rfl⟩ := h
          have := hg.plain.ids b a hk ha hid
          subst this
          exact ⟨LevelEq.refl _, fun _ => ⟨Nat.le_refl _, fun _ => ⟨b, rfl⟩⟩⟩
        · split at h
          · simp only [Option.some.injEq, Prod.mk.injEq] at h
            obtain ⟨rfl, rfl⟩ := h
            refine ⟨⟨?_, ?_, ?_, ?_⟩, by simp⟩ <;> intro x <;> simp only [Heap.set] <;> split <;> simp_all
          · simp only [Option.some.injEq, Prod.mk.injEq] at h
            obtain ⟨rfl, rfl⟩ := h
            exact ⟨LevelEq.refl _, by simp⟩
      · rename_i u hk
        obtain ⟨e1, e2⟩ := ih st a u r st' hg ha h
        refine ⟨e1, fun hr => ?_⟩
        have := hg.solves.link b u hk
        simp only [inst, this]
        exact ⟨(e2 hr).1, fun _ => ⟨b, rfl⟩⟩
      · simp only [Option.some.injEq, Prod.mk.injEq] at h
        obtain ⟨rfl, rfl⟩ := h
        exact ⟨LevelEq.refl _, by simp⟩
    | lit v =>
      simp only [occurs, Option.some.injEq, Prod.mk.injEq] at h
      obtain ⟨rfl, rfl⟩ := h
      exact ⟨LevelEq.refl _, by simp⟩
    | cls n gs hs =>
      rw [occurs] at h
      obtain ⟨e1, e2⟩ := ih st a gs r st' hg ha h
      refine ⟨e1, fun hr => ?_⟩
      have := (e2 hr).1
      simp only [inst, Term.sz]
      exact ⟨by omega, fun _ => by omega⟩
    | nil =>
      simp only [occurs, Option.some.injEq, Prod.mk.injEq] at h
      obtain ⟨rfl, rfl⟩ := h
      exact ⟨LevelEq.refl _, by simp⟩
    | cons x xs =>
      rw [occurs] at h
      split at h
      · cases h
      · rename_i st1 h1
        simp only [Option.some.injEq, Prod.mk.injEq] at h
        obtain ⟨rfl, rfl⟩ := h
        obtain ⟨e1, e2⟩ := ih st a x true _ hg ha h1
        refine ⟨e1, fun hr => ?_⟩
        have := (e2 hr).1
        simp only [inst, Term.sz]
        exact ⟨by omega, fun _ => by omega⟩
      · rename_i st1 h1
        obtain ⟨e1, _⟩ := ih st a x false _ hg ha h1
        obtain ⟨e3, e4⟩ := ih st1 a xs r st' (e1.good hg) (by rw [e1.kind, ha]) h
        refine ⟨e1.trans e3, fun hr => ?_⟩
        have := (e4 hr).1
        simp only [inst, Term.sz]
        exact ⟨by omega, fun _ => by omega⟩

/-- Linking an unbound variable to a followed type of the same meaning keeps the solution. -/
theorem setLink_complete {σ : Nat → Term} {f : Nat} {st : St} {a : Nat} {t : Ty} {s : Int} {st' : St}
    (hg : Good σ st.heap) (ha : (st.heap a).kind = .unbound) (he : σ a = inst σ t)
    (h : setLink true f st a t = some (s, st')) : 0 ≤ s ∧ Good σ st'.heap := by
  unfold setLink at h
  simp only [if_true] at h
  split at h
  · cases h
  · rename_i t' hf
    simp only [Option.some.injEq, Prod.mk.injEq] at h
    obtain ⟨rfl, rfl⟩ := h
    refine ⟨Int.le_refl 0, ?_⟩
    have hfi := (follow_inst hg.solves f t t' hf).1
    have hpt : ∀ st2 : St, (st2.heap a).trait = none → passTrait st2 a t' = st2 := by
      intro st2 h2
      unfold passTrait
      split <;> simp [h2]
    rw [hpt _ (by simp [Heap.set, hg.plain.traits a ha])]
    have hset : ∀ x, (st.heap.set a { st.heap a with kind := .link t' }) x =
        if x = a then { st.heap a with kind := .link t' } else st.heap x := fun x => rfl
    constructor
    · constructor
      · intro x y hx hy e
        simp only [hset] at hx hy e
        split at hx <;> split at hy <;> simp_all
        exact hg.plain.ids x y hx hy e
      · intro x hx
        simp only [hset] at hx ⊢
        split at hx <;> simp_all
        exact hg.plain.traits x hx
      · intro x y hx hy e
        simp only [hset] at hx hy e ⊢
        split at hx <;> split at hy <;> simp_all
        exact hg.plain.gens x y hx hy e
    · constructor
      · exact hg.solves.noList
      · intro x hx
        simp only [hset] at hx
        split at hx <;> simp_all
        exact hg.solves.var x hx
      · intro x hx
        simp only [hset] at hx ⊢
        split at hx <;> simp_all
        exact hg.solves.gen x hx
      · intro x u hx
        simp only [hset] at hx
        split at hx
        · simp only [Kind.link.injEq] at hx
          subst hx
          subst x
          rw [he, hfi]
        · exact hg.solves.link x u hx
    · constructor
      · intro x hx
        simp only [hset] at hx ⊢
        split at hx <;> simp_all
        exact hg.kinds.kind x hx
      · intro x y hx hy e
        simp only [hset] at hx hy ⊢
        split at hx <;> split at hy <;> simp_all
        exact hg.kinds.same x y hx hy e

theorem bindVar_complete {σ : Nat → Term} {rec : St → Ty → Ty → Option (Int × St)} {f : Nat} {st : St} {a : Nat}
    {t : Ty} {s : Int} {st' : St} (hg : Good σ st.heap) (ha : (st.heap a).kind = .unbound)
    (he : σ a = inst σ t)
    (hl : ∀ b, t = .link b → (st.heap b).kind = .unbound ∧ (st.heap a).id ≠ (st.heap b).id)
    (h : bindVar rec true f st a t = some (s, st')) : 0 ≤ s ∧ Good σ st'.heap := by
  unfold bindVar at h
  split at h
  · cases h
  · rename_i st1 ho
    exfalso
    obtain ⟨b, rfl⟩ := ((occurs_complete f st a t true st1 hg ha ho).2 rfl).2 (by rw [he])
    obtain ⟨hk, hne⟩ := hl b rfl
    cases f with
    | zero => simp [occurs] at ho
    | succ f =>
      rw [occurs, hk] at ho
      simp only [if_neg (Ne.symm hne)] at ho
      split at ho <;> simp at ho
  · rename_i st1 ho
    obtain ⟨e, _⟩ := occurs_complete f st a t false st1 hg ha ho
    have hg1 := e.good hg
    have ha1 : (st1.heap a).kind = .unbound := by rw [e.kind, ha]
    rw [hg1.plain.traits a ha1] at h
    simp only [ha1, ne_eq, not_true_eq_false, if_false] at h
    exact setLink_complete hg1 ha1 he (by simpa using h)

/-! ### A variable and a literal type -/

/-- Some links of `t` followed. -/
inductive Fol (k : Kinds) : Ty → Ty → Prop
  | refl {t} : Fol k t t
  | step {a u t} : k a = .link u → Fol k u t → Fol k (.link a) t

theorem follow_fol (f : Nat) (h : Heap) (t t' : Ty) (hf : follow f h t = some t') : Fol (kinds h) t t' := by
  induction f generalizing t with
  | zero => simp [follow] at hf
  | succ f ih =>
    cases t with
    | link a =>
      rw [follow] at hf
      split at hf
      · rename_i u hk
        exact .step hk (ih u hf)
      · simp only [Option.some.injEq] at hf; subst hf; exact .refl
    | lit v => simp [follow] at hf; subst hf; exact .refl
    | cls n gs hs => simp [follow] at hf; subst hf; exact .refl
    | nil => simp [follow] at hf; subst hf; exact .refl
    | cons x xs => simp [follow] at hf; subst hf; exact .refl

/-- A type that is not a link that can be followed. -/
def Final (k : Kinds) (t : Ty) : Prop := ∀ a, t = .link a → ∀ u, k a ≠ .link u

theorem Fol.follow {h : Heap} {t t' : Ty} (hf : Fol (kinds h) t t') (ht : Final (kinds h) t') :
    ∀ (f : Nat) (t2 : Ty), follow f h t = some t2 → t2 = t' := by
  induction hf with
  | @refl t =>
    intro f t2 h2
    cases f with
    | zero => simp [Unify.follow] at h2
    | succ f =>
      cases t with
      | link a =>
        rw [Unify.follow] at h2
        split at h2
        · rename_i u hk
          exact absurd hk (ht a rfl u)
        · simpa using h2.symm
      | lit v => simpa [Unify.follow] using h2.symm
      | cls n gs hs => simpa [Unify.follow] using h2.symm
      | nil => simpa [Unify.follow] using h2.symm
      | cons x xs => simpa [Unify.follow] using h2.symm
  | step hk _ ih =>
    intro f t2 h2
    cases f with
    | zero => simp [Unify.follow] at h2
    | succ f =>
      rw [Unify.follow] at h2
      have hk' := hk
      simp only [kinds] at hk'
      rw [hk'] at h2
      exact ih ht f t2 h2

theorem fol_link_unbound {k : Kinds} {a b : Nat} (h : Fol k (.link a) (.link b)) (ha : ∀ u, k a ≠ .link u) : a = b := by
  cases h with
  | refl => rfl
  | step hk _ => exact absurd hk (ha _)

/-- The heap with `a` linked to the literal type. -/
def bound (h : Heap) (a : Nat) (v : Lit) : Heap := h.set a { h a with kind := .link (.lit v), sk := v.kind }

theorem bound_set (h : Heap) (a : Nat) (v : Lit) (k : LitKind) :
    bound (h.set a { h a with sk := k }) a v = bound h a v := by
  funext x
  simp only [bound, Heap.set]
  split <;> simp_all

theorem bindVar_lit {rec : St → Ty → Ty → Option (Int × St)} {f : Nat} {st : St} {a : Nat} {v : Lit} {s : Int}
    {st' : St} (ha : (st.heap a).kind = .unbound) (ht : (st.heap a).trait = none) (hsk : (st.heap a).sk = v.kind)
    (h : bindVar rec true f st a (.lit v) = some (s, st')) : s = 0 ∧ st'.heap = bound st.heap a v := by
  cases f with
  | zero => simp [bindVar, occurs] at h
  | succ f =>
    simp only [bindVar, occurs, ht, ha, setLink, follow, passTrait] at h
    simp at h
    obtain ⟨rfl, rfl⟩ := h
    refine ⟨rfl, ?_⟩
    funext x
    simp only [bound, Heap.set]
    split <;> simp_all

theorem unify_lit (a : Nat) (v : Lit) : ∀ (f : Nat) (st : St) (t u : Ty) (s : Int) (st' : St),
    (st.heap a).kind = .unbound → (st.heap a).trait = none →
    ((st.heap a).sk = .runtime ∨ (st.heap a).sk = v.kind) →
    (Fol (kinds st.heap) t (.link a) ∧ Fol (kinds st.heap) u (.lit v) ∨
      Fol (kinds st.heap) t (.lit v) ∧ Fol (kinds st.heap) u (.link a)) →
    unify true f st t u = some (s, st') → s = 0 ∧ st'.heap = bound st.heap a v := by
  intro f
  induction f with
  | zero => intro st t u s st' _ _ _ _ h; simp [unify] at h
  | succ f ih =>
    intro st t u s st' ha htr hsk hfol h
    have hfa : Final (kinds st.heap) (.link a) := by
      intro b hb u hu
      cases hb
      simp only [kinds] at hu
      rw [ha] at hu
      cases hu
    have hfv : Final (kinds st.heap) (.lit v) := by intro b hb; cases hb
    cases t with
    | link c =>
      rw [unify] at h
      split at h
      · rename_i t1 hk
        refine ih st t1 u s st' ha htr hsk ?_ h
        rcases hfol with ⟨h1, h2⟩ | ⟨h1, h2⟩
        · cases h1 with
          | refl => rw [ha] at hk; cases hk
          | step hk' h1 =>
            simp only [kinds] at hk'
            rw [hk] at hk'
            cases hk'
            exact Or.inl ⟨h1, h2⟩
        · cases h1 with
          | step hk' h1 =>
            simp only [kinds] at hk'
            rw [hk] at hk'
            cases hk'
            exact Or.inr ⟨h1, h2⟩
      · rename_i hk
        rcases hfol with ⟨h1, h2⟩ | ⟨h1, h2⟩
        swap
        · cases h1 with
          | step hk' _ => exact absurd hk' (hk _)
        have := fol_link_unbound h1 hk
        subst this
        unfold unifyVar adjustStatic staticKind at h
        split at h
        · cases h
        · rename_i st1 h3
          exfalso
          split at h3
          · cases h3
          · rename_i k h4
            have hkv : k = v.kind := by
              split at h4
              · cases h4
              · rename_i w hw
                have := h2.follow hfv f _ hw
                cases this
                simpa using h4.symm
              · rename_i b hw
                have := h2.follow hfv f _ hw
                cases this
              · rename_i w _ _ hw
                have := h2.follow hfv f _ hw
                subst this
                simp_all
            rcases hsk with hsk | hsk
            · rw [hsk] at h3
              split at h3 <;> simp at h3
            · rw [hsk, hkv] at h3
              simp at h3
        · rename_i st1 h3
          have hst1 : bound st1.heap c v = bound st.heap c v ∧ kinds st1.heap = kinds st.heap ∧
              (st1.heap c).sk = v.kind ∧ (st1.heap c).trait = none := by
            split at h3
            · cases h3
            · rename_i k h4
              have hkv : k = v.kind := by
                split at h4
                · cases h4
                · rename_i w hw
                  have := h2.follow hfv f _ hw
                  cases this
                  simpa using h4.symm
                · rename_i b hw
                  have := h2.follow hfv f _ hw
                  cases this
                · rename_i w _ _ hw
                  have := h2.follow hfv f _ hw
                  subst this
                  simp_all
              subst hkv
              split at h3
              · rename_i hs
                simp at h3
                subst h3
                exact ⟨rfl, rfl, hs, htr⟩
              · split at h3
                · simp at h3
                  subst h3
                  refine ⟨bound_set _ _ _ _, ?_, ?_, ?_⟩
                  · funext x
                    simp only [kinds, Heap.set]
                    split <;> simp_all
                  · simp [Heap.set]
                  · simpa [Heap.set] using htr
                · simp at h3
          obtain ⟨b1, b2, b3, b4⟩ := hst1
          have ha1 : (st1.heap c).kind = .unbound := by
            have := congrFun b2 c
            simp only [kinds] at this
            rw [this, ha]
          rw [← b1]
          cases u with
          | link b =>
            cases h2 with
            | step hk' h2' =>
              have hk1 : (st1.heap b).kind = .link _ := (congrFun b2 b).trans hk'
              simp only [hk1] at h
              exact ih st1 _ (.link c) s st' ha1 b4 (Or.inr b3) (Or.inr ⟨by rw [b2]; exact h2', .refl⟩) h
          | lit w =>
            cases h2
            simp only [ha1] at h
            exact bindVar_lit ha1 b4 b3 (by simpa using h)
          | cls n gs hs => cases h2
          | nil => cases h2
          | cons x xs => cases h2
    | lit w =>
      rcases hfol with ⟨h1, _⟩ | ⟨h1, h2⟩
      · cases h1
      cases h1
      rw [unify] at h
      split at h
      · cases h
      · rename_i w hw
        cases h2.follow hfa f _ hw
      · rename_i n gs hs hw
        cases h2.follow hfa f _ hw
      · exact ih st u (.lit v) s st' ha htr hsk (Or.inl ⟨h2, .refl⟩) h
      · cases h
    | cls n gs hs => rcases hfol with ⟨h1, _⟩ | ⟨h1, _⟩ <;> cases h1
    | nil => rcases hfol with ⟨h1, _⟩ | ⟨h1, _⟩ <;> cases h1
    | cons x xs => rcases hfol with ⟨h1, _⟩ | ⟨h1, _⟩ <;> cases h1

theorem bound_good {σ : Nat → Term} {h : Heap} {a : Nat} {v : Lit} (hg : Good σ h)
    (ha : (h a).kind = .unbound) (he : σ a = .lit v) : Good σ (bound h a v) := by
  have hset : ∀ x, bound h a v x = if x = a then { h a with kind := .link (.lit v), sk := v.kind } else h x :=
    fun x => rfl
  constructor
  · constructor
    · intro x y hx hy e
      simp only [hset] at hx hy e
      split at hx <;> split at hy <;> simp_all
      exact hg.plain.ids x y hx hy e
    · intro x hx
      simp only [hset] at hx ⊢
      split at hx <;> simp_all
      exact hg.plain.traits x hx
    · intro x y hx hy e
      simp only [hset] at hx hy e ⊢
      split at hx <;> split at hy <;> simp_all
      exact hg.plain.gens x y hx hy e
  · constructor
    · exact hg.solves.noList
    · intro x hx
      simp only [hset] at hx
      split at hx <;> simp_all
      exact hg.solves.var x hx
    · intro x hx
      simp only [hset] at hx ⊢
      split at hx <;> simp_all
      exact hg.solves.gen x hx
    · intro x u hx
      simp only [hset] at hx
      split at hx
      · simp only [Kind.link.injEq] at hx
        subst hx
        subst x
        rw [he]
        rfl
      · exact hg.solves.link x u hx
  · constructor
    · intro x hx
      simp only [hset] at hx ⊢
      split at hx <;> simp_all
      exact hg.kinds.kind x hx
    · intro x y hx hy e
      simp only [hset] at hx hy ⊢
      split at hx <;> split at hy <;> simp_all
      exact hg.kinds.same x y hx hy e

/-! ### The main induction -/

def Complete (σ : Nat → Term) (rec : St → Ty → Ty → Option (Int × St)) : Prop :=
  ∀ (st : St) (t u : Ty) (s : Int) (st' : St), Good σ st.heap → inst σ t = inst σ u →
    rec st t u = some (s, st') → 0 ≤ s ∧ Good σ st'.heap

theorem unifyClass_complete {σ : Nat → Term} {rec : St → Ty → Ty → Option (Int × St)} (hrec : Complete σ rec)
    {st : St} {this that : Ty} {n : String} {gs hs : Ty} {gs2 hs2 : Ty} {s : Int} {st' : St}
    (hg : Good σ st.heap) (e1 : inst σ gs = inst σ gs2) (e2 : inst σ hs = inst σ hs2)
    (h : unifyClass rec st this that n gs hs n gs2 hs2 = some (s, st')) : 0 ≤ s ∧ Good σ st'.heap := by
  have hn : ¬ (n = "int" ∧ n = "Int") := by
    rintro ⟨h1, h2⟩
    have := h1.symm.trans h2
    simp at this
  unfold unifyClass at h
  rw [if_neg hn, if_neg hn] at h
  by_cases hx : (n = "unrealized_type" ∧ n = n) ∨ n = "__NTuple__" ∨ n = "__NTuple__"
  · rw [if_pos hx] at h; cases h
  rw [if_neg hx, if_neg (by simp), if_neg (by simp [size_eq hg.solves _ _ e1])] at h
  split at h
  · cases h
  · rename_i s1 st1 h1
    obtain ⟨hs1, hg1⟩ := hrec st gs gs2 s1 st1 hg e1 h1
    split at h
    · omega
    · split at h
      · cases h
      · rename_i s2 st2 h2
        obtain ⟨hs2, hg2⟩ := hrec st1 hs hs2 s2 st2 hg1 e2 h2
        split at h
        · omega
        · simp only [Option.some.injEq, Prod.mk.injEq] at h
          obtain ⟨rfl, rfl⟩ := h
          exact ⟨by omega, hg2⟩

theorem unifyVar_complete {σ : Nat → Term} {rec : St → Ty → Ty → Option (Int × St)} (hrec : Complete σ rec)
    {f : Nat} {st : St} {a : Nat} {t : Ty} {s : Int} {st' : St} (hg : Good σ st.heap)
    (ha : ∀ u, (st.heap a).kind ≠ .link u) (he : σ a = inst σ t)
    (hsk : staticKind f st.heap t = some (st.heap a).sk)
    (h : unifyVar rec true f st a t = some (s, st')) : 0 ≤ s ∧ Good σ st'.heap := by
  have ha2 : (st.heap a).kind = .unbound ∨ (st.heap a).kind = .generic := by
    cases hk : (st.heap a).kind with
    | unbound => exact Or.inl rfl
    | generic => exact Or.inr rfl
    | link u => exact absurd hk (ha u)
  have hna : ∀ t', σ a = inst σ t' → (∀ b, t' ≠ .link b) → (st.heap a).kind = .unbound := by
    intro t' e hb
    rcases ha2 with h | h
    · exact h
    · have := hg.solves.gen a h
      rw [this] at e
      cases t' with
      | link b => exact absurd rfl (hb b)
      | _ => simp [inst] at e
  unfold unifyVar adjustStatic at h
  rw [hsk] at h
  simp only [if_true] at h
  cases t with
  | link b =>
    simp only at h
    have he' : σ a = σ b := he
    split at h
    · rename_i t2 hk
      exact hrec st t2 (.link a) s st' hg (by rw [← hg.solves.link b t2 hk]; exact he'.symm) h
    · rename_i hk
      have hb2 : (st.heap b).kind = .unbound ∨ (st.heap b).kind = .generic := by
        cases hkb : (st.heap b).kind with
        | unbound => exact Or.inl rfl
        | generic => exact Or.inr rfl
        | link u => exact absurd hkb (hk u)
      have hsame : (st.heap a).kind = (st.heap b).kind := by
        rcases ha2 with h1 | h1 <;> rcases hb2 with h2 | h2
        · rw [h1, h2]
        · have := hg.solves.var a h1
          rw [he', hg.solves.gen b h2] at this
          exact this.elim
        · have := hg.solves.var b h2
          rw [← he', hg.solves.gen a h1] at this
          exact this.elim
        · rw [h1, h2]
      simp only [hsame, ne_eq, not_true_eq_false, if_false] at h
      split at h
      · simp only [Option.some.injEq, Prod.mk.injEq] at h
        obtain ⟨rfl, rfl⟩ := h
        exact ⟨by decide, hg⟩
      · rename_i hid
        rcases hb2 with h2 | h2
        · rw [if_neg (by rw [h2]; simp)] at h
          split at h
          · exact hrec st (.link b) (.link a) s st' hg he'.symm h
          · refine bindVar_complete hg (hsame.trans h2) he ?_ h
            intro c hc
            cases hc
            exact ⟨h2, hid⟩
        · exfalso
          have e1 := hg.solves.gen a (hsame.trans h2)
          have e2 := hg.solves.gen b h2
          rw [e1, e2] at he'
          simp only [Term.gen.injEq] at he'
          exact hid he'
  | lit v =>
    have := hna _ he (by intro b hb; cases hb)
    simp only [this] at h
    exact bindVar_complete hg this he (by intro b hb; cases hb) (by simpa using h)
  | cls n gs hs =>
    have := hna _ he (by intro b hb; cases hb)
    simp only [this] at h
    exact bindVar_complete hg this he (by intro b hb; cases hb) (by simpa using h)
  | nil => exact absurd (hg.solves.noList a) (by rw [he]; simp [inst, Term.NoList])
  | cons x xs => exact absurd (hg.solves.noList a) (by rw [he]; simp [inst, Term.NoList])

theorem unify_complete (σ : Nat → Term) : ∀ (f : Nat), Complete σ (unify true f) := by
  intro f
  induction f with
  | zero => intro st t u s st' _ _ h; simp [unify] at h
  | succ f ih =>
    intro st t u s st' hg he h
    cases t with
    | link a =>
      have h0 := h
      rw [unify] at h
      split at h
      · rename_i t1 hk
        exact ih st t1 u s st' hg (by rw [← hg.solves.link a t1 hk]; exact he) h
      · rename_i hk
        have he' : σ a = inst σ u := he
        cases hst : staticKind f st.heap u with
        | none => simp [unifyVar, adjustStatic, hst] at h
        | some k =>
          by_cases hka : k = (st.heap a).sk
          · subst hka
            exact unifyVar_complete ih hg hk he' hst h
          · unfold staticKind at hst
            have ha2 : (st.heap a).kind = .unbound ∨ (st.heap a).kind = .generic := by
              cases hk' : (st.heap a).kind with
              | unbound => exact Or.inl rfl
              | generic => exact Or.inr rfl
              | link u => exact absurd hk' (hk u)
            split at hst
            · cases hst
            · rename_i v hf
              simp only [Option.some.injEq] at hst
              subst hst
              have hi := (follow_inst hg.solves f u _ hf).1
              rw [← he'] at hi
              have ha : (st.heap a).kind = .unbound := by
                rcases ha2 with h1 | h1
                · exact h1
                · rw [hg.solves.gen a h1] at hi; simp [inst] at hi
              have hsk : (st.heap a).sk = .runtime ∨ (st.heap a).sk = v.kind := by
                rcases hg.kinds.kind a ha with h1 | h1
                · exact Or.inl h1
                · rw [← hi] at h1; exact Or.inr h1
              obtain ⟨rfl, hb⟩ := unify_lit a v (f + 1) st (.link a) u s st' ha (hg.plain.traits a ha) hsk
                (Or.inl ⟨.refl, follow_fol f _ _ _ hf⟩) h0
              rw [hb]
              exact ⟨Int.le_refl 0, bound_good hg ha (by rw [← hi]; rfl)⟩
            · rename_i b hf
              exfalso
              simp only [Option.some.injEq] at hst
              obtain ⟨hi, hfin⟩ := follow_inst hg.solves f u _ hf
              rw [← he'] at hi
              have hi : σ b = σ a := hi
              have hkb : ∀ u, (st.heap b).kind ≠ .link u := hfin b rfl
              have hb2 : (st.heap b).kind = .unbound ∨ (st.heap b).kind = .generic := by
                cases hk' : (st.heap b).kind with
                | unbound => exact Or.inl rfl
                | generic => exact Or.inr rfl
                | link u => exact absurd hk' (hkb u)
              rcases ha2 with h1 | h1 <;> rcases hb2 with h2 | h2
              · exact hka (by rw [← hst]; exact hg.kinds.same b a h2 h1 hi)
              · have := hg.solves.var a h1
                rw [← hi, hg.solves.gen b h2] at this
                exact this.elim
              · have := hg.solves.var b h2
                rw [hi, hg.solves.gen a h1] at this
                exact this.elim
              · have e1 := hg.solves.gen a h1
                have e2 := hg.solves.gen b h2
                rw [e1, e2] at hi
                simp only [Term.gen.injEq] at hi
                exact hka (by rw [← hst]; exact hg.plain.gens b a h2 h1 hi)
            · rename_i t' hn1 hn2 hf
              exfalso
              simp only [Option.some.injEq] at hst
              subst hst
              have hi := (follow_inst hg.solves f u _ hf).1
              rw [← he'] at hi
              have ha : (st.heap a).kind = .unbound := by
                rcases ha2 with h1 | h1
                · exact h1
                · rw [hg.solves.gen a h1] at hi
                  cases t' with
                  | link b => exact (hn2 b rfl).elim
                  | _ => simp [inst] at hi
              have hkd : (σ a).kind = .runtime := by
                rw [← hi]
                cases t' with
                | link b => exact (hn2 b rfl).elim
                | lit v => exact (hn1 v rfl).elim
                | _ => simp [inst, Term.kind]
              rcases hg.kinds.kind a ha with h1 | h1
              · exact hka h1.symm
              · exact hka (by rw [h1, hkd])
    | lit v =>
      rw [unify] at h
      split at h
      · cases h
      · rename_i w hf
        have hi := (follow_inst hg.solves f u _ hf).1
        rw [← he] at hi
        simp only [inst, Term.lit.injEq] at hi
        subst hi
        simp at h
        obtain ⟨rfl, rfl⟩ := h
        exact ⟨by decide, hg⟩
      · rename_i n gs hs hf
        have hi := (follow_inst hg.solves f u _ hf).1
        rw [← he] at hi
        simp [inst] at hi
      · exact ih st u (.lit v) s st' hg he.symm h
      · cases h
    | cls n gs hs =>
      rw [unify] at h
      split at h
      · cases h
      · rename_i w hf
        have hi := (follow_inst hg.solves f u _ hf).1
        rw [← he] at hi
        simp [inst] at hi
      · rename_i n2 gs2 hs2 hf
        have hi := (follow_inst hg.solves f u _ hf).1
        rw [← he] at hi
        simp only [inst, Term.cls.injEq] at hi
        obtain ⟨rfl, e1, e2⟩ := hi
        exact unifyClass_complete ih hg e1.symm e2.symm h
      · exact ih st u (.cls n gs hs) s st' hg he.symm h
      · cases h
    | nil =>
      cases u with
      | nil =>
        simp only [unify, Option.some.injEq, Prod.mk.injEq] at h
        obtain ⟨rfl, rfl⟩ := h
        exact ⟨Int.le_refl 0, hg⟩
      | _ => simp [unify] at h
    | cons x xs =>
      cases u with
      | cons y ys =>
        simp only [inst, Term.cons.injEq] at he
        rw [unify] at h
        split at h
        · cases h
        · rename_i s1 st1 h1
          obtain ⟨hs1, hg1⟩ := ih st x y s1 st1 hg he.1 h1
          split at h
          · omega
          · split at h
            · cases h
            · rename_i s2 st2 h2
              obtain ⟨hs2, hg2⟩ := ih st1 xs ys s2 st2 hg1 he.2 h2
              split at h
              · omega
              · simp only [Option.some.injEq, Prod.mk.injEq] at h
                obtain ⟨rfl, rfl⟩ := h
                exact ⟨by omega, hg2⟩
      | _ => simp [unify] at h

end Codon.Unify
