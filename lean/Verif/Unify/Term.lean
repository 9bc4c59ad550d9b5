import Verif.Unify.Sound
/-!
# Unification comes to an end
-/
namespace Codon.Unify

/-- Well-formed types (`b = false`) and lists of generics (`b = true`): every class of one name has the same
number of hidden generics, `Int` has a generic, and the classes that are not modelled do not occur. -/
def Wt (ar : String → Nat) : Bool → Ty → Prop
  | false, .link _ => True
  | false, .lit _ => True
  | false, .cls n gs hs => Wt ar true gs ∧ Wt ar true hs ∧ hs.size = ar n ∧ n ≠ "__NTuple__" ∧
      n ≠ "unrealized_type" ∧ (n = "Int" → gs ≠ .nil)
  | true, .nil => True
  | true, .cons t ts => Wt ar false t ∧ Wt ar true ts
  | _, _ => False

/-- The heaps considered: no traits, well-formed types. -/
structure HW (ar : String → Nat) (h : Heap) : Prop where
  traits : ∀ a, (h a).trait = none
  links : ∀ a t, (h a).kind = .link t → Wt ar false t

/-- The number of steps needed to see all of a type. -/
inductive Hgt (k : Kinds) : Ty → Nat → Prop
  | stop {a} : (∀ t, k a ≠ .link t) → Hgt k (.link a) 1
  | fol {a t n} : k a = .link t → Hgt k t n → Hgt k (.link a) (n + 1)
  | lit {v} : Hgt k (.lit v) 3
  | cls {n gs hs x y} : Hgt k gs x → Hgt k hs y → Hgt k (.cls n gs hs) (x + y + 1)
  | nil : Hgt k .nil 1
  | cons {t ts x y} : Hgt k t x → Hgt k ts y → Hgt k (.cons t ts) (x + y + 1)

theorem Res.hgt {k : Kinds} {t r : Ty} (h : Res k t r) : ∃ n, Hgt k t n := by
  induction h with
  | var hk => exact ⟨1, .stop (by rw [hk]; simp)⟩
  | gen hk => exact ⟨1, .stop (by rw [hk]; simp)⟩
  | fol hk _ ih => obtain ⟨n, hn⟩ := ih; exact ⟨_, .fol hk hn⟩
  | lit => exact ⟨_, .lit⟩
  | cls _ _ ih1 ih2 =>
    obtain ⟨n, hn⟩ := ih1
    obtain ⟨m, hm⟩ := ih2
    exact ⟨_, .cls hn hm⟩
  | nil => exact ⟨_, .nil⟩
  | cons _ _ ih1 ih2 =>
    obtain ⟨n, hn⟩ := ih1
    obtain ⟨m, hm⟩ := ih2
    exact ⟨_, .cons hn hm⟩

theorem Hgt.pos {k : Kinds} {t : Ty} {n : Nat} (h : Hgt k t n) : 0 < n := by cases h <;> omega

/-! ### More fuel does no harm -/

theorem follow_mono : ∀ (f : Nat) (h : Heap) (t r : Ty), follow f h t = some r → follow (f + 1) h t = some r := by
  intro f
  induction f with
  | zero => intro h t r hf; simp [follow] at hf
  | succ f ih =>
    intro h t r hf
    cases t with
    | link a =>
      rw [follow] at hf ⊢
      cases hk : (h a).kind with
      | link u => rw [hk] at hf; exact ih h u r hf
      | unbound => rw [hk] at hf; exact hf
      | generic => rw [hk] at hf; exact hf
    | _ => simpa [follow] using hf

theorem staticKind_mono (f : Nat) (h : Heap) (t : Ty) (k : LitKind) (hf : staticKind f h t = some k) :
    staticKind (f + 1) h t = some k := by
  unfold staticKind at hf ⊢
  cases hr : follow f h t with
  | none => rw [hr] at hf; cases hf
  | some r => rw [hr] at hf; rw [follow_mono _ _ _ _ hr]; exact hf

theorem occurs_mono (d : Bool) : ∀ (f : Nat) (st : St) (a : Nat) (t : Ty) (r : Bool × St),
    occurs d f st a t = some r → occurs d (f + 1) st a t = some r := by
  intro f
  induction f with
  | zero => intro st a t r h; simp [occurs] at h
  | succ f ih =>
    intro st a t r h
    cases t with
    | link b =>
      rw [occurs] at h ⊢
      cases hk : (st.heap b).kind with
      | unbound => rw [hk] at h; exact h
      | generic => rw [hk] at h; exact h
      | link u => rw [hk] at h; exact ih _ _ _ _ h
    | lit v => simpa [occurs] using h
    | cls n gs hs => rw [occurs] at h ⊢; exact ih _ _ _ _ h
    | nil => simpa [occurs] using h
    | cons x xs =>
      rw [occurs] at h ⊢
      cases h1 : occurs d f st a x with
      | none => rw [h1] at h; cases h
      | some p =>
        rw [h1] at h
        rw [ih _ _ _ _ h1]
        obtain ⟨b, st1⟩ := p
        cases b with
        | true => exact h
        | false => exact ih _ _ _ _ h

/-- `rec'` knows all the answers of `rec`. -/
def Below (rec rec' : St → Ty → Ty → Option (Int × St)) : Prop :=
  ∀ st t u r, rec st t u = some r → rec' st t u = some r

theorem adjustStatic_mono (d : Bool) (f : Nat) (st : St) (a : Nat) (t : Ty) (r : Bool × St)
    (h : adjustStatic d f st a t = some r) : adjustStatic d (f + 1) st a t = some r := by
  unfold adjustStatic at h ⊢
  cases hk : staticKind f st.heap t with
  | none => rw [hk] at h; cases h
  | some k => rw [hk] at h; rw [staticKind_mono _ _ _ _ hk]; exact h

theorem traitUnify_mono {rec rec' : St → Ty → Ty → Option (Int × St)} (hb : Below rec rec') (f : Nat) (st : St)
    (tr t : Ty) (r : Int × St) (h : traitUnify rec f st tr t = some r) :
    traitUnify rec' (f + 1) st tr t = some r := by
  unfold traitUnify at h ⊢
  cases hk : follow f st.heap t with
  | none => rw [hk] at h; cases h
  | some t' =>
    rw [hk] at h
    rw [follow_mono _ _ _ _ hk]
    cases t' with
    | link b => exact h
    | lit v => exact hb _ _ _ _ h
    | cls n gs hs => exact hb _ _ _ _ h
    | nil => exact hb _ _ _ _ h
    | cons x xs => exact hb _ _ _ _ h

theorem setLink_mono (d : Bool) (f : Nat) (st : St) (a : Nat) (t : Ty) (r : Int × St)
    (h : setLink d f st a t = some r) : setLink d (f + 1) st a t = some r := by
  unfold setLink at h ⊢
  cases d with
  | false => exact h
  | true =>
    simp only [if_true] at h ⊢
    cases hk : follow f st.heap t with
    | none => rw [hk] at h; cases h
    | some t' => rw [hk] at h; rw [follow_mono _ _ _ _ hk]; exact h

theorem bindVar_mono {rec rec' : St → Ty → Ty → Option (Int × St)} (hb : Below rec rec') (d : Bool) (f : Nat)
    (st : St) (a : Nat) (t : Ty) (r : Int × St) (h : bindVar rec d f st a t = some r) :
    bindVar rec' d (f + 1) st a t = some r := by
  unfold bindVar at h ⊢
  cases ho : occurs d f st a t with
  | none => rw [ho] at h; cases h
  | some p =>
    rw [ho] at h
    rw [occurs_mono _ _ _ _ _ _ ho]
    obtain ⟨b, st1⟩ := p
    cases b with
    | true => exact h
    | false =>
      simp only at h ⊢
      have fin : ∀ p : Int × St,
          (if p.1 = -1 then some (-1, p.2) else if (p.2.heap a).kind ≠ .unbound then none
            else setLink d f p.2 a t) = some r →
          (if p.1 = -1 then some (-1, p.2) else if (p.2.heap a).kind ≠ .unbound then none
            else setLink d (f + 1) p.2 a t) = some r := by
        intro p hp
        split
        · rename_i e; rw [if_pos e] at hp; exact hp
        · rename_i e
          rw [if_neg e] at hp
          split
          · rename_i e2; rw [if_pos e2] at hp; exact hp
          · rename_i e2; rw [if_neg e2] at hp; exact setLink_mono _ _ _ _ _ _ hp
      cases htr : (st1.heap a).trait with
      | none =>
        rw [htr] at h
        exact fin (0, st1) h
      | some tr =>
        rw [htr] at h
        simp only at h ⊢
        cases hq : traitUnify rec f st1 tr t with
        | none => rw [hq] at h; cases h
        | some q =>
          rw [hq] at h
          rw [traitUnify_mono hb _ _ _ _ _ hq]
          exact fin q h

theorem unifyVar_mono {rec rec' : St → Ty → Ty → Option (Int × St)} (hb : Below rec rec') (d : Bool) (f : Nat)
    (st : St) (a : Nat) (t : Ty) (r : Int × St) (h : unifyVar rec d f st a t = some r) :
    unifyVar rec' d (f + 1) st a t = some r := by
  unfold unifyVar at h ⊢
  cases ho : adjustStatic d f st a t with
  | none => rw [ho] at h; cases h
  | some p =>
    rw [ho] at h
    rw [adjustStatic_mono _ _ _ _ _ _ ho]
    obtain ⟨b, st1⟩ := p
    cases b with
    | false => exact h
    | true =>
      cases t with
      | link b =>
        simp only at h ⊢
        cases hk : (st1.heap b).kind with
        | link t2 => rw [hk] at h; exact hb _ _ _ _ h
        | unbound =>
          rw [hk] at h
          simp only at h ⊢
          split
          · rename_i e; rw [if_pos e] at h; exact h
          rename_i e; rw [if_neg e] at h
          split
          · rename_i e; rw [if_pos e] at h; exact h
          rename_i e; rw [if_neg e] at h
          rw [if_neg (by simp)] at h ⊢
          split
          · rename_i e; rw [if_pos e] at h; exact hb _ _ _ _ h
          · rename_i e; rw [if_neg e] at h; exact bindVar_mono hb _ _ _ _ _ _ h
        | generic =>
          rw [hk] at h
          simpa using h
      | lit v =>
        simp only at h ⊢
        split at h
        · rename_i e; rw [if_pos e]; exact h
        · rename_i e; rw [if_neg e]; exact bindVar_mono hb _ _ _ _ _ _ h
      | cls n gs hs =>
        simp only at h ⊢
        split at h
        · rename_i e; rw [if_pos e]; exact h
        · rename_i e; rw [if_neg e]; exact bindVar_mono hb _ _ _ _ _ _ h
      | nil =>
        simp only at h ⊢
        split at h
        · rename_i e; rw [if_pos e]; exact h
        · rename_i e; rw [if_neg e]; exact bindVar_mono hb _ _ _ _ _ _ h
      | cons x xs =>
        simp only at h ⊢
        split at h
        · rename_i e; rw [if_pos e]; exact h
        · rename_i e; rw [if_neg e]; exact bindVar_mono hb _ _ _ _ _ _ h

theorem unifyClass_mono {rec rec' : St → Ty → Ty → Option (Int × St)} (hb : Below rec rec') (st : St)
    (this that : Ty) (n : String) (gs hs : Ty) (n2 : String) (gs2 hs2 : Ty) (r : Int × St)
    (h : unifyClass rec st this that n gs hs n2 gs2 hs2 = some r) :
    unifyClass rec' st this that n gs hs n2 gs2 hs2 = some r := by
  unfold unifyClass at h ⊢
  split
  · rename_i e; rw [if_pos e] at h; exact hb _ _ _ _ h
  rename_i e; rw [if_neg e] at h
  split
  · rename_i e; rw [if_pos e] at h
    cases gs with
    | cons g _ => exact hb _ _ _ _ h
    | _ => cases h
  rename_i e; rw [if_neg e] at h
  split
  · rename_i e; rw [if_pos e] at h; cases h
  rename_i e; rw [if_neg e] at h
  split
  · rename_i e; rw [if_pos e] at h; exact h
  rename_i e; rw [if_neg e] at h
  split
  · rename_i e; rw [if_pos e] at h; exact h
  rename_i e; rw [if_neg e] at h
  cases h1 : rec st gs gs2 with
  | none => rw [h1] at h; cases h
  | some p =>
    rw [h1] at h
    rw [hb _ _ _ _ h1]
    obtain ⟨s, st1⟩ := p
    simp only at h ⊢
    split
    · rename_i e; rw [if_pos e] at h; exact h
    rename_i e; rw [if_neg e] at h
    cases h2 : rec st1 hs hs2 with
    | none => rw [h2] at h; cases h
    | some q =>
      rw [h2] at h
      rw [hb _ _ _ _ h2]
      exact h

theorem unify_mono (d : Bool) : ∀ (f : Nat), Below (unify d f) (unify d (f + 1)) := by
  intro f
  induction f with
  | zero => intro st t u r h; simp [unify] at h
  | succ f ih =>
    intro st t u r h
    cases t with
    | link a =>
      rw [unify] at h ⊢
      cases hk : (st.heap a).kind with
      | link t1 => rw [hk] at h; exact ih _ _ _ _ h
      | unbound => rw [hk] at h; exact unifyVar_mono ih _ _ _ _ _ _ h
      | generic => rw [hk] at h; exact unifyVar_mono ih _ _ _ _ _ _ h
    | lit v =>
      rw [unify] at h ⊢
      cases hf : follow f st.heap u with
      | none => rw [hf] at h; cases h
      | some u' =>
        rw [hf] at h
        rw [follow_mono _ _ _ _ hf]
        cases u' with
        | link b => exact ih _ _ _ _ h
        | lit w =>
          simp only at h ⊢
          split
          · rename_i e; rw [if_pos e] at h; exact h
          · rename_i e; rw [if_neg e] at h; exact unifyClass_mono ih _ _ _ _ _ _ _ _ _ _ h
        | cls n gs hs => exact unifyClass_mono ih _ _ _ _ _ _ _ _ _ _ h
        | nil => cases h
        | cons x xs => cases h
    | cls n gs hs =>
      rw [unify] at h ⊢
      cases hf : follow f st.heap u with
      | none => rw [hf] at h; cases h
      | some u' =>
        rw [hf] at h
        rw [follow_mono _ _ _ _ hf]
        cases u' with
        | link b => exact ih _ _ _ _ h
        | lit w => exact unifyClass_mono ih _ _ _ _ _ _ _ _ _ _ h
        | cls n gs hs => exact unifyClass_mono ih _ _ _ _ _ _ _ _ _ _ h
        | nil => cases h
        | cons x xs => cases h
    | nil => cases u <;> simp [unify] at h ⊢; exact h
    | cons x xs =>
      cases u with
      | cons y ys =>
        rw [unify] at h ⊢
        cases h1 : unify d f st x y with
        | none => rw [h1] at h; cases h
        | some p =>
          rw [h1] at h
          rw [ih _ _ _ _ h1]
          obtain ⟨s, st1⟩ := p
          simp only at h ⊢
          split
          · rename_i e; rw [if_pos e] at h; exact h
          rename_i e; rw [if_neg e] at h
          cases h2 : unify d f st1 xs ys with
          | none => rw [h2] at h; cases h
          | some q =>
            rw [h2] at h
            rw [ih _ _ _ _ h2]
            exact h
      | _ => simp [unify] at h

theorem below_le {α : Type} {F : Nat → α} {R : α → Prop} (hm : ∀ f, R (F f) → R (F (f + 1))) {f g : Nat}
    (hfg : f ≤ g) (h : R (F f)) : R (F g) := by
  induction hfg with
  | refl => exact h
  | step _ ih => exact hm _ ih

theorem unify_le (d : Bool) {f g : Nat} (hfg : f ≤ g) : Below (unify d f) (unify d g) := by
  intro st t u r h
  exact below_le (F := fun f => unify d f st t u) (R := fun x => x = some r) (fun f => unify_mono d f st t u r) hfg h

theorem follow_le {f g : Nat} (hfg : f ≤ g) {h : Heap} {t r : Ty} (hf : follow f h t = some r) :
    follow g h t = some r :=
  below_le (F := fun f => follow f h t) (R := fun x => x = some r) (fun f => follow_mono f h t r) hfg hf

theorem occurs_le {d : Bool} {f g : Nat} (hfg : f ≤ g) {st : St} {a : Nat} {t : Ty} {r : Bool × St}
    (hf : occurs d f st a t = some r) : occurs d g st a t = some r :=
  below_le (F := fun f => occurs d f st a t) (R := fun x => x = some r) (fun f => occurs_mono d f st a t r) hfg hf

/-! ### The parts that do not recurse -/

variable {ar : String → Nat}

theorem follow_ends {h : Heap} {t : Ty} {n : Nat} (hn : Hgt (kinds h) t n) (hw : HW ar h) (b : Bool)
    (ht : Wt ar b t) :
    ∃ t', follow n h t = some t' ∧ Wt ar b t' ∧ (∀ a, t' = .link a → ∀ u, (h a).kind ≠ .link u) ∧
      (∀ a, t' = .link a → ∃ c, t = .link c) ∧
      (∀ a, t = .link a → ((h a).kind ≠ .link t') → (∀ u, (h a).kind ≠ .link u) → t' = t) ∧
      ((∀ a, t ≠ .link a) → t' = t) ∧ (∃ m, m ≤ n ∧ Hgt (kinds h) t' m) := by
  induction hn with
  | @stop a hk =>
    have hk' : ∀ u, (h a).kind ≠ .link u := hk
    refine ⟨.link a, ?_, ht, ?_, fun _ _ => ⟨a, rfl⟩, fun _ _ _ _ => rfl, fun _ => rfl, 1, Nat.le_refl _, .stop hk⟩
    · rw [follow]
      cases hka : (h a).kind with
      | link u => exact absurd hka (hk' u)
      | _ => rfl
    · intro c hc u hu
      cases hc
      exact hk' u hu
  | @fol a t n hk hn ih =>
    have hk' : (h a).kind = .link t := hk
    cases b with
    | true => exact ht.elim
    | false =>
      obtain ⟨t', h1, h2, h3, h4, h5, h6, m, hm, h7⟩ := ih (hw.links a t hk')
      refine ⟨t', ?_, h2, h3, fun _ _ => ⟨a, rfl⟩, ?_, fun h => absurd rfl (h a), m, by omega, h7⟩
      · rw [follow, hk']
        exact h1
      · intro c hc _ h8
        cases hc
        exact absurd hk' (h8 t)
  | @lit v =>
    exact ⟨.lit v, by simp [follow], ht, by simp, by simp, by simp, fun _ => rfl, 3, Nat.le_refl _, .lit⟩
  | @cls n gs hs x y h1 h2 _ _ =>
    exact ⟨.cls n gs hs, by simp [follow], ht, by simp, by simp, by simp, fun _ => rfl, _, Nat.le_refl _, .cls h1 h2⟩
  | nil => exact ⟨.nil, by simp [follow], ht, by simp, by simp, by simp, fun _ => rfl, 1, Nat.le_refl _, .nil⟩
  | @cons t ts x y h1 h2 _ _ =>
    exact ⟨.cons t ts, by simp [follow], ht, by simp, by simp, by simp, fun _ => rfl, _, Nat.le_refl _, .cons h1 h2⟩

/-- Nothing but levels and static kinds differ. -/
structure SameKinds (h h' : Heap) : Prop where
  kind : kinds h' = kinds h
  id : ∀ a, (h' a).id = (h a).id
  trait : ∀ a, (h' a).trait = (h a).trait

theorem SameKinds.hw {h h' : Heap} (e : SameKinds h h') (hw : HW ar h) : HW ar h' :=
  ⟨fun a => (e.trait a).trans (hw.traits a), fun a t ha => hw.links a t ((congrFun e.kind a).symm.trans ha)⟩

theorem SameKinds.refl (h : Heap) : SameKinds h h := ⟨rfl, fun _ => rfl, fun _ => rfl⟩

theorem SameKinds.trans {a b c : Heap} (h1 : SameKinds a b) (h2 : SameKinds b c) : SameKinds a c :=
  ⟨h2.kind.trans h1.kind, fun x => (h2.id x).trans (h1.id x), fun x => (h2.trait x).trans (h1.trait x)⟩

theorem occurs_ends {a : Nat} {t : Ty} {n : Nat} : ∀ {k : Kinds}, Hgt k t n → ∀ (st : St), k = kinds st.heap →
    ∃ f b st', occurs true f st a t = some (b, st') ∧ SameKinds st.heap st'.heap := by
  intro k hn
  induction hn with
  | @stop b hk =>
    intro st hst
    subst hst
    have hk' : ∀ u, (st.heap b).kind ≠ .link u := hk
    refine ⟨1, ?_⟩
    rw [occurs]
    cases hkb : (st.heap b).kind with
    | link u => exact absurd hkb (hk' u)
    | generic => exact ⟨_, _, rfl, SameKinds.refl _⟩
    | unbound =>
      simp only
      split
      · exact ⟨_, _, rfl, SameKinds.refl _⟩
      · split
        · refine ⟨_, _, rfl, ?_, ?_, ?_⟩
          · funext x; simp only [kinds, Heap.set]; split <;> simp_all
          · intro x; simp only [Heap.set]; split <;> simp_all
          · intro x; simp only [Heap.set]; split <;> simp_all
        · exact ⟨_, _, rfl, SameKinds.refl _⟩
  | @fol b t n hk hn ih =>
    intro st hst
    have hk' : (st.heap b).kind = .link t := by subst hst; exact hk
    obtain ⟨f, r, st', h1, h2⟩ := ih st hst
    exact ⟨f + 1, r, st', by rw [occurs, hk']; exact h1, h2⟩
  | lit => intro st _; exact ⟨1, false, st, by simp [occurs], SameKinds.refl _⟩
  | cls _ _ ih1 _ =>
    intro st hst
    obtain ⟨f, r, st', h1, h2⟩ := ih1 st hst
    exact ⟨f + 1, r, st', by rw [occurs]; exact h1, h2⟩
  | nil => intro st _; exact ⟨1, false, st, by simp [occurs], SameKinds.refl _⟩
  | cons _ _ ih1 ih2 =>
    intro st hst
    obtain ⟨f, r, st1, h1, h2⟩ := ih1 st hst
    cases r with
    | true => exact ⟨f + 1, true, st1, by rw [occurs, h1], h2⟩
    | false =>
      obtain ⟨g, r, st2, h3, h4⟩ := ih2 st1 (by rw [h2.kind]; exact hst)
      refine ⟨max f g + 1, r, st2, ?_, h2.trans h4⟩
      rw [occurs, occurs_le (Nat.le_max_left f g) h1]
      exact occurs_le (Nat.le_max_right f g) h3

/-- The run ends, in a heap of the considered kind. -/
def Done (ar : String → Nat) (F : Nat → Option (Int × St)) : Prop :=
  ∃ f, ∀ g, f ≤ g → ∃ s st', F g = some (s, st') ∧ HW ar st'.heap

theorem bindVar_ends {rec : Nat → St → Ty → Ty → Option (Int × St)} {st : St} {a : Nat} {t : Ty} {n : Nat}
    (hw : HW ar st.heap) (ha : (st.heap a).kind = .unbound) (ht : Wt ar false t) (hn : Hgt (kinds st.heap) t n) :
    Done ar (fun f => bindVar (rec f) true f st a t) := by
  obtain ⟨f, b, st1, h1, h2⟩ := occurs_ends (a := a) hn st rfl
  have hw1 := h2.hw hw
  cases b with
  | true => exact ⟨f, fun g hg => ⟨-1, st1, by simp only [bindVar, occurs_le hg h1], hw1⟩⟩
  | false =>
    have ha1 : (st1.heap a).kind = .unbound := (congrFun h2.kind a).trans ha
    obtain ⟨t', f1, f2, _⟩ := follow_ends (n := n) (h := st1.heap) (by rw [h2.kind]; exact hn) hw1 false ht
    refine ⟨max f n, fun g hg => ?_⟩
    have hpt : ∀ st2 : St, (st2.heap a).trait = none → passTrait st2 a t' = st2 := by
      intro st2 h2
      unfold passTrait
      split <;> simp [h2]
    refine ⟨0, ⟨st1.heap.set a { st1.heap a with kind := .link t' },
      { st1.undo with linked := st1.undo.linked ++ [a] }⟩, ?_, ?_, ?_⟩
    · simp only [bindVar, occurs_le (Nat.le_trans (Nat.le_max_left f n) hg) h1, hw1.traits a, ha1, setLink,
        follow_le (Nat.le_trans (Nat.le_max_right f n) hg) f1]
      rw [hpt _ (by simp [Heap.set, hw1.traits a])]
      simp
    · intro x
      simp only [Heap.set]
      split
      · exact hw1.traits a
      · exact hw1.traits x
    · intro x u hx
      simp only [Heap.set] at hx
      split at hx
      · simp only [Kind.link.injEq] at hx
        subst hx
        exact f2
      · exact hw1.links x u hx

theorem adjustStatic_ends {st : St} {a : Nat} {t : Ty} {n : Nat} (hw : HW ar st.heap) (ht : Wt ar false t)
    (hn : Hgt (kinds st.heap) t n) :
    ∃ b st1, (∀ g, n ≤ g → adjustStatic true g st a t = some (b, st1)) ∧ SameKinds st.heap st1.heap := by
  obtain ⟨t', f1, -⟩ := follow_ends hn hw false ht
  have hsk : ∃ k, ∀ g, n ≤ g → staticKind g st.heap t = some k := by
    unfold staticKind
    cases t' with
    | lit v => exact ⟨v.kind, fun g hg => by rw [follow_le hg f1]⟩
    | link b => exact ⟨(st.heap b).sk, fun g hg => by rw [follow_le hg f1]⟩
    | _ => exact ⟨.runtime, fun g hg => by rw [follow_le hg f1]⟩
  obtain ⟨k, hk⟩ := hsk
  by_cases h1 : (st.heap a).sk = k
  · exact ⟨true, st, fun g hg => by simp only [adjustStatic, hk g hg, if_pos h1], SameKinds.refl _⟩
  · by_cases h2 : (st.heap a).sk = .runtime
    · refine ⟨true, _, fun g hg => by simp only [adjustStatic, hk g hg, if_neg h1, if_pos h2, if_true]; rfl, ?_, ?_, ?_⟩
      · funext x; simp only [kinds, Heap.set]; split <;> simp_all
      · intro x; simp only [Heap.set]; split <;> simp_all
      · intro x; simp only [Heap.set]; split <;> simp_all
    · exact ⟨false, st, fun g hg => by simp only [adjustStatic, hk g hg, if_neg h1, if_neg h2], SameKinds.refl _⟩

/-! ### The measure -/

/-- How many cells of `S` are unbound. -/
def free (S : List Nat) (k : Kinds) : Nat := (S.filter (fun a => decide (k a = .unbound))).length

theorem free_lt {S : List Nat} {k k' : Kinds} (e : Ext k k') {a : Nat} (ha : a ∈ S) (h1 : k a = .unbound)
    (h2 : k' a ≠ .unbound) : free S k' < free S k := by
  unfold free
  have hle : ∀ L : List Nat, (L.filter (fun a => decide (k' a = .unbound))).length ≤
      (L.filter (fun a => decide (k a = .unbound))).length := by
    intro L
    rw [← List.countP_eq_length_filter, ← List.countP_eq_length_filter]
    apply List.countP_mono_left
    intro x _ hx
    simp only [decide_eq_true_eq] at hx ⊢
    exact e.unbound hx
  obtain ⟨l1, l2, rfl⟩ := List.append_of_mem ha
  rw [List.filter_append, List.filter_append, List.filter_cons_of_neg (by simpa using h2),
    List.filter_cons_of_pos (by simpa using h1)]
  have := hle l1
  have := hle l2
  simp only [List.length_append, List.length_cons]
  omega

/-- The conditions on a call. -/
structure Call (ar : String → Nat) (S : List Nat) (b : Bool) (c m : Nat) (st : St) (t u : Ty) : Prop where
  inv : Inv False st.heap
  hw : HW ar st.heap
  ht : HiddenClosed t
  hu : HiddenClosed u
  wt : Wt ar b t
  wu : Wt ar b u
  vt : VarsIn (kinds st.heap) t (· ∈ S)
  vu : VarsIn (kinds st.heap) u (· ∈ S)
  count : free S (kinds st.heap) = c
  size : b = true → t.size = u.size
  hgt : ∃ x y, Hgt (kinds st.heap) t x ∧ Hgt (kinds st.heap) u y ∧ x + y = m

/-- After a call, either fewer variables are unbound or none was bound. -/
theorem after {S : List Nat} {st st1 : St} {t u : Ty} (e : Effect False st st1 t u)
    (vt : VarsIn (kinds st.heap) t (· ∈ S)) (vu : VarsIn (kinds st.heap) u (· ∈ S)) :
    free S (kinds st1.heap) < free S (kinds st.heap) ∨ kinds st1.heap = kinds st.heap := by
  by_cases hk : kinds st1.heap = kinds st.heap
  · exact Or.inr hk
  · left
    obtain ⟨a, ha⟩ : ∃ a, kinds st1.heap a ≠ kinds st.heap a := by
      by_contra hc
      exact hk (funext fun a => by by_contra h; exact hc ⟨a, h⟩)
    have hua : kinds st.heap a = .unbound := by
      cases hka : kinds st.heap a with
      | unbound => rfl
      | generic => exact absurd ((e.ext.generic a).1 hka) (by rw [← hka]; exact ha)
      | link x => exact absurd (e.ext.link a x hka) (by rw [← hka]; exact ha)
    have haS : a ∈ S := by
      by_contra hS
      apply ha
      have := e.frame a hua (fun b hb hu hba => hS (hba ▸ vt b hb hu)) (fun b hb hu hba => hS (hba ▸ vu b hb hu))
      simp only [kinds, this]
    exact free_lt e.ext haS hua (fun h => ha (h.trans hua.symm))

/-! ### The induction -/

theorem Done.succ {F G : Nat → Option (Int × St)} (hg : Done ar G) (hs : ∀ f, F (f + 1) = G f) : Done ar F := by
  obtain ⟨f, hf⟩ := hg
  refine ⟨f + 1, fun g hgg => ?_⟩
  obtain ⟨g', rfl⟩ : ∃ g', g = g' + 1 := ⟨g - 1, by omega⟩
  rw [hs]
  exact hf g' (by omega)

theorem Done.const {st : St} {s : Int} (hw : HW ar st.heap) : Done ar (fun _ => some (s, st)) :=
  ⟨0, fun _ _ => ⟨s, st, rfl, hw⟩⟩

/-- The answer does not depend on the fuel. -/
theorem Done.answer {st : St} {t u : Ty} (h : Done ar (fun f => unify true f st t u)) :
    ∃ f s st', (∀ g, f ≤ g → unify true g st t u = some (s, st')) ∧ HW ar st'.heap := by
  obtain ⟨f, hf⟩ := h
  obtain ⟨s, st', h1, h2⟩ := hf f (Nat.le_refl _)
  exact ⟨f, s, st', fun g hg => unify_le true hg _ _ _ _ h1, h2⟩

def IHyp (ar : String → Nat) (S : List Nat) (c m : Nat) : Prop :=
  ∀ st b t u c' m', (c' < c ∨ c' = c ∧ m' < m) → Call ar S b c' m' st t u →
    Done ar (fun f => unify true f st t u)

/-- The second call, after a first one on parts of the same types. -/
theorem second {S : List Nat} {c m : Nat} (ih : IHyp ar S c m) {st st1 : St} {t u t2 u2 : Ty} {s : Int} {f : Nat}
    (hc : free S (kinds st.heap) = c) (hinv : Inv False st.heap)
    (ht : HiddenClosed t) (hu : HiddenClosed u)
    (vt : VarsIn (kinds st.heap) t (· ∈ S)) (vu : VarsIn (kinds st.heap) u (· ∈ S))
    (h : unify true f st t u = some (s, st1)) (hw : HW ar st1.heap) {b : Bool}
    (ht2 : HiddenClosed t2) (hu2 : HiddenClosed u2) (wt2 : Wt ar b t2) (wu2 : Wt ar b u2)
    (vt2 : VarsIn (kinds st.heap) t2 (· ∈ S)) (vu2 : VarsIn (kinds st.heap) u2 (· ∈ S))
    (hsz : b = true → t2.size = u2.size)
    (hh : ∃ x y, Hgt (kinds st.heap) t2 x ∧ Hgt (kinds st.heap) u2 y ∧ x + y < m) :
    Done ar (fun f => unify true f st1 t2 u2) := by
  obtain ⟨e, -, -⟩ := unify_sound (L := False) f st t u s st1 hinv ht hu h
  obtain ⟨r1, hr1⟩ := e.inv.acyclic t2
  obtain ⟨r2, hr2⟩ := e.inv.acyclic u2
  obtain ⟨x1, hx1⟩ := hr1.hgt
  obtain ⟨x2, hx2⟩ := hr2.hgt
  rcases after e vt vu with hlt | heq
  · exact ih st1 b t2 u2 _ (x1 + x2) (Or.inl (hc ▸ hlt))
      ⟨e.inv, hw, ht2, hu2, wt2, wu2, e.vars _ vt vu _ vt2, e.vars _ vt vu _ vu2, rfl, hsz, x1, x2, hx1, hx2, rfl⟩
  · obtain ⟨x, y, hx, hy, hxy⟩ := hh
    exact ih st1 b t2 u2 _ (x + y) (Or.inr ⟨by rw [heq]; exact hc, hxy⟩)
      ⟨e.inv, hw, ht2, hu2, wt2, wu2, e.vars _ vt vu _ vt2, e.vars _ vt vu _ vu2, rfl, hsz, x, y,
        by rw [heq]; exact hx, by rw [heq]; exact hy, rfl⟩

/-- A variable against a variable that is not newer. -/
theorem unifyVar_direct {rec : Nat → St → Ty → Ty → Option (Int × St)} {st : St} {a b : Nat}
    (hw : HW ar st.heap) (ha : ∀ u, (st.heap a).kind ≠ .link u) (hb : ∀ u, (st.heap b).kind ≠ .link u)
    (hid : ¬ (st.heap a).id < (st.heap b).id) :
    Done ar (fun f => unifyVar (rec f) true f st a (.link b)) := by
  have hhb : Hgt (kinds st.heap) (.link b) 1 := .stop hb
  obtain ⟨r, st1, h1, h2⟩ := adjustStatic_ends (a := a) (t := .link b) hw trivial hhb
  have hw1 := h2.hw hw
  cases r with
  | false => exact ⟨1, fun g hg => ⟨-1, st1, by simp only [unifyVar, h1 g hg], hw1⟩⟩
  | true =>
    have hkb : (st1.heap b).kind = (st.heap b).kind := congrFun h2.kind b
    have hka : (st1.heap a).kind = (st.heap a).kind := congrFun h2.kind a
    by_cases hk : (st1.heap a).kind = (st1.heap b).kind
    · by_cases hi : (st1.heap a).id = (st1.heap b).id
      · refine ⟨1, fun g hg => ⟨1, st1, ?_, hw1⟩⟩
        simp only [unifyVar, h1 g hg]
        cases hkb' : (st1.heap b).kind with
        | link u => exact absurd (hkb.symm.trans hkb') (hb u)
        | unbound => simp [hk, hkb', hi]
        | generic => simp [hk, hkb', hi]
      · cases hkb' : (st1.heap b).kind with
        | link u => exact absurd (hkb.symm.trans hkb') (hb u)
        | generic =>
          refine ⟨1, fun g hg => ⟨-1, st1, ?_, hw1⟩⟩
          simp only [unifyVar, h1 g hg]
          simp [hk, hkb', hi]
        | unbound =>
          obtain ⟨f, hf⟩ := bindVar_ends (rec := rec) (a := a) (t := .link b) (n := 1) hw1 (hk.trans hkb') trivial
            (by rw [h2.kind]; exact hhb)
          refine ⟨max f 1, fun g hg => ?_⟩
          obtain ⟨s, st', h3, h4⟩ := hf g (by omega)
          refine ⟨s, st', ?_, h4⟩
          simp only [unifyVar, h1 g (by omega)]
          have hid1 : ¬ (st1.heap a).id < (st1.heap b).id := by rw [h2.id, h2.id]; exact hid
          simp [hk, hkb', hi, hid1, h3]
    · refine ⟨1, fun g hg => ⟨-1, st1, ?_, hw1⟩⟩
      simp only [unifyVar, h1 g hg]
      cases hkb' : (st1.heap b).kind with
      | link u => exact absurd (hkb.symm.trans hkb') (hb u)
      | unbound => rw [hkb'] at hk; simp [hk]
      | generic => rw [hkb'] at hk; simp [hk]

theorem unify_link_stop {f : Nat} {st : St} {a : Nat} {t : Ty} (ha : ∀ u, (st.heap a).kind ≠ .link u) :
    unify true (f + 1) st (.link a) t = unifyVar (unify true f) true f st a t := by
  rw [unify]
  cases hk : (st.heap a).kind with
  | link u => exact absurd hk (ha u)
  | _ => rfl

theorem unifyVar_ends {S : List Nat} {c m : Nat} (ih : IHyp ar S c m) {st : St} {a : Nat} {u : Ty}
    (hc : Call ar S false c m st (.link a) u) (ha : ∀ u, (st.heap a).kind ≠ .link u) :
    Done ar (fun f => unifyVar (unify true f) true f st a u) := by
  obtain ⟨x, y, hx, hy, hm⟩ := hc.hgt
  obtain ⟨r, st1, h1, h2⟩ := adjustStatic_ends (a := a) hc.hw hc.wu hy
  have hw1 := h2.hw hc.hw
  have e1 := (adjustStatic_effect hc.inv (h1 y (Nat.le_refl _))).1
  cases r with
  | false => exact ⟨y, fun g hg => ⟨-1, st1, by simp only [unifyVar, h1 g hg], hw1⟩⟩
  | true =>
    have hka : (st1.heap a).kind = (st.heap a).kind := congrFun h2.kind a
    have ha1 : ∀ u, (st1.heap a).kind ≠ .link u := by rw [hka]; exact ha
    have bind : (∀ b, u ≠ .link b) → Done ar (fun f => unifyVar (unify true f) true f st a u) := by
      intro hu
      by_cases hg : (st1.heap a).kind = .generic
      · refine ⟨y, fun g hgy => ⟨-1, st1, ?_, hw1⟩⟩
        simp only [unifyVar, h1 g hgy]
        cases u with
        | link b => exact absurd rfl (hu b)
        | _ => simp [hg]
      · have hub : (st1.heap a).kind = .unbound := by
          cases hk : (st1.heap a).kind with
          | unbound => rfl
          | generic => exact absurd hk hg
          | link x => exact absurd hk (ha1 x)
        obtain ⟨f, hf⟩ := bindVar_ends (rec := fun f => unify true f) (a := a) (t := u) hw1 hub hc.wu
          (by rw [h2.kind]; exact hy)
        refine ⟨max f y, fun g hgy => ?_⟩
        obtain ⟨s, st', h3, h4⟩ := hf g (by omega)
        refine ⟨s, st', ?_, h4⟩
        simp only [unifyVar, h1 g (by omega)]
        cases u with
        | link b => exact absurd rfl (hu b)
        | _ => simp [hub, h3]
    cases u with
    | link b =>
      cases hkb : (st1.heap b).kind with
      | link t2 =>
        have hkb0 : (st.heap b).kind = .link t2 := (congrFun h2.kind b).symm.trans hkb
        have hy2 : ∃ z, Hgt (kinds st.heap) t2 z ∧ z < y := by
          cases hy with
          | stop hk => exact absurd hkb0 (hk t2)
          | fol hk hn =>
            have : (st.heap b).kind = _ := hk
            rw [hkb0] at this
            cases this
            exact ⟨_, hn, by omega⟩
        obtain ⟨z, hz, hzy⟩ := hy2
        obtain ⟨f, hf⟩ := ih st1 false t2 (.link a) c (z + x) (Or.inr ⟨rfl, by omega⟩)
          ⟨e1.inv, hw1, hc.inv.wf.hidden b t2 hkb0, hc.ht, hc.hw.links b t2 hkb0, trivial,
            by rw [h2.kind]; exact fun d hd hu => hc.vu d (.fol hkb0 hd) hu,
            by rw [h2.kind]; exact hc.vt, by rw [h2.kind]; exact hc.count, by simp, z, x,
            by rw [h2.kind]; exact hz, by rw [h2.kind]; exact hx, rfl⟩
        refine ⟨max f y, fun g hg => ?_⟩
        obtain ⟨s, st', h3, h4⟩ := hf g (by omega)
        refine ⟨s, st', ?_, h4⟩
        simp only [unifyVar, h1 g (by omega), hkb]
        exact h3
      | _ =>
        have hb1 : ∀ u, (st1.heap b).kind ≠ .link u := by rw [hkb]; simp
        have hb0 : ∀ u, (st.heap b).kind ≠ .link u := by
          intro u hu
          exact hb1 u ((congrFun h2.kind b).trans hu)
        by_cases hid : (st.heap a).id < (st.heap b).id
        · -- the roles are swapped
          have hsw := unifyVar_direct (rec := fun f => unify true f) (a := b) (b := a) hw1 hb1 ha1
            (by rw [h2.id, h2.id]; omega)
          obtain ⟨f, hf⟩ := Done.succ (F := fun f => unify true f st1 (.link b) (.link a)) hsw
            (fun f => unify_link_stop hb1)
          refine ⟨max f y, fun g hg => ?_⟩
          obtain ⟨s, st', h3, h4⟩ := hf g (by omega)
          have hid1 : (st1.heap a).id < (st1.heap b).id := by rw [h2.id, h2.id]; exact hid
          have hne : ¬ (st1.heap a).id = (st1.heap b).id := by omega
          by_cases hk : (st1.heap a).kind = (st1.heap b).kind
          · by_cases hgen : (st1.heap b).kind = .generic
            · refine ⟨-1, st1, ?_, hw1⟩
              simp only [unifyVar, h1 g (by omega)]
              rw [hgen] at hk ⊢
              simp [hk, hne]
            · have hub : (st1.heap b).kind = .unbound := by
                cases hk' : (st1.heap b).kind with
                | unbound => rfl
                | generic => exact absurd hk' hgen
                | link x => exact absurd hk' (hb1 x)
              refine ⟨s, st', ?_, h4⟩
              simp only [unifyVar, h1 g (by omega)]
              rw [hub] at hk ⊢
              simp [hk, hne, hid1, h3]
          · refine ⟨-1, st1, ?_, hw1⟩
            simp only [unifyVar, h1 g (by omega)]
            rw [hkb] at hk ⊢
            simp [hk]
        · exact unifyVar_direct hc.hw ha hb0 hid
    | lit v => exact bind (by simp)
    | cls n gs hs => exact bind (by simp)
    | nil => exact bind (by simp)
    | cons x xs => exact bind (by simp)

/-- A call whose first type is a link. -/
theorem link_ends {S : List Nat} {c m : Nat} (ih : IHyp ar S c m) {st : St} {a : Nat} {u : Ty}
    (hc : Call ar S false c m st (.link a) u) : Done ar (fun f => unify true f st (.link a) u) := by
  by_cases ha : ∀ u, (st.heap a).kind ≠ .link u
  · exact Done.succ (unifyVar_ends ih hc ha) (fun f => unify_link_stop ha)
  · have : ∃ t1, (st.heap a).kind = .link t1 := by
      by_contra hn
      exact ha (fun u hu => hn ⟨u, hu⟩)
    obtain ⟨t1, hk⟩ := this
    obtain ⟨x, y, hx, hy, hm⟩ := hc.hgt
    have hx2 : ∃ z, Hgt (kinds st.heap) t1 z ∧ z < x := by
      cases hx with
      | stop hk' => exact absurd hk (hk' t1)
      | fol hk' hn =>
        have : (st.heap a).kind = _ := hk'
        rw [hk] at this
        cases this
        exact ⟨_, hn, by omega⟩
    obtain ⟨z, hz, hzx⟩ := hx2
    refine Done.succ (ih st false t1 u c (z + y) (Or.inr ⟨rfl, by omega⟩)
      ⟨hc.inv, hc.hw, hc.inv.wf.hidden a t1 hk, hc.hu, hc.hw.links a t1 hk, hc.wu,
        fun d hd hu => hc.vt d (.fol hk hd) hu, hc.vu, hc.count, by simp, z, y, hz, hy, rfl⟩) ?_
    intro f
    rw [unify, hk]

theorem Call.swap {S : List Nat} {b : Bool} {c m : Nat} {st : St} {t u : Ty} (h : Call ar S b c m st t u) :
    Call ar S b c m st u t := by
  obtain ⟨x, y, hx, hy, hm⟩ := h.hgt
  exact ⟨h.inv, h.hw, h.hu, h.ht, h.wu, h.wt, h.vu, h.vt, h.count, fun hb => (h.size hb).symm, y, x, hy, hx, by omega⟩

/-- A class, or a literal type as a class. -/
structure Cls (ar : String → Nat) (k : Kinds) (S : List Nat) (t : Ty) (n : String) (gs hs : Ty) (x : Nat) : Prop where
  as : AsClass t n gs hs
  hidden : HiddenClosed t
  wgs : Wt ar true gs
  whs : Wt ar true hs
  vars : VarsIn k t (· ∈ S)
  arity : hs.size = ar n
  name1 : n ≠ "__NTuple__"
  name2 : n ≠ "unrealized_type"
  int : n = "Int" → gs ≠ .nil
  hgt : ∃ y z, Hgt k gs y ∧ Hgt k hs z ∧ x = y + z + 1
  wt : Wt ar false t
  thgt : Hgt k t x
  final : ∀ a, t ≠ .link a

theorem unifyClass_ends {S : List Nat} {c m : Nat} (ih : IHyp ar S c m) {st : St} {this that : Ty} {n : String}
    {gs hs : Ty} {n2 : String} {gs2 hs2 : Ty} {x y : Nat} (hinv : Inv False st.heap) (hw : HW ar st.heap)
    (hcnt : free S (kinds st.heap) = c) (hm : x + y = m)
    (c1 : Cls ar (kinds st.heap) S this n gs hs x) (c2 : Cls ar (kinds st.heap) S that n2 gs2 hs2 y) :
    Done ar (fun f => unifyClass (unify true f) st this that n gs hs n2 gs2 hs2) := by
  obtain ⟨x1, x2, hx1, hx2, hx⟩ := c1.hgt
  obtain ⟨y1, y2, hy1, hy2, hy⟩ := c2.hgt
  -- `Int[g]` against `int`
  have int64 : ∀ {this : Ty} {n : String} {gs hs : Ty} {x : Nat}, Cls ar (kinds st.heap) S this n gs hs x →
      n = "Int" → x + 3 ≤ m → ∃ g r, gs = .cons g r ∧
        Done ar (fun f => unify true f st g (.lit (.int 64))) := by
    intro this n gs hs x c1 hn hxm
    have hne := c1.int hn
    have hwg := c1.wgs
    cases gs with
    | nil => exact absurd rfl hne
    | link a => exact hwg.elim
    | lit v => exact hwg.elim
    | cls n' gs' hs' => exact hwg.elim
    | cons g r =>
      refine ⟨g, r, rfl, ?_⟩
      obtain ⟨x1, x2, hx1, hx2, hx⟩ := c1.hgt
      cases hx1 with
      | @cons _ _ p q hp hq =>
        have hh := (c1.as.hidden c1.hidden).1
        have hv := (c1.as.reach c1.vars).1
        exact ih st false g (.lit (.int 64)) c (p + 3) (Or.inr ⟨rfl, by omega⟩)
          ⟨hinv, hw, hh.1, trivial, hwg.1, trivial, fun d hd hu => hv d (.hd hd) hu,
            (fun d hd => by cases hd), hcnt, (by simp), p, 3, hp, .lit, rfl⟩
  have hx3 : 3 ≤ x := by have := hx1.pos; have := hx2.pos; omega
  have hy3 : 3 ≤ y := by have := hy1.pos; have := hy2.pos; omega
  by_cases h1 : n = "int" ∧ n2 = "Int"
  · obtain ⟨g, r, rfl, f, hf⟩ := int64 c2 h1.2 (by omega)
    refine ⟨f + 3, fun k hk => ?_⟩
    obtain ⟨k', rfl⟩ : ∃ k', k = k' + 2 := ⟨k - 2, by omega⟩
    obtain ⟨s, st', h3, h4⟩ := hf (k' + 1) (by omega)
    refine ⟨s, st', ?_, h4⟩
    simp only [unifyClass, if_pos h1]
    have hthis : follow (k' + 1) st.heap this = some this := by
      rcases c1.as with rfl | ⟨v, rfl, -⟩ <;> simp [follow]
    have hthat : that = .cls n2 (.cons g r) hs2 := by
      rcases c2.as with h | ⟨v, -, hn, -⟩
      · exact h
      · exact absurd (hn.symm.trans h1.2) (Lit.name_ne_Int v)
    rw [hthat, unify, hthis]
    have hn' : ¬ (n2 = "int" ∧ n = "Int") := by
      rintro ⟨h, -⟩
      have := h.symm.trans h1.2
      simp at this
    have hn2 : ¬ n2 = "int" := by intro h; have := h.symm.trans h1.2; simp at this
    rcases c1.as with rfl | ⟨v, rfl, hv, rfl, rfl⟩
    · simp only [unifyClass]
      rw [if_neg (by rintro ⟨h, -⟩; exact hn2 h), if_pos ⟨h1.1, h1.2⟩]
      exact h3
    · simp only [unifyClass]
      rw [if_neg (by rintro ⟨h, -⟩; exact hn2 h), if_pos ⟨hv ▸ h1.1, h1.2⟩]
      exact h3
  by_cases h2 : n2 = "int" ∧ n = "Int"
  · obtain ⟨g, r, rfl, f, hf⟩ := int64 c1 h2.2 (by omega)
    refine ⟨f, fun k hk => ?_⟩
    obtain ⟨s, st', h3, h4⟩ := hf k hk
    refine ⟨s, st', ?_, h4⟩
    simp only [unifyClass, if_neg h1, if_pos h2]
    exact h3
  have h3 : ¬ ((n = "unrealized_type" ∧ n2 = n) ∨ n = "__NTuple__" ∨ n2 = "__NTuple__") := by
    rintro (h | h | h)
    · exact c1.name2 h.1
    · exact c1.name1 h
    · exact c2.name1 h
  by_cases h4 : n ≠ n2
  · exact ⟨0, fun g _ => ⟨-1, st, by simp only [unifyClass, if_neg h1, if_neg h2, if_neg h3, if_pos h4], hw⟩⟩
  by_cases h5 : gs.size ≠ gs2.size
  · exact ⟨0, fun g _ => ⟨-1, st, by
      simp only [unifyClass, if_neg h1, if_neg h2, if_neg h3, if_neg h4, if_pos h5], hw⟩⟩
  have hsz : gs.size = gs2.size := by by_contra h; exact h5 h
  have hn : n = n2 := by by_contra h; exact h4 h
  obtain ⟨hh1, hh2⟩ := c1.as.hidden c1.hidden
  obtain ⟨hh3, hh4⟩ := c2.as.hidden c2.hidden
  obtain ⟨v1, v2⟩ := c1.as.reach c1.vars
  obtain ⟨v3, v4⟩ := c2.as.reach c2.vars
  obtain ⟨f, s, st1, hf, hw1⟩ := (ih st true gs gs2 c (x1 + y1) (Or.inr ⟨rfl, by omega⟩)
    ⟨hinv, hw, hh1, hh3, c1.wgs, c2.wgs, v1, v3, hcnt, fun _ => hsz, x1, y1, hx1, hy1, rfl⟩).answer
  by_cases hs1 : s = -1
  · refine ⟨f, fun g hg => ⟨-1, st1, ?_, hw1⟩⟩
    simp only [unifyClass, if_neg h1, if_neg h2, if_neg h3, if_neg h4, if_neg h5, hf g hg, if_pos hs1]
  obtain ⟨f2, s2, st2, hf2, hw2⟩ := (second ih hcnt hinv hh1 hh3 v1 v3 (hf f (Nat.le_refl _)) hw1 (b := true)
    (t2 := hs) (u2 := hs2) hh2 hh4 c1.whs c2.whs v2 v4
    (fun _ => by rw [c1.arity, c2.arity, hn]) ⟨x2, y2, hx2, hy2, by omega⟩).answer
  refine ⟨max f f2, fun g hg => ?_⟩
  by_cases hs2 : s2 = -1
  · refine ⟨-1, st2, ?_, hw2⟩
    simp only [unifyClass, if_neg h1, if_neg h2, if_neg h3, if_neg h4, if_neg h5, hf g (by omega), if_neg hs1,
      hf2 g (by omega), if_pos hs2]
  · refine ⟨3 + s + s2, st2, ?_, hw2⟩
    simp only [unifyClass, if_neg h1, if_neg h2, if_neg h3, if_neg h4, if_neg h5, hf g (by omega), if_neg hs1,
      hf2 g (by omega), if_neg hs2]

/-- The built-in literal classes have no hidden generics. -/
structure Arity (ar : String → Nat) : Prop where
  int : ar "int" = 0
  str : ar "str" = 0
  bool : ar "bool" = 0

theorem cls_lit (har : Arity ar) {k : Kinds} {S : List Nat} (v : Lit) : Cls ar k S (.lit v) v.name .nil .nil 3 := by
  refine ⟨Or.inr ⟨v, rfl, rfl, rfl, rfl⟩, trivial, trivial, trivial, fun d hd => (by cases hd), ?_, ?_, ?_, ?_,
    ⟨1, 1, .nil, .nil, rfl⟩, trivial, .lit, by simp⟩
  · cases v
    · exact har.int.symm
    · exact har.str.symm
    · exact har.bool.symm
  · cases v <;> simp [Lit.name]
  · cases v <;> simp [Lit.name]
  · intro h; exact absurd h (Lit.name_ne_Int v)

theorem cls_cls {k : Kinds} {S : List Nat} {n : String} {gs hs : Ty} {x : Nat} (hh : HiddenClosed (.cls n gs hs))
    (hv : VarsIn k (.cls n gs hs) (· ∈ S)) (hw : Wt ar false (.cls n gs hs)) (hx : Hgt k (.cls n gs hs) x) :
    Cls ar k S (.cls n gs hs) n gs hs x := by
  obtain ⟨w1, w2, w3, w4, w5, w6⟩ := hw
  refine ⟨Or.inl rfl, hh, w1, w2, hv, w3, w4, w5, w6, ?_, ⟨w1, w2, w3, w4, w5, w6⟩, hx, by simp⟩
  cases hx with
  | cls a b => exact ⟨_, _, a, b, rfl⟩

theorem step_ends (har : Arity ar) {S : List Nat} {c m : Nat} (ih : IHyp ar S c m) {st : St} {b : Bool} {t u : Ty}
    (hc : Call ar S b c m st t u) : Done ar (fun f => unify true f st t u) := by
  obtain ⟨x, y, hx, hy, hm⟩ := hc.hgt
  -- a class or literal type on the left
  have head : ∀ (t : Ty) (n : String) (gs hs : Ty) (x y : Nat), b = false → Call ar S false c m st t u →
      x + y = m → Hgt (kinds st.heap) u y →
      Cls ar (kinds st.heap) S t n gs hs x →
      (∀ f u' n2 gs2 hs2, follow f st.heap u = some u' → AsClass u' n2 gs2 hs2 →
        (∃ r, (∀ g, unify true (g + 1) st t u = some r ∨ follow g st.heap u = none) ∧ HW ar r.2.heap) ∨
        ∀ g, follow g st.heap u = some u' →
          unify true (g + 1) st t u = unifyClass (unify true g) st t u' n gs hs n2 gs2 hs2) →
      (∀ a g, follow g st.heap u = some (.link a) → unify true (g + 1) st t u = unify true g st u t) →
      Done ar (fun f => unify true f st t u) := by
    intro t n gs hs x y _ hc hm hy cl hcls hlink
    obtain ⟨u', f1, f2, f3, f4, _, _, z, hz, hzh⟩ := follow_ends hy hc.hw false hc.wu
    have hspec := follow_spec f1
    cases u' with
    | nil => exact f2.elim
    | cons p q => exact f2.elim
    | link a =>
      obtain ⟨d, rfl⟩ := f4 a rfl
      obtain ⟨f, hf⟩ := link_ends ih hc.swap
      refine ⟨max f y + 1, fun g hg => ?_⟩
      obtain ⟨g', rfl⟩ : ∃ g', g = g' + 1 := ⟨g - 1, by omega⟩
      obtain ⟨s, st', h1, h2⟩ := hf g' (by omega)
      exact ⟨s, st', by simp only; rw [hlink a g' (follow_le (by omega) f1)]; exact h1, h2⟩
    | lit w =>
      rcases hcls y (.lit w) w.name .nil .nil f1 (Or.inr ⟨w, rfl, rfl, rfl, rfl⟩) with ⟨r, hr, hwr⟩ | heq
      · refine ⟨y + 1, fun g hg => ?_⟩
        obtain ⟨g', rfl⟩ : ∃ g', g = g' + 1 := ⟨g - 1, by omega⟩
        rcases hr g' with h | h
        · exact ⟨r.1, r.2, h, hwr⟩
        · rw [follow_le (by omega) f1] at h; cases h
      · -- a smaller type cannot be harder
        have hz3 : z = 3 := by cases hzh; rfl
        by_cases hzy : z = y
        · obtain ⟨f, hf⟩ := unifyClass_ends ih hc.inv hc.hw hc.count (by omega) cl (y := y)
            (by have := cls_lit (ar := ar) har (k := kinds st.heap) (S := S) w; rw [← hzy, hz3]; exact this)
          refine ⟨max f y + 1, fun g hg => ?_⟩
          obtain ⟨g', rfl⟩ : ∃ g', g = g' + 1 := ⟨g - 1, by omega⟩
          obtain ⟨s, st', h1, h2⟩ := hf g' (by omega)
          exact ⟨s, st', by simp only; rw [heq g' (follow_le (by omega) f1)]; exact h1, h2⟩
        · have ih' : IHyp ar S c (x + z) := fun st b t u c' m' h h' =>
            ih st b t u c' m' (h.imp id (fun h => ⟨h.1, by omega⟩)) h'
          obtain ⟨f, hf⟩ := unifyClass_ends ih' hc.inv hc.hw hc.count rfl cl (y := z)
            (by have := cls_lit (ar := ar) har (k := kinds st.heap) (S := S) w; rw [hz3]; exact this)
          refine ⟨max f y + 1, fun g hg => ?_⟩
          obtain ⟨g', rfl⟩ : ∃ g', g = g' + 1 := ⟨g - 1, by omega⟩
          obtain ⟨s, st', h1, h2⟩ := hf g' (by omega)
          exact ⟨s, st', by simp only; rw [heq g' (follow_le (by omega) f1)]; exact h1, h2⟩
    | cls n2 gs2 hs2 =>
      rcases hcls y (.cls n2 gs2 hs2) n2 gs2 hs2 f1 (Or.inl rfl) with ⟨r, hr, hwr⟩ | heq
      · refine ⟨y + 1, fun g hg => ?_⟩
        obtain ⟨g', rfl⟩ : ∃ g', g = g' + 1 := ⟨g - 1, by omega⟩
        rcases hr g' with h | h
        · exact ⟨r.1, r.2, h, hwr⟩
        · rw [follow_le (by omega) f1] at h; cases h
      · have ih' : IHyp ar S c (x + z) := fun st b t u c' m' h h' =>
          ih st b t u c' m' (h.imp id (fun h => ⟨h.1, by omega⟩)) h'
        have c2 := cls_cls (ar := ar) (S := S) (hspec.2.2.2 hc.hu hc.inv.wf.hidden)
          (fun d hd hu => hc.vu d (hspec.2.1 d hd) hu) f2 hzh
        obtain ⟨f, hf⟩ := unifyClass_ends ih' hc.inv hc.hw hc.count rfl cl c2
        refine ⟨max f y + 1, fun g hg => ?_⟩
        obtain ⟨g', rfl⟩ : ∃ g', g = g' + 1 := ⟨g - 1, by omega⟩
        obtain ⟨s, st', h1, h2⟩ := hf g' (by omega)
        exact ⟨s, st', by simp only; rw [heq g' (follow_le (by omega) f1)]; exact h1, h2⟩
  cases t with
  | link a =>
    cases b with
    | false => exact link_ends ih hc
    | true => exact hc.wt.elim
  | lit v =>
    cases b with
    | true => exact hc.wt.elim
    | false =>
      have hx' : x = 3 := by cases hx; rfl
      subst hx'
      refine head (.lit v) v.name .nil .nil 3 y rfl hc hm hy (cls_lit har v) ?_ ?_
      · intro f u' n2 gs2 hs2 hf has
        by_cases hvw : ∃ w, u' = .lit w ∧ v.kind = w.kind
        · left
          obtain ⟨w, rfl, hk⟩ := hvw
          refine ⟨(if v = w then 1 else -1, st), fun g => ?_, hc.hw⟩
          cases hg : follow g st.heap u with
          | none => exact Or.inr rfl
          | some r =>
            left
            have : r = .lit w := by
              have h1 := follow_le (Nat.le_max_left f g) hf
              have h2 := follow_le (Nat.le_max_right f g) hg
              rw [h1] at h2
              exact (Option.some.inj h2).symm
            subst this
            rw [unify, hg]
            simp only [if_pos hk]
        · right
          intro g hg
          rw [unify, hg]
          rcases has with rfl | ⟨w, rfl, rfl, rfl, rfl⟩
          · rfl
          · simp only
            rw [if_neg (fun h => hvw ⟨w, rfl, h⟩)]
      · intro a g hg
        rw [unify, hg]
  | cls n gs hs =>
    cases b with
    | true => exact hc.wt.elim
    | false =>
      refine head (.cls n gs hs) n gs hs x y rfl hc hm hy (cls_cls hc.ht hc.vt hc.wt hx) ?_ ?_
      · intro f u' n2 gs2 hs2 hf has
        right
        intro g hg
        rw [unify, hg]
        rcases has with rfl | ⟨w, rfl, rfl, rfl, rfl⟩ <;> rfl
      · intro a g hg
        rw [unify, hg]
  | nil =>
    cases b with
    | false => exact hc.wt.elim
    | true =>
      have hwu := hc.wu
      have hsz := hc.size rfl
      cases u with
      | nil => exact Done.succ (Done.const (s := 0) hc.hw) (fun f => by simp [unify])
      | cons p q => simp [Ty.size] at hsz
      | _ => exact hwu.elim
  | cons p q =>
    cases b with
    | false => exact hc.wt.elim
    | true =>
      have hwt := hc.wt
      have hwu := hc.wu
      have hsz := hc.size rfl
      cases u with
      | nil => simp [Ty.size] at hsz
      | cons r s =>
        cases hx with
        | @cons _ _ x1 x2 hx1 hx2 =>
          cases hy with
          | @cons _ _ y1 y2 hy1 hy2 =>
            have vt := hc.vt
            have vu := hc.vu
            have v1 : VarsIn (kinds st.heap) p (· ∈ S) := fun d hd hu => vt d (.hd hd) hu
            have v2 : VarsIn (kinds st.heap) q (· ∈ S) := fun d hd hu => vt d (.tl hd) hu
            have v3 : VarsIn (kinds st.heap) r (· ∈ S) := fun d hd hu => vu d (.hd hd) hu
            have v4 : VarsIn (kinds st.heap) s (· ∈ S) := fun d hd hu => vu d (.tl hd) hu
            obtain ⟨f, sc, st1, hf, hw1⟩ := (ih st false p r c (x1 + y1) (Or.inr ⟨rfl, by omega⟩)
              ⟨hc.inv, hc.hw, hc.ht.1, hc.hu.1, hwt.1, hwu.1, v1, v3, hc.count, by simp, x1, y1, hx1, hy1, rfl⟩).answer
            obtain ⟨f2, s2, st2, hf2, hw2⟩ := (second ih hc.count hc.inv hc.ht.1 hc.hu.1 v1 v3
              (hf f (Nat.le_refl _)) hw1 (b := true) (t2 := q) (u2 := s) hc.ht.2 hc.hu.2 hwt.2 hwu.2 v2 v4
              (fun _ => by simpa [Ty.size] using hsz) ⟨x2, y2, hx2, hy2, by omega⟩).answer
            refine ⟨max f f2 + 1, fun g hg => ?_⟩
            obtain ⟨g', rfl⟩ : ∃ g', g = g' + 1 := ⟨g - 1, by omega⟩
            by_cases e1 : sc = -1
            · refine ⟨-1, st1, ?_, hw1⟩
              simp only [unify, hf g' (by omega), if_pos e1]
            · by_cases e2 : s2 = -1
              · refine ⟨-1, st2, ?_, hw2⟩
                simp only [unify, hf g' (by omega), if_neg e1, hf2 g' (by omega), if_pos e2]
              · refine ⟨sc + s2, st2, ?_, hw2⟩
                simp only [unify, hf g' (by omega), if_neg e1, hf2 g' (by omega), if_neg e2]
      | _ => exact hwu.elim

theorem all_end (har : Arity ar) (S : List Nat) : ∀ c m st b t u, Call ar S b c m st t u →
    Done ar (fun f => unify true f st t u) := by
  intro c
  induction c using Nat.strongRecOn with
  | _ c ihc =>
    intro m
    induction m using Nat.strongRecOn with
    | _ m ihm =>
      intro st b t u hc
      refine step_ends har ?_ hc
      intro st b t u c' m' hlt hc'
      rcases hlt with h | ⟨rfl, h⟩
      · exact ihc c' h m' st b t u hc'
      · exact ihm m' h st b t u hc'

/-- Finitely many variables occur in a type that can be followed to its end. -/
theorem finite_vars {k : Kinds} {t : Ty} {n : Nat} (h : Hgt k t n) : ∃ S : List Nat, VarsIn k t (· ∈ S) := by
  induction h with
  | @stop a hk =>
    refine ⟨[a], fun b hb _ => ?_⟩
    cases hb with
    | here => simp
    | fol h _ => exact absurd h (hk _)
  | @fol a t n hk _ ih =>
    obtain ⟨S, hS⟩ := ih
    refine ⟨a :: S, fun b hb hu => ?_⟩
    cases hb with
    | here => simp
    | fol h hr => rw [hk] at h; cases h; exact List.mem_cons_of_mem _ (hS b hr hu)
  | lit => exact ⟨[], fun b hb => by cases hb⟩
  | cls _ _ ih1 ih2 =>
    obtain ⟨S, hS⟩ := ih1
    obtain ⟨T, hT⟩ := ih2
    refine ⟨S ++ T, fun b hb hu => ?_⟩
    cases hb with
    | gs h => exact List.mem_append_left _ (hS b h hu)
    | hs h => exact List.mem_append_right _ (hT b h hu)
  | nil => exact ⟨[], fun b hb => by cases hb⟩
  | cons _ _ ih1 ih2 =>
    obtain ⟨S, hS⟩ := ih1
    obtain ⟨T, hT⟩ := ih2
    refine ⟨S ++ T, fun b hb hu => ?_⟩
    cases hb with
    | hd h => exact List.mem_append_left _ (hS b h hu)
    | tl h => exact List.mem_append_right _ (hT b h hu)

end Codon.Unify
