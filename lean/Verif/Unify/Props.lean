import Verif.Unify.Sound
import Verif.Unify.GenModel
/-!
# C10, C11, C54: unification
-/
namespace Codon.Unify

/-- Nothing to undo. -/
def noUndo : Undo := ⟨[], [], [], []⟩

/-! ### C10 -/

theorem undo_all (f : Nat) (h : Heap) (t u : Ty) (s : Int) (st : St)
    (hu : unify true f ⟨h, noUndo⟩ t u = some (s, st)) : st.undo.run st.heap = h := by
  have := unify_rel (destr := true) (P := fun a b => b.undo.run b.heap = a.undo.run a.heap)
    (fun _ => rfl) (fun _ _ _ h1 h2 => h2.trans h1) (fun _ _ _ s => s.undo) f _ t u s st hu
  rw [this]
  rfl

/-- **C10** A failed attempt leaves every cell of every variable as it was: the link, the level, the static
kind, the trait. -/
theorem c10_failure_leaves_no_trace (f : Nat) (h h' : Heap) (t u : Ty)
    (hu : unifyOrUndo f h t u = some (false, h')) : h' = h := by
  unfold unifyOrUndo at hu
  split at hu
  · cases hu
  · rename_i s st hs
    split at hu
    · simp at hu
    · simp at hu
      rw [← hu]
      exact undo_all f h t u s st hs

/-- The record kept for undoing takes back a success too. -/
theorem c10_undo_after_any_result (f : Nat) (h : Heap) (t u : Ty) (s : Int) (st : St)
    (hu : unify true f ⟨h, noUndo⟩ t u = some (s, st)) : st.undo.run st.heap = h :=
  undo_all f h t u s st hu

/-- Without an undo object (`canUnify`-style queries) nothing is changed at all. -/
theorem c10_query_changes_nothing (f : Nat) (st st' : St) (t u : Ty) (s : Int)
    (hu : unify false f st t u = some (s, st')) : st' = st :=
  (unify_rel (destr := false) (P := Eq) (fun _ => rfl) (fun _ _ _ h1 h2 => h1.trans h2) (by simp) f st t u s
    st' hu).symm

/-- Variables `?1 : level 0` in cell 0, `?2 : level 1` in cell 1, `?3 : level 2` in cell 2, generics after. -/
def exHeap : Heap := fun a =>
  ⟨if a < 3 then .unbound else .generic, a + 1, a, .runtime, none⟩

/-- `Pair[t, u]` -/
def pair (t u : Ty) : Ty := .cls "Pair" (.cons t (.cons u .nil)) .nil
def list (t : Ty) : Ty := .cls "List" (.cons t .nil) .nil
def str : Ty := .cls "str" .nil .nil
def float : Ty := .cls "float" .nil .nil

/-- `Pair[?1, str]` with `Pair[List[?2], float]`: binds `?1`, lowers the level of `?2`, then fails. -/
example : (unifyOrUndo 20 exHeap (pair (.link 0) str) (pair (list (.link 1)) float)).map (·.1)
    = some false := by decide

example : ((unify true 20 ⟨exHeap, noUndo⟩ (pair (.link 0) str) (pair (list (.link 1)) float)).map
    fun p => ((p.2.heap 0).kind, (p.2.heap 1).level)) = some (.link (list (.link 1)), 0) := by decide

/-! ### C11 -/

/-- **C11** (partial: traits and hidden generics are supposed to be without variables, see the two
violations below; functions, unions, `__NTuple__` and callable traits are not in the model.)

After a success, every type can still be followed to its end, the two types are the same when followed,
and nothing but unbound variables was changed. -/
theorem c11_success_partial (f : Nat) (h h' : Heap) (t u : Ty) (hwf : WF h) (hac : Acyclic (kinds h))
    (ht : HiddenClosed t) (hu : HiddenClosed u) (hres : unifyOrUndo f h t u = some (true, h')) :
    Acyclic (kinds h') ∧
    (∀ r s, Res (kinds h') t r → Res (kinds h') u s → Sim (kinds h') (fun a => (h a).id) r s) ∧
    (∀ a, (h a).kind ≠ .unbound → (h' a).kind = (h a).kind) ∧ WF h' := by
  unfold unifyOrUndo at hres
  split at hres
  · cases hres
  · rename_i s st hs
    split at hres
    · rename_i hge
      simp at hres
      subst hres
      obtain ⟨e, -, e3⟩ := unify_sound (L := False) f _ t u s st ⟨hwf, hac, False.elim⟩ ht hu hs
      refine ⟨e.inv.acyclic, e3 (by omega), ?_, e.inv.wf⟩
      intro a ha
      cases hk : (h a).kind with
      | unbound => exact absurd hk ha
      | generic => exact (e.ext.generic a).1 hk
      | link x => exact e.ext.link a x hk
    · simp at hres

/-- Variables that occur in neither of the types keep all they have. -/
theorem c11_frame_partial (f : Nat) (h h' : Heap) (t u : Ty) (r : Bool) (hwf : WF h)
    (hac : Acyclic (kinds h))
    (ht : HiddenClosed t) (hu : HiddenClosed u) (hres : unifyOrUndo f h t u = some (r, h')) (a : Nat)
    (hka : (h a).kind = .unbound) (hta : ¬ Reach (kinds h) t a) (hua : ¬ Reach (kinds h) u a) :
    h' a = h a := by
  cases r with
  | false => rw [c10_failure_leaves_no_trace f h h' t u hres]
  | true =>
    unfold unifyOrUndo at hres
    split at hres
    · cases hres
    · rename_i s st hs
      split at hres
      · simp at hres
        subst hres
        obtain ⟨e, -, -⟩ := unify_sound (L := False) f _ t u s st ⟨hwf, hac, False.elim⟩ ht hu hs
        refine e.frame a hka ?_ ?_
        · rintro b hb - rfl; exact hta hb
        · rintro b hb - rfl; exact hua hb
      · simp at hres

theorem exHeap_wf : WF exHeap :=
  ⟨fun a b _ _ e => by simp [exHeap] at e; omega, fun a t h => by simp [exHeap] at h,
   fun a t h => by simp only [exHeap] at h; split at h <;> cases h⟩

theorem exHeap_acyclic : Acyclic (kinds exHeap) := by
  intro t
  induction t with
  | link a =>
    by_cases ha : a < 3
    · exact ⟨_, .var (by simp [kinds, exHeap, ha])⟩
    · exact ⟨_, .gen (by simp [kinds, exHeap, ha])⟩
  | lit v => exact ⟨_, .lit⟩
  | cls n gs hs ih1 ih2 =>
    obtain ⟨r1, h1⟩ := ih1
    obtain ⟨r2, h2⟩ := ih2
    exact ⟨_, .cls h1 h2⟩
  | nil => exact ⟨_, .nil⟩
  | cons t ts ih1 ih2 =>
    obtain ⟨r1, h1⟩ := ih1
    obtain ⟨r2, h2⟩ := ih2
    exact ⟨_, .cons h1 h2⟩

/-- `Pair[?1, ?2]` with `Pair[List[?2], str]` succeeds, with `?1 := List[?2]`, `?2 := str`. -/
example : ((unifyOrUndo 20 exHeap (pair (.link 0) (.link 1)) (pair (list (.link 1)) str)).map
    fun p => (p.1, (p.2 0).kind, (p.2 1).kind)) = some (true, .link (list (.link 1)), .link str) := by decide

/-- The occurs check at work: `Pair[?1, ?2]` with `Pair[List[?2], List[?1]]` is refused. -/
example : (unifyOrUndo 20 exHeap (pair (.link 0) (.link 1)) (pair (list (.link 1)) (list (.link 0)))).map
    (·.1) = some false := by decide

example : HiddenClosed (pair (.link 0) (.link 1)) := by simp [pair, HiddenClosed, Closed]

/-- `?1` has the trait `TypeTrait(Pair[?1, str])`. -/
def traitHeap : Heap := fun a =>
  { exHeap a with trait := if a = 0 then some (pair (.link 0) str) else none }

/-- A cell that points into a type containing it cannot be followed. -/
theorem cyclic_of_links {k : Kinds} {x y : Ty} (h0 : k 0 = .link (pair x y)) (h1 : k 1 = .link (.link 0))
    (hx : x = .link 0 ∨ x = .link 1) : ¬ Acyclic k := by
  intro hac
  obtain ⟨r, hr⟩ := hac (.link 0)
  have key : ∀ t r, Res k t r → t = .link 0 ∨ t = .link 1 ∨ t = pair x y ∨ t = .cons x (.cons y .nil) →
      False := by
    intro t r hr
    induction hr with
    | var hk =>
      rintro (h | h | h | h) <;> cases h
      · rw [h0] at hk; cases hk
      · rw [h1] at hk; cases hk
    | gen hk =>
      rintro (h | h | h | h) <;> cases h
      · rw [h0] at hk; cases hk
      · rw [h1] at hk; cases hk
    | fol hk _ ih =>
      rintro (h | h | h | h) <;> cases h
      · rw [h0] at hk; cases hk; exact ih (Or.inr (Or.inr (Or.inl rfl)))
      · rw [h1] at hk; cases hk; exact ih (Or.inl rfl)
    | lit => rintro (h | h | h | h) <;> cases h
    | cls _ _ ih1 _ =>
      rintro (h | h | h | h) <;> cases h
      exact ih1 (Or.inr (Or.inr (Or.inr rfl)))
    | nil => rintro (h | h | h | h) <;> cases h
    | cons _ _ ih1 _ =>
      rintro (h | h | h | h) <;> cases h
      rcases hx with rfl | rfl
      · exact ih1 (Or.inl rfl)
      · exact ih1 (Or.inr (Or.inl rfl))
  exact key _ r hr (Or.inl rfl)

/-- C11 fails: the occurs check runs before the trait is unified and does not look into the trait, and
unifying the trait may bind variables of the type.  With `?1 : TypeTrait(Pair[?1, str])`, unifying `?1` and
`Pair[?2, str]` succeeds and ties a knot: `?2 := ?1`, `?1 := Pair[?2, str]`. -/
theorem c11_violation_trait : ∃ h', unifyOrUndo 20 traitHeap (.link 0) (pair (.link 1) str) = some (true, h') ∧
    Acyclic (kinds traitHeap) ∧ ¬ Acyclic (kinds h') := by
  have key : (unifyOrUndo 20 traitHeap (.link 0) (pair (.link 1) str)).map
      (fun p => (p.1, (p.2 0).kind, (p.2 1).kind)) =
      some (true, .link (pair (.link 1) str), .link (.link 0)) := by decide
  obtain ⟨⟨b, h'⟩, h1, h2⟩ := Option.map_eq_some_iff.1 key
  simp at h2
  obtain ⟨rfl, h2, h3⟩ := h2
  refine ⟨h', h1, ?_, cyclic_of_links h2 h3 (Or.inr rfl)⟩
  have : kinds traitHeap = kinds exHeap := rfl
  rw [this]
  exact exHeap_acyclic

/-- A class with `?1` among its hidden generics. -/
def localCls (t : Ty) : Ty := .cls "Local" .nil (.cons t .nil)

/-- C11 fails: the occurs check does not look into hidden generics (the type variables of an enclosing
function that a local class captures), so `?1` is bound to a type that contains `?1`. -/
theorem c11_violation_hidden : ∃ h', unifyOrUndo 20 exHeap (.link 0) (localCls (.link 0)) = some (true, h') ∧
    Acyclic (kinds exHeap) ∧ ¬ Acyclic (kinds h') := by
  have key : (unifyOrUndo 20 exHeap (.link 0) (localCls (.link 0))).map
      (fun p => (p.1, (p.2 0).kind)) = some (true, .link (localCls (.link 0))) := by decide
  obtain ⟨⟨b, h'⟩, h1, h2⟩ := Option.map_eq_some_iff.1 key
  simp at h2
  obtain ⟨rfl, h2⟩ := h2
  refine ⟨h', h1, exHeap_acyclic, ?_⟩
  intro hac
  obtain ⟨r, hr⟩ := hac (.link 0)
  have h2' : kinds h' 0 = .link (localCls (.link 0)) := h2
  have : ∀ t r, Res (kinds h') t r →
      t = .link 0 ∨ t = localCls (.link 0) ∨ t = .cons (.link 0) .nil → False := by
    intro t r hr
    induction hr with
    | var hk => rintro (h | h | h) <;> cases h; rw [h2'] at hk; cases hk
    | gen hk => rintro (h | h | h) <;> cases h; rw [h2'] at hk; cases hk
    | fol hk _ ih =>
      rintro (h | h | h) <;> cases h
      rw [h2'] at hk; cases hk; exact ih (Or.inr (Or.inl rfl))
    | lit => rintro (h | h | h) <;> cases h
    | cls _ _ _ ih2 => rintro (h | h | h) <;> cases h; exact ih2 (Or.inr (Or.inr rfl))
    | nil => rintro (h | h | h) <;> cases h
    | cons _ _ ih1 _ => rintro (h | h | h) <;> cases h; exact ih1 (Or.inl rfl)
  exact this _ r hr (Or.inl rfl)

/-! ### C54 -/

/-- The variables that stay in a generalised type. -/
def Scheme.vars : Scheme → List Nat
  | .var a => [a]
  | .cls _ gs hs => gs.vars ++ hs.vars
  | .cons t ts => t.vars ++ ts.vars
  | _ => []

/-- The generics of a generalised type. -/
def Scheme.gens : Scheme → List Int
  | .gen i => [i]
  | .cls _ gs hs => gs.gens ++ hs.gens
  | .cons t ts => t.gens ++ ts.gens
  | _ => []

theorem generalize_spec {lvl : Int} {f : Nat} {h : Heap} {t : Ty} {s : Scheme}
    (hg : generalize lvl f h t = some s) :
    (∀ a, a ∈ s.vars ↔ Reach (kinds h) t a ∧ (h a).kind = .unbound ∧ (h a).level < lvl) ∧
    (∀ i, i ∈ s.gens ↔ ∃ a, Reach (kinds h) t a ∧ (h a).id = i ∧
      ((h a).kind = .generic ∨ (h a).kind = .unbound ∧ lvl ≤ (h a).level)) := by
  induction f generalizing t s with
  | zero => simp [generalize] at hg
  | succ f ih =>
    cases t with
    | link b =>
      rw [generalize] at hg
      split at hg
      · rename_i hk
        simp at hg; subst hg
        have hr : ∀ a, Reach (kinds h) (.link b) a ↔ a = b := by
          intro a
          constructor
          · intro hr
            cases hr with
            | here => rfl
            | fol hk' _ => rw [show kinds h b = (h b).kind from rfl, hk] at hk'; cases hk'
          · rintro rfl; exact .here
        constructor
        · intro a
          simp only [Scheme.vars, hr]
          constructor
          · intro h; cases h
          · rintro ⟨rfl, h1, -⟩; rw [hk] at h1; cases h1
        · intro i
          simp only [Scheme.gens, hr, List.mem_singleton]
          constructor
          · rintro rfl; exact ⟨b, rfl, rfl, Or.inl hk⟩
          · rintro ⟨a, rfl, rfl, -⟩; rfl
      · rename_i hk
        have hr : ∀ a, Reach (kinds h) (.link b) a ↔ a = b := by
          intro a
          constructor
          · intro hr
            cases hr with
            | here => rfl
            | fol hk' _ => rw [show kinds h b = (h b).kind from rfl, hk] at hk'; cases hk'
          · rintro rfl; exact .here
        split at hg
        · rename_i hl
          simp at hg; subst hg
          constructor
          · intro a
            simp only [Scheme.vars, hr]
            constructor
            · intro h; cases h
            · rintro ⟨rfl, -, h2⟩; omega
          · intro i
            simp only [Scheme.gens, hr, List.mem_singleton]
            constructor
            · rintro rfl; exact ⟨b, rfl, rfl, Or.inr ⟨hk, hl⟩⟩
            · rintro ⟨a, rfl, rfl, -⟩; rfl
        · rename_i hl
          simp at hg; subst hg
          constructor
          · intro a
            simp only [Scheme.vars, hr, List.mem_singleton]
            constructor
            · rintro rfl; exact ⟨rfl, hk, by omega⟩
            · rintro ⟨rfl, -⟩; rfl
          · intro i
            simp only [Scheme.gens, hr]
            constructor
            · intro h; cases h
            · rintro ⟨a, rfl, -, h | ⟨-, h⟩⟩
              · rw [hk] at h; cases h
              · omega
      · rename_i t' hk
        obtain ⟨i1, i2⟩ := ih hg
        have hr : ∀ a, (h a).kind ≠ .link t' → (Reach (kinds h) (.link b) a ↔ Reach (kinds h) t' a) := by
          intro a ha
          constructor
          · intro hr
            cases hr with
            | here => exact absurd hk ha
            | fol hk' hr => rw [show kinds h b = (h b).kind from rfl, hk] at hk'; cases hk'; exact hr
          · exact fun hr => .fol hk hr
        constructor
        · intro a
          rw [i1]
          constructor
          · rintro ⟨h1, h2, h3⟩; exact ⟨(hr a (by rw [h2]; simp)).2 h1, h2, h3⟩
          · rintro ⟨h1, h2, h3⟩; exact ⟨(hr a (by rw [h2]; simp)).1 h1, h2, h3⟩
        · intro i
          rw [i2]
          constructor
          · rintro ⟨a, h1, h2, h3⟩
            exact ⟨a, (hr a (by rcases h3 with h3 | ⟨h3, -⟩ <;> rw [h3] <;> simp)).2 h1, h2, h3⟩
          · rintro ⟨a, h1, h2, h3⟩
            exact ⟨a, (hr a (by rcases h3 with h3 | ⟨h3, -⟩ <;> rw [h3] <;> simp)).1 h1, h2, h3⟩
    | lit v =>
      simp [generalize] at hg; subst hg
      exact ⟨fun a => by simp only [Scheme.vars]; exact ⟨fun h => (by cases h), fun h => (by cases h.1)⟩,
        fun i => by simp only [Scheme.gens]; exact ⟨fun h => (by cases h), fun ⟨a, h, _⟩ => (by cases h)⟩⟩
    | nil =>
      simp [generalize] at hg; subst hg
      exact ⟨fun a => by simp only [Scheme.vars]; exact ⟨fun h => (by cases h), fun h => (by cases h.1)⟩,
        fun i => by simp only [Scheme.gens]; exact ⟨fun h => (by cases h), fun ⟨a, h, _⟩ => (by cases h)⟩⟩
    | cls n gs hs =>
      rw [generalize] at hg
      split at hg
      · rename_i g k hg1 hg2
        simp at hg; subst hg
        obtain ⟨i1, i2⟩ := ih hg1
        obtain ⟨j1, j2⟩ := ih hg2
        have hr : ∀ a, Reach (kinds h) (.cls n gs hs) a ↔ Reach (kinds h) gs a ∨ Reach (kinds h) hs a := by
          intro a
          constructor
          · intro hr; cases hr with
            | gs h => exact Or.inl h
            | hs h => exact Or.inr h
          · rintro (h | h); exacts [.gs h, .hs h]
        constructor
        · intro a; simp only [Scheme.vars, List.mem_append, i1, j1, hr]
          constructor
          · rintro (⟨x, y⟩ | ⟨x, y⟩); exacts [⟨Or.inl x, y⟩, ⟨Or.inr x, y⟩]
          · rintro ⟨x | x, y⟩; exacts [Or.inl ⟨x, y⟩, Or.inr ⟨x, y⟩]
        · intro i; simp only [Scheme.gens, List.mem_append, i2, j2, hr]
          constructor
          · rintro (⟨a, x, y⟩ | ⟨a, x, y⟩); exacts [⟨a, Or.inl x, y⟩, ⟨a, Or.inr x, y⟩]
          · rintro ⟨a, x | x, y⟩; exacts [Or.inl ⟨a, x, y⟩, Or.inr ⟨a, x, y⟩]
      · cases hg
    | cons gs hs =>
      rw [generalize] at hg
      split at hg
      · rename_i g k hg1 hg2
        simp at hg; subst hg
        obtain ⟨i1, i2⟩ := ih hg1
        obtain ⟨j1, j2⟩ := ih hg2
        have hr : ∀ a, Reach (kinds h) (.cons gs hs) a ↔ Reach (kinds h) gs a ∨ Reach (kinds h) hs a := by
          intro a
          constructor
          · intro hr; cases hr with
            | hd h => exact Or.inl h
            | tl h => exact Or.inr h
          · rintro (h | h); exacts [.hd h, .tl h]
        constructor
        · intro a; simp only [Scheme.vars, List.mem_append, i1, j1, hr]
          constructor
          · rintro (⟨x, y⟩ | ⟨x, y⟩); exacts [⟨Or.inl x, y⟩, ⟨Or.inr x, y⟩]
          · rintro ⟨x | x, y⟩; exacts [Or.inl ⟨x, y⟩, Or.inr ⟨x, y⟩]
        · intro i; simp only [Scheme.gens, List.mem_append, i2, j2, hr]
          constructor
          · rintro (⟨a, x, y⟩ | ⟨a, x, y⟩); exacts [⟨a, Or.inl x, y⟩, ⟨a, Or.inr x, y⟩]
          · rintro ⟨a, x | x, y⟩; exacts [Or.inl ⟨a, x, y⟩, Or.inr ⟨a, x, y⟩]
      · cases hg

/-- **C54** (partial as C11 is.)  Take a variable `a` of an enclosing scope (its level is below `lvl`), in a
state where links respect the levels.  Unify any two types.  Then generalise any type `t` at `lvl`: a variable
that is part of what `a` stands for is kept, not replaced by a generic. -/
theorem c54_shared_not_generalised_partial (f g : Nat) (h h' : Heap) (t u x : Ty) (r : Bool) (s : Scheme)
    (lvl : Int) (hwf : WF h) (hac : Acyclic (kinds h)) (hlv : LevelsOk h)
    (ht : HiddenClosed t) (hu : HiddenClosed u)
    (hres : unifyOrUndo f h t u = some (r, h')) (hgen : generalize lvl g h' x = some s)
    (a b : Nat) (ha : (h a).level < lvl) (hab : Reach (kinds h') (.link a) b) (hb : (h' b).kind = .unbound)
    (hxb : Reach (kinds h') x b) :
    b ∈ s.vars ∧ ∀ c, Reach (kinds h') x c → (h' c).kind = .unbound → lvl ≤ (h' c).level → c ≠ b := by
  have hlv' : LevelsOk h' ∧ ∀ a, (h' a).level ≤ (h a).level := by
    cases r with
    | false => rw [c10_failure_leaves_no_trace f h h' t u hres]; exact ⟨hlv, fun _ => Int.le_refl _⟩
    | true =>
      unfold unifyOrUndo at hres
      split at hres
      · cases hres
      · rename_i s st hs
        split at hres
        · simp at hres
          subst hres
          obtain ⟨e, -, -⟩ := unify_sound (L := True) f _ t u s st ⟨hwf, hac, fun _ => hlv⟩ ht hu hs
          exact ⟨e.inv.levels trivial, e.level⟩
        · simp at hres
  have hle : (h' b).level < lvl := by
    have h1 := hlv'.2 a
    cases hab with
    | here => omega
    | fol hk hr =>
      have h2 := hlv'.1 a _ b hk hr hb
      omega
  refine ⟨((generalize_spec hgen).1 b).2 ⟨hxb, hb, hle⟩, ?_⟩
  rintro c - - hc rfl
  omega

/-- The level of an enclosed variable is lowered: `?1` (level 0) and `List[?3]` (level 2), then `List[?3]`
generalised at level 1 keeps `?3`; without the unification it does not. -/
example : ((unifyOrUndo 20 exHeap (.link 0) (list (.link 2))).bind fun p =>
      generalize 1 20 p.2 (list (.link 2))) = some (.cls "List" (.cons (.var 2) .nil) .nil) ∧
    generalize 1 20 exHeap (list (.link 2)) = some (.cls "List" (.cons (.gen 3) .nil) .nil) := by decide

example : LevelsOk exHeap := fun a t b h => by simp only [exHeap] at h; split at h <;> cases h

/-- `?1` is static (an integer), `?2` is a runtime variable. -/
def staticHeap : Heap := fun a => { exHeap a with sk := if a = 0 then .int else .runtime }

/-- Unification is not symmetric: a runtime variable takes over the static kind of a static one, but
not the other way round (link.cpp:37-47). -/
theorem unify_not_symmetric :
    (unifyOrUndo 20 staticHeap (.link 0) (.link 1)).map (·.1) = some false ∧
    (unifyOrUndo 20 staticHeap (.link 1) (.link 0)).map (·.1) = some true := by decide

end Codon.Unify
