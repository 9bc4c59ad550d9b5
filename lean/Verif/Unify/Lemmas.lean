import Verif.Unify.Spec
import Mathlib.Tactic.Common
/-!
# Lemmas about heaps of type variables
-/
namespace Codon.Unify

/-! ### Undo -/

theorem foldl_set_field {β : Type} (key : β → Nat) (g : β → Cell → Cell) (l : List β) (h : Heap) (a : Nat) :
    (l.foldl (fun h b => h.set (key b) (g b (h (key b)))) h) a =
      (l.filter (fun b => decide (key b = a))).foldl (fun c b => g b c) (h a) := by
  induction l generalizing h with
  | nil => rfl
  | cons b l ih =>
    rw [List.foldl_cons, ih]
    by_cases hb : key b = a
    · rw [List.filter_cons_of_pos (by simpa using hb), List.foldl_cons]
      congr 1
      simp [Heap.set, hb]
    · rw [List.filter_cons_of_neg (by simpa using hb)]
      congr 1
      have hb' : ¬ a = key b := fun e => hb e.symm
      simp [Heap.set, hb']

theorem foldl_kind (l : List Nat) (c : Cell) :
    l.foldl (fun c _ => { c with kind := .unbound }) c =
      { c with kind := if l = [] then c.kind else .unbound } := by
  induction l generalizing c with
  | nil => rfl
  | cons a l ih => rw [List.foldl_cons, ih]; simp

theorem foldl_trait (l : List Nat) (c : Cell) :
    l.foldl (fun c _ => { c with trait := none }) c =
      { c with trait := if l = [] then c.trait else none } := by
  induction l generalizing c with
  | nil => rfl
  | cons a l ih => rw [List.foldl_cons, ih]; simp

theorem foldl_sk (l : List Nat) (c : Cell) :
    l.foldl (fun c _ => { c with sk := .runtime }) c =
      { c with sk := if l = [] then c.sk else .runtime } := by
  induction l generalizing c with
  | nil => rfl
  | cons a l ih => rw [List.foldl_cons, ih]; simp

theorem foldl_level (l : List (Nat × Int)) (c : Cell) :
    l.reverse.foldl (fun c p => { c with level := p.2 }) c =
      { c with level := (l.head?.map (·.2)).getD c.level } := by
  rw [List.foldl_reverse]
  cases l with
  | nil => rfl
  | cons p l =>
    rw [List.foldr_cons]
    have : ∀ l : List (Nat × Int), ∃ x, l.foldr (fun p c => { c with level := p.2 }) c = { c with level := x } := by
      intro l
      induction l with
      | nil => exact ⟨c.level, rfl⟩
      | cons q l ih => obtain ⟨x, hx⟩ := ih; exact ⟨q.2, by rw [List.foldr_cons, hx]⟩
    obtain ⟨x, hx⟩ := this l
    rw [hx]
    rfl

/-- What `undo` does to a cell. -/
theorem run_apply (u : Undo) (h : Heap) (a : Nat) : u.run h a =
    { kind := if a ∈ u.linked then .unbound else (h a).kind
      id := (h a).id
      level := (((u.leveled.filter (fun p => decide (p.1 = a))).head?.map (·.2)).getD (h a).level)
      sk := if a ∈ u.statics then .runtime else (h a).sk
      trait := if a ∈ u.traits then none else (h a).trait } := by
  unfold Undo.run
  dsimp only
  rw [foldl_set_field (fun a : Nat => a) (fun _ c => { c with sk := .runtime }),
    foldl_set_field (fun a : Nat => a) (fun _ c => { c with trait := none }),
    foldl_set_field (fun p : Nat × Int => p.1) (fun p c => { c with level := p.2 }),
    foldl_set_field (fun a : Nat => a) (fun _ c => { c with kind := .unbound }),
    foldl_sk, foldl_trait, List.filter_reverse, List.filter_reverse, foldl_level, foldl_kind]
  have e : ∀ l : List Nat, (l.filter (fun b => decide (b = a)) = []) ↔ a ∉ l := by
    intro l
    rw [List.filter_eq_nil_iff]
    simp only [decide_eq_true_eq]
    constructor
    · intro h ha; exact h a ha rfl
    · intro h b hb e; exact h (e ▸ hb)
  simp only [e, List.reverse_eq_nil_iff, ite_not]

/-- The primitive changes made during unification, each with its record. -/
inductive Step : St → St → Prop
  | level (st : St) (b : Nat) (l : Int) : (st.heap b).kind = .unbound → l ≤ (st.heap b).level →
      Step st ⟨st.heap.set b { st.heap b with level := l },
        { st.undo with leveled := st.undo.leveled ++ [(b, (st.heap b).level)] }⟩
  | static (st : St) (a : Nat) (k : LitKind) : (st.heap a).sk = .runtime →
      Step st ⟨st.heap.set a { st.heap a with sk := k },
        { st.undo with statics := st.undo.statics ++ [a] }⟩
  | trait (st : St) (b : Nat) (t : Option Ty) : (st.heap b).trait = none →
      Step st ⟨st.heap.set b { st.heap b with trait := t },
        { st.undo with traits := st.undo.traits ++ [b] }⟩
  | link (st : St) (a : Nat) (t : Ty) : (st.heap a).kind = .unbound →
      Step st ⟨st.heap.set a { st.heap a with kind := .link t },
        { st.undo with linked := st.undo.linked ++ [a] }⟩

theorem Step.undo {st st' : St} (s : Step st st') : st'.undo.run st'.heap = st.undo.run st.heap := by
  funext x
  rw [run_apply, run_apply]
  cases s with
  | level b l hk hl =>
    by_cases hx : x = b
    · subst hx
      simp only [Heap.set, if_true, Cell.mk.injEq, true_and, and_true]
      rw [List.filter_append]
      cases hf : st.undo.leveled.filter (fun p => decide (p.1 = x)) with
      | nil => simp
      | cons p l => simp
    · simp only [Heap.set, if_neg hx, Cell.mk.injEq, true_and, and_true]
      rw [List.filter_append]
      have : ([(b, (st.heap b).level)] : List (Nat × Int)).filter (fun p => decide (p.1 = x)) = [] := by
        have hx' : ¬ b = x := fun e => hx e.symm
        simp [hx']
      rw [this, List.append_nil]
  | static a k hk =>
    by_cases hx : x = a
    · subst hx; simp [Heap.set, hk]
    · simp [Heap.set, hx]
  | trait b t ht =>
    by_cases hx : x = b
    · subst hx; simp [Heap.set, ht]
    · simp [Heap.set, hx]
  | link a t hk =>
    by_cases hx : x = a
    · subst hx; simp [Heap.set, hk]
    · simp [Heap.set, hx]

/-! ### Every run is a sequence of recorded steps -/

section rel
variable {destr : Bool} {P : St → St → Prop}

theorem occurs_rel (hrefl : ∀ st, P st st) (htrans : ∀ a b c, P a b → P b c → P a c)
    (hstep : destr = true → ∀ st st', Step st st' → P st st') :
    ∀ (f : Nat) (st : St) (a : Nat) (t : Ty) (b : Bool) (st' : St),
    occurs destr f st a t = some (b, st') → P st st' := by
  intro f
  induction f with
  | zero => intro st a t b st' h; simp [occurs] at h
  | succ f ih =>
    intro st a t b st' h
    cases t with
    | link c =>
      rw [occurs] at h
      split at h
      · rename_i hk
        split at h
        · simp at h; obtain ⟨-, rfl⟩ := h; exact hrefl _
        · split at h
          · rename_i hd
            simp at hd
            simp only [Option.some.injEq, Prod.mk.injEq] at h
            obtain ⟨-, rfl⟩ := h
            exact hstep hd.1 _ _ (Step.level st c _ hk (by omega))
          · simp at h; obtain ⟨-, rfl⟩ := h; exact hrefl _
      · exact ih _ _ _ _ _ h
      · simp at h; obtain ⟨-, rfl⟩ := h; exact hrefl _
    | lit v => simp [occurs] at h; obtain ⟨-, rfl⟩ := h; exact hrefl _
    | cls n gs hs => rw [occurs] at h; exact ih _ _ _ _ _ h
    | nil => simp [occurs] at h; obtain ⟨-, rfl⟩ := h; exact hrefl _
    | cons t ts =>
      rw [occurs] at h
      split at h
      · cases h
      · rename_i st1 h1
        simp at h; obtain ⟨-, rfl⟩ := h
        exact ih _ _ _ _ _ h1
      · rename_i st1 h1
        exact htrans _ _ _ (ih _ _ _ _ _ h1) (ih _ _ _ _ _ h)

theorem adjustStatic_rel (hrefl : ∀ st, P st st)
    (hstep : destr = true → ∀ st st', Step st st' → P st st') {f : Nat} {st : St} {a : Nat} {t : Ty}
    {b : Bool} {st' : St} (h : adjustStatic destr f st a t = some (b, st')) : P st st' := by
  unfold adjustStatic at h
  split at h
  · cases h
  · rename_i k hk
    split at h
    · simp at h; obtain ⟨-, rfl⟩ := h; exact hrefl _
    · split at h
      · rename_i hr
        split at h
        · rename_i hd
          simp only [Option.some.injEq, Prod.mk.injEq] at h
          obtain ⟨-, rfl⟩ := h
          exact hstep hd _ _ (Step.static st a k hr)
        · simp at h; obtain ⟨-, rfl⟩ := h; exact hrefl _
      · simp at h; obtain ⟨-, rfl⟩ := h; exact hrefl _

theorem passTrait_rel (hrefl : ∀ st, P st st)
    (hstep : ∀ st st', Step st st' → P st st') (st : St) (a : Nat) (t : Ty) : P st (passTrait st a t) := by
  unfold passTrait
  split
  · split
    · rename_i h
      exact hstep _ _ (Step.trait st _ _ h.2.2)
    · exact hrefl _
  · exact hrefl _

theorem setLink_rel (hrefl : ∀ st, P st st) (htrans : ∀ a b c, P a b → P b c → P a c)
    (hstep : destr = true → ∀ st st', Step st st' → P st st') {f : Nat} {st : St} {a : Nat} {t : Ty}
    {s : Int} {st' : St} (hk : (st.heap a).kind = .unbound)
    (h : setLink destr f st a t = some (s, st')) : P st st' := by
  unfold setLink at h
  split at h
  · rename_i hd
    split at h
    · cases h
    · simp only [Option.some.injEq, Prod.mk.injEq] at h
      obtain ⟨-, rfl⟩ := h
      exact htrans _ _ _ (hstep hd _ _ (Step.link st a _ hk)) (passTrait_rel hrefl (hstep hd) _ _ _)
  · simp at h; obtain ⟨-, rfl⟩ := h; exact hrefl _

theorem bindVar_rel (hrefl : ∀ st, P st st) (htrans : ∀ a b c, P a b → P b c → P a c)
    (hstep : destr = true → ∀ st st', Step st st' → P st st')
    {rec : St → Ty → Ty → Option (Int × St)}
    (hrec : ∀ st t u s st', rec st t u = some (s, st') → P st st')
    {f : Nat} {st : St} {a : Nat} {t : Ty} {s : Int} {st' : St}
    (h : bindVar rec destr f st a t = some (s, st')) : P st st' := by
  unfold bindVar at h
  split at h
  · cases h
  · rename_i st1 h1
    simp at h; obtain ⟨-, rfl⟩ := h
    exact occurs_rel hrefl htrans hstep _ _ _ _ _ _ h1
  · rename_i st1 h1
    refine htrans _ _ _ (occurs_rel hrefl htrans hstep _ _ _ _ _ _ h1) ?_
    split at h
    · cases h
    · rename_i s2 st2 h2
      have p2 : P st1 st2 := by
        split at h2
        · simp at h2; obtain ⟨-, rfl⟩ := h2; exact hrefl _
        · unfold traitUnify at h2
          split at h2
          · cases h2
          · split at h2 <;> (simp at h2; obtain ⟨-, rfl⟩ := h2; exact hrefl _)
          · exact hrec _ _ _ _ _ h2
      refine htrans _ _ _ p2 ?_
      split at h
      · simp at h; obtain ⟨-, rfl⟩ := h; exact hrefl _
      · split at h
        · cases h
        · rename_i hk
          exact setLink_rel hrefl htrans hstep (by simpa using hk) h

theorem unifyVar_rel (hrefl : ∀ st, P st st) (htrans : ∀ a b c, P a b → P b c → P a c)
    (hstep : destr = true → ∀ st st', Step st st' → P st st')
    {rec : St → Ty → Ty → Option (Int × St)}
    (hrec : ∀ st t u s st', rec st t u = some (s, st') → P st st')
    {f : Nat} {st : St} {a : Nat} {t : Ty} {s : Int} {st' : St}
    (h : unifyVar rec destr f st a t = some (s, st')) : P st st' := by
  unfold unifyVar at h
  split at h
  · cases h
  · rename_i st1 h1
    simp at h; obtain ⟨-, rfl⟩ := h
    exact adjustStatic_rel hrefl hstep h1
  · rename_i st1 h1
    refine htrans _ _ _ (adjustStatic_rel hrefl hstep h1) ?_
    split at h
    · split at h
      · exact hrec _ _ _ _ _ h
      · split at h
        · simp at h; obtain ⟨-, rfl⟩ := h; exact hrefl _
        · split at h
          · simp at h; obtain ⟨-, rfl⟩ := h; exact hrefl _
          · split at h
            · simp at h; obtain ⟨-, rfl⟩ := h; exact hrefl _
            · split at h
              · exact hrec _ _ _ _ _ h
              · exact bindVar_rel hrefl htrans hstep hrec h
    · split at h
      · simp at h; obtain ⟨-, rfl⟩ := h; exact hrefl _
      · exact bindVar_rel hrefl htrans hstep hrec h

theorem unifyClass_rel (hrefl : ∀ st, P st st) (htrans : ∀ a b c, P a b → P b c → P a c)
    {rec : St → Ty → Ty → Option (Int × St)}
    (hrec : ∀ st t u s st', rec st t u = some (s, st') → P st st')
    {st : St} {this that : Ty} {n : String} {gs hs : Ty} {n2 : String} {gs2 hs2 : Ty} {s : Int} {st' : St}
    (h : unifyClass rec st this that n gs hs n2 gs2 hs2 = some (s, st')) : P st st' := by
  unfold unifyClass at h
  split at h
  · exact hrec _ _ _ _ _ h
  · split at h
    · split at h
      · exact hrec _ _ _ _ _ h
      · cases h
    · split at h
      · cases h
      · split at h
        · simp at h; obtain ⟨-, rfl⟩ := h; exact hrefl _
        · split at h
          · simp at h; obtain ⟨-, rfl⟩ := h; exact hrefl _
          · split at h
            · cases h
            · rename_i h1
              refine htrans _ _ _ (hrec _ _ _ _ _ h1) ?_
              split at h
              · simp at h; obtain ⟨-, rfl⟩ := h; exact hrefl _
              · split at h
                · cases h
                · rename_i h2
                  refine htrans _ _ _ (hrec _ _ _ _ _ h2) ?_
                  split at h <;> (simp at h; obtain ⟨-, rfl⟩ := h; exact hrefl _)

theorem unify_rel (hrefl : ∀ st, P st st) (htrans : ∀ a b c, P a b → P b c → P a c)
    (hstep : destr = true → ∀ st st', Step st st' → P st st') :
    ∀ (f : Nat) (st : St) (t u : Ty) (s : Int) (st' : St),
    unify destr f st t u = some (s, st') → P st st' := by
  intro f
  induction f with
  | zero => intro st t u s st' h; simp [unify] at h
  | succ f ih =>
    intro st t u s st' h
    cases t with
    | link a =>
      rw [unify] at h
      split at h
      · exact ih _ _ _ _ _ h
      · exact unifyVar_rel hrefl htrans hstep ih h
    | lit v =>
      rw [unify] at h
      split at h
      · cases h
      · split at h
        · simp at h; obtain ⟨-, rfl⟩ := h; exact hrefl _
        · exact unifyClass_rel hrefl htrans ih h
      · exact unifyClass_rel hrefl htrans ih h
      · exact ih _ _ _ _ _ h
      · cases h
    | cls n gs hs =>
      rw [unify] at h
      split at h
      · cases h
      · exact unifyClass_rel hrefl htrans ih h
      · exact unifyClass_rel hrefl htrans ih h
      · exact ih _ _ _ _ _ h
      · cases h
    | nil =>
      cases u with
      | nil => simp [unify] at h; obtain ⟨-, rfl⟩ := h; exact hrefl _
      | _ => simp [unify] at h
    | cons t ts =>
      cases u with
      | cons u us =>
        rw [unify] at h
        split at h
        · cases h
        · rename_i h1
          refine htrans _ _ _ (ih _ _ _ _ _ h1) ?_
          split at h
          · simp at h; obtain ⟨-, rfl⟩ := h; exact hrefl _
          · split at h
            · cases h
            · rename_i h2
              refine htrans _ _ _ (ih _ _ _ _ _ h2) ?_
              split at h <;> (simp at h; obtain ⟨-, rfl⟩ := h; exact hrefl _)
      | _ => simp [unify] at h

end rel

end Codon.Unify
