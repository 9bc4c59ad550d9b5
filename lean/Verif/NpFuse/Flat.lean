import Verif.NpFuse.Bc
/-!
# The meaning of a tree as one operation on all leaves
-/
namespace Codon.NpFuse
open Codon.Numpy
variable {V : Type}

/-- What a leaf stands for. -/
def Leaf.sem (h : Heap V) (x : Leaf V) : Sem V := x.val.sem h

/-- The shape of an array. -/
def Sem.shape? : Sem V → Option (List Int)
  | .num _ => none
  | .arr s _ => some s

/-- The shapes of the arrays among the leaves. -/
def shapes (t : Tree V (Sem V)) : List (List Int) := t.leaves.filterMap Sem.shape?

/-- The value for one place. -/
def evalAt : Tree V (Sem V) → List Int → Option V
  | .leaf x, c => x.at c
  | .un fn _ _ _ l, c => (evalAt l c).map fn
  | .bin fn _ _ _ l r, c => (evalAt l c).bind fun u => (evalAt r c).map (fn u)

/-- The result is an array. -/
def Tree.isArr : Tree V (Sem V) → Prop
  | .leaf x => x.shape?.isSome = true
  | _ => True

/-- Operations have an array as operand. -/
def Tree.Ops : Tree V (Sem V) → Prop
  | .leaf _ => True
  | .un _ _ _ _ l => l.isArr ∧ l.Ops
  | .bin _ _ _ _ l r => (l.isArr ∨ r.isArr) ∧ l.Ops ∧ r.Ops

theorem means_arr {t : Tree V (Sem V)} {m : Sem V} (h : Means t m) (ha : t.isArr) : ∃ s e, m = .arr s e := by
  cases h with
  | leaf =>
    cases m with
    | num v => simp [Tree.isArr, Sem.shape?] at ha
    | arr s e => exact ⟨s, e, rfl⟩
  | un hl => exact ⟨_, _, rfl⟩
  | bin hl hr hs => exact ⟨_, _, rfl⟩

theorem shapes_ne : ∀ t : Tree V (Sem V), t.Ops → t.isArr → shapes t ≠ []
  | .leaf x, _, ha => by
    cases x with
    | num v => simp [Tree.isArr, Sem.shape?] at ha
    | arr s e => simp [shapes, Tree.leaves, Sem.shape?]
  | .un _ _ _ _ l, ho, _ => shapes_ne l ho.2 ho.1
  | .bin _ _ _ _ l r, ho, _ => by
    intro he
    simp only [shapes, Tree.leaves, List.filterMap_append, List.append_eq_nil_iff] at he
    rcases ho.1 with h | h
    · exact shapes_ne l ho.2.1 h he.1
    · exact shapes_ne r ho.2.2 h he.2

theorem means_bc {t : Tree V (Sem V)} {m : Sem V} (h : Means t m) : Bc (shapes t) m.shape := by
  induction h with
  | leaf x =>
    cases x with
    | num v => exact Or.inl ⟨rfl, rfl⟩
    | arr s e => exact Or.inr (broadcasts_same [s] s (by simp) (by simp))
  | un hl ih => exact ih
  | @bin fn dt k cost l r x y s hl hr hs ih1 ih2 =>
    have e : shapes (.bin fn dt k cost l r) = shapes l ++ shapes r := by simp [shapes, Tree.leaves]
    rw [e]
    by_cases hne : shapes l ≠ [] ∨ shapes r ≠ []
    · exact Or.inr (bc_append _ _ _ _ _ ih1 ih2 hs hne)
    · push Not at hne
      refine Or.inl ⟨by rw [hne.1, hne.2]; rfl, ?_⟩
      have e1 : x.shape = [] := by
        rcases ih1 with h | h
        · exact h.2
        · exact absurd hne.1 (bc_nonempty _ _ h)
      have e2 : y.shape = [] := by
        rcases ih2 with h | h
        · exact h.2
        · exact absurd hne.2 (bc_nonempty _ _ h)
      obtain ⟨sh, hsh, e⟩ := hs.2.1
      simp only [e1, e2, List.mem_cons, List.not_mem_nil, or_false, or_self] at hsh
      subst hsh
      exact List.length_eq_zero_iff.mp e.symm

theorem means_at {t : Tree V (Sem V)} {m : Sem V} (h : Means t m) : ∀ (s c : List Int), Aligned m.shape s → Valid c s → evalAt t c = m.at c := by
  induction h with
  | leaf x => intro s c _ _; rfl
  | un hl ih => intro s c ha hc; rw [evalAt, ih s c ha hc]; rfl
  | @bin fn dt k cost l r x y s' hl hr hs ih1 ih2 =>
    intro s c ha hc
    have a1 := broadcasts_aligned _ _ hs x.shape (by simp)
    have a2 := broadcasts_aligned _ _ hs y.shape (by simp)
    have ha' : Aligned s' s := ha
    rw [evalAt, ih1 s c (aligned_trans _ _ _ a1 ha') hc, ih2 s c (aligned_trans _ _ _ a2 ha') hc]
    have key : ∀ z : Sem V, Aligned z.shape s' → z.at (proj s' c) = z.at c := by
      intro z hz
      cases z with
      | num v => rfl
      | arr sz e => simp only [Sem.at]; rw [proj_proj sz s' s c hz ha' hc]
    have e3 : ∀ f : List Int → Option V, (Sem.arr s' (clip s' f)).at c = clip s' f (proj s' c) := fun f => rfl
    rw [e3, clip, if_pos (valid_proj s' s c ha' hc), key x a1, key y a2]

theorem means_exists : ∀ (t : Tree V (Sem V)) (s : List Int), t.Ops → (∀ a ∈ shapes t, Aligned a s) → ∃ m, Means t m ∧ Aligned m.shape s
  | .leaf x, s, _, h => ⟨x, .leaf x, by
      cases x with
      | num v => exact aligned_nil s
      | arr s' e => exact h s' (by simp [shapes, Tree.leaves, Sem.shape?])⟩
  | .un _ _ _ _ l, s, ho, h => by
    obtain ⟨m, h1, h2⟩ := means_exists l s ho.2 h
    obtain ⟨s', e, rfl⟩ := means_arr h1 ho.1
    exact ⟨_, .un h1, h2⟩
  | .bin _ _ _ _ l r, s, ho, h => by
    have e : ∀ a, a ∈ shapes l ∨ a ∈ shapes r → Aligned a s := fun a ha => h a (by simpa [shapes, Tree.leaves, List.filterMap_append, List.mem_append] using ha)
    obtain ⟨x, x1, x2⟩ := means_exists l s ho.2.1 fun a ha => e a (Or.inl ha)
    obtain ⟨y, y1, y2⟩ := means_exists r s ho.2.2 fun a ha => e a (Or.inr ha)
    obtain ⟨s', b1, b2⟩ := bc_exists [x.shape, y.shape] s (by simp) (by simp [x2, y2])
    exact ⟨_, .bin x1 y1 b1, b2⟩

theorem means_unique {t : Tree V (Sem V)} {m : Sem V} (h : Means t m) : ∀ m', Means t m' → m' = m := by
  induction h with
  | leaf x => intro m' h'; cases h'; rfl
  | un hl ih =>
    intro m' h'
    cases h' with
    | un hl' => have := ih _ hl'; injection this with e1 e2; subst e1 e2; rfl
  | bin hl hr hs ih1 ih2 =>
    intro m' h'
    cases h' with
    | bin hl' hr' hs' =>
      have e1 := ih1 _ hl'
      have e2 := ih2 _ hr'
      subst e1 e2
      have := broadcasts_unique _ _ _ hs hs'
      subst this
      rfl

/-! ### The function of the loop -/

theorem leaves_map {α β : Type} (f : α → β) : ∀ t : Tree V α, (t.map f).leaves = t.leaves.map f
  | .leaf x => rfl
  | .un _ _ _ _ l => leaves_map f l
  | .bin _ _ _ _ l r => by simp [Tree.map, Tree.leaves, leaves_map f l, leaves_map f r]

theorem shapes_arrays (h : Heap V) (t : Tree V (Leaf V)) : shapes (t.map (Leaf.sem h)) = (arrays t).map (·.arr.shape) := by
  rw [shapes, leaves_map, arrays, List.map_filterMap, List.filterMap_map]
  congr 1
  funext x
  obtain ⟨v, f, n⟩ := x
  cases v <;> rfl

theorem elemOf_some : ∀ (t : Tree V (Leaf V)) (vs : List V), (arrays t).length ≤ vs.length → ∃ v, elemOf t vs = some (v, vs.drop (arrays t).length)
  | .leaf ⟨.num v, _, _⟩, vs, _ => ⟨v, rfl⟩
  | .leaf ⟨.arr a d, _, _⟩, v :: vs, _ => ⟨v, rfl⟩
  | .leaf ⟨.arr a d, _, _⟩, [], h => by simp [arrays, Tree.leaves, Leaf.opd?] at h
  | .un fn _ _ _ l, vs, h => by
    obtain ⟨v, hv⟩ := elemOf_some l vs h
    exact ⟨fn v, by rw [elemOf, hv]; rfl⟩
  | .bin fn _ _ _ l r, vs, h => by
    have e : ∀ fn dt k c, (arrays (Tree.bin fn dt k c l r)).length = (arrays l).length + (arrays r).length := by intros; simp [arrays, Tree.leaves]
    rw [e] at h
    obtain ⟨u, hu⟩ := elemOf_some l vs (by omega)
    obtain ⟨v, hv⟩ := elemOf_some r (vs.drop (arrays l).length) (by rw [List.length_drop]; omega)
    refine ⟨fn u v, ?_⟩
    rw [elemOf, hu, e]
    simp only [Option.bind_some, hv, List.drop_drop, Option.map_some]

theorem elemOf_eval (h : Heap V) (s c : List Int) (hc : Valid c s) : ∀ (t : Tree V (Leaf V)), (∀ x ∈ arrays t, x.arr.WF h ∧ Aligned x.arr.shape s) →
    ∃ vs, ((arrays t).mapM fun x : Opd => x.arr.read h (proj x.arr.shape c)) = some vs ∧ ∀ rest, elemOf t (vs ++ rest) = (evalAt (t.map (Leaf.sem h)) c).map fun v => (v, rest)
  | .leaf ⟨.num v, _, _⟩, _ => ⟨[], rfl, fun rest => rfl⟩
  | .leaf ⟨.arr a d, _, _⟩, hx => by
    obtain ⟨h1, h2⟩ := hx ⟨a, d.w⟩ (by simp [arrays, Tree.leaves, Leaf.opd?])
    obtain ⟨v, hv⟩ := dom_proj h a h1 s h2 c hc
    refine ⟨[v], by simp [arrays, Tree.leaves, Leaf.opd?, hv], fun rest => ?_⟩
    simp only [elemOf, Tree.map, evalAt, Leaf.sem, Val.sem, Sem.at, List.cons_append, List.nil_append]
    rw [clip, if_pos (valid_proj _ _ _ h2 hc), hv]; rfl
  | .un fn _ _ _ l, hx => by
    obtain ⟨vs, h1, h2⟩ := elemOf_eval h s c hc l hx
    refine ⟨vs, h1, fun rest => ?_⟩
    rw [elemOf, h2]
    simp only [Tree.map, evalAt, Option.map_map]
    rfl
  | .bin fn dt k co l r, hx => by
    have e : arrays (Tree.bin fn dt k co l r) = arrays l ++ arrays r := by simp [arrays, Tree.leaves]
    rw [e] at hx ⊢
    obtain ⟨us, h1, h2⟩ := elemOf_eval h s c hc l fun x hh => hx x (by simp [hh])
    obtain ⟨vs, h3, h4⟩ := elemOf_eval h s c hc r fun x hh => hx x (by simp [hh])
    refine ⟨us ++ vs, by rw [List.mapM_append, h1, h3]; rfl, fun rest => ?_⟩
    rw [elemOf, List.append_assoc, h2]
    simp only [Tree.map, evalAt]
    cases evalAt (l.map (Leaf.sem h)) c with
    | none => rfl
    | some u =>
      simp only [Option.map_some, Option.bind_some]
      rw [h4]
      simp [Option.map_map, Function.comp_def]

/-- The loop over all leaves. -/
theorem allocLoop_means (h : Heap V) (junk : Int → V) (w0 : Int) (hw : 0 < w0) (t : Tree V (Leaf V)) (a : Opd) (r : List Opd) (hl : arrays t = a :: r) (hwf : ∀ x ∈ arrays t, x.arr.WF h)
    (hops : (t.map (Leaf.sem h)).Ops) (ha : (t.map (Leaf.sem h)).isArr) :
    (∃ s e, Means (t.map (Leaf.sem h)) (.arr s e) ∧ ∃ h' b, allocLoop h junk w0 (scalarFn t) a r = some (.ok (h', b)) ∧ NewArray h s e h' b ∧ b.off = 0 ∧ h'.next = h.next + 1 ∧
      (Val.arr b ⟨0, w0⟩).sem h' = .arr s e) ∨
    ((∀ m, ¬ Means (t.map (Leaf.sem h)) m) ∧ allocLoop h junk w0 (scalarFn t) a r = some (.error .value)) := by
  by_cases hb : ∃ s, Broadcasts ((a :: r).map (·.arr.shape)) s
  · obtain ⟨s, hb⟩ := hb
    refine Or.inl ?_
    have hal : ∀ x ∈ arrays t, Aligned x.arr.shape s := fun x hx => broadcasts_aligned _ _ hb _ (List.mem_map_of_mem (f := fun y : Opd => y.arr.shape) (by rw [← hl]; exact hx))
    obtain ⟨m, m1, m2⟩ := means_exists (t.map (Leaf.sem h)) s hops (by
      rw [shapes_arrays]
      intro sh hsh
      obtain ⟨x, hx, rfl⟩ := List.mem_map.mp hsh
      exact hal x hx)
    obtain ⟨s', e, rfl⟩ := means_arr m1 ha
    have hs : s' = s := by
      rcases means_bc m1 with ⟨h1, _⟩ | h1
      · exact absurd h1 (shapes_ne _ hops ha)
      · rw [shapes_arrays, hl] at h1
        exact broadcasts_unique _ _ _ hb h1 |>.symm
    subst hs
    obtain ⟨h', b, e1, e2⟩ := allocLoop_spec h junk w0 hw (scalarFn t) (fun vs => (elemOf t vs).map (·.1)) a r (by rw [← hl]; exact hwf) s' hb (by
      intro z ps h1 vs hlen hm
      obtain ⟨v, hv⟩ := elemOf_some t vs (by rw [hl]; simpa using Nat.le_of_eq hlen.symm)
      refine ⟨v, by rw [hv]; rfl, ?_⟩
      have : ps.mapM (fun p => h1.get p.1 p.2) = some vs := by
        clear hv hlen
        induction ps generalizing vs with
        | nil => cases vs with | nil => rfl | cons _ _ => simp at hm
        | cons p ps ih =>
          cases vs with
          | nil => simp at hm
          | cons v vs =>
            simp only [List.map_cons, List.cons.injEq] at hm
            rw [List.mapM_cons, hm.1, ih vs hm.2]; rfl
      simp only [scalarFn, this, hv])
    have hel : ∀ c, Valid c s' → (((a :: r).mapM fun x : Opd => x.arr.read h (proj x.arr.shape c)).bind fun vs => (elemOf t vs).map (·.1)) = e c := by
      intro c hc
      obtain ⟨vs, v1, v2⟩ := elemOf_eval h s' c hc t fun x hx => ⟨hwf x hx, hal x hx⟩
      have v3 := v2 []
      rw [List.append_nil] at v3
      rw [← hl, v1]
      simp only [Option.bind_some, v3, Option.map_map]
      rw [means_at m1 s' c (aligned_refl s') hc]
      simp only [Sem.at, proj_self _ _ hc]
      cases e c <;> rfl
    have hcl : ∀ c, ¬ Valid c s' → e c = none := by
      have hcl' : ∀ (t : Tree V (Leaf V)) (s' : List Int) (e : List Int → Option V), Means (t.map (Leaf.sem h)) (.arr s' e) → ∀ c, ¬ Valid c s' → e c = none := by
        intro t
        induction t with
        | leaf x =>
          intro s' e m1 c hc
          obtain ⟨v, f, n⟩ := x
          cases v with
          | num v => cases m1
          | arr a' d =>
            cases m1
            rw [clip, if_neg hc]
        | un fn dt k co l ih =>
          intro s' e m1 c hc
          cases m1 with
          | un hl => show Option.map fn _ = none; rw [ih _ _ hl c hc]; rfl
        | bin fn dt k co l r ih1 ih2 =>
          intro s' e m1 c hc
          cases m1 with
          | bin hl hr hs => rw [clip, if_neg hc]
      exact hcl' t s' e m1
    have hn : NewArray h s' e h' b := ⟨e2.1, e2.2.1, e2.2.2.1, e2.2.2.2.1, e2.2.2.2.2.1, fun c hc => by rw [e2.2.2.2.2.2 c hc]; exact hel c hc⟩
    have hoff : b.off = 0 ∧ h'.next = h.next + 1 := by
      have hrun : ∀ (f : List Ptr → Heap V → Option (Heap V)) (ts : List (List Ptr)) (k k' : Heap V), (∀ q k k', f q k = some k' → k'.next = k.next) → runAll f ts k = some k' → k'.next = k.next := by
        intro f ts
        induction ts with
        | nil => intro k k' _ hk; rw [runAll] at hk; rw [← Option.some.inj hk]
        | cons q ts ih =>
          intro k k' hf hk
          rw [runAll] at hk
          cases hq : f q k with
          | none => rw [hq] at hk; cases hk
          | some k1 => rw [hq] at hk; rw [ih k1 k' hf hk, hf q k k1 hq]
      have hsc : ∀ q k k', scalarFn t q k = some k' → k'.next = k.next := by
        intro q k k' hk
        cases q with
        | nil => cases hk
        | cons z ps =>
          simp only [scalarFn] at hk
          split at hk
          · cases hk
          · split at hk
            · cases hk
            · simp only [Heap.write] at hk
              split at hk
              · cases hk
              · rw [← Option.some.inj hk]
      obtain ⟨cs, res, f1, f2, f3⟩ := loop_all a r (some w0) h.next s' (fun w hh => by rw [← Option.some.inj hh]; exact hw) (fun x hx => (hwf x (by rw [hl]; exact hx)).len)
        (fun x hx => (hwf x (by rw [hl]; exact hx)).nonneg) hb
      obtain ⟨b', rfl, b1, b2, b3, b4, b5⟩ := f3
      rw [allocLoop, f1] at e1
      dsimp only at e1
      cases hr : runAll (scalarFn t) (cs.map (visit (some b') (a :: r))) (h.new w0 (count b'.shape) junk) with
      | none => rw [hr] at e1; cases e1
      | some k =>
        rw [hr] at e1
        simp only [Option.map_some, Option.some.injEq, Except.ok.injEq, Prod.mk.injEq] at e1
        obtain ⟨rfl, rfl⟩ := e1
        exact ⟨b4, by rw [hrun _ _ _ _ hsc hr]; rfl⟩
    refine ⟨s', e, m1, h', b, e1, hn, hoff.1, hoff.2, ?_⟩
    simp only [Val.sem]
    rw [hn.1]
    congr 1
    funext c
    by_cases hc : Valid c s'
    · rw [clip, if_pos hc, hn.2.2.2.2.2 c hc]
    · rw [clip, if_neg hc, hcl c hc]
  · push Not at hb
    refine Or.inr ⟨fun m hm => ?_, ?_⟩
    · rcases means_bc hm with ⟨h1, _⟩ | h1
      · exact shapes_ne _ hops ha h1
      · rw [shapes_arrays, hl] at h1
        exact hb _ h1
    · simp only [allocLoop, loop_all_error a r (some w0) h.next hb]

end Codon.NpFuse
