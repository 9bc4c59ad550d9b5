import Verif.NpFuse.Pass
/-!
# The whole pass
-/
namespace Codon.NpFuse
open Codon.Numpy
variable {V : Type}

/-- What a step that changes the tree gives: a tree of the same meaning, or `ValueError` if there is no meaning. -/
def Step (h : Heap V) (t : Tree V (Leaf V)) (τ : Ty) (r : Out (Heap V × Tree V (Leaf V))) : Prop :=
  (∃ h' t', r = some (.ok (h', t')) ∧ Kept' h t τ h' t') ∨ ((∀ m, ¬ Means (t.map (Leaf.sem h)) m) ∧ r = some (.error .value))

theorem kept_un {fn : V → V} {dt : DT} {k : Kind} {c : Int} {l l' : Tree V (Leaf V)} {h h' : Heap V} {τ τ1 : Ty} (ht : (Tree.un fn dt k c l).tyOf Leaf.ty = some τ)
    (hl : l.tyOf Leaf.ty = some τ1) (hz : 0 < dt.w) (K : Kept' h l τ1 h' l') : Kept' h (.un fn dt k c l) τ h' (.un fn dt k c l') := by
  refine ⟨⟨K.good.ok, K.good.nd, K.good.dj⟩, fun m => ⟨fun hm => ?_, fun hm => ?_⟩, ?_, ⟨hz, K.sized⟩, K.novec, K.frame, K.tmp, K.fix⟩
  · cases hm with
    | un hm => exact .un ((K.means _).mp hm)
  · cases hm with
    | un hm => exact .un ((K.means _).mpr hm)
  · rw [← ht, Tree.tyOf, Tree.tyOf, hl, K.ty]

theorem kept_bin {fn : V → V → V} {dt : DT} {k : Kind} {c : Int} {l r l' r' : Tree V (Leaf V)} {h h1 h2 : Heap V} {τ τ1 τ2 : Ty} (g : (Tree.bin fn dt k c l r).Good h)
    (ht : (Tree.bin fn dt k c l r).tyOf Leaf.ty = some τ) (hl : l.tyOf Leaf.ty = some τ1) (hr : r.tyOf Leaf.ty = some τ2) (hz : 0 < dt.w) (hk : k ≠ .vloop)
    (K1 : Kept' h l τ1 h1 l') (K2 : Kept' h1 r τ2 h2 r') : Kept' h (.bin fn dt k c l r) τ h2 (.bin fn dt k c l' r') := by
  obtain ⟨gl, gr, d1, d2⟩ := good_bin g
  have n1 := K1.frame.next
  have n2 := K2.frame.next
  have mr : r.map (Leaf.sem h1) = r.map (Leaf.sem h) := (good_frame gr K1.frame fun b hb hh => by
    rcases hb with hb | hb
    · exact (d1 b hh).1 hb
    · exact (d1 b hh).2 hb).2
  have tl : ∀ b ∈ tmps l', b < h1.next ∧ b ∉ tmps r ∧ b ∉ fixd r := by
    intro b hb
    have := blk_tmps K1.good.ok (Or.inl hb)
    refine ⟨this, fun hh => ?_, fun hh => ?_⟩
    · have hlt := blk_tmps gr.ok (Or.inl hh)
      rcases K1.tmp b hb with h5 | h5
      · exact (d1 b h5).1 hh
      · omega
    · have hlt := blk_tmps gr.ok (Or.inr hh)
      rcases K1.tmp b hb with h5 | h5
      · exact (d1 b h5).2 hh
      · omega
  have fl : ∀ b ∈ fixd l', b < h1.next ∧ b ∉ tmps r := fun b hb =>
    ⟨blk_tmps K1.good.ok (Or.inr hb), fun hh => (d2 b hh).2 (K1.fix b hb)⟩
  obtain ⟨gl2, ml⟩ := good_frame K1.good K2.frame fun b hb => by
    rcases hb with hb | hb
    · exact (tl b hb).2.1
    · exact (fl b hb).2
  have ntr : ∀ b ∈ tmps l', b ∉ tmps r' := fun b hb hh => by
    obtain ⟨q1, q2, _⟩ := tl b hb
    rcases K2.tmp b hh with h5 | h5
    · exact q2 h5
    · omega
  refine ⟨⟨fun x hx => ?_, ?_, fun b hb hh => ?_⟩, fun m => ⟨fun hm => ?_, fun hm => ?_⟩, ?_, ⟨hz, K1.sized, K2.sized⟩, ⟨hk, K1.novec, K2.novec⟩, ⟨by omega, fun z hz hn => ?_⟩, fun b hb => ?_, fun b hb => ?_⟩
  · simp only [Tree.leaves, List.mem_append] at hx
    rcases hx with hx | hx
    · exact gl2.ok x hx
    · exact K2.good.ok x hx
  · rw [tmps_bin, List.nodup_append]
    refine ⟨gl2.nd, K2.good.nd, fun a ha b hb e => ?_⟩
    rw [e] at ha
    exact ntr b ha hb
  · rw [fixd_bin, List.mem_append] at hb
    rw [tmps_bin, List.mem_append] at hh
    rcases hb with hb | hb <;> rcases hh with hh | hh
    · exact gl2.dj b hb hh
    · obtain ⟨q1, q2⟩ := fl b hb
      rcases K2.tmp b hh with h5 | h5
      · exact q2 h5
      · omega
    · exact (tl b hh).2.2 (K2.fix b hb)
    · exact K2.good.dj b hb hh
  · cases hm with
    | bin a b c =>
      rw [ml] at a
      exact .bin ((K1.means _).mp a) (by rw [← mr]; exact (K2.means _).mp b) c
  · cases hm with
    | bin a b c =>
      refine .bin ?_ ((K2.means _).mpr (by rw [mr]; exact b)) c
      rw [ml]; exact (K1.means _).mpr a
  · rw [← ht, Tree.tyOf, Tree.tyOf, hl, hr, K1.ty, K2.ty]
  · rw [tmps_bin, List.mem_append, not_or] at hn
    rw [K2.frame.keep z (by omega) hn.2, K1.frame.keep z hz hn.1]
  · rw [tmps_bin, List.mem_append] at hb
    rw [tmps_bin, List.mem_append]
    rcases hb with hb | hb
    · rcases K1.tmp b hb with h5 | h5
      · exact Or.inl (Or.inl h5)
      · exact Or.inr h5
    · rcases K2.tmp b hb with h5 | h5
      · exact Or.inl (Or.inr h5)
      · exact Or.inr (by omega)
  · rw [fixd_bin, List.mem_append] at hb ⊢
    rcases hb with hb | hb
    · exact Or.inl (K1.fix b hb)
    · exact Or.inr (K2.fix b hb)

/-- One round. -/
theorem pass_spec (L : Nat) (junk : Int → V) (ch : Tree V (Leaf V) → Choice) : ∀ (t : Tree V (Leaf V)) (h : Heap V) (τ : Ty), t.Good h → t.tyOf Leaf.ty = some τ → t.Sized → t.NoVec2 →
    (∃ h' t' b, pass L junk ch t h = some (.ok (h', t', b)) ∧ Kept' h t τ h' t') ∨ ((∀ m, ¬ Means (t.map (Leaf.sem h)) m) ∧ pass L junk ch t h = some (.error .value))
  | .leaf x, h, τ, g, ht, hz, hv => Or.inl ⟨h, .leaf x, false, rfl, Kept'.refl g ht hz hv⟩
  | .un fn dt k c l, h, τ, g, ht, hz, hv => by
    rw [pass]
    split
    · exact Or.inl ⟨_, _, _, rfl, Kept'.refl g ht hz hv⟩
    · split
      · obtain ⟨d, n, t1, _⟩ := ty_un ht
        rcases pass_spec L junk ch l h _ (good_un g) t1 hz.2 hv with ⟨h', l', b, e, K⟩ | ⟨hm, e⟩
        · exact Or.inl ⟨h', .un fn dt k c l', b, by rw [e]; rfl, kept_un ht t1 hz.1 K⟩
        · refine Or.inr ⟨fun m hh => ?_, by rw [e]; rfl⟩
          cases hh with
          | un hl => exact hm _ hl
      · skip
        rcases fuseNode_spec L junk dt (decide (ch _ = .test)) _ h τ g ht hz hv rfl hz.1 with ⟨h', t', e, K⟩ | ⟨hm, e⟩
        · exact Or.inl ⟨h', t', true, by rw [e]; rfl, K⟩
        · exact Or.inr ⟨hm, by rw [e]; rfl⟩
  | .bin fn dt k c l r, h, τ, g, ht, hz, hv => by
    rw [pass]
    split
    · exact Or.inl ⟨_, _, _, rfl, Kept'.refl g ht hz hv⟩
    · split
      · obtain ⟨τ1, τ2, t1, t2, _⟩ := ty_bin ht
        obtain ⟨gl, gr, d1, d2⟩ := good_bin g
        rcases pass_spec L junk ch l h _ gl t1 hz.2.1 hv.2.1 with ⟨h1, l', b1, e1, K1⟩ | ⟨hm, e1⟩
        · obtain ⟨gr1, mr⟩ := good_frame gr K1.frame fun b hb hh => by
            rcases hb with hb | hb
            · exact (d1 b hh).1 hb
            · exact (d1 b hh).2 hb
          rcases pass_spec L junk ch r h1 _ gr1 t2 hz.2.2 hv.2.2 with ⟨h2, r', b2, e2, K2⟩ | ⟨hm, e2⟩
          · exact Or.inl ⟨h2, .bin fn dt k c l' r', b1 || b2, by simp only [e1, e2, Out.bind], kept_bin g ht t1 t2 hz.1 hv.1 K1 K2⟩
          · refine Or.inr ⟨fun m hh => ?_, by simp only [e1, e2, Out.bind]⟩
            cases hh with
            | bin hl hr hs => rw [mr] at hm; exact hm _ hr
        · refine Or.inr ⟨fun m hh => ?_, by simp only [e1, Out.bind]⟩
          cases hh with
          | bin hl hr hs => exact hm _ hl
      · skip
        rcases fuseNode_spec L junk dt (decide (ch _ = .test)) _ h τ g ht hz hv rfl hz.1 with ⟨h', t', e, K⟩ | ⟨hm, e⟩
        · exact Or.inl ⟨h', t', true, by rw [e]; rfl, K⟩
        · exact Or.inr ⟨hm, by rw [e]; rfl⟩

theorem Kept'.trans {h h1 h2 : Heap V} {t t1 t2 : Tree V (Leaf V)} {τ : Ty} (K1 : Kept' h t τ h1 t1) (K2 : Kept' h1 t1 τ h2 t2) : Kept' h t τ h2 t2 := by
  have n1 := K1.frame.next
  have n2 := K2.frame.next
  refine ⟨K2.good, fun m => (K2.means m).trans (K1.means m), K2.ty, K2.sized, K2.novec, ⟨by omega, fun z hz hn => ?_⟩, fun b hb => ?_, fun b hb => K1.fix b (K2.fix b hb)⟩
  · rw [K2.frame.keep z (by omega) fun hh => ?_, K1.frame.keep z hz hn]
    rcases K1.tmp z hh with h5 | h5
    · exact hn h5
    · omega
  · rcases K2.tmp b hb with h5 | h5
    · exact K1.tmp b h5
    · exact Or.inr (by omega)

theorem rounds_spec (L : Nat) (junk : Int → V) (ch : Tree V (Leaf V) → Choice) : ∀ (n : Nat) (t : Tree V (Leaf V)) (h : Heap V) (τ : Ty), t.Good h → t.tyOf Leaf.ty = some τ → t.Sized → t.NoVec2 →
    Step h t τ (rounds L junk ch n t h)
  | 0, t, h, τ, g, ht, hz, hv => Or.inl ⟨h, t, rfl, Kept'.refl g ht hz hv⟩
  | n + 1, t, h, τ, g, ht, hz, hv => by
    rw [rounds]
    rcases pass_spec L junk ch t h τ g ht hz hv with ⟨h', t', b, e, K⟩ | ⟨hm, e⟩
    · rw [e]
      simp only [Out.bind]
      cases b with
      | false => exact Or.inl ⟨h', t', rfl, K⟩
      | true =>
        rcases rounds_spec L junk ch n t' h' τ K.good K.ty K.sized K.novec with ⟨h2, t2, e2, K2⟩ | ⟨hm, e2⟩
        · exact Or.inl ⟨h2, t2, by simpa using e2, K.trans K2⟩
        · exact Or.inr ⟨fun m hh => hm m ((K.means m).mpr hh), by simpa using e2⟩
    · exact Or.inr ⟨hm, by rw [e]; rfl⟩

/-- The code generated for a tree. -/
theorem evalTree_spec (L : Nat) (junk : Int → V) (ch : Tree V (Leaf V) → Choice) (t : Tree V (Leaf V)) (h : Heap V) (τ : Ty) (g : t.Good h) (ht : t.tyOf Leaf.ty = some τ) (hz : t.Sized) (hv : t.NoVec2) :
    (∃ h' v, evalTree L junk ch t h = some (.ok (h', v)) ∧ v.Ok h' ∧ v.ty = τ ∧ Means (t.map (Leaf.sem h)) (v.sem h') ∧ Frame h h' (tmps t) ∧
      (∀ b, v.blk? = some b → b ∈ tmps t ∨ b ∈ fixd t ∨ h.next ≤ b) ∧ ((∀ x, t ≠ .leaf x) → Owned v ∧ ∀ b, v.blk? = some b → b ∈ tmps t ∨ h.next ≤ b)) ∨
    ((∀ m, ¬ Means (t.map (Leaf.sem h)) m) ∧ evalTree L junk ch t h = some (.error .value)) := by
  unfold evalTree
  have hleaf : ∀ (n : Nat) (t t' : Tree V (Leaf V)) (h h' : Heap V), (∀ x, t ≠ .leaf x) → rounds L junk ch n t h = some (.ok (h', t')) → ∀ x, t' = .leaf x → t.Good h → t.tyOf Leaf.ty = some τ → t.Sized → t.NoVec2 → x.free = true := by
    have hp : ∀ (t t' : Tree V (Leaf V)) (h h' : Heap V) (b : Bool), (∀ x, t ≠ .leaf x) → pass L junk ch t h = some (.ok (h', t', b)) → ∀ x, t' = .leaf x → x.free = true := by
      have hfn : ∀ dt test (t : Tree V (Leaf V)) h h' t', fuseNode L junk dt test t h = some (.ok (h', t')) → ∀ x, t' = .leaf x → x.free = true := by
        intro dt test t h h' t' he x hx
        unfold fuseNode at he
        split at he
        · cases hs : seq L junk t h with
          | none => rw [hs] at he; cases he
          | some q =>
            rw [hs] at he
            cases q with
            | error e => cases he
            | ok q =>
              obtain ⟨q1, q2⟩ := q
              simp only [Out.bind] at he
              split at he
              · cases he
              · cases he; cases hx; rfl
        · cases hs : fused junk dt t h with
          | none => rw [hs] at he; cases he
          | some q =>
            rw [hs] at he
            cases q with
            | error e => cases he
            | ok q =>
              obtain ⟨q1, q2⟩ := q
              cases he; cases hx; rfl
      have hb : ∀ {α β : Type} (o : Out α) (f : α → Out β) (y : β), Out.bind o f = some (.ok y) → ∃ a, o = some (.ok a) ∧ f a = some (.ok y) := by
        intro α β o f y he
        cases o with
        | none => cases he
        | some q =>
          cases q with
          | error e => cases he
          | ok q => exact ⟨q, rfl, he⟩
      intro t t' h h' b hl he x hx
      cases t with
      | leaf y => exact absurd rfl (hl y)
      | un fn dt k c l =>
        rw [pass] at he
        split at he
        · cases he; cases hx
        · split at he
          · obtain ⟨q, _, he⟩ := hb _ _ _ he
            cases he; cases hx
          · obtain ⟨q, hq, he⟩ := hb _ _ _ he
            cases he
            exact hfn _ _ _ _ _ _ hq x hx
      | bin fn dt k c l r =>
        rw [pass] at he
        split at he
        · cases he; cases hx
        · split at he
          · obtain ⟨q, _, he⟩ := hb _ _ _ he
            obtain ⟨q, _, he⟩ := hb _ _ _ he
            cases he; cases hx
          · obtain ⟨q, hq, he⟩ := hb _ _ _ he
            cases he
            exact hfn _ _ _ _ _ _ hq x hx
    intro n
    induction n with
    | zero =>
      intro t t' h h' hl he x hx
      cases he
      exact absurd hx (hl x)
    | succ n ih =>
      intro t t' h h' hl he x hx g ht hz hv
      rw [rounds] at he
      rcases pass_spec L junk ch t h τ g ht hz hv with ⟨h1, t1, b, e, K⟩ | ⟨hm, e⟩
      · rw [e] at he
        simp only [Out.bind] at he
        split at he
        · by_cases h5 : ∃ y, t1 = .leaf y
          · obtain ⟨y, hy⟩ := h5
            have hf := hp t t1 h h1 b hl e y hy
            subst hy
            have : ∀ m, rounds L junk ch m (.leaf y) h1 = some (.ok (h1, .leaf y)) := by
              intro m; cases m <;> rfl
            rw [this] at he
            cases he; cases hx; exact hf
          · exact ih t1 t' h1 h' (fun y hy => h5 ⟨y, hy⟩) he x hx K.good K.ty K.sized K.novec
        · cases he
          exact hp t _ h _ b hl e x hx
      · rw [e] at he; cases he
  rcases rounds_spec L junk ch t.nodes t h τ g ht hz hv with ⟨h1, t1, e1, K⟩ | ⟨hm, e1⟩
  · have hl := hleaf t.nodes t t1 h h1
    rcases seq_spec L junk t1 h1 τ K.good K.ty K.sized K.novec with ⟨h2, x, e2, E⟩ | ⟨hm, e2⟩
    · have n1 := K.frame.next
      have n2 := E.frame.next
      have htmp : x.tmp = true → ∀ b, x.val.blk? = some b → b ∈ tmps t ∨ h.next ≤ b := by
        intro hx b hb
        rcases E.tmp hx b hb with h5 | h5
        · exact K.tmp b h5
        · exact Or.inr (by omega)
      refine Or.inl ⟨h2, x.val, by simp only [e1, e2, Out.bind], E.good.ok, E.ty, (K.means _).mp E.means, ⟨by omega, fun z hz hn => ?_⟩, fun b hb => ?_, fun hnl => ?_⟩
      · rw [E.frame.keep z (by omega) fun hh => ?_, K.frame.keep z hz hn]
        rcases K.tmp z hh with h5 | h5
        · exact hn h5
        · omega
      · by_cases hx : x.tmp = true
        · rcases htmp hx b hb with h5 | h5
          · exact Or.inl h5
          · exact Or.inr (Or.inr h5)
        · exact Or.inr (Or.inl (K.fix b (E.fix (by simpa using hx) b hb)))
      · have hx : x.tmp = true := by
          by_cases h5 : ∃ y, t1 = .leaf y
          · obtain ⟨y, hy⟩ := h5
            have := hl hnl e1 y hy g ht hz hv
            subst hy
            cases e2; exact this
          · exact E.node fun y hy => h5 ⟨y, hy⟩
        exact ⟨E.good.own hx, htmp hx⟩
    · exact Or.inr ⟨fun m hh => hm m ((K.means m).mpr hh), by simp only [e1, e2, Out.bind]⟩
  · exact Or.inr ⟨hm, by rw [e1]; rfl⟩

/-! ### The leaves -/

theorem Grows.refl (h : Heap V) : Grows h h := ⟨fun _ _ => rfl, Nat.le_refl _⟩
theorem Grows.trans {h h1 h2 : Heap V} (a : Grows h h1) (b : Grows h1 h2) : Grows h h2 :=
  ⟨fun z hz => by rw [b.1 z (by have := a.2; omega), a.1 z hz], by have := a.2; have := b.2; omega⟩

theorem same_grows {h h' : Heap V} {x : Val V} (hx : x.Ok h) (hg : Grows h h') : SameAt h h' x := ⟨hg.2, fun b hb => hg.1 b (hx.blk hb)⟩

/-- The leaves are evaluated. -/
structure Evald {h : Heap V} (μ : Act V → Sem V) (t : Tree V (Act V)) (h1 : Heap V) (t' : Tree V (Leaf V)) : Prop where
  ok : ∀ x ∈ t'.leaves, x.val.Ok h1 ∧ x.free = false
  sem : t'.map (Leaf.sem h1) = t.map μ
  ty : t'.tyOf Leaf.ty = t.tyOf Act.ty
  sized : t.Sized → t'.Sized
  novec : t.NoVec2 → t'.NoVec2
  node : (∀ x, t ≠ .leaf x) → ∀ x, t' ≠ .leaf x

theorem evalLeaves_spec {h0 : Heap V} {μ : Act V → Sem V} : ∀ (t : Tree V (Act V)) (h : Heap V), Grows h0 h → (∀ a ∈ t.leaves, a.Pure h0 (μ a)) →
    ∃ h1 t', evalLeaves t h = some (.ok (h1, t')) ∧ Grows h h1 ∧ Evald (h := h0) μ t h1 t'
  | .leaf a, h, hg, hp => by
    obtain ⟨h1, v, e1, e2, e3, e4, e5⟩ := hp a (by simp [Tree.leaves]) h hg
    refine ⟨h1, .leaf ⟨v, false, a.name⟩, by rw [evalLeaves, e1]; rfl, e2, ?_, ?_, ?_, fun _ => trivial, fun _ => trivial, fun hh => absurd rfl (hh a)⟩
    · intro x hx
      have : x = ⟨v, false, a.name⟩ := by simpa [Tree.leaves] using hx
      rw [this]; exact ⟨e3, rfl⟩
    · simp only [Tree.map, Leaf.sem, e5]
    · simp only [Tree.tyOf, Leaf.ty, e4]
  | .un fn dt k c l, h, hg, hp => by
    obtain ⟨h1, l', e1, e2, E⟩ := evalLeaves_spec l h hg hp
    exact ⟨h1, .un fn dt k c l', by rw [evalLeaves, e1]; rfl, e2, E.ok, by simp only [Tree.map, E.sem], by simp only [Tree.tyOf, E.ty], fun hz => ⟨hz.1, E.sized hz.2⟩, E.novec, fun _ x hx => by cases hx⟩
  | .bin fn dt k c l r, h, hg, hp => by
    obtain ⟨h1, l', e1, e2, E1⟩ := evalLeaves_spec l h hg fun a ha => hp a (by simp [Tree.leaves, ha])
    obtain ⟨h2, r', f1, f2, E2⟩ := evalLeaves_spec r h1 (hg.trans e2) fun a ha => hp a (by simp [Tree.leaves, ha])
    refine ⟨h2, .bin fn dt k c l' r', by rw [evalLeaves, e1]; simp only [Out.bind, f1], e2.trans f2, ?_, ?_, by simp only [Tree.tyOf, E1.ty, E2.ty], fun hz => ⟨hz.1, E1.sized hz.2.1, E2.sized hz.2.2⟩,
      fun hv => ⟨hv.1, E1.novec hv.2.1, E2.novec hv.2.2⟩, fun _ x hx => by cases hx⟩
    · intro x hx
      simp only [Tree.leaves, List.mem_append] at hx
      rcases hx with hx | hx
      · exact ⟨ok_same (E1.ok x hx).1 (same_grows (E1.ok x hx).1 f2), (E1.ok x hx).2⟩
      · exact E2.ok x hx
    · simp only [Tree.map]
      rw [map_sem l' fun x hx => same_grows (E1.ok x hx).1 f2, E1.sem, E2.sem]

/-- What an expression should do. -/
def Right (h : Heap V) (M : Tree V (Sem V)) (r : Out (Heap V × Val V)) : Prop :=
  (∃ m h' v, Means M m ∧ r = some (.ok (h', v)) ∧ Gives h m h' v) ∨ ((∀ m, ¬ Means M m) ∧ r = some (.error .value))

/-- The code after the pass, for trees that are not left as they are. -/
theorem evaluated_right (L : Nat) (junk : Int → V) (ch : Tree V (Leaf V) → Choice) (t : Tree V (Act V)) (h : Heap V) (μ : Act V → Sem V) (τ : Ty) (hp : ∀ a ∈ t.leaves, a.Pure h (μ a))
    (ht : t.tyOf Act.ty = some τ) (hz : t.Sized) (hv : t.NoVec2) (hn : ∀ x, t ≠ .leaf x) :
    Right h (t.map μ) (Out.bind (evalLeaves t h) fun (h1, t') => evalTree L junk ch t' h1) := by
  obtain ⟨h1, t', e1, e2, E⟩ := evalLeaves_spec (μ := μ) t h (Grows.refl h) hp
  have htm : tmps t' = [] := by
    rw [tmps, List.filterMap_eq_nil_iff]
    intro x hx
    simp [Leaf.tmp?, (E.ok x hx).2]
  have g : t'.Good h1 := ⟨fun x hx => ⟨(E.ok x hx).1, fun hh => by rw [(E.ok x hx).2] at hh; cases hh⟩, by rw [htm]; exact List.nodup_nil, by rw [htm]; simp⟩
  rw [e1]
  simp only [Out.bind]
  rcases evalTree_spec L junk ch t' h1 τ g (by rw [E.ty]; exact ht) (E.sized hz) (E.novec hv) with ⟨h2, v, f1, f2, f3, f4, f5, f6, f7⟩ | ⟨hm, f1⟩
  · rw [E.sem] at f4
    obtain ⟨q1, q2⟩ := f7 (E.node hn)
    refine Or.inl ⟨_, h2, v, f4, f1, ?_⟩
    cases v with
    | num v => exact absurd q1 id
    | arr a dt =>
      have hb := q2 a.blk rfl
      rw [htm] at hb
      refine ⟨a, dt, rfl, f2.1, ?_, q1.1, fun z hz => ?_, rfl⟩
      · rcases hb with hb | hb
        · simp at hb
        · have := e2.2; omega
      · rw [f5.keep z (by have := e2.2; omega) (by rw [htm]; simp), e2.1 z hz]
  · rw [E.sem] at hm
    exact Or.inr ⟨hm, f1⟩

/-! ### The number of rounds -/

theorem bind_ok {α β : Type} {o : Out α} {f : α → Out β} {y : β} (h : Out.bind o f = some (.ok y)) : ∃ a, o = some (.ok a) ∧ f a = some (.ok y) := by
  cases o with
  | none => cases h
  | some q =>
    cases q with
    | error e => cases h
    | ok q => exact ⟨q, rfl, h⟩

theorem fuseNode_leaf {L : Nat} {junk : Int → V} {dt : DT} {test : Bool} {t t' : Tree V (Leaf V)} {h h' : Heap V} (he : fuseNode L junk dt test t h = some (.ok (h', t'))) : t'.nodes = 1 := by
  unfold fuseNode at he
  split at he
  · obtain ⟨⟨q1, q2⟩, _, he⟩ := bind_ok he
    dsimp only at he
    split at he
    · cases he
    · cases he; rfl
  · obtain ⟨⟨q1, q2⟩, _, he⟩ := bind_ok he
    cases he; rfl

theorem nodes_pos {α : Type} (t : Tree V α) : 0 < t.nodes := by cases t <;> simp [Tree.nodes]

/-- A round that changes something makes the tree smaller; one that changes nothing is the last one. -/
theorem pass_nodes (L : Nat) (junk : Int → V) (ch : Tree V (Leaf V) → Choice) : ∀ (t : Tree V (Leaf V)) (h h' : Heap V) (t' : Tree V (Leaf V)) (b : Bool), pass L junk ch t h = some (.ok (h', t', b)) →
    (b = true → t'.nodes < t.nodes) ∧ (b = false → t' = t ∧ h' = h)
  | .leaf x, h, h', t', b, he => by cases he; exact ⟨by simp, fun _ => ⟨rfl, rfl⟩⟩
  | .un fn dt k c l, h, h', t', b, he => by
    rw [pass] at he
    split at he
    · cases he; exact ⟨by simp, fun _ => ⟨rfl, rfl⟩⟩
    · split at he
      · obtain ⟨⟨h1, l', b'⟩, e1, e2⟩ := bind_ok he
        cases e2
        obtain ⟨i1, i2⟩ := pass_nodes L junk ch l h _ _ _ e1
        exact ⟨fun hb => by simp only [Tree.nodes]; have := i1 hb; omega, fun hb => by obtain ⟨r1, r2⟩ := i2 hb; exact ⟨by rw [r1], r2⟩⟩
      · obtain ⟨⟨h1, t1⟩, e1, e2⟩ := bind_ok he
        cases e2
        have := fuseNode_leaf e1
        have := nodes_pos l
        exact ⟨fun _ => by simp only [Tree.nodes]; omega, by simp⟩
  | .bin fn dt k c l r, h, h', t', b, he => by
    rw [pass] at he
    split at he
    · cases he; exact ⟨by simp, fun _ => ⟨rfl, rfl⟩⟩
    · split at he
      · obtain ⟨⟨h1, l', b1⟩, e1, e2⟩ := bind_ok he
        obtain ⟨⟨h2, r', b2⟩, e3, e4⟩ := bind_ok e2
        cases e4
        obtain ⟨i1, i2⟩ := pass_nodes L junk ch l h _ _ _ e1
        obtain ⟨j1, j2⟩ := pass_nodes L junk ch r h1 _ _ _ e3
        have il : l'.nodes ≤ l.nodes := by
          cases b1 with
          | true => have := i1 rfl; omega
          | false => rw [(i2 rfl).1]
        have ir : r'.nodes ≤ r.nodes := by
          cases b2 with
          | true => have := j1 rfl; omega
          | false => rw [(j2 rfl).1]
        refine ⟨fun hb => ?_, fun hb => ?_⟩
        · simp only [Tree.nodes]
          rcases Bool.or_eq_true _ _ |>.mp hb with hh | hh
          · have := i1 hh; omega
          · have := j1 hh; omega
        · obtain ⟨q1, q2⟩ := Bool.or_eq_false_iff.mp hb
          obtain ⟨r1, r2⟩ := i2 q1
          obtain ⟨r3, r4⟩ := j2 q2
          exact ⟨by rw [r1, r3], by rw [r4, r2]⟩
      · obtain ⟨⟨h1, t1⟩, e1, e2⟩ := bind_ok he
        cases e2
        have := fuseNode_leaf e1
        have := nodes_pos l
        exact ⟨fun _ => by simp only [Tree.nodes]; omega, by simp⟩

theorem rounds_enough (L : Nat) (junk : Int → V) (ch : Tree V (Leaf V) → Choice) : ∀ (n : Nat) (t : Tree V (Leaf V)) (h : Heap V), t.nodes ≤ n → rounds L junk ch (n + 1) t h = rounds L junk ch n t h
  | 0, t, h, hn => by have := nodes_pos t; omega
  | n + 1, t, h, hn => by
    rw [rounds, rounds]
    cases hp : pass L junk ch t h with
    | none => rfl
    | some q =>
      cases q with
      | error e => rfl
      | ok q =>
        obtain ⟨h1, t1, b⟩ := q
        simp only [Out.bind]
        cases b with
        | false => rfl
        | true =>
          have := (pass_nodes L junk ch t h _ _ _ hp).1 rfl
          simp only [if_true]
          exact rounds_enough L junk ch n t1 h1 (by omega)

end Codon.NpFuse
