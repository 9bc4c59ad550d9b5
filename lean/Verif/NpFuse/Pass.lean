import Verif.NpFuse.Seq
/-!
# Evaluating trees
-/
namespace Codon.NpFuse
open Codon.Numpy
variable {V : Type}

/-- The block of a leaf if it is a temporary array. -/
def Leaf.tmp? (x : Leaf V) : Option Nat := if x.free then x.val.blk? else none
/-- The block of a leaf if it is another array. -/
def Leaf.fix? (x : Leaf V) : Option Nat := if x.free then none else x.val.blk?
/-- The blocks of temporary arrays. -/
def tmps (t : Tree V (Leaf V)) : List Nat := t.leaves.filterMap Leaf.tmp?
/-- The blocks of the other arrays. -/
def fixd (t : Tree V (Leaf V)) : List Nat := t.leaves.filterMap Leaf.fix?

/-- The state of the leaves: temporary arrays are used once. -/
structure Tree.Good (h : Heap V) (t : Tree V (Leaf V)) : Prop where
  ok : ∀ x ∈ t.leaves, x.val.Ok h ∧ (x.free = true → Owned x.val)
  nd : (tmps t).Nodup
  dj : ∀ b ∈ fixd t, b ∉ tmps t

/-- The type of a leaf. -/
def Leaf.ty (x : Leaf V) : Ty := x.val.ty

theorem tmps_un {fn : V → V} {dt : DT} {k : Kind} {c : Int} {l : Tree V (Leaf V)} : tmps (.un fn dt k c l) = tmps l := rfl
theorem fixd_un {fn : V → V} {dt : DT} {k : Kind} {c : Int} {l : Tree V (Leaf V)} : fixd (.un fn dt k c l) = fixd l := rfl
theorem tmps_bin {fn : V → V → V} {dt : DT} {k : Kind} {c : Int} {l r : Tree V (Leaf V)} : tmps (.bin fn dt k c l r) = tmps l ++ tmps r := by simp [tmps, Tree.leaves]
theorem fixd_bin {fn : V → V → V} {dt : DT} {k : Kind} {c : Int} {l r : Tree V (Leaf V)} : fixd (.bin fn dt k c l r) = fixd l ++ fixd r := by simp [fixd, Tree.leaves]

theorem good_un {fn : V → V} {dt : DT} {k : Kind} {c : Int} {l : Tree V (Leaf V)} {h : Heap V} (g : (Tree.un fn dt k c l).Good h) : l.Good h := ⟨g.ok, g.nd, g.dj⟩

theorem blk_tmps {h : Heap V} {t : Tree V (Leaf V)} (g : ∀ x ∈ t.leaves, x.val.Ok h ∧ (x.free = true → Owned x.val)) {b : Nat} (hb : b ∈ tmps t ∨ b ∈ fixd t) : b < h.next := by
  rcases hb with hb | hb
  · obtain ⟨x, hx, e⟩ := List.mem_filterMap.mp hb
    unfold Leaf.tmp? at e
    split at e
    · exact (g x hx).1.blk e
    · cases e
  · obtain ⟨x, hx, e⟩ := List.mem_filterMap.mp hb
    unfold Leaf.fix? at e
    split at e
    · cases e
    · exact (g x hx).1.blk e

theorem leaf_mem {t : Tree V (Leaf V)} {x : Leaf V} (hx : x ∈ t.leaves) {b : Nat} (hb : x.val.blk? = some b) : b ∈ tmps t ∨ b ∈ fixd t := by
  by_cases hf : x.free = true
  · exact Or.inl (List.mem_filterMap.mpr ⟨x, hx, by simp [Leaf.tmp?, hf, hb]⟩)
  · exact Or.inr (List.mem_filterMap.mpr ⟨x, hx, by simp [Leaf.fix?, hf, hb]⟩)

/-- Two operands have nothing temporary in common. -/
theorem good_bin {fn : V → V → V} {dt : DT} {k : Kind} {c : Int} {l r : Tree V (Leaf V)} {h : Heap V} (g : (Tree.bin fn dt k c l r).Good h) :
    l.Good h ∧ r.Good h ∧ (∀ b ∈ tmps l, b ∉ tmps r ∧ b ∉ fixd r) ∧ (∀ b ∈ tmps r, b ∉ tmps l ∧ b ∉ fixd l) := by
  obtain ⟨g1, g2, g3⟩ := g
  rw [tmps_bin, List.nodup_append] at g2
  simp only [tmps_bin, fixd_bin, List.mem_append] at g3
  simp only [Tree.leaves, List.mem_append] at g1
  refine ⟨⟨fun x hx => g1 x (Or.inl hx), g2.1, fun b hb hh => g3 b (Or.inl hb) (Or.inl hh)⟩, ⟨fun x hx => g1 x (Or.inr hx), g2.2.1, fun b hb hh => g3 b (Or.inr hb) (Or.inr hh)⟩, ?_, ?_⟩
  · exact fun b hb => ⟨fun hh => g2.2.2 b hb b hh rfl, fun hh => g3 b (Or.inr hh) (Or.inl hb)⟩
  · exact fun b hb => ⟨fun hh => g2.2.2 b hh b hb rfl, fun hh => g3 b (Or.inl hh) (Or.inr hb)⟩

theorem map_sem {h h' : Heap V} : ∀ t : Tree V (Leaf V), (∀ x ∈ t.leaves, SameAt h h' x.val) → t.map (Leaf.sem h') = t.map (Leaf.sem h)
  | .leaf x, hs => by simp only [Tree.map, Leaf.sem, sem_same (hs x (by simp [Tree.leaves]))]
  | .un _ _ _ _ l, hs => by simp only [Tree.map, map_sem l hs]
  | .bin _ _ _ _ l r, hs => by
    simp only [Tree.map, map_sem l fun x hx => hs x (by simp [Tree.leaves, hx]), map_sem r fun x hx => hs x (by simp [Tree.leaves, hx])]

/-- Other blocks change: the leaves stay good and mean the same. -/
theorem good_frame {h h' : Heap V} {bs : List Nat} {t : Tree V (Leaf V)} (g : t.Good h) (hf : Frame h h' bs) (hb : ∀ b, b ∈ tmps t ∨ b ∈ fixd t → b ∉ bs) :
    t.Good h' ∧ t.map (Leaf.sem h') = t.map (Leaf.sem h) := by
  have hs : ∀ x ∈ t.leaves, SameAt h h' x.val := fun x hx => same_frame hf (g.ok x hx).1 fun b hh => hb b (leaf_mem hx hh)
  exact ⟨⟨fun x hx => ⟨ok_same (g.ok x hx).1 (hs x hx), (g.ok x hx).2⟩, g.nd, g.dj⟩, map_sem t hs⟩

theorem ty_ops (h : Heap V) : ∀ (t : Tree V (Leaf V)) (τ : Ty), t.tyOf Leaf.ty = some τ → (t.map (Leaf.sem h)).Ops ∧ (τ ≠ .num → (t.map (Leaf.sem h)).isArr)
  | .leaf ⟨.num v, _, _⟩, τ, ht => ⟨trivial, fun hh => absurd (Option.some.inj ht).symm hh⟩
  | .leaf ⟨.arr a d, _, _⟩, τ, ht => ⟨trivial, fun _ => rfl⟩
  | .un fn dt k c l, τ, ht => by
    rw [Tree.tyOf] at ht
    split at ht
    · next d n hl =>
      obtain ⟨h1, h2⟩ := ty_ops h l _ hl
      exact ⟨⟨h2 (by simp), h1⟩, fun _ => trivial⟩
    · cases ht
  | .bin fn dt k c l r, τ, ht => by
    rw [Tree.tyOf] at ht
    split at ht
    · next d n d' n' hl hr =>
      obtain ⟨h1, h2⟩ := ty_ops h l _ hl
      obtain ⟨h3, _⟩ := ty_ops h r _ hr
      exact ⟨⟨Or.inl (h2 (by simp)), h1, h3⟩, fun _ => trivial⟩
    · next d n hl hr =>
      obtain ⟨h1, h2⟩ := ty_ops h l _ hl
      obtain ⟨h3, _⟩ := ty_ops h r _ hr
      exact ⟨⟨Or.inl (h2 (by simp)), h1, h3⟩, fun _ => trivial⟩
    · next d n hl hr =>
      obtain ⟨h1, _⟩ := ty_ops h l _ hl
      obtain ⟨h3, h4⟩ := ty_ops h r _ hr
      exact ⟨⟨Or.inr (h4 (by simp)), h1, h3⟩, fun _ => trivial⟩
    · cases ht

/-- What the type of an operation on two operands says. -/
theorem ty_bin {α : Type} {ty : α → Ty} {fn : V → V → V} {dt : DT} {k : Kind} {c : Int} {l r : Tree V α} {τ : Ty} (ht : (Tree.bin fn dt k c l r).tyOf ty = some τ) :
    ∃ τ1 τ2, l.tyOf ty = some τ1 ∧ r.tyOf ty = some τ2 ∧ ¬ (τ1 = .num ∧ τ2 = .num) ∧
      ∀ (x y : Val V) (s : List Int), x.ty = τ1 → y.ty = τ2 → Broadcasts [x.shape, y.shape] s → τ = .arr dt s.length ∧ s.length ≠ 0 := by
  have hlen : ∀ (a b s : List Int), Broadcasts [a, b] s → s.length = max a.length b.length := by
    intro a b s hb
    have h1 := hb.1 a (by simp)
    have h2 := hb.1 b (by simp)
    obtain ⟨z, hz, e⟩ := hb.2.1
    simp only [List.mem_cons, List.not_mem_nil, or_false] at hz
    rcases hz with rfl | rfl <;> omega
  rw [Tree.tyOf] at ht
  split at ht
  · next d n d' n' hl hr =>
    split at ht
    · cases ht
    · next hh =>
      refine ⟨_, _, hl, hr, by simp, fun x y s hx hy hb => ?_⟩
      cases x with
      | num v => cases hx
      | arr a e =>
        cases y with
        | num v => cases hy
        | arr b e' =>
          injection hx with _ hx
          injection hy with _ hy
          have := hlen _ _ _ hb
          simp only [Val.shape] at this
          rw [hx, hy] at this
          rw [this]
          exact ⟨(Option.some.inj ht).symm, by omega⟩
  · next d n hl hr =>
    split at ht
    · cases ht
    · next hh =>
      refine ⟨_, _, hl, hr, by simp, fun x y s hx hy hb => ?_⟩
      cases x with
      | num v => cases hx
      | arr a e =>
        cases y with
        | arr b e' => cases hy
        | num v =>
          injection hx with _ hx
          have := hlen _ _ _ hb
          simp only [Val.shape, List.length_nil] at this
          rw [hx] at this
          rw [this]
          exact ⟨by rw [Nat.max_eq_left (Nat.zero_le _)]; exact (Option.some.inj ht).symm, by omega⟩
  · next d n hl hr =>
    split at ht
    · cases ht
    · next hh =>
      refine ⟨_, _, hl, hr, by simp, fun x y s hx hy hb => ?_⟩
      cases y with
      | num v => cases hy
      | arr b e =>
        cases x with
        | arr a e' => cases hx
        | num v =>
          injection hy with _ hy
          have := hlen _ _ _ hb
          simp only [Val.shape, List.length_nil] at this
          rw [hy] at this
          rw [this]
          exact ⟨by rw [Nat.max_eq_right (Nat.zero_le _)]; exact (Option.some.inj ht).symm, by omega⟩
  · cases ht

theorem ty_un {α : Type} {ty : α → Ty} {fn : V → V} {dt : DT} {k : Kind} {c : Int} {l : Tree V α} {τ : Ty} (ht : (Tree.un fn dt k c l).tyOf ty = some τ) :
    ∃ d n, l.tyOf ty = some (.arr d n) ∧ n ≠ 0 ∧ (k = .vloop → d = dt) ∧ τ = .arr dt n := by
  rw [Tree.tyOf] at ht
  split at ht
  · next d n hl =>
    split at ht
    · cases ht
    · next hh =>
      refine ⟨d, n, hl, fun h0 => hh (Or.inl h0), fun hk => ?_, (Option.some.inj ht).symm⟩
      by_contra hd
      exact hh (Or.inr ⟨hk, hd⟩)
  · cases ht

/-- The result of evaluating a tree. -/
structure Eval (h : Heap V) (t : Tree V (Leaf V)) (τ : Ty) (h' : Heap V) (e : Ev V) : Prop where
  good : e.Good h'
  means : Means (t.map (Leaf.sem h)) (e.val.sem h')
  ty : e.val.ty = τ
  frame : Frame h h' (tmps t)
  tmp : e.tmp = true → ∀ b, e.val.blk? = some b → b ∈ tmps t ∨ h.next ≤ b
  fix : e.tmp = false → ∀ b, e.val.blk? = some b → b ∈ fixd t
  node : (∀ x, t ≠ .leaf x) → e.tmp = true

theorem mem_blks {x : Ev V} {b : Nat} (h : b ∈ x.blks) : x.tmp = true ∧ x.val.blk? = some b := by
  unfold Ev.blks at h
  split at h
  · next ht => exact ⟨ht, by simpa using h⟩
  · simp at h

theorem seq_spec (L : Nat) (junk : Int → V) : ∀ (t : Tree V (Leaf V)) (h : Heap V) (τ : Ty), t.Good h → t.tyOf Leaf.ty = some τ → t.Sized → t.NoVec2 →
    (∃ h' e, seq L junk t h = some (.ok (h', e)) ∧ Eval h t τ h' e) ∨ ((∀ m, ¬ Means (t.map (Leaf.sem h)) m) ∧ seq L junk t h = some (.error .value))
  | .leaf x, h, τ, g, ht, _, _ => by
    obtain ⟨g1, g2⟩ := g.ok x (by simp [Tree.leaves])
    refine Or.inl ⟨h, ⟨x.val, x.free⟩, rfl, ⟨g1, g2⟩, .leaf _, Option.some.inj ht, Frame.refl _ _, fun hf b hb => Or.inl ?_, fun hf b hb => ?_, fun hh => absurd rfl (hh x)⟩
    · exact List.mem_filterMap.mpr ⟨x, by simp [Tree.leaves], by dsimp only at hf hb; simp [Leaf.tmp?, hf, hb]⟩
    · exact List.mem_filterMap.mpr ⟨x, by simp [Tree.leaves], by dsimp only at hf hb; simp [Leaf.fix?, hf, hb]⟩
  | .un fn dt k c l, h, τ, g, ht, hz, hv => by
    obtain ⟨d, n, t1, t2, t3, t4⟩ := ty_un ht
    rcases seq_spec L junk l h _ (good_un g) t1 hz.2 hv with ⟨h1, e, e1, E⟩ | ⟨hm, e1⟩
    · refine Or.inl ?_
      obtain ⟨v, tm⟩ := e
      cases v with
      | num v => cases E.ty
      | arr a d' =>
        have ety := E.ty
        injection ety with ed el
        obtain ⟨h2, b, f1, D⟩ := seqUn_spec (L := L) (junk := junk) (fn := fn) (dt := dt) (k := k) rfl E.good (by omega) (fun hk => by rw [ed, t3 hk]) hz.1
        refine ⟨h2, ⟨.arr b dt, true⟩, by rw [seq, e1]; exact f1, D.good, ?_, ?_, ⟨by have := E.frame.next; have := D.frame.next; omega, fun z hz hn => ?_⟩, fun _ z hz => ?_, fun hh => by simp at hh, fun _ => rfl⟩
        · dsimp only
          rw [D.sem]
          exact .un E.means
        · have := congrArg Sem.shape D.sem
          simp only [Val.sem, Sem.shape] at this
          simp only [Val.ty, this, t4, el]
        · rw [D.frame.keep z (by have := E.frame.next; omega) fun hh => ?_, E.frame.keep z hz hn]
          obtain ⟨q1, q2⟩ := mem_blks hh
          rcases E.tmp q1 z q2 with hh | hh
          · exact hn hh
          · omega
        · have hz : b.blk = z := Option.some.inj hz
          rw [← hz]
          rcases D.place with hh | hh
          · obtain ⟨q1, q2⟩ := mem_blks hh
            exact E.tmp q1 _ q2
          · exact Or.inr (by have := E.frame.next; omega)
    · refine Or.inr ⟨fun m hh => ?_, by rw [seq, e1]; rfl⟩
      cases hh with
      | un hl => exact hm _ hl
  | .bin fn dt k c l r, h, τ, g, ht, hz, hv => by
    obtain ⟨τ1, τ2, t1, t2, t3, t4⟩ := ty_bin ht
    obtain ⟨gl, gr, d1, d2⟩ := good_bin g
    rcases seq_spec L junk l h _ gl t1 hz.2.1 hv.2.1 with ⟨h1, x, e1, E1⟩ | ⟨hm, e1⟩
    · have hdis : ∀ b, b ∈ tmps r ∨ b ∈ fixd r → b ∉ tmps l := fun b hb hh => by
        rcases hb with hb | hb
        · exact (d1 b hh).1 hb
        · exact (d1 b hh).2 hb
      obtain ⟨gr1, mr⟩ := good_frame gr E1.frame hdis
      rcases seq_spec L junk r h1 _ gr1 t2 hz.2.2 hv.2.2 with ⟨h2, y, e2, E2⟩ | ⟨hm, e2⟩
      · have n1 := E1.frame.next
        have n2 := E2.frame.next
        have hlr : ∀ b, x.val.blk? = some b → b < h1.next ∧ b ∉ tmps r := by
          intro b hb
          refine ⟨E1.good.ok.blk hb, fun hh => ?_⟩
          have hlt := blk_tmps gr.ok (Or.inl hh)
          by_cases hx : x.tmp = true
          · rcases E1.tmp hx b hb with h5 | h5
            · exact (d1 b h5).1 hh
            · omega
          · exact (d2 b hh).2 (E1.fix (by simpa using hx) b hb)
        have sx : SameAt h1 h2 x.val := same_frame E2.frame E1.good.ok fun b hb => (hlr b hb).2
        have gx : x.Good h2 := ⟨ok_same E1.good.ok sx, E1.good.own⟩
        have hap : Apart2 x y := by
          intro hh b hb hb'
          have hb1 := hlr b hb
          by_cases hy : y.tmp = true
          · rcases E2.tmp hy b hb' with h5 | h5
            · exact hb1.2 h5
            · omega
          · have h6 := E2.fix (by simpa using hy) b hb'
            have hlt := blk_tmps gr.ok (Or.inr h6)
            rcases E1.tmp (by simpa [hy] using hh) b hb with h5 | h5
            · exact (d1 b h5).2 h6
            · omega
        rcases seqBin_spec (L := L) (junk := junk) (fn := fn) (dt := dt) (k := k) hv.1 gx E2.good (by rw [E1.ty, E2.ty]; exact t3) hap hz.1 with ⟨s, hb, h3, a, f1, D⟩ | ⟨hb, f1⟩
        · obtain ⟨t5, t6⟩ := t4 x.val y.val s E1.ty E2.ty hb
          rw [sem_same sx] at D
          have hsub : ∀ b, b ∈ x.blks ++ y.blks → b ∈ tmps l ++ tmps r ∨ h.next ≤ b := by
            intro b hb
            rcases List.mem_append.mp hb with hh | hh
            · obtain ⟨q1, q2⟩ := mem_blks hh
              rcases E1.tmp q1 b q2 with h5 | h5
              · exact Or.inl (List.mem_append_left _ h5)
              · exact Or.inr h5
            · obtain ⟨q1, q2⟩ := mem_blks hh
              rcases E2.tmp q1 b q2 with h5 | h5
              · exact Or.inl (List.mem_append_right _ h5)
              · exact Or.inr (by omega)
          refine Or.inl ⟨h3, ⟨.arr a dt, true⟩, by rw [seq, e1]; simp only [Out.bind, e2, f1], D.good, ?_, ?_, ⟨by have := D.frame.next; omega, fun z hz hn => ?_⟩, fun _ z hz => ?_,
            fun hh => by simp at hh, fun _ => rfl⟩
          · dsimp only
            rw [D.sem]
            have m2 := E2.means
            rw [mr] at m2
            exact .bin E1.means m2 (by rw [shape_sem, shape_sem]; exact hb)
          · have := congrArg Sem.shape D.sem
            simp only [Val.sem, Sem.shape] at this
            simp only [Val.ty, this, t5]
          · rw [tmps_bin] at hn
            rw [D.frame.keep z (by omega) fun hh => ?_, E2.frame.keep z (by omega) fun hh => hn (List.mem_append_right _ hh), E1.frame.keep z hz fun hh => hn (List.mem_append_left _ hh)]
            rcases hsub z hh with h5 | h5
            · exact hn h5
            · omega
          · have hz : a.blk = z := Option.some.inj hz
            rw [← hz, tmps_bin]
            rcases D.place with hh | hh
            · exact hsub _ hh
            · exact Or.inr (by omega)
        · refine Or.inr ⟨fun m hm => ?_, by rw [seq, e1]; simp only [Out.bind, e2, f1]⟩
          cases hm with
          | bin hl hr hs =>
            have m2 := E2.means
            rw [mr] at m2
            rw [means_unique E1.means _ hl, means_unique m2 _ hr, shape_sem, shape_sem] at hs
            exact hb _ hs
      · refine Or.inr ⟨fun m hh => ?_, by rw [seq, e1]; simp only [Out.bind, e2]⟩
        cases hh with
        | bin hl hr hs => rw [mr] at hm; exact hm _ hr
    · refine Or.inr ⟨fun m hh => ?_, by rw [seq, e1]; rfl⟩
      cases hh with
      | bin hl hr hs => exact hm _ hl

/-! ### All in one loop -/

theorem freeLeaves_spec : ∀ (xs : List (Leaf V)) (h : Heap V), (∀ x ∈ xs, x.free = true → x.val.Ok h ∧ Owned x.val) → (xs.filterMap Leaf.tmp?).Nodup →
    ∃ h', freeLeaves xs h = some (.ok h') ∧ h'.next = h.next ∧ ∀ b, b ∉ xs.filterMap Leaf.tmp? → h'.get b = h.get b
  | [], h, _, _ => ⟨h, rfl, rfl, fun _ _ => rfl⟩
  | x :: xs, h, hx, hn => by
    obtain ⟨h1, e1, e2, e3⟩ := freeVal_spec (h := h) (x := x.val) x.free (hx x (by simp))
    have hsplit : ∀ b, b ∈ (x :: xs).filterMap Leaf.tmp? ↔ (x.free = true ∧ x.val.blk? = some b) ∨ b ∈ xs.filterMap Leaf.tmp? := by
      intro b
      rw [List.mem_filterMap]
      simp only [List.mem_cons, exists_eq_or_imp, List.mem_filterMap]
      constructor
      · rintro (hh | hh)
        · unfold Leaf.tmp? at hh
          split at hh
          · next hf => exact Or.inl ⟨hf, hh⟩
          · cases hh
        · exact Or.inr hh
      · rintro (⟨h1, h2⟩ | hh)
        · exact Or.inl (by simp [Leaf.tmp?, h1, h2])
        · exact Or.inr hh
    have hnd : (xs.filterMap Leaf.tmp?).Nodup ∧ ∀ b, x.free = true → x.val.blk? = some b → b ∉ xs.filterMap Leaf.tmp? := by
      rw [List.filterMap_cons] at hn
      split at hn
      · next h0 => exact ⟨hn, fun b h1 h2 => by simp [Leaf.tmp?, h1, h2] at h0⟩
      · next b' h0 =>
        rw [List.nodup_cons] at hn
        exact ⟨hn.2, fun b h1 h2 => by
          simp only [Leaf.tmp?, h1, h2, if_true, Option.some.injEq] at h0
          rw [h0]; exact hn.1⟩
    obtain ⟨h', f1, f2, f3⟩ := freeLeaves_spec xs h1 (by
      intro y hy hf
      obtain ⟨g1, g2⟩ := hx y (by simp [hy]) hf
      refine ⟨ok_same g1 ⟨by rw [e2], fun b hb => e3 b fun hxf hxb => hnd.2 b hxf hxb ?_⟩, g2⟩
      exact List.mem_filterMap.mpr ⟨y, hy, by simp [Leaf.tmp?, hf, hb]⟩) hnd.1
    refine ⟨h', by rw [freeLeaves, e1]; exact f1, by rw [f2, e2], fun b hb => ?_⟩
    rw [hsplit, not_or] at hb
    rw [f3 b hb.2, e3 b fun h1 h2 => hb.1 ⟨h1, h2⟩]

theorem arrays_mem {t : Tree V (Leaf V)} {x : Opd} (hx : x ∈ arrays t) : ∃ y ∈ t.leaves, ∃ a d, y.val = .arr a d ∧ x = ⟨a, d.w⟩ := by
  obtain ⟨y, hy, e⟩ := List.mem_filterMap.mp hx
  refine ⟨y, hy, ?_⟩
  unfold Leaf.opd? at e
  split at e
  · cases e
  · next a d he => exact ⟨a, d, he, (Option.some.inj e).symm⟩

theorem ty_node {t : Tree V (Leaf V)} {τ : Ty} (ht : t.tyOf Leaf.ty = some τ) {dt : DT} (hd : t.dt? = some dt) : ∃ n, τ = .arr dt n := by
  cases t with
  | leaf x => cases hd
  | un fn dt' k c l =>
    obtain ⟨d, n, _, _, _, e⟩ := ty_un ht
    rw [← Option.some.inj hd]
    exact ⟨n, e⟩
  | bin fn dt' k c l r =>
    rw [← Option.some.inj hd]
    rw [Tree.tyOf] at ht
    split at ht
    · split at ht
      · cases ht
      · exact ⟨_, (Option.some.inj ht).symm⟩
    · split at ht
      · cases ht
      · exact ⟨_, (Option.some.inj ht).symm⟩
    · split at ht
      · cases ht
      · exact ⟨_, (Option.some.inj ht).symm⟩
    · cases ht

theorem means_ty (h : Heap V) : ∀ (t : Tree V (Leaf V)) (τ : Ty) (m : Sem V), t.tyOf Leaf.ty = some τ → Means (t.map (Leaf.sem h)) m → (∀ d n, τ = .arr d n → m.shape.length = n) ∧ (τ = .num → m.shape = [])
  | .leaf ⟨.num v, _, _⟩, τ, m, ht, hm => by
    cases hm
    have := Option.some.inj ht
    exact ⟨fun d n hh => (by rw [← this] at hh; cases hh), fun _ => rfl⟩
  | .leaf ⟨.arr a d, _, _⟩, τ, m, ht, hm => by
    cases hm
    have := Option.some.inj ht
    exact ⟨fun d n hh => (by rw [← this] at hh; injection hh), fun hh => (by rw [← this] at hh; cases hh)⟩
  | .un fn dt k c l, τ, m, ht, hm => by
    obtain ⟨d, n, t1, t2, t3, t4⟩ := ty_un ht
    cases hm with
    | un hl =>
      have := (means_ty h l _ _ t1 hl).1 d n rfl
      exact ⟨fun d n hh => (by rw [t4] at hh; injection hh with _ hh; rw [← hh]; exact this), fun hh => (by rw [t4] at hh; cases hh)⟩
  | .bin fn dt k c l r, τ, m, ht, hm => by
    cases hm with
    | @bin _ _ _ _ _ _ x y s hl hr hs =>
      have hlen : s.length = max x.shape.length y.shape.length := by
        have h1 := hs.1 x.shape (by simp)
        have h2 := hs.1 y.shape (by simp)
        obtain ⟨z, hz, e⟩ := hs.2.1
        simp only [List.mem_cons, List.not_mem_nil, or_false] at hz
        rcases hz with rfl | rfl <;> omega
      simp only [Sem.shape]
      rw [Tree.tyOf] at ht
      split at ht
      · next d n d' n' h1 h2 =>
        have e1 := (means_ty h l _ _ h1 hl).1 _ _ rfl
        have e2 := (means_ty h r _ _ h2 hr).1 _ _ rfl
        split at ht
        · cases ht
        · have := Option.some.inj ht
          exact ⟨fun d n hh => (by rw [← this] at hh; injection hh; omega), fun hh => (by rw [← this] at hh; cases hh)⟩
      · next d n h1 h2 =>
        have e1 := (means_ty h l _ _ h1 hl).1 _ _ rfl
        have e2 := congrArg List.length ((means_ty h r _ _ h2 hr).2 rfl)
        simp only [List.length_nil] at e2
        split at ht
        · cases ht
        · have := Option.some.inj ht
          exact ⟨fun d n hh => (by rw [← this] at hh; injection hh; omega), fun hh => (by rw [← this] at hh; cases hh)⟩
      · next d n h1 h2 =>
        have e1 := congrArg List.length ((means_ty h l _ _ h1 hl).2 rfl)
        simp only [List.length_nil] at e1
        have e2 := (means_ty h r _ _ h2 hr).1 _ _ rfl
        split at ht
        · cases ht
        · have := Option.some.inj ht
          exact ⟨fun d n hh => (by rw [← this] at hh; injection hh; omega), fun hh => (by rw [← this] at hh; cases hh)⟩
      · cases ht

theorem fused_spec (junk : Int → V) (dt : DT) (hw : 0 < dt.w) (t : Tree V (Leaf V)) (h : Heap V) (τ : Ty) (g : t.Good h) (ht : t.tyOf Leaf.ty = some τ) (hd : t.dt? = some dt) :
    (∃ h' a, fused junk dt t h = some (.ok (h', a)) ∧ Eval h t τ h' ⟨.arr a dt, true⟩) ∨ ((∀ m, ¬ Means (t.map (Leaf.sem h)) m) ∧ fused junk dt t h = some (.error .value)) := by
  obtain ⟨n, hτ⟩ := ty_node ht hd
  obtain ⟨ops, isa⟩ := ty_ops h t τ ht
  have isa := isa (by rw [hτ]; simp)
  have hwf : ∀ x ∈ arrays t, x.arr.WF h := by
    intro x hx
    obtain ⟨y, hy, a, d, e1, rfl⟩ := arrays_mem hx
    have := (g.ok y hy).1
    rw [e1] at this
    exact this.1
  cases hl : arrays t with
  | nil =>
    have := shapes_ne _ ops isa
    rw [shapes_arrays, hl] at this
    exact absurd rfl this
  | cons a r =>
    rcases allocLoop_means h junk dt.w hw t a r hl hwf ops isa with ⟨s, e, m1, h1, b, e1, e2, e3, e4, e5⟩ | ⟨hm, e1⟩
    · have hkeep : Kept h h1 := e2.2.2.2.1
      have hf1 : Frame h h1 [] := ⟨by omega, fun b hb _ => hkeep b hb⟩
      obtain ⟨h2, f1, f2, f3⟩ := freeLeaves_spec t.leaves h1 (by
        intro x hx hf
        obtain ⟨g1, g2⟩ := g.ok x hx
        exact ⟨ok_same g1 (same_frame hf1 g1 (by simp)), g2 hf⟩) g.nd
      have hnew : b.blk ∉ tmps t := fun hh => by
        have := blk_tmps g.ok (Or.inl hh)
        rw [e2.2.2.1] at this
        exact Nat.lt_irrefl _ this
      have hsame : SameAt h1 h2 (Val.arr b dt) := ⟨by rw [f2], fun z hz => by rw [← Option.some.inj hz]; exact f3 _ hnew⟩
      have hpos : ∀ n ∈ s, 0 < n := by
        rcases means_bc m1 with ⟨h0, _⟩ | hb
        · exact absurd h0 (shapes_ne _ ops isa)
        · refine broadcasts_pos _ _ hb fun sh hsh => ?_
          rw [shapes_arrays] at hsh
          obtain ⟨x, hx, rfl⟩ := List.mem_map.mp hsh
          obtain ⟨y, hy, a', d, q1, rfl⟩ := arrays_mem hx
          have := (g.ok y hy).1
          rw [q1] at this
          exact this.2.1
      have hok : (Val.arr b dt : Val V).Ok h1 := ⟨e2.2.1, by rw [e2.1]; exact hpos, hw⟩
      refine Or.inl ⟨h2, b, by rw [fused, hl]; simp only [e1, Out.bind, f1], ⟨ok_same hok hsame, fun _ => ⟨by have := e2.2.2.2.2.1; intro c c' hc hc'; rw [e2.1] at hc hc'; exact this c c' hc hc', e3⟩⟩, ?_, ?_, ?_, ?_, ?_, fun _ => rfl⟩
      · dsimp only
        rw [sem_same hsame]
        have : (Val.arr b dt).sem h1 = (Val.arr b ⟨0, dt.w⟩).sem h1 := rfl
        rw [this, e5]; exact m1
      · have := (means_ty h t τ _ ht m1).1 _ _ hτ
        simp only [Sem.shape] at this
        simp only [Val.ty, e2.1, hτ, this]
      · exact ⟨by rw [f2]; omega, fun z hz hn => by rw [f3 z hn, hkeep z hz]⟩
      · intro _ z hz
        have hz : b.blk = z := Option.some.inj hz
        exact Or.inr (by rw [← hz, e2.2.2.1])
      · intro hh; simp at hh
    · exact Or.inr ⟨hm, by rw [fused, hl]; simp only [e1, Out.bind]⟩

/-! ### The pass -/

/-- The tree after part of it was evaluated. -/
structure Kept' (h : Heap V) (t : Tree V (Leaf V)) (τ : Ty) (h' : Heap V) (t' : Tree V (Leaf V)) : Prop where
  good : t'.Good h'
  means : ∀ m, Means (t'.map (Leaf.sem h')) m ↔ Means (t.map (Leaf.sem h)) m
  ty : t'.tyOf Leaf.ty = some τ
  sized : t'.Sized
  novec : t'.NoVec2
  frame : Frame h h' (tmps t)
  tmp : ∀ b ∈ tmps t', b ∈ tmps t ∨ h.next ≤ b
  fix : ∀ b ∈ fixd t', b ∈ fixd t

theorem Kept'.refl {h : Heap V} {t : Tree V (Leaf V)} {τ : Ty} (g : t.Good h) (ht : t.tyOf Leaf.ty = some τ) (hz : t.Sized) (hv : t.NoVec2) : Kept' h t τ h t :=
  ⟨g, fun _ => Iff.rfl, ht, hz, hv, Frame.refl _ _, fun _ hb => Or.inl hb, fun _ hb => hb⟩

theorem kept_leaf {h h' : Heap V} {t : Tree V (Leaf V)} {τ : Ty} {a : Arr} {dt : DT} (E : Eval h t τ h' ⟨.arr a dt, true⟩) : Kept' h t τ h' (newLeaf dt a) := by
  refine ⟨⟨?_, ?_, ?_⟩, fun m => ⟨fun hm => ?_, fun hm => ?_⟩, congrArg some E.ty, trivial, trivial, E.frame, ?_, ?_⟩
  · intro x hx
    have : x = ⟨.arr a dt, true, none⟩ := by simpa [newLeaf, Tree.leaves] using hx
    rw [this]
    exact ⟨E.good.ok, fun _ => E.good.own rfl⟩
  · simp [tmps, newLeaf, Tree.leaves, Leaf.tmp?, Val.blk?]
  · simp [fixd, newLeaf, Tree.leaves, Leaf.fix?]
  · cases hm
    exact E.means
  · rw [← means_unique hm _ E.means]
    exact .leaf _
  · intro b hb
    have : b = a.blk := by simpa [tmps, newLeaf, Tree.leaves, Leaf.tmp?, Val.blk?] using hb
    exact E.tmp rfl b (by rw [this]; rfl)
  · intro b hb
    simp [fixd, newLeaf, Tree.leaves, Leaf.fix?] at hb

theorem fuseNode_spec (L : Nat) (junk : Int → V) (dt : DT) (test : Bool) (t : Tree V (Leaf V)) (h : Heap V) (τ : Ty) (g : t.Good h) (ht : t.tyOf Leaf.ty = some τ) (hz : t.Sized) (hv : t.NoVec2)
    (hd : t.dt? = some dt) (hw : 0 < dt.w) : (∃ h' t', fuseNode L junk dt test t h = some (.ok (h', t')) ∧ Kept' h t τ h' t') ∨
      ((∀ m, ¬ Means (t.map (Leaf.sem h)) m) ∧ fuseNode L junk dt test t h = some (.error .value)) := by
  unfold fuseNode
  obtain ⟨n, hτ⟩ := ty_node ht hd
  split
  · rcases seq_spec L junk t h τ g ht hz hv with ⟨h', e, e1, E⟩ | ⟨hm, e1⟩
    · have htmp := E.node (fun x hx => by rw [hx] at hd; cases hd)
      have hty := E.ty
      obtain ⟨v, tm⟩ := e
      cases v with
      | num v => rw [hτ] at hty; cases hty
      | arr a d =>
        rw [hτ] at hty
        injection hty with hd' _
        dsimp only at htmp
        subst htmp hd'
        exact Or.inl ⟨h', newLeaf d a, by rw [e1]; rfl, kept_leaf E⟩
    · exact Or.inr ⟨hm, by rw [e1]; rfl⟩
  · rcases fused_spec junk dt hw t h τ g ht hd with ⟨h', a, e1, E⟩ | ⟨hm, e1⟩
    · exact Or.inl ⟨h', newLeaf dt a, by rw [e1]; rfl, kept_leaf E⟩
    · exact Or.inr ⟨hm, by rw [e1]; rfl⟩

end Codon.NpFuse
