import Verif.NpIdx.Place
/-! # Index arrays: the array after integers and `None` -/
namespace Codon.NpIdx
open Codon.Numpy Codon.NpLine Codon.SliceSpec
variable {U V : Type}

theorem full_len (n : Int) (hn : 0 ≤ n) : ((positions n.toNat none none ((none : Option Int).getD 1)).length : Int) = n := by
  rw [Option.getD_none, positions_full, List.length_range, Int.toNat_of_nonneg hn]

/-- The shape after `_adv_idx_eliminate_new_and_used`. -/
def vshape : List AIdx → List Int → List Int
  | [], sh => sh
  | .int _ :: r, sh => vshape r sh.tail
  | .newaxis :: r, sh => 1 :: vshape r sh
  | .ellipsis :: r, sh => vshape r sh
  | .slice _ _ _ :: r, sh => sh.headD 0 :: vshape r sh.tail
  | .arr _ :: r, sh => sh.headD 0 :: vshape r sh.tail

theorem comp_shape (g : Heap Int) (bs : List Int) : ∀ (E : List AIdx) (sh : List Int), .ellipsis ∉ E → AIdx.used E = sh.length → (∀ n ∈ sh, 0 ≤ n) → AProper g bs E sh →
    resShape (E.map replaceInt) sh = vshape E sh ∧ Proper (E.map replaceInt) sh ∧ (pruneIndex E).length = (vshape E sh).length ∧ (∀ n ∈ vshape E sh, 0 ≤ n) ∧
    AProper g bs ((pruneIndex E).map Ax.toA) (vshape E sh) ∧ sliceDims ((pruneIndex E).map Ax.toA) (vshape E sh) = sliceDims E sh ∧ used (E.map replaceInt) = sh.length ∧
    Idx.num .ellipsis (E.map replaceInt) = 0
  | [], sh, _, hu, _, _ => by
    have : sh = [] := List.length_eq_zero_iff.mp hu.symm
    subst this
    exact ⟨rfl, trivial, rfl, by simp [vshape], trivial, rfl, rfl, rfl⟩
  | .ellipsis :: r, sh, he, _, _, _ => by simp at he
  | .newaxis :: r, sh, he, hu, hn, hp => by
    obtain ⟨h1, h2, h3, h4, h5, h6, h7, h8⟩ := comp_shape g bs r sh (fun hm => he (by simp [hm])) hu hn hp
    refine ⟨?_, h2, ?_, ?_, ?_, ?_, h7, ?_⟩
    · simp only [List.map_cons, replaceInt, resShape, vshape, h1]
    · simp only [pruneIndex, vshape, List.length_cons, h3]
    · intro n hm
      rcases List.mem_cons.mp hm with rfl | hm
      · omega
      · exact h4 n hm
    · exact ⟨by simp, h5⟩
    · simp only [pruneIndex, vshape, List.map_cons, Ax.toA, sliceDims, List.headD_cons, List.tail_cons, h6]
      rfl
    · simpa [replaceInt, Idx.num] using h8
  | .int k :: r, [], _, hu, _, _ => by simp [AIdx.used] at hu
  | .arr m :: r, [], _, hu, _, _ => by simp [AIdx.used] at hu
  | .slice b e k :: r, [], _, hu, _, _ => by simp [AIdx.used] at hu
  | .int k :: r, n :: sh, he, hu, hn, hp => by
    obtain ⟨h1, h2, h3, h4, h5, h6, h7, h8⟩ := comp_shape g bs r sh (fun hm => he (by simp [hm])) (by simpa [AIdx.used] using hu) (fun x hx => hn x (by simp [hx])) hp.2
    refine ⟨?_, ⟨hp.1, h2⟩, ?_, ?_, ?_, ?_, ?_, ?_⟩
    · simp only [List.map_cons, replaceInt, resShape, vshape, List.tail_cons, h1]
    · simp only [pruneIndex, vshape, List.tail_cons, h3]
    · exact h4
    · exact h5
    · simp only [pruneIndex, vshape, sliceDims, List.tail_cons, h6]
    · simp only [List.map_cons, replaceInt, used, h7, List.length_cons]
    · simpa [replaceInt, Idx.num] using h8
  | .arr m :: r, n :: sh, he, hu, hn, hp => by
    obtain ⟨h1, h2, h3, h4, h5, h6, h7, h8⟩ := comp_shape g bs r sh (fun hm => he (by simp [hm])) (by simpa [AIdx.used] using hu) (fun x hx => hn x (by simp [hx])) hp.2
    refine ⟨?_, ⟨by simp, h2⟩, ?_, ?_, ⟨hp.1, h5⟩, ?_, ?_, ?_⟩
    · simp only [List.map_cons, replaceInt, Idx.full, resShape, vshape, List.headD_cons, List.tail_cons, h1, full_len n (hn n (by simp))]
    · simp only [pruneIndex, vshape, List.length_cons, List.tail_cons, h3]
    · intro x hm
      rcases List.mem_cons.mp hm with rfl | hm
      · exact hn _ (by simp)
      · exact h4 x hm
    · simp only [pruneIndex, vshape, List.map_cons, Ax.toA, sliceDims, List.tail_cons, h6]
    · simp only [List.map_cons, replaceInt, Idx.full, used, h7, List.length_cons]
    · simpa [replaceInt, Idx.full, Idx.num] using h8
  | .slice b e k :: r, n :: sh, he, hu, hn, hp => by
    obtain ⟨h1, h2, h3, h4, h5, h6, h7, h8⟩ := comp_shape g bs r sh (fun hm => he (by simp [hm])) (by simpa [AIdx.used] using hu) (fun x hx => hn x (by simp [hx])) hp.2
    refine ⟨?_, ⟨by simp, h2⟩, ?_, ?_, ⟨hp.1, h5⟩, ?_, ?_, ?_⟩
    · simp only [List.map_cons, replaceInt, Idx.full, resShape, vshape, List.headD_cons, List.tail_cons, h1, full_len n (hn n (by simp))]
    · simp only [pruneIndex, vshape, List.length_cons, List.tail_cons, h3]
    · intro x hm
      rcases List.mem_cons.mp hm with rfl | hm
      · exact hn _ (by simp)
      · exact h4 x hm
    · simp only [pruneIndex, vshape, List.map_cons, Ax.toA, sliceDims, List.headD_cons, List.tail_cons, h6]
    · simp only [List.map_cons, replaceInt, Idx.full, used, h7, List.length_cons]
    · simpa [replaceInt, Idx.full, Idx.num] using h8

theorem comp_sel (g : Heap Int) (bs : List Int) : ∀ (E : List AIdx) (sh bc sc i' : List Int), .ellipsis ∉ E → AIdx.used E = sh.length → (∀ n ∈ sh, 0 ≤ n) → AProper g bs E sh →
    ASel g ((pruneIndex E).map Ax.toA) (vshape E sh) bc sc i' → ∃ i, Sel (E.map replaceInt) sh i' i ∧ ASel g E sh bc sc i
  | [], sh, bc, sc, i', _, hu, _, _, h => by
    have : sh = [] := List.length_eq_zero_iff.mp hu.symm
    subst this
    obtain ⟨h1, rfl⟩ := h
    exact ⟨sc, ⟨h1, rfl⟩, ⟨h1, rfl⟩⟩
  | .ellipsis :: r, sh, _, _, _, he, _, _, _, _ => by simp at he
  | .newaxis :: r, sh, bc, sc, i', he, hu, hn, hp, h => by
    match sc, i', h with
    | t :: sc, j :: i', h =>
      obtain ⟨i, h1, h2⟩ := comp_sel g bs r sh bc sc i' (fun hm => he (by simp [hm])) hu hn hp h.2
      have h0 := h.1
      have := (positions_full_get 1 t j).mp h0
      refine ⟨i, ⟨by omega, h1⟩, ⟨by omega, h2⟩⟩
  | .int k :: r, [], _, _, _, _, hu, _, _, _ => by simp [AIdx.used] at hu
  | .arr m :: r, [], _, _, _, _, hu, _, _, _ => by simp [AIdx.used] at hu
  | .slice b e k :: r, [], _, _, _, _, hu, _, _, _ => by simp [AIdx.used] at hu
  | .int k :: r, n :: sh, bc, sc, i', he, hu, hn, hp, h => by
    obtain ⟨i, h1, h2⟩ := comp_sel g bs r sh bc sc i' (fun hm => he (by simp [hm])) (by simpa [AIdx.used] using hu) (fun x hx => hn x (by simp [hx])) hp.2 h
    have hk := hp.1
    have hr : 0 ≤ rel n k ∧ rel n k < n := by simp only [rel]; split <;> omega
    exact ⟨rel n k :: i, ⟨⟨rfl, hr⟩, h1⟩, ⟨⟨rfl, hr⟩, h2⟩⟩
  | .arr m :: r, n :: sh, bc, sc, i', he, hu, hn, hp, h => by
    match i', h with
    | j :: i', h =>
      obtain ⟨i, h1, h2⟩ := comp_sel g bs r sh bc sc i' (fun hm => he (by simp [hm])) (by simpa [AIdx.used] using hu) (fun x hx => hn x (by simp [hx])) hp.2 h.2
      have h0 := h.1
      refine ⟨j :: i, ⟨(positions_full_get n j j).mpr ⟨?_, rfl⟩, h1⟩, ⟨h0, h2⟩⟩
      obtain ⟨k, _, _, hk⟩ := h0
      exact hk
  | .slice b e k :: r, n :: sh, bc, sc, i', he, hu, hn, hp, h => by
    match sc, i', h with
    | t :: sc, j :: i', h =>
      obtain ⟨i, h1, h2⟩ := comp_sel g bs r sh bc sc i' (fun hm => he (by simp [hm])) (by simpa [AIdx.used] using hu) (fun x hx => hn x (by simp [hx])) hp.2 h.2
      have h0 := h.1
      have hn0 := hn n (by simp)
      have hlt : j < n := by
        obtain ⟨tt, ht⟩ : ∃ tt, Slice.adjust n b e k = some tt := by
          cases ha : Slice.adjust n b e k with
          | some t => exact ⟨t, rfl⟩
          | none =>
            obtain ⟨n', rfl⟩ := Int.eq_ofNat_of_zero_le hn0
            exact absurd ((Slice.c24_zero_step_rejected n' b e k).mp ha) hp.1
        obtain ⟨_, a2, a3⟩ := adjust_axis n hn0 b e k tt ht
        obtain ⟨b1, b2⟩ := (a2 t j h0.1 h0.2.1).mp h0.2.2
        have := a3 t h0.1 b1
        omega
      exact ⟨j :: i, ⟨(positions_full_get n j j).mpr ⟨⟨h0.2.1, hlt⟩, rfl⟩, h1⟩, ⟨h0, h2⟩⟩

/-! ### Axes not mentioned -/

theorem asel_pad (g : Heap Int) : ∀ (idx : List AIdx) (sh bc sc i : List Int), .ellipsis ∉ idx → AIdx.used idx ≤ sh.length →
    ASel g (idx ++ List.replicate (sh.length - AIdx.used idx) .full) sh bc sc i → ASel g idx sh bc sc i
  | [], sh, bc, sc, i, _, _, h => by
    have key : ∀ sh sc i : List Int, ASel g (List.replicate sh.length .full) sh bc sc i → Valid sc sh ∧ sc = i := by
      intro sh
      induction sh with
      | nil => intro sc i h; exact h
      | cons n sh ih =>
        intro sc i h
        rw [List.length_cons, List.replicate_succ, AIdx.full] at h
        match sc, i, h with
        | t :: sc, j :: i, h =>
          obtain ⟨h1, rfl⟩ := ih sc i h.2
          obtain ⟨h2, rfl⟩ := (positions_full_get n t j).mp h.1
          exact ⟨⟨h2, h1⟩, rfl⟩
    simp only [AIdx.used, Nat.sub_zero, List.nil_append] at h
    exact key sh sc i h
  | .ellipsis :: r, sh, _, _, _, he, _, _ => by simp at he
  | .newaxis :: r, sh, bc, sc, i, he, hu, h => by
    match sc, h with
    | t :: sc, h => exact ⟨h.1, asel_pad g r sh bc sc i (fun hm => he (by simp [hm])) hu h.2⟩
  | .int k :: r, [], _, _, _, _, hu, _ => by simp [AIdx.used] at hu
  | .arr m :: r, [], _, _, _, _, hu, _ => by simp [AIdx.used] at hu
  | .slice b e k :: r, [], _, _, _, _, hu, _ => by simp [AIdx.used] at hu
  | .int k :: r, n :: sh, bc, sc, i, he, hu, h => by
    simp only [AIdx.used, List.length_cons, Nat.add_sub_add_right] at h hu
    match i, h with
    | j :: i, h => exact ⟨h.1, asel_pad g r sh bc sc i (fun hm => he (by simp [hm])) (by omega) h.2⟩
  | .arr m :: r, n :: sh, bc, sc, i, he, hu, h => by
    simp only [AIdx.used, List.length_cons, Nat.add_sub_add_right] at h hu
    match i, h with
    | j :: i, h => exact ⟨h.1, asel_pad g r sh bc sc i (fun hm => he (by simp [hm])) (by omega) h.2⟩
  | .slice b e k :: r, n :: sh, bc, sc, i, he, hu, h => by
    simp only [AIdx.used, List.length_cons, Nat.add_sub_add_right] at h hu
    match sc, i, h with
    | t :: sc, j :: i, h => exact ⟨h.1, asel_pad g r sh bc sc i (fun hm => he (by simp [hm])) (by omega) h.2⟩

theorem pad_spec (g : Heap Int) (bs : List Int) : ∀ (idx : List AIdx) (sh : List Int), .ellipsis ∉ idx → AIdx.used idx ≤ sh.length → (∀ n ∈ sh, 0 ≤ n) → AProper g bs idx sh →
    AIdx.used (idx ++ List.replicate (sh.length - AIdx.used idx) .full) = sh.length ∧ AProper g bs (idx ++ List.replicate (sh.length - AIdx.used idx) .full) sh ∧
    sliceDims (idx ++ List.replicate (sh.length - AIdx.used idx) .full) sh = sliceDims idx sh ∧ AIdx.arrays (idx ++ List.replicate (sh.length - AIdx.used idx) .full) = AIdx.arrays idx
  | [], sh, _, _, hn, _ => by
    simp only [AIdx.used, Nat.sub_zero, List.nil_append]
    induction sh with
    | nil => exact ⟨rfl, trivial, rfl, rfl⟩
    | cons n sh ih =>
      obtain ⟨h1, h2, h3, h4⟩ := ih (by simp [AIdx.used]) (fun x hx => hn x (by simp [hx])) trivial
      rw [List.length_cons, List.replicate_succ, AIdx.full]
      exact ⟨by simp only [AIdx.used, List.length_cons]; exact congrArg (· + 1) h1, ⟨by simp, h2⟩, by
        simp only [sliceDims, List.headD_cons, List.tail_cons]; rw [full_len n (hn n (by simp))]; congr 1, h4⟩
  | .ellipsis :: r, sh, he, _, _, _ => by simp at he
  | .newaxis :: r, sh, he, hu, hn, hp => by
    obtain ⟨h1, h2, h3, h4⟩ := pad_spec g bs r sh (fun hm => he (by simp [hm])) hu hn hp
    exact ⟨h1, h2, by simp only [List.cons_append, sliceDims, AIdx.used, h3], h4⟩
  | .int k :: r, [], _, hu, _, _ => by simp [AIdx.used] at hu
  | .arr m :: r, [], _, hu, _, _ => by simp [AIdx.used] at hu
  | .slice b e k :: r, [], _, hu, _, _ => by simp [AIdx.used] at hu
  | .int k :: r, n :: sh, he, hu, hn, hp => by
    simp only [AIdx.used, List.length_cons] at hu
    obtain ⟨h1, h2, h3, h4⟩ := pad_spec g bs r sh (fun hm => he (by simp [hm])) (by omega) (fun x hx => hn x (by simp [hx])) hp.2
    simp only [AIdx.used, List.length_cons, Nat.add_sub_add_right, List.cons_append]
    exact ⟨by rw [h1], ⟨hp.1, h2⟩, by simp only [sliceDims, List.tail_cons, h3], h4⟩
  | .arr m :: r, n :: sh, he, hu, hn, hp => by
    simp only [AIdx.used, List.length_cons] at hu
    obtain ⟨h1, h2, h3, h4⟩ := pad_spec g bs r sh (fun hm => he (by simp [hm])) (by omega) (fun x hx => hn x (by simp [hx])) hp.2
    simp only [AIdx.used, List.length_cons, Nat.add_sub_add_right, List.cons_append]
    exact ⟨by rw [h1], ⟨hp.1, h2⟩, by simp only [sliceDims, List.tail_cons, h3], by simp only [AIdx.arrays, h4]⟩
  | .slice b e k :: r, n :: sh, he, hu, hn, hp => by
    simp only [AIdx.used, List.length_cons] at hu
    obtain ⟨h1, h2, h3, h4⟩ := pad_spec g bs r sh (fun hm => he (by simp [hm])) (by omega) (fun x hx => hn x (by simp [hx])) hp.2
    simp only [AIdx.used, List.length_cons, Nat.add_sub_add_right, List.cons_append]
    exact ⟨by rw [h1], ⟨hp.1, h2⟩, by simp only [sliceDims, List.tail_cons, h3], h4⟩

/-! ### The relation is a function of the position -/

theorem asel_fun (g : Heap Int) : ∀ (idx : List AIdx) (sh bc sc i i' : List Int), ASel g idx sh bc sc i → ASel g idx sh bc sc i' → i = i'
  | [], sh, bc, sc, i, i', h, h' => by rw [← h.2, ← h'.2]
  | .ellipsis :: r, sh, bc, sc, i, i', h, _ => by simp [ASel] at h
  | .newaxis :: r, sh, bc, sc, i, i', h, h' => by
    match sc, h, h' with
    | t :: sc, h, h' => exact asel_fun g r sh bc sc i i' h.2 h'.2
  | .int k :: r, sh, bc, sc, i, i', h, h' => by
    match sh, i, i', h, h' with
    | n :: sh, j :: i, j' :: i', h, h' => rw [asel_fun g r sh bc sc i i' h.2 h'.2, h.1.1, h'.1.1]
  | .arr m :: r, sh, bc, sc, i, i', h, h' => by
    match sh, i, i', h, h' with
    | n :: sh, j :: i, j' :: i', h, h' =>
      obtain ⟨⟨k, k1, k2, _⟩, h2⟩ := h
      obtain ⟨⟨k', k1', k2', _⟩, h2'⟩ := h'
      rw [k1] at k1'
      simp only [Option.some.injEq] at k1'
      rw [asel_fun g r sh bc sc i i' h2 h2', k2, k2', k1']
  | .slice b e k :: r, sh, bc, sc, i, i', h, h' => by
    match sh, sc, i, i', h, h' with
    | n :: sh, t :: sc, j :: i, j' :: i', h, h' =>
      obtain ⟨⟨h0, h1, h2⟩, h3⟩ := h
      obtain ⟨⟨_, h1', h2'⟩, h3'⟩ := h'
      rw [h2] at h2'
      simp only [Option.some.injEq] at h2'
      rw [asel_fun g r sh bc sc i i' h3 h3', show j = j' by omega]

theorem asel_valid (g : Heap Int) : ∀ (idx : List AIdx) (sh bc sc i : List Int), ASel g idx sh bc sc i → Valid sc (sliceDims idx sh)
  | [], sh, bc, sc, i, h => h.1
  | .ellipsis :: r, sh, bc, sc, i, h => by simp [ASel] at h
  | .newaxis :: r, sh, bc, sc, i, h => by
    match sc, h with
    | t :: sc, h => exact ⟨by have := h.1; omega, asel_valid g r sh bc sc i h.2⟩
  | .int k :: r, sh, bc, sc, i, h => by
    match sh, i, h with
    | n :: sh, j :: i, h => exact asel_valid g r sh bc sc i h.2
  | .arr m :: r, sh, bc, sc, i, h => by
    match sh, i, h with
    | n :: sh, j :: i, h => exact asel_valid g r sh bc sc i h.2
  | .slice b e k :: r, sh, bc, sc, i, h => by
    match sh, sc, i, h with
    | n :: sh, t :: sc, j :: i, h =>
      obtain ⟨⟨h0, h1, h2⟩, h3⟩ := h
      have := (List.getElem?_eq_some_iff.mp h2).1
      refine ⟨⟨h0, ?_⟩, asel_valid g r sh bc sc i h3⟩
      simp only [List.headD_cons]
      omega

/-! ### The beginning of `_getset_advanced` -/

theorem used_filter : ∀ idx : List AIdx, .ellipsis ∉ idx → AIdx.used idx + (idx.filter (· = .newaxis)).length = idx.length
  | [], _ => rfl
  | a :: r, he => by
    have := used_filter r fun hm => he (by simp [hm])
    cases a <;> simp [AIdx.used] at he ⊢ <;> omega

/-- What `advPrep` makes of an array. -/
theorem advPrep_spec (h : Heap V) (a : Arr) (ha : a.WF h) (g : Heap Int) (bs : List Int) (idx : List AIdx) (he : .ellipsis ∉ idx) (hu : AIdx.used idx ≤ a.shape.length) (hp : AProper g bs idx a.shape) :
    ∃ a', advPrep a idx = .ok (a', pruneIndex (idx ++ List.replicate (a.shape.length - AIdx.used idx) .full)) ∧ a'.WF h ∧ a'.shape = vshape (idx ++ List.replicate (a.shape.length - AIdx.used idx) .full) a.shape ∧
      (pruneIndex (idx ++ List.replicate (a.shape.length - AIdx.used idx) .full)).length = a'.shape.length ∧
      AProper g bs ((pruneIndex (idx ++ List.replicate (a.shape.length - AIdx.used idx) .full)).map Ax.toA) a'.shape ∧
      sliceDims ((pruneIndex (idx ++ List.replicate (a.shape.length - AIdx.used idx) .full)).map Ax.toA) a'.shape = sliceDims idx a.shape ∧
      arraysOf (pruneIndex (idx ++ List.replicate (a.shape.length - AIdx.used idx) .full)) = AIdx.arrays idx ∧
      ∀ bc sc i', ASel g ((pruneIndex (idx ++ List.replicate (a.shape.length - AIdx.used idx) .full)).map Ax.toA) a'.shape bc sc i' →
        ∃ i, ASel g idx a.shape bc sc i ∧ Valid i a.shape ∧ a'.addr i' = a.addr i := by
  obtain ⟨p1, p2, p3, p4⟩ := pad_spec g bs idx a.shape he hu ha.nonneg hp
  have hE : .ellipsis ∉ idx ++ List.replicate (a.shape.length - AIdx.used idx) AIdx.full := fun hm => by
    rcases List.mem_append.mp hm with hm | hm
    · exact he hm
    · have := List.eq_of_mem_replicate hm; simp [AIdx.full] at this
  obtain ⟨c1, c2, c3, c4, c5, c6, c7, c8⟩ := comp_shape g bs _ a.shape hE p1 ha.nonneg p2
  have hlen := used_filter idx he
  have hpad : a.shape.length + (idx.filter (· = .newaxis)).length - idx.length = a.shape.length - AIdx.used idx := by omega
  have harr := arraysOf_prune (idx ++ List.replicate (a.shape.length - AIdx.used idx) AIdx.full)
  rw [p4] at harr
  obtain ⟨b, v1, v2, v3, v4, v5⟩ := c63_index h a ha ((idx ++ List.replicate (a.shape.length - AIdx.used idx) AIdx.full).map replaceInt) (by omega) (by omega) c2
  unfold advPrep
  dsimp only
  rw [if_neg he, if_neg (by omega), hpad]
  by_cases hall : ((idx ++ List.replicate (a.shape.length - AIdx.used idx) AIdx.full).all AIdx.stays) = true
  · rw [if_pos hall]
    have key : ∀ (E : List AIdx) (sh : List Int), (E.all AIdx.stays) = true → .ellipsis ∉ E → AIdx.used E = sh.length →
        E.map replaceInt = List.replicate sh.length .full ∧ vshape E sh = sh := by
      intro E
      induction E with
      | nil =>
        intro sh _ _ hu
        have : sh = [] := List.length_eq_zero_iff.mp hu.symm
        subst this
        exact ⟨rfl, rfl⟩
      | cons x E ih =>
        intro sh h1 h2 h3
        rw [List.all_cons, Bool.and_eq_true] at h1
        cases x with
        | int k => simp [AIdx.stays] at h1
        | newaxis => simp [AIdx.stays] at h1
        | ellipsis => simp at h2
        | arr m =>
          cases sh with
          | nil => simp [AIdx.used] at h3
          | cons n sh =>
            obtain ⟨e1, e2⟩ := ih sh h1.2 (fun hm => h2 (by simp [hm])) (by simpa [AIdx.used] using h3)
            exact ⟨by rw [List.map_cons, e1, List.length_cons, List.replicate_succ]; rfl, by simp only [vshape, List.headD_cons, List.tail_cons, e2]⟩
        | slice b e k =>
          cases sh with
          | nil => simp [AIdx.used] at h3
          | cons n sh =>
            obtain ⟨e1, e2⟩ := ih sh h1.2 (fun hm => h2 (by simp [hm])) (by simpa [AIdx.used] using h3)
            exact ⟨by rw [List.map_cons, e1, List.length_cons, List.replicate_succ]; rfl, by simp only [vshape, List.headD_cons, List.tail_cons, e2]⟩
    obtain ⟨k1, k2⟩ := key _ a.shape hall hE p1
    refine ⟨a, rfl, ha, k2.symm, by rw [c3, k2], by rw [k2] at c5; exact c5, by rw [← p3, ← c6, k2], harr, fun bc sc i' hs => ?_⟩
    obtain ⟨i, s1, s2⟩ := comp_sel g bs _ a.shape bc sc i' hE p1 ha.nonneg p2 (by rw [k2]; exact hs)
    rw [k1, sel_full] at s1
    obtain ⟨s3, rfl⟩ := s1
    exact ⟨i', asel_pad g idx a.shape bc sc i' he hu s2, s3, rfl⟩
  · rw [if_neg hall, v1]
    refine ⟨b, rfl, v2, by rw [v3, c1], by rw [c3, v3, c1], by rw [v3, c1]; exact c5, by rw [v3, c1, c6, p3], harr, fun bc sc i' hs => ?_⟩
    rw [v3, c1] at hs
    obtain ⟨i, s1, s2⟩ := comp_sel g bs _ a.shape bc sc i' hE p1 ha.nonneg p2 hs
    obtain ⟨_, w2, w3⟩ := v4 i' i s1
    exact ⟨i, asel_pad g idx a.shape bc sc i he hu s2, w2, w3⟩

end Codon.NpIdx
