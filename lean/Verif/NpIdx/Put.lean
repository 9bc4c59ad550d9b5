import Verif.NpIdx.Take
/-! # Index arrays: writing -/
namespace Codon.NpIdx
open Codon.Numpy Codon.NpLine Codon.SliceSpec
variable {U V : Type}

theorem stretched_wf (h : Heap V) (b : Arr) (hb : b.WF h) (s st : List Int) (hn : ∀ n ∈ s, 0 ≤ n) (hal : Aligned b.shape s) (hl : st.length = s.length)
    (hadr : ∀ c, Valid c s → ptrOff c st = ptrOff (proj b.shape c) b.strides) : (⟨s, st, b.blk, b.off⟩ : Arr).WF h :=
  ⟨hl.symm, hn, fun c hc => by
    obtain ⟨v, hv⟩ := hb.alloc (proj b.shape c) (valid_proj _ _ _ hal hc)
    refine ⟨v, ?_⟩
    rw [← hv, Arr.read, Arr.read]
    dsimp only
    rw [hadr c hc], hb.block⟩

/-- The value the item gives. -/
def Item.get (it : Item U V) (h : Heap V) (c : List Int) : Option V :=
  match it with
  | .num v => some v
  | .arr s => s.get h (s.arr.addr (proj s.arr.shape c))

theorem itemAt_spec (h : Heap V) (it : Item U V) (sh : List Int) (hn : ∀ n ∈ sh, 0 ≤ n) (hit : ∀ s, it = .arr s → s.WF h ∧ Stretches s.arr.shape sh) :
    ∃ f, itemAt it sh = .ok f ∧ ∀ c, Valid c sh → ∀ h1, f c h1 = (it.get h1 c).map .ok := by
  cases it with
  | num v => exact ⟨_, rfl, fun c _ h1 => rfl⟩
  | arr s =>
    obtain ⟨hs, hst⟩ := hit s rfl
    have hal := (stretches_iff _ _).mp hst
    obtain ⟨st, b1, b2, b3⟩ := broadcastStrides_ok true s.arr sh (s.len h hs) hal
    unfold itemAt
    simp only [b1]
    refine ⟨_, rfl, fun c hc h1 => ?_⟩
    have key : ∃ b, Arr.view ⟨sh, st, s.arr.blk, s.arr.off⟩ (c.map .int) = .ok b ∧ (b.blk, b.off) = s.arr.addr (proj s.arr.shape c) := by
      have : ∃ b, Arr.view ⟨sh, st, s.arr.blk, s.arr.off⟩ (c.map .int) = .ok b ∧ b.shape = [] ∧ (b.blk, b.off) = (⟨sh, st, s.arr.blk, s.arr.off⟩ : Arr).addr c := by
        cases s with
        | same b => exact view_ints h _ (stretched_wf h b hs sh st hn hal b2 b3) c c (norm_self _ _ hc)
        | other g wu f b => exact view_ints g _ (stretched_wf g b hs sh st hn hal b2 b3) c c (norm_self _ _ hc)
      obtain ⟨b, e1, _, e2⟩ := this
      refine ⟨b, e1, ?_⟩
      rw [e2]
      simp only [Arr.addr, b3 c hc]
    obtain ⟨b, e1, e2⟩ := key
    rw [e1]
    simp only [Item.get, ← e2]

theorem Item.get_elem (it : Item U V) (h : Heap V) (c : List Int) : it.get h c = it.elem h c := by
  cases it with
  | num v => rfl
  | arr s => exact s.get_addr h _

theorem setAdv_spec (w : Int) (g : Heap Int) (h : Heap V) (a : Arr) (ha : a.WF h) (hrep : a.NoRepeat) (idx : List AIdx) (bs : List Int) (it : Item U V) (he : .ellipsis ∉ idx)
    (hu : AIdx.used idx ≤ a.shape.length) (hne : AIdx.arrays idx ≠ []) (hb : Broadcasts ((AIdx.arrays idx).map (·.shape)) bs) (hbn : ∀ n ∈ bs, 0 ≤ n) (hp : AProper g bs idx a.shape)
    (hj : Together idx ∨ Separated idx) (hit : ∀ s, it = .arr s → s.WF h ∧ Stretches s.arr.shape (join idx bs (sliceDims idx a.shape)) ∧ s.ApartAt a g idx bs) :
    ∃ h', setAdv w a g idx it h = some (h', none) ∧ PutAt h a g idx bs (it.elem h) h' := by
  obtain ⟨a', axs, ts, p, L⟩ := loops g h a ha idx bs he hu hne hp hj
  have jdims : join idx bs (sliceDims idx a.shape) = place p bs (sliceDims idx a.shape) := (L.build _ _ rfl).2
  have hsn : ∀ n ∈ join idx bs (sliceDims idx a.shape), 0 ≤ n := by rw [jdims]; exact place_nonneg p _ _ hbn L.nonneg
  have jvalid : ∀ bc sc, Valid bc bs → Valid sc (sliceDims idx a.shape) → Valid (join idx bc sc) (join idx bs (sliceDims idx a.shape)) := fun bc sc h1 h2 => by
    rw [jdims, (L.build sc bc (Valid.length h2)).2]
    exact valid_place p _ _ _ _ h1 h2
  obtain ⟨f, f1, f2⟩ := itemAt_spec h it (join idx bs (sliceDims idx a.shape)) hsn fun s hs => ⟨(hit s hs).1, (hit s hs).2.1⟩
  unfold setAdv
  simp only [L.prep]
  unfold setAxes
  rw [L.arrays, if_neg hne, broadcast_ok _ bs (by simpa using hne) hb]
  simp only [L.adj, L.dims]
  rw [(L.build _ bs rfl).1, ← jdims, f1, L.order]
  dsimp only
  have hloop := advLoop_store (V := V) g axs (putStep w a' f)
    (fun c : List Int => (c.take bs.length, slPos ts (c.drop bs.length)))
    (fun c => a.addr (selOf g idx a.shape bs c)) (fun c h => it.get h (join idx (c.take bs.length) (c.drop bs.length)))
    (multirange (bs ++ sliceDims idx a.shape)) (fun c hc => by
      obtain ⟨v1, v2⟩ := (split_valid _ _ _).mp hc
      obtain ⟨s, i', i, s1, s2, s3, s4, s5⟩ := L.step _ _ v1 v2
      refine ⟨_, s, s1, fun h1 => ?_⟩
      rw [putStep, f2 _ (jvalid _ _ v1 v2), selOf_eq g idx a.shape bs c i s3, ← s5]
      cases hg : it.get h1 (join idx (c.take bs.length) (c.drop bs.length)) with
      | none => rfl
      | some v =>
        simp only [Option.map_some, Option.bind_eq_bind, Option.bind_some]
        rw [setBasic_ints w h a' L.wf s i' s2]
        rfl) h
  rw [hloop]
  have sel : ∀ c ∈ multirange (bs ++ sliceDims idx a.shape), ∃ i, ASel g idx a.shape (c.take bs.length) (c.drop bs.length) i ∧ Valid i a.shape ∧ selOf g idx a.shape bs c = i := fun c hc => by
    obtain ⟨v1, v2⟩ := (split_valid _ _ _).mp hc
    obtain ⟨s, i', i, s1, s2, s3, s4, s5⟩ := L.step _ _ v1 v2
    exact ⟨i, s3, s4, selOf_eq g idx a.shape bs c i s3⟩
  obtain ⟨h', e1, e2, e3, e4⟩ := storeAll_spec ((multirange (bs ++ sliceDims idx a.shape)).map fun c => (a.addr (selOf g idx a.shape bs c),
      fun h : Heap V => it.get h (join idx (c.take bs.length) (c.drop bs.length)))) h
    (fun x hx => by
      obtain ⟨c, hc, rfl⟩ := List.mem_map.mp hx
      obtain ⟨i, s1, s2, s3⟩ := sel c hc
      dsimp only
      rw [s3]
      exact ha.alloc i s2)
    (fun j x hx => by
      rw [List.getElem?_map] at hx
      obtain ⟨c, hc, rfl⟩ := Option.map_eq_some_iff.mp hx
      have hcm := List.mem_of_getElem? hc
      obtain ⟨v1, v2⟩ := (split_valid _ _ _).mp hcm
      cases it with
      | num v => exact ⟨v, fun _ _ => rfl⟩
      | arr s =>
        obtain ⟨hs, hst, hap⟩ := hit s rfl
        have hal := (stretches_iff _ _).mp hst
        obtain ⟨v, hv⟩ := s.elem_some h hs _ (valid_proj _ _ _ hal (jvalid _ _ v1 v2))
        refine ⟨v, fun h1 hh => ?_⟩
        rw [← hv, ← s.get_addr]
        refine s.get_congr h h1 _ fun b hb => hh _ fun k hk y hy => ?_
        rw [List.getElem?_map] at hy
        obtain ⟨d, hd, rfl⟩ := Option.map_eq_some_iff.mp hy
        obtain ⟨i, i1, i2, i3⟩ := sel c hcm
        have hdm := List.mem_of_getElem? hd
        obtain ⟨i4, i5, i6, i7⟩ := sel d hdm
        obtain ⟨u1, u2⟩ := (split_valid _ _ _).mp hdm
        dsimp only
        rw [i7]
        intro heq
        subst hb
        obtain ⟨q1, q2⟩ := hap b rfl _ _ _ _ _ _ u1 i5 v1 i1 heq
        have hdc : d = c := by rw [← List.take_append_drop bs.length d, q1, q2, List.take_append_drop]
        obtain ⟨l1, l2⟩ := List.getElem?_eq_some_iff.mp hc
        obtain ⟨l3, l4⟩ := List.getElem?_eq_some_iff.mp hd
        have := ((nodup_multirange (bs ++ sliceDims idx a.shape)).getElem_inj_iff (hi := l1) (hj := l3)).mp (by rw [l2, l4, hdc])
        omega)
  rw [e1]
  refine ⟨h', rfl, e2, fun bc sc i h1 h2 h3 => ?_, fun q hq => e4 q fun x hx => ?_⟩
  · have hv := asel_valid g idx a.shape bc sc i h2
    obtain ⟨m1, m2, m3⟩ := join_split bs _ bc sc h1 hv
    have hi := selOf_eq g idx a.shape bs (bc ++ sc) i (by rw [m2, m3]; exact h2)
    have hiv : Valid i a.shape := by
      obtain ⟨i2, s1, s2, s3⟩ := sel _ m1
      rw [← hi, s3]; exact s2
    obtain ⟨j, hj⟩ := List.getElem?_of_mem m1
    have := e3 j _ (by rw [List.getElem?_map, hj]; rfl) (fun k y hk hy => by
      rw [List.getElem?_map] at hy
      obtain ⟨d, hd, rfl⟩ := Option.map_eq_some_iff.mp hy
      have hdm := List.mem_of_getElem? hd
      obtain ⟨v1, v2⟩ := (split_valid _ _ _).mp hdm
      obtain ⟨i4, i5, i6, i7⟩ := sel d hdm
      dsimp only
      rw [i7, hi]
      intro hh
      have e := hrep _ _ i6 hiv hh
      subst e
      refine h3 _ _ v1 ?_ i5
      rw [List.take_append_drop]
      obtain ⟨l1, l2⟩ := List.getElem?_eq_some_iff.mp hj
      obtain ⟨l3, l4⟩ := List.getElem?_eq_some_iff.mp hd
      have := List.pairwise_iff_getElem.mp (pairwise_multirange (bs ++ sliceDims idx a.shape)) j k l1 l3 hk
      rwa [l2, l4] at this)
    dsimp only at this
    rw [m2, m3, hi, it.get_elem] at this
    exact this
  · obtain ⟨c, hc, rfl⟩ := List.mem_map.mp hx
    obtain ⟨i, s1, s2, s3⟩ := sel c hc
    obtain ⟨v1, v2⟩ := (split_valid _ _ _).mp hc
    dsimp only
    rw [s3]
    exact hq _ _ i v1 s1

end Codon.NpIdx
