import Verif.NpIdx.Comp
/-! # Index arrays: reading and writing -/
namespace Codon.NpIdx
open Codon.Numpy Codon.NpLine Codon.SliceSpec
variable {U V : Type}

/-- What the two loops have in common. -/
structure Loops (g : Heap Int) (h : Heap V) (a : Arr) (idx : List AIdx) (bs : List Int) (a' : Arr) (axs : List Ax) (ts : List Slice.Adj) (p : Nat) : Prop where
  prep : advPrep a idx = .ok (a', axs)
  wf : a'.WF h
  arrays : arraysOf axs = AIdx.arrays idx
  adj : adjusted axs a'.shape = .ok ts
  dims : ts.map (·.length) = sliceDims idx a.shape
  nonneg : ∀ n ∈ sliceDims idx a.shape, 0 ≤ n
  order : advOrder bs ts = (multirange (bs ++ sliceDims idx a.shape)).map fun c => (c.take bs.length, slPos ts (c.drop bs.length))
  le : p ≤ (sliceDims idx a.shape).length
  build : ∀ sl b : List Int, sl.length = (sliceDims idx a.shape).length → buildShape axs sl b = place p b sl ∧ join idx b sl = place p b sl
  step : ∀ bc sc, Valid bc bs → Valid sc (sliceDims idx a.shape) → ∃ s i' i, stepIdx g axs bc (slPos ts sc) = some (join idx bc sc, s) ∧ Norm a'.shape s i' ∧ ASel g idx a.shape bc sc i ∧ Valid i a.shape ∧
    a'.addr i' = a.addr i

theorem loops (g : Heap Int) (h : Heap V) (a : Arr) (ha : a.WF h) (idx : List AIdx) (bs : List Int) (he : .ellipsis ∉ idx) (hu : AIdx.used idx ≤ a.shape.length) (hne : AIdx.arrays idx ≠ [])
    (hp : AProper g bs idx a.shape) (hj : Together idx ∨ Separated idx) : ∃ a' axs ts p, Loops g h a idx bs a' axs ts p := by
  obtain ⟨a', r1, r2, r3, r4, r5, r6, r7, r8⟩ := advPrep_spec h a ha g bs idx he hu hp
  obtain ⟨ts, t1, t2, t3, t4, t5⟩ := adjusted_spec g bs _ a'.shape r4 r2.nonneg r5
  rw [r6] at t2
  obtain ⟨p, b1, b2⟩ := build_join idx (a.shape.length - AIdx.used idx) he hne hj
  have hsplit : ∀ (axs : List Ax) (sh : List Int), axs.length = sh.length → (sliceDims (axs.map Ax.toA) sh).length + (arraysOf axs).length = axs.length := by
    intro axs
    induction axs with
    | nil => intro sh hl; have : sh = [] := List.length_eq_zero_iff.mp hl.symm; subst this; rfl
    | cons x axs ih =>
      intro sh hl
      cases sh with
      | nil => simp at hl
      | cons n sh =>
        have := ih sh (by simpa using hl)
        cases x <;> simp only [List.map_cons, Ax.toA, sliceDims, List.tail_cons, arraysOf, List.length_cons] <;> omega
  have hsp := hsplit _ a'.shape r4
  rw [r6, r7] at hsp
  have hb : ∀ sl b : List Int, sl.length = (sliceDims idx a.shape).length → buildShape (pruneIndex (idx ++ List.replicate (a.shape.length - AIdx.used idx) .full)) sl b = place p b sl ∧ join idx b sl = place p b sl :=
    fun sl b hl => b2 sl b (by omega)
  refine ⟨a', _, ts, p, ⟨r1, r2, r7, t1, t2, ?_, ?_, by omega, hb, fun bc sc hbc hsc => ?_⟩⟩
  · rw [← t2]
    intro n hn
    obtain ⟨t, ht, rfl⟩ := List.mem_map.mp hn
    exact t4 t ht
  · rw [← t2]; exact advOrder_eq bs ts t3
  · obtain ⟨ia, i1, i2⟩ := t5 bc hbc
    obtain ⟨i', n1, n2, n3⟩ := i2 sc (by rw [t2]; exact hsc)
    obtain ⟨i, s1, s2, s3⟩ := r8 bc sc i' n2
    refine ⟨_, i', i, ?_, n1, s1, s2, s3⟩
    unfold stepIdx
    rw [i1]
    simp only [Option.bind_eq_bind, Option.bind_some, Option.pure_def, n3]
    rw [(hb sc bc (Valid.length hsc)).1, (hb sc bc (Valid.length hsc)).2]

/-- The positions `(bc, sc)` as one list of coordinates. -/
theorem split_valid (bs dims c : List Int) : c ∈ multirange (bs ++ dims) ↔ Valid (c.take bs.length) bs ∧ Valid (c.drop bs.length) dims := by
  rw [mem_multirange]
  constructor
  · intro h
    have hl := Valid.length h
    rw [List.length_append] at hl
    rwa [← List.take_append_drop bs.length c, valid_append _ _ _ _ (by simp; omega)] at h
  · rintro ⟨h1, h2⟩
    rw [← List.take_append_drop bs.length c, valid_append _ _ _ _ (Valid.length h1)]
    exact ⟨h1, h2⟩

theorem join_split (bs dims bc sc : List Int) (h1 : Valid bc bs) (h2 : Valid sc dims) : bc ++ sc ∈ multirange (bs ++ dims) ∧ (bc ++ sc).take bs.length = bc ∧ (bc ++ sc).drop bs.length = sc := by
  refine ⟨?_, ?_, ?_⟩
  · rw [mem_multirange, valid_append _ _ _ _ (Valid.length h1)]; exact ⟨h1, h2⟩
  · rw [← Valid.length h1, List.take_left]
  · rw [← Valid.length h1, List.drop_left]

open Classical in
/-- The element that position `c` selects. -/
noncomputable def selOf (g : Heap Int) (idx : List AIdx) (sh bs c : List Int) : List Int :=
  if h : ∃ i, ASel g idx sh (c.take bs.length) (c.drop bs.length) i then h.choose else []

theorem selOf_eq (g : Heap Int) (idx : List AIdx) (sh bs c i : List Int) (h : ASel g idx sh (c.take bs.length) (c.drop bs.length) i) : selOf g idx sh bs c = i := by
  have hex : ∃ i, ASel g idx sh (c.take bs.length) (c.drop bs.length) i := ⟨i, h⟩
  rw [selOf, dif_pos hex]
  exact asel_fun g idx sh _ _ _ _ hex.choose_spec h

theorem broadcast_ok (args : List (List Int)) (bs : List Int) (hne : args ≠ []) (hb : Broadcasts args bs) : broadcastShapes args true = .ok bs := by
  rcases broadcastShapes_spec args hne with ⟨s, e1, e2⟩ | ⟨_, e2⟩
  · rw [e1, broadcasts_unique _ _ _ e2 hb]
  · exact absurd hb (e2 bs)

theorem place_nonneg (p : Nat) (bs dims : List Int) (h1 : ∀ n ∈ bs, 0 ≤ n) (h2 : ∀ n ∈ dims, 0 ≤ n) : ∀ n ∈ place p bs dims, 0 ≤ n := by
  intro n hn
  simp only [place, List.mem_append] at hn
  rcases hn with (hn | hn) | hn
  · exact h2 n (List.mem_of_mem_take hn)
  · exact h1 n hn
  · exact h2 n (List.mem_of_mem_drop hn)

theorem getAdv_spec (w : Int) (hw : 0 < w) (g : Heap Int) (h : Heap V) (a : Arr) (ha : a.WF h) (idx : List AIdx) (bs : List Int) (junk : Int → V) (he : .ellipsis ∉ idx) (hu : AIdx.used idx ≤ a.shape.length)
    (hne : AIdx.arrays idx ≠ []) (hb : Broadcasts ((AIdx.arrays idx).map (·.shape)) bs) (hbn : ∀ n ∈ bs, 0 ≤ n) (hp : AProper g bs idx a.shape) (hj : Together idx ∨ Separated idx) :
    ∃ h' r, getAdv w a g idx junk h = some (.ok (h', r)) ∧ Taken h a g idx bs h' r := by
  obtain ⟨a', axs, ts, p, L⟩ := loops g h a ha idx bs he hu hne hp hj
  have jdims : join idx bs (sliceDims idx a.shape) = place p bs (sliceDims idx a.shape) := (L.build _ _ rfl).2
  have hsn : ∀ n ∈ join idx bs (sliceDims idx a.shape), 0 ≤ n := by rw [jdims]; exact place_nonneg p _ _ hbn L.nonneg
  obtain ⟨q1, q2, q3⟩ := packed_stridesOf (join idx bs (sliceDims idx a.shape)) false w hw hsn
  generalize hst : stridesOf (join idx bs (sliceDims idx a.shape)) false w = st at q1 q2 q3
  generalize hans : (⟨join idx bs (sliceDims idx a.shape), st, h.next, 0⟩ : Arr) = ans
  have as : ans.shape = join idx bs (sliceDims idx a.shape) := by rw [← hans]
  have ab : ans.blk = h.next := by rw [← hans]
  have addr : ∀ c, ans.addr c = (h.next, ptrOff c st) := fun c => by rw [← hans]; simp [Arr.addr]
  have jvalid : ∀ bc sc, Valid bc bs → Valid sc (sliceDims idx a.shape) → Valid (join idx bc sc) ans.shape := fun bc sc h1 h2 => by
    rw [as, jdims, (L.build sc bc (Valid.length h2)).2]
    exact valid_place p _ _ _ _ h1 h2
  have jinj : ∀ bc sc bc' sc', Valid bc bs → Valid sc (sliceDims idx a.shape) → Valid bc' bs → Valid sc' (sliceDims idx a.shape) → join idx bc sc = join idx bc' sc' → bc = bc' ∧ sc = sc' :=
    fun bc sc bc' sc' h1 h2 h3 h4 hh => by
      rw [(L.build sc bc (Valid.length h2)).2, (L.build sc' bc' (Valid.length h4)).2] at hh
      exact place_inj p _ _ _ _ (by rw [Valid.length h1, Valid.length h3]) (by rw [Valid.length h2, Valid.length h4]) hh
  have hrep : ans.NoRepeat := fun c c' hc hc' hh => by
    rw [as] at hc hc'
    rw [addr, addr] at hh
    exact q3 c c' hc hc' (congrArg Prod.snd hh)
  have awf : ans.WF (h.new w (count (join idx bs (sliceDims idx a.shape))) junk) := by
    refine ⟨?_, by rw [as]; exact hsn, fun c hc => ?_, by rw [ab]; simp [Heap.new]⟩
    · rw [as, ← hans]; exact q1.symm
    · rw [as] at hc
      obtain ⟨k, k1, k2, k3⟩ := q2 c hc
      have := new_get h w (count (join idx bs (sliceDims idx a.shape))) junk hw k k1 k2
      rw [← k3] at this
      have ee : ans.read (h.new w (count (join idx bs (sliceDims idx a.shape))) junk) c = (h.new w (count (join idx bs (sliceDims idx a.shape))) junk).get (ans.addr c).1 (ans.addr c).2 := rfl
      rw [ee, addr]
      exact this
  have old : ∀ i, Valid i a.shape → (h.new w (count (join idx bs (sliceDims idx a.shape))) junk).get (a.addr i).1 (a.addr i).2 = a.read h i := fun i hi => by
    rw [new_other _ _ _ _ _ (by have := ha.block; simp only [Arr.addr]; omega)]; rfl
  unfold getAdv
  simp only [L.prep]
  unfold getAxes
  rw [L.arrays, if_neg hne, broadcast_ok _ bs (by simpa using hne) hb]
  simp only [L.adj, L.dims]
  rw [(L.build _ bs rfl).1, ← jdims, hst, hans, L.order]
  have hloop := advLoop_store (V := V) g axs (getStep w a' ans)
    (fun c : List Int => (c.take bs.length, slPos ts (c.drop bs.length)))
    (fun c => ans.addr (join idx (c.take bs.length) (c.drop bs.length))) (fun c h => h.get (a.addr (selOf g idx a.shape bs c)).1 (a.addr (selOf g idx a.shape bs c)).2)
    (multirange (bs ++ sliceDims idx a.shape)) (fun c hc => by
      obtain ⟨v1, v2⟩ := (split_valid _ _ _).mp hc
      obtain ⟨s, i', i, s1, s2, s3, s4, s5⟩ := L.step _ _ v1 v2
      refine ⟨_, s, s1, fun h1 => ?_⟩
      rw [getStep, getElem_ints h a' L.wf s i' s2, selOf_eq g idx a.shape bs c i s3, s5]
      cases hg : h1.get (a.addr i).1 (a.addr i).2 with
      | none => rfl
      | some v =>
        simp only [Option.map_some, Option.bind_eq_bind, Option.bind_some]
        rw [setBasic_ints w _ ans awf _ _ (norm_self _ _ (jvalid _ _ v1 v2))]
        rfl) (h.new w (count (join idx bs (sliceDims idx a.shape))) junk)
  rw [hloop]
  obtain ⟨h', e1, e2, e3, e4⟩ := storeAll_spec ((multirange (bs ++ sliceDims idx a.shape)).map fun c => (ans.addr (join idx (c.take bs.length) (c.drop bs.length)),
      fun h : Heap V => h.get (a.addr (selOf g idx a.shape bs c)).1 (a.addr (selOf g idx a.shape bs c)).2)) (h.new w (count (join idx bs (sliceDims idx a.shape))) junk)
    (fun x hx => by
      obtain ⟨c, hc, rfl⟩ := List.mem_map.mp hx
      obtain ⟨v1, v2⟩ := (split_valid _ _ _).mp hc
      exact awf.alloc _ (jvalid _ _ v1 v2))
    (fun j x hx => by
      rw [List.getElem?_map] at hx
      obtain ⟨c, hc, rfl⟩ := Option.map_eq_some_iff.mp hx
      obtain ⟨v1, v2⟩ := (split_valid _ _ _).mp (List.mem_of_getElem? hc)
      obtain ⟨s, i', i, s1, s2, s3, s4, s5⟩ := L.step _ _ v1 v2
      obtain ⟨v, hv⟩ := ha.alloc i s4
      refine ⟨v, fun h1 hh => ?_⟩
      dsimp only
      rw [selOf_eq g idx a.shape bs c i s3, hh (a.addr i) fun k _ y hy => by
        rw [List.getElem?_map] at hy
        obtain ⟨d, _, rfl⟩ := Option.map_eq_some_iff.mp hy
        intro hh
        rw [addr] at hh
        have h2 := congrArg Prod.fst hh
        have := ha.block
        simp only [Arr.addr] at h2
        omega]
      rw [old i s4, hv])
  rw [e1]
  have keep : ∀ b o, b ≠ h.next → h'.get b o = h.get b o := fun b o hb => by
    have := e4 (b, o) fun x hx => by
      obtain ⟨c, _, rfl⟩ := List.mem_map.mp hx
      rw [addr]
      intro hh
      exact hb (congrArg Prod.fst hh).symm
    rw [this, new_other _ _ _ _ _ hb]
  have rd : ∀ bc sc i, Valid bc bs → Valid sc (sliceDims idx a.shape) → ASel g idx a.shape bc sc i → Valid i a.shape → ans.read h' (join idx bc sc) = a.read h i := fun bc sc i h1 h2 h3 h4 => by
    obtain ⟨m1, m2, m3⟩ := join_split bs _ bc sc h1 h2
    obtain ⟨j, hj⟩ := List.getElem?_of_mem m1
    have := e3 j _ (by rw [List.getElem?_map, hj]; rfl) (fun k y hk hy => by
      rw [List.getElem?_map] at hy
      obtain ⟨d, hd, rfl⟩ := Option.map_eq_some_iff.mp hy
      obtain ⟨v1, v2⟩ := (split_valid _ _ _).mp (List.mem_of_getElem? hd)
      dsimp only
      rw [m2, m3]
      intro hh
      have e := hrep _ _ (jvalid _ _ v1 v2) (jvalid _ _ h1 h2) hh
      obtain ⟨e5, e6⟩ := jinj _ _ _ _ v1 v2 h1 h2 e
      have hdc : d = bc ++ sc := by rw [← List.take_append_drop bs.length d, e5, e6]
      obtain ⟨l1, l2⟩ := List.getElem?_eq_some_iff.mp hj
      obtain ⟨l3, l4⟩ := List.getElem?_eq_some_iff.mp hd
      have := ((nodup_multirange (bs ++ sliceDims idx a.shape)).getElem_inj_iff (hi := l1) (hj := l3)).mp (by rw [l2, l4, hdc])
      omega)
    dsimp only at this
    rw [m2, m3, selOf_eq g idx a.shape bs (bc ++ sc) i (by rw [m2, m3]; exact h3), old i h4] at this
    exact this
  refine ⟨h', ans, rfl, as, ⟨awf.len, awf.nonneg, fun c hc => ?_, by rw [e2, ab]; simp [Heap.new]⟩, ab, fun b hb => ?_, hrep, fun bc sc i h1 h2 => ?_, fun c hc => ?_⟩
  · rw [as, jdims] at hc
    obtain ⟨bc, sc, s1, s2, rfl⟩ := place_split p _ _ c L.le hc
    obtain ⟨s, i', i, s3, s4, s5, s6, s7⟩ := L.step bc sc s1 s2
    rw [← (L.build sc bc (Valid.length s2)).2, rd bc sc i s1 s2 s5 s6]
    exact ha.alloc i s6
  · funext o
    exact keep b o (by omega)
  · have hv := asel_valid g idx a.shape bc sc i h2
    obtain ⟨s, i', i2, s3, s4, s5, s6, s7⟩ := L.step bc sc h1 hv
    have := asel_fun g idx a.shape bc sc i i2 h2 s5
    subst this
    exact ⟨jvalid bc sc h1 hv, s6, rd bc sc i h1 hv h2 s6⟩
  · rw [as, jdims] at hc
    obtain ⟨bc, sc, s1, s2, rfl⟩ := place_split p _ _ c L.le hc
    obtain ⟨s, i', i, s3, s4, s5, s6, s7⟩ := L.step bc sc s1 s2
    exact ⟨bc, sc, i, s1, s5, ((L.build sc bc (Valid.length s2)).2).symm⟩

end Codon.NpIdx
