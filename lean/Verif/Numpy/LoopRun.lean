import Verif.Numpy.LoopVisits
/-!
# What the functions called by `_loop` do to the memory
-/
namespace Codon.Numpy
variable {V : Type}

/-- Calls that store at most one value each, at different places, none of which another call reads. -/
theorem run_store (fn : List Ptr → Heap V → Option (Heap V)) (t : List Int → List Ptr) (tgt : List Int → Ptr) (srcs : List Int → List Ptr) (v : List Int → Option V) :
    ∀ (cs : List (List Int)) (h : Heap V),
    (∀ c ∈ cs, ∀ h' : Heap V, (∀ p ∈ srcs c, h'.get p.1 p.2 = h.get p.1 p.2) → fn (t c) h' = match v c with | some x => h'.write (tgt c).1 (tgt c).2 x | none => some h') →
    (∀ c ∈ cs, ∃ u, h.get (tgt c).1 (tgt c).2 = some u) → (cs.map tgt).Nodup → (∀ c ∈ cs, ∀ c' ∈ cs, tgt c ∈ srcs c' → c = c') →
    ∃ h', runAll fn (cs.map t) h = some h' ∧ h'.next = h.next ∧ (∀ c ∈ cs, ∀ x, v c = some x → h'.get (tgt c).1 (tgt c).2 = some x) ∧
      ∀ p : Ptr, (∀ c ∈ cs, v c ≠ none → tgt c ≠ p) → h'.get p.1 p.2 = h.get p.1 p.2
  | [], h, _, _, _, _ => ⟨h, rfl, rfl, by simp, fun _ _ => rfl⟩
  | c :: cs, h, hfn, hal, hnd, hov => by
    rw [List.map_cons, List.nodup_cons] at hnd
    have hstep := hfn c (by simp) h fun _ _ => rfl
    obtain ⟨u, hu⟩ := hal c (by simp)
    obtain ⟨h1, e1, e2, e3, e4⟩ : ∃ h1, fn (t c) h = some h1 ∧ h1.next = h.next ∧ (∀ x, v c = some x → h1.get (tgt c).1 (tgt c).2 = some x) ∧
        ∀ p : Ptr, (v c ≠ none → tgt c ≠ p) → h1.get p.1 p.2 = h.get p.1 p.2 := by
      cases hv : v c with
      | none => exact ⟨h, by rw [hstep, hv], rfl, by simp, fun _ _ => rfl⟩
      | some x =>
        obtain ⟨h1, w1, w2, w3, w4⟩ := write_spec h (tgt c).1 (tgt c).2 x u hu
        refine ⟨h1, by rw [hstep, hv]; exact w1, w2, fun y hy => by rw [← Option.some.inj hy]; exact w3, fun p hp => w4 _ _ fun hh => ?_⟩
        exact hp (by simp) (Prod.ext hh.1.symm hh.2.symm)
    have hne : ∀ c' ∈ cs, tgt c ≠ tgt c' := fun c' hc' he => hnd.1 (by rw [he]; exact List.mem_map_of_mem hc')
    obtain ⟨h', f1, f2, f3, f4⟩ := run_store fn t tgt srcs v cs h1 (fun c' hc' h'' hh => hfn c' (by simp [hc']) h'' fun p hp => by
        rw [hh p hp]
        refine e4 p fun _ he => ?_
        have := hov c (by simp) c' (by simp [hc']) (by rw [he]; exact hp)
        exact hne c' hc' (by rw [this])) (fun c' hc' => by
        obtain ⟨u', hu'⟩ := hal c' (by simp [hc'])
        exact ⟨u', by rw [e4 (tgt c') fun _ => hne c' hc']; exact hu'⟩) hnd.2 fun x hx y hy => hov x (by simp [hx]) y (by simp [hy])
    refine ⟨h', by rw [List.map_cons, runAll, e1]; exact f1, by rw [f2, e2], fun c' hc' x hx => ?_, fun p hp => ?_⟩
    · rcases List.mem_cons.mp hc' with rfl | hc'
      · rw [f4 _ fun c'' hc'' _ he => hne c'' hc'' he.symm]; exact e3 x hx
      · exact f3 c' hc' x hx
    · rw [f4 p fun c' hc' => hp c' (by simp [hc']), e4 p (hp c (by simp))]

theorem dom_proj (h : Heap V) (x : Arr) (hwf : x.WF h) (s : List Int) (ha : Aligned x.shape s) (c : List Int) (hc : Valid c s) : ∃ v, x.read h (proj x.shape c) = some v :=
  hwf.alloc _ (valid_proj _ _ _ ha hc)

theorem broadcastArgs_all (check : Bool) (a : Opd) (r : List Opd) (s : List Int) (hlen : ∀ x ∈ a :: r, x.arr.shape.length = x.arr.strides.length)
    (hb : Broadcasts ((a :: r).map (·.arr.shape)) s) (hok : broadcastShapes ((a :: r).map (·.arr.shape)) check = .ok s) :
    ∃ sts, broadcastArgs .all check a r = .ok (s, sts) ∧
      List.Forall₂ (fun (x : Opd) st => st.length = s.length ∧ ∀ c, Valid c s → ptrOff c st = ptrOff (proj x.arr.shape c) x.arr.strides) (a :: r) sts := by
  have key : ∀ xs : List Opd, (∀ x ∈ xs, x ∈ a :: r) → ∃ sts, xs.mapM (fun x => broadcastStrides false x.arr s) = .ok sts ∧
      List.Forall₂ (fun (x : Opd) st => st.length = s.length ∧ ∀ c, Valid c s → ptrOff c st = ptrOff (proj x.arr.shape c) x.arr.strides) xs sts := by
    intro xs
    induction xs with
    | nil => intro _; exact ⟨[], rfl, .nil⟩
    | cons x xs ih =>
      intro hx
      obtain ⟨sts, e1, e2⟩ := ih fun y hy => hx y (by simp [hy])
      obtain ⟨st, f1, f2⟩ := broadcastStrides_ok false x.arr s (hlen x (hx x (by simp))) (broadcasts_aligned _ _ hb _ (List.mem_map_of_mem (hx x (by simp))))
      refine ⟨st :: sts, ?_, .cons f2 e2⟩
      rw [List.mapM_cons, f1, e1]; rfl
  obtain ⟨sts, e1, e2⟩ := key (a :: r) fun _ hx => hx
  refine ⟨sts, ?_, e2⟩
  simp only [broadcastArgs, hok]
  rw [e1]; rfl

/-- `_loop` with full broadcasting. -/
theorem loop_all (a : Opd) (r : List Opd) (alloc : Option Int) (next : Nat) (s : List Int) (hw : ∀ w, alloc = some w → 0 < w)
    (hlen : ∀ x ∈ a :: r, x.arr.shape.length = x.arr.strides.length) (hnn : ∀ x ∈ a :: r, ∀ n ∈ x.arr.shape, 0 ≤ n) (hb : Broadcasts ((a :: r).map (·.arr.shape)) s) :
    ∃ cs res, loop a r .all true alloc next = .ok (cs.map (visit res (a :: r)), res) ∧ cs.Perm (multirange s) ∧ Fresh s cs next alloc res := by
  refine loop_spec a r .all true alloc next s hw hlen (broadcasts_nonneg _ _ hb fun sh hsh => ?_) (fun hc => ?_) (fun _ => ?_) ?_
  · obtain ⟨x, hx, rfl⟩ := List.mem_map.mp hsh
    exact hnn x hx
  · refine broadcasts_unique _ _ _ hb (broadcasts_same _ _ (by simp) fun sh hsh => ?_)
    obtain ⟨x, hx, rfl⟩ := List.mem_map.mp hsh
    exact (allContig_spec a r hc).1 x hx
  · rcases broadcastShapes_spec ((a :: r).map (·.arr.shape)) (by simp) with ⟨s', e1, e2⟩ | ⟨_, e2⟩
    · rw [broadcasts_unique _ _ _ e2 hb] at e1
      exact broadcastArgs_all true a r s hlen hb e1
    · exact absurd hb (e2 s)
  · obtain ⟨h1, h2⟩ := maxDim_mem a r
    obtain ⟨sh, hsh, e⟩ := hb.2.1
    obtain ⟨x, hx, rfl⟩ := List.mem_map.mp hsh
    have g1 := h2 x hx
    have g2 := hb.1 _ (List.mem_map_of_mem (f := fun y : Opd => y.arr.shape) h1)
    omega

/-- Shapes that do not fit: `ValueError`. -/
theorem loop_all_error (a : Opd) (r : List Opd) (alloc : Option Int) (next : Nat) (hb : ∀ s, ¬ Broadcasts ((a :: r).map (·.arr.shape)) s) :
    loop a r .all true alloc next = .error .value := by
  have hc : (allContiguous a r).1 = false := by
    by_contra hc
    have hc' : (allContiguous a r).1 = true := by simpa using hc
    refine hb a.arr.shape (broadcasts_same _ _ (by simp) fun sh hsh => ?_)
    obtain ⟨x, hx, rfl⟩ := List.mem_map.mp hsh
    exact (allContig_spec a r hc').1 x hx
  rcases broadcastShapes_spec ((a :: r).map (·.arr.shape)) (by simp) with ⟨s', e1, e2⟩ | ⟨e1, _⟩
  · exact absurd e2 (hb s')
  · simp only [loop, hc, Bool.false_eq_true, if_false, broadcastArgs, e1]

theorem mapM_read (h : Heap V) (xs : List Opd) (s c : List Int) (hc : Valid c s) (hwf : ∀ x ∈ xs, x.arr.WF h) (ha : ∀ x ∈ xs, Aligned x.arr.shape s) :
    ∃ vs, xs.mapM (fun x => x.arr.read h (proj x.arr.shape c)) = some vs ∧ vs.length = xs.length ∧
      (xs.map fun x => x.arr.addr (proj x.arr.shape c)).map (fun p => h.get p.1 p.2) = vs.map some := by
  induction xs with
  | nil => exact ⟨[], rfl, rfl, rfl⟩
  | cons x xs ih =>
    obtain ⟨vs, e1, e2, e3⟩ := ih (fun y hy => hwf y (by simp [hy])) fun y hy => ha y (by simp [hy])
    obtain ⟨v, hv⟩ := dom_proj h x.arr (hwf x (by simp)) s (ha x (by simp)) c hc
    refine ⟨v :: vs, by rw [List.mapM_cons, hv, e1]; rfl, by simp [e2], ?_⟩
    simp only [List.map_cons, e3]
    congr 1

/-- A function that computes a new element from the elements of all arrays. -/
theorem allocLoop_spec (h : Heap V) (junk : Int → V) (w0 : Int) (hw : 0 < w0) (f : List Ptr → Heap V → Option (Heap V)) (g : List V → Option V) (a : Opd) (r : List Opd)
    (hwf : ∀ x ∈ a :: r, x.arr.WF h) (s : List Int) (hb : Broadcasts ((a :: r).map (·.arr.shape)) s)
    (hf : ∀ (z : Ptr) (ps : List Ptr) (h1 : Heap V) (vs : List V), vs.length = r.length + 1 → ps.map (fun p => h1.get p.1 p.2) = vs.map some →
      ∃ x, g vs = some x ∧ f (z :: ps) h1 = h1.write z.1 z.2 x) :
    ∃ h' b, allocLoop h junk w0 f a r = some (.ok (h', b)) ∧ NewArray h s (fun c => ((a :: r).mapM fun x : Opd => x.arr.read h (proj x.arr.shape c)).bind g) h' b := by
  have hnn : ∀ n ∈ s, 0 ≤ n := broadcasts_nonneg _ _ hb fun sh hsh => by
    obtain ⟨x, hx, rfl⟩ := List.mem_map.mp hsh
    exact (hwf x hx).nonneg
  have hal : ∀ x ∈ a :: r, Aligned x.arr.shape s := fun x hx => broadcasts_aligned _ _ hb _ (List.mem_map_of_mem hx)
  obtain ⟨cs, res, e1, e2, e3⟩ := loop_all a r (some w0) h.next s (fun w hh => by rw [← Option.some.inj hh]; exact hw) (fun x hx => (hwf x hx).len) (fun x hx => (hwf x hx).nonneg) hb
  obtain ⟨b, rfl, b1, b2, b3, b4, b5⟩ := e3
  have hvis : ∀ c ∈ cs, Valid c s := fun c hc => (mem_multirange _ _).mp (e2.mem_iff.mp hc)
  have hpos : ∀ c ∈ cs, ∃ i, 0 ≤ i ∧ i < count s ∧ ptrOff c b.strides = i * w0 := by
    intro c hc
    have : ptrOff c b.strides ∈ (upto (count s)).map (· * w0) := by rw [← b5]; exact List.mem_map_of_mem hc
    obtain ⟨i, hi, he⟩ := List.mem_map.mp this
    rw [mem_upto] at hi
    exact ⟨i, hi.1, hi.2, he.symm⟩
  have hinj : ∀ c ∈ cs, ∀ c' ∈ cs, b.addr c = b.addr c' → c = c' := by
    intro c hc c' hc' he
    have hn : (cs.map fun c => ptrOff c b.strides).Nodup := by rw [b5]; exact nodup_upto_mul _ _ hw
    refine List.inj_on_of_nodup_map hn hc hc' ?_
    simp only [Arr.addr, Prod.mk.injEq, true_and] at he
    omega
  have hread : ∀ x ∈ a :: r, ∀ c, x.arr.read (h.new w0 (count b.shape) junk) c = x.arr.read h c := by
    intro x hx c
    simp only [Arr.read]
    rw [new_other _ _ _ _ _ (by have := (hwf x hx).block; omega)]
  have hval : ∀ c ∈ cs, ∃ v x, ((a :: r).mapM fun x : Opd => x.arr.read h (proj x.arr.shape c)) = some v ∧ g v = some x ∧
      ∀ h1 : Heap V, (∀ p ∈ (a :: r).map (fun x => x.arr.addr (proj x.arr.shape c)), h1.get p.1 p.2 = (h.new w0 (count b.shape) junk).get p.1 p.2) →
        f (visit (some b) (a :: r) c) h1 = h1.write (b.addr c).1 (b.addr c).2 x := by
    intro c hc
    obtain ⟨vs, v1, v2, v3⟩ := mapM_read h (a :: r) s c (hvis c hc) hwf hal
    obtain ⟨x, hx, _⟩ := hf (b.addr c) ((a :: r).map fun x => x.arr.addr (proj x.arr.shape c)) h vs (by simpa using v2) v3
    refine ⟨vs, x, v1, hx, fun h1 hh => ?_⟩
    obtain ⟨x', hx', he⟩ := hf (b.addr c) ((a :: r).map fun x => x.arr.addr (proj x.arr.shape c)) h1 vs (by simpa using v2) (by
      rw [← v3]
      apply List.map_congr_left
      intro p hp
      rw [hh p hp]
      obtain ⟨y, hy, rfl⟩ := List.mem_map.mp hp
      simp only [Arr.addr]
      rw [new_other _ _ _ _ _ (by have := (hwf y hy).block; omega)])
    rw [hx] at hx'
    rw [Option.some.inj hx']; exact he
  have hex : ∀ c : List Int, ∃ o : Option V, c ∈ cs → ∃ x, o = some x ∧ (((a :: r).mapM fun x : Opd => x.arr.read h (proj x.arr.shape c)).bind g) = some x ∧
      ∀ h1 : Heap V, (∀ p ∈ (a :: r).map (fun x => x.arr.addr (proj x.arr.shape c)), h1.get p.1 p.2 = (h.new w0 (count b.shape) junk).get p.1 p.2) →
        f (visit (some b) (a :: r) c) h1 = h1.write (b.addr c).1 (b.addr c).2 x := by
    intro c
    by_cases hc : c ∈ cs
    · obtain ⟨v, x, h1, h2, h3⟩ := hval c hc
      exact ⟨some x, fun _ => ⟨x, rfl, by rw [h1]; exact h2, h3⟩⟩
    · exact ⟨none, fun hh => absurd hh hc⟩
  choose v hv using hex
  obtain ⟨h', r1, r2, r3, r4⟩ := run_store f (visit (some b) (a :: r)) b.addr (fun c => (a :: r).map fun x => x.arr.addr (proj x.arr.shape c)) v cs (h.new w0 (count b.shape) junk)
    (fun c hc h1 hh => by
      obtain ⟨x, hx, _, hs⟩ := hv c hc
      rw [hx, hs h1 hh]) (fun c hc => by
      obtain ⟨i, i1, i2, i3⟩ := hpos c hc
      obtain ⟨u, hu⟩ := new_get h w0 (count b.shape) junk hw i i1 (by rw [b1]; exact i2)
      exact ⟨u, by simp only [Arr.addr]; rw [b3, b4, i3, Int.zero_add]; exact hu⟩) (by
      refine List.Nodup.map_on (fun c hc c' hc' he => hinj c hc c' hc' he) (e2.nodup_iff.mpr (nodup_multirange s))) (by
      intro c hc c' hc' hm
      obtain ⟨x, hx, he⟩ := List.mem_map.mp hm
      have := congrArg Prod.fst he
      simp only [Arr.addr] at this
      have := (hwf x hx).block
      omega)
  have hmem : ∀ c, Valid c s → c ∈ cs := fun c hc => e2.mem_iff.mpr ((mem_multirange _ _).mpr hc)
  have hfin : ∀ c, Valid c s → b.read h' c = ((a :: r).mapM fun x : Opd => x.arr.read h (proj x.arr.shape c)).bind g := by
    intro c hc
    obtain ⟨x, hx, hx2, _⟩ := hv c (hmem c hc)
    rw [hx2]
    exact r3 c (hmem c hc) x hx
  refine ⟨h', b, ?_, b1, ⟨by rw [b1, b2], by rw [b1]; exact hnn, fun c hc => ?_, by rw [r2, b3]; simp [Heap.new]⟩, b3, fun bb hbb => ?_, ?_, hfin⟩
  · simp only [allocLoop, e1]
    rw [r1]; rfl
  · rw [b1] at hc
    obtain ⟨x, hx, hx2, _⟩ := hv c (hmem c hc)
    exact ⟨x, by rw [hfin c hc, hx2]⟩
  · funext o
    rw [r4 (bb, o) fun c hc _ he => by
      have := congrArg Prod.fst he
      simp only [Arr.addr] at this
      omega]
    rw [new_other _ _ _ _ _ (by omega)]
  · intro c c' hc hc' he
    exact hinj c (hmem c hc) c' (hmem c' hc') he

/-- A function that updates the first array. -/
theorem inplaceLoop_spec (h : Heap V) (f : List Ptr → Heap V → Option (Heap V)) (g : List V → Option V) (a : Opd) (r : List Opd) (bc : Bc) (check : Bool)
    (hwf : ∀ x ∈ a :: r, x.arr.WF h) (cs : List (List Int)) (hcs : cs.Perm (multirange a.arr.shape)) (hal : ∀ x ∈ a :: r, Aligned x.arr.shape a.arr.shape)
    (hl : loop a r bc check none h.next = .ok (cs.map (visit none (a :: r)), none))
    (hself : ∀ c c', Valid c a.arr.shape → Valid c' a.arr.shape → a.arr.addr c = a.arr.addr c' → c = c')
    (hover : ∀ x ∈ r, ∀ c c', Valid c a.arr.shape → Valid c' a.arr.shape → a.arr.addr c = x.arr.addr (proj x.arr.shape c') → c = c')
    (hf : ∀ (ps : List Ptr) (z : Ptr) (h1 : Heap V) (vs : List V), vs.length = r.length + 1 → (z :: ps).map (fun p => h1.get p.1 p.2) = vs.map some →
      f (z :: ps) h1 = match g vs with | some x => h1.write z.1 z.2 x | none => some h1) :
    ∃ h', inplaceLoop h bc check f a r = some (.ok h') ∧
      Updated h a.arr (fun c => ((a :: r).mapM fun x : Opd => x.arr.read h (proj x.arr.shape c)).bind fun vs => match g vs with | some x => some x | none => a.arr.read h c) h' := by
  have hvis : ∀ c ∈ cs, Valid c a.arr.shape := fun c hc => (mem_multirange _ _).mp (hcs.mem_iff.mp hc)
  have hmem : ∀ c, Valid c a.arr.shape → c ∈ cs := fun c hc => hcs.mem_iff.mpr ((mem_multirange _ _).mpr hc)
  have hex : ∀ c : List Int, ∃ vs : List V, c ∈ cs → ((a :: r).mapM fun x : Opd => x.arr.read h (proj x.arr.shape c)) = some vs ∧
      ∀ h1 : Heap V, (∀ p ∈ (a :: r).map (fun x => x.arr.addr (proj x.arr.shape c)), h1.get p.1 p.2 = h.get p.1 p.2) →
        f (visit none (a :: r) c) h1 = match g vs with | some x => h1.write (a.arr.addr c).1 (a.arr.addr c).2 x | none => some h1 := by
    intro c
    by_cases hc : c ∈ cs
    · obtain ⟨vs, v1, v2, v3⟩ := mapM_read h (a :: r) a.arr.shape c (hvis c hc) hwf hal
      refine ⟨vs, fun _ => ⟨v1, fun h1 hh => ?_⟩⟩
      have hp := proj_self a.arr.shape c (hvis c hc)
      have := hf (r.map fun x => x.arr.addr (proj x.arr.shape c)) (a.arr.addr (proj a.arr.shape c)) h1 vs (by simpa using v2) (by
        rw [← v3]
        rw [← List.map_cons (f := fun x : Opd => x.arr.addr (proj x.arr.shape c))]
        apply List.map_congr_left
        intro p hp
        exact hh p hp)
      rw [hp] at this
      rw [← this, visit]
      simp only [Option.toList_none, List.map_nil, List.nil_append, List.map_cons, hp]
    · exact ⟨[], fun hh => absurd hh hc⟩
  choose vs hvs using hex
  obtain ⟨h', r1, r2, r3, r4⟩ := run_store f (visit none (a :: r)) a.arr.addr (fun c => (a :: r).map fun x => x.arr.addr (proj x.arr.shape c)) (fun c => g (vs c)) cs h
    (fun c hc h1 hh => (hvs c hc).2 h1 hh) (fun c hc => (hwf a (by simp)).alloc c (hvis c hc))
    (List.Nodup.map_on (fun c hc c' hc' he => hself c c' (hvis c hc) (hvis c' hc') he) (hcs.nodup_iff.mpr (nodup_multirange _))) (by
      intro c hc c' hc' hm
      obtain ⟨x, hx, he⟩ := List.mem_map.mp hm
      rcases List.mem_cons.mp hx with rfl | hx
      · rw [proj_self _ _ (hvis c' hc')] at he
        exact hself c c' (hvis c hc) (hvis c' hc') he.symm
      · exact hover x hx c c' (hvis c hc) (hvis c' hc') he.symm)
  refine ⟨h', ?_, r2, fun c hc => ?_, fun p hp => r4 p fun c hc _ => hp c (hvis c hc)⟩
  · simp only [inplaceLoop, hl]
    rw [r1]; rfl
  · have hm := hmem c hc
    dsimp only
    rw [(hvs c hm).1]
    simp only [Option.bind_some]
    cases hg : g (vs c) with
    | some x => exact r3 c hm x hg
    | none =>
      refine r4 (a.arr.addr c) fun c' hc' hne he => ?_
      have := hself c' c (hvis c' hc') hc he
      rw [this] at hne
      exact hne hg

end Codon.Numpy
