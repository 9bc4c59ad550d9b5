import Verif.Numpy.ApplyLemmas
/-!
# Lemmas on the calls of universal functions
-/
namespace Codon.Numpy
variable {V : Type}

/-! ### Shapes -/

theorem dimR_cons_zero (x : Int) (l : List Int) : dimR (x :: l) 0 = x := rfl

theorem dimR_cons_succ (x : Int) (l : List Int) (k : Nat) : dimR (x :: l) (k + 1) = dimR l k := by simp [dimR]

theorem dimR_nil (k : Nat) : dimR [] k = 1 := by simp [dimR]

theorem broadcast2Loop_spec : ∀ (xs ys : List Int),
    (∃ zs, broadcast2Loop xs ys = .ok zs ∧ zs.length = max xs.length ys.length ∧
      ∀ k, (dimR xs k = 1 ∨ dimR xs k = dimR zs k) ∧ (dimR ys k = 1 ∨ dimR ys k = dimR zs k) ∧ (dimR zs k = dimR xs k ∨ dimR zs k = dimR ys k)) ∨
    (broadcast2Loop xs ys = .error .value ∧ ∃ k, dimR xs k ≠ 1 ∧ dimR ys k ≠ 1 ∧ dimR xs k ≠ dimR ys k)
  | [], ys => Or.inl ⟨ys, by simp [broadcast2Loop], by simp, fun k => ⟨Or.inl (dimR_nil k), Or.inr rfl, Or.inr rfl⟩⟩
  | x :: xs, [] => Or.inl ⟨x :: xs, by simp [broadcast2Loop], by simp, fun k => ⟨Or.inr rfl, Or.inl (dimR_nil k), Or.inl rfl⟩⟩
  | x :: xs, y :: ys => by
    rw [broadcast2Loop]
    have key : ∀ z, (x = 1 ∨ x = z) → (y = 1 ∨ y = z) → (z = x ∨ z = y) →
        (∃ zs, (broadcast2Loop xs ys).map (z :: ·) = .ok zs ∧ zs.length = max (x :: xs).length (y :: ys).length ∧
          ∀ k, (dimR (x :: xs) k = 1 ∨ dimR (x :: xs) k = dimR zs k) ∧ (dimR (y :: ys) k = 1 ∨ dimR (y :: ys) k = dimR zs k) ∧ (dimR zs k = dimR (x :: xs) k ∨ dimR zs k = dimR (y :: ys) k)) ∨
        ((broadcast2Loop xs ys).map (z :: ·) = .error .value ∧ ∃ k, dimR (x :: xs) k ≠ 1 ∧ dimR (y :: ys) k ≠ 1 ∧ dimR (x :: xs) k ≠ dimR (y :: ys) k) := by
      intro z h1 h2 h3
      rcases broadcast2Loop_spec xs ys with ⟨zs, e1, e2, e3⟩ | ⟨e1, k, e2⟩
      · refine Or.inl ⟨z :: zs, by rw [e1]; rfl, by simp [e2], fun k => ?_⟩
        cases k with
        | zero => exact ⟨h1, h2, h3⟩
        | succ k => simp only [dimR_cons_succ]; exact e3 k
      · exact Or.inr ⟨by rw [e1]; rfl, k + 1, by simpa only [dimR_cons_succ] using e2⟩
    split
    · next h => exact key y (Or.inl h) (Or.inr rfl) (Or.inr rfl)
    · next h =>
      split
      · next h' => exact Or.inr ⟨rfl, 0, h, h'.1, h'.2⟩
      · next h' => exact key x (Or.inr rfl) (by by_contra hh; exact h' ⟨fun e => hh (Or.inl e), fun e => hh (Or.inr e.symm)⟩) (Or.inl rfl)

theorem broadcast2_spec (s1 s2 : List Int) :
    (∃ s, broadcast2 s1 s2 = .ok s ∧ Broadcasts [s1, s2] s) ∨ (broadcast2 s1 s2 = .error .value ∧ ∀ s, ¬ Broadcasts [s1, s2] s) := by
  rcases broadcast2Loop_spec s1.reverse s2.reverse with ⟨zs, e1, e2, e3⟩ | ⟨e1, k, e2, e3, e4⟩
  · have hd : ∀ k, dimAt zs.reverse k = dimR zs k := fun k => by rw [dimAt, dimR, List.reverse_reverse]
    have hd1 : ∀ k, dimAt s1 k = dimR s1.reverse k := fun k => rfl
    have hd2 : ∀ k, dimAt s2 k = dimR s2.reverse k := fun k => rfl
    rw [List.length_reverse, List.length_reverse] at e2
    refine Or.inl ⟨zs.reverse, by rw [broadcast2, e1]; rfl, ?_, ?_, fun k _ => ?_⟩
    · simp [e2]
    · simp only [List.mem_cons, List.not_mem_nil, or_false, exists_eq_or_imp, exists_eq_left, List.length_reverse, e2]; omega
    · rw [hd]
      have h := e3 k
      simp only [List.mem_cons, List.not_mem_nil, or_false, exists_eq_or_imp, exists_eq_left, forall_eq_or_imp, forall_eq, hd1, hd2]
      exact ⟨⟨h.1, h.2.1⟩, h.2.2.imp Eq.symm Eq.symm⟩
  · refine Or.inr ⟨by rw [broadcast2, e1]; rfl, fun s hs => e4 ?_⟩
    have key : ∀ sh ∈ [s1, s2], dimAt sh k ≠ 1 → dimAt sh k = dimAt s k := by
      intro sh hsh h1
      have hk : k < s.length := by
        by_contra hh
        exact h1 (dimAt_ge sh k (by have := hs.1 sh hsh; omega))
      exact ((hs.2.2 k hk).1 sh hsh).resolve_left h1
    exact (key s1 (by simp) e2).trans (key s2 (by simp) e3).symm

theorem mergeDims_uncheck : ∀ (ys xs zs : List Int), mergeDims true ys xs = .ok zs → mergeDims false ys xs = .ok zs
  | _, [], _, h => by simpa [mergeDims] using h
  | [], _ :: _, _, h => by simp [mergeDims] at h
  | y :: ys, x :: xs, zs, h => by
    rw [mergeDims] at h ⊢
    have key : ∀ z, (mergeDims true ys xs).map (z :: ·) = .ok zs → (mergeDims false ys xs).map (z :: ·) = .ok zs := by
      intro z hz
      cases hm : mergeDims true ys xs with
      | error e => rw [hm] at hz; cases hz
      | ok l => rw [hm] at hz; rw [mergeDims_uncheck ys xs l hm]; exact hz
    split at h
    · next h1 => rw [if_pos h1]; exact key _ h
    · next h1 =>
      split at h
      · cases h
      · rw [if_neg h1, if_neg (by simp)]; exact key _ h

theorem mergeAll_uncheck : ∀ (args : List (List Int)) (ans zs : List Int), mergeAll true args ans = .ok zs → mergeAll false args ans = .ok zs
  | [], _, _, h => by simpa [mergeAll] using h
  | a :: r, ans, zs, h => by
    rw [mergeAll] at h ⊢
    cases hm : mergeDims true ans a.reverse with
    | error e => rw [hm] at h; cases h
    | ok l => rw [hm] at h; rw [mergeDims_uncheck _ _ _ hm]; exact mergeAll_uncheck r l zs h

theorem broadcastShapes_uncheck (args : List (List Int)) (s : List Int) (h : broadcastShapes args true = .ok s) : broadcastShapes args false = .ok s := by
  unfold broadcastShapes at h ⊢
  cases hm : mergeAll true args (largest args).reverse with
  | error e => rw [hm] at h; cases h
  | ok l => rw [hm] at h; rw [mergeAll_uncheck _ _ _ hm]; exact h

theorem substrides_aligned : ∀ (bs as ss st : List Int), as.length = ss.length → substrides true bs as ss = .ok st → ∀ p ∈ as.zip bs, p.1 = 1 ∨ p.1 = p.2
  | [], _, _, _, _, _ => by simp
  | _ :: _, [], _, _, _, _ => by simp
  | _ :: _, _ :: _, [], _, h, _ => by simp at h
  | b :: bs, a :: as, s :: ss, st, hl, h => by
    rw [substrides] at h
    have key : ∀ z, (substrides true bs as ss).map (z :: ·) = .ok st → ∀ p ∈ as.zip bs, p.1 = 1 ∨ p.1 = p.2 := by
      intro z hz
      cases hm : substrides true bs as ss with
      | error e => rw [hm] at hz; cases hz
      | ok l => exact substrides_aligned bs as ss l (by simpa using hl) hm
    intro p hp
    rw [List.zip_cons_cons, List.mem_cons] at hp
    split at h
    · next h1 =>
      rcases hp with rfl | hp
      · exact Or.inr h1
      · exact key _ h p hp
    · split at h
      · cases h
      · next h2 =>
        rcases hp with rfl | hp
        · left; by_contra hh; exact h2 ⟨rfl, hh⟩
        · exact key _ h p hp

theorem broadcastStrides_aligned (a : Arr) (s st : List Int) (hlen : a.shape.length = a.strides.length) (h : broadcastStrides true a s = .ok st) : Aligned a.shape s := by
  unfold broadcastStrides at h
  split at h
  · cases h
  · next hl =>
    refine ⟨by omega, ?_⟩
    cases hm : substrides true (s.drop (s.length - a.shape.length)) a.shape a.strides with
    | error e => rw [hm] at h; cases h
    | ok l => exact substrides_aligned _ _ _ l hlen hm

theorem aligned_refl (s : List Int) : Aligned s s := by
  refine ⟨le_refl _, fun p hp => Or.inr ?_⟩
  rw [Nat.sub_self, List.drop_zero] at hp
  obtain ⟨i, hi, rfl⟩ := List.getElem_of_mem hp
  simp

/-- Aligned shapes in the words of the specification. -/
theorem aligned_fits (sh s : List Int) (h : Aligned sh s) : Broadcasts [sh, s] s := by
  refine ⟨by simpa using h.1, ⟨s, by simp, rfl⟩, fun k hk => ⟨?_, s, by simp, rfl⟩⟩
  have key : dimAt sh k = 1 ∨ dimAt sh k = dimAt s k := by
    by_cases hs : sh.length ≤ k
    · exact Or.inl (dimAt_ge _ _ hs)
    · have h1 := h.1
      have hi : sh.length - 1 - k < (sh.zip (s.drop (s.length - sh.length))).length := by rw [List.length_zip, List.length_drop]; omega
      have := h.2 _ (List.getElem_mem hi)
      simp only [List.getElem_zip, List.getElem_drop] at this
      have e1 : dimAt sh k = sh[sh.length - 1 - k]'(by omega) := by
        rw [dimAt, List.getElem?_reverse (by omega), List.getElem?_eq_getElem (by omega), Option.getD_some]
      have e2 : dimAt s k = s[s.length - 1 - k]'(by omega) := by
        rw [dimAt, List.getElem?_reverse (by omega), List.getElem?_eq_getElem (by omega), Option.getD_some]
      rw [e1, e2]
      have e3 : s.length - sh.length + (sh.length - 1 - k) = s.length - 1 - k := by omega
      simpa only [e3] using this
  intro a ha
  rcases List.mem_cons.mp ha with rfl | ha
  · exact key
  · right; rw [List.mem_singleton.mp ha]

/-! ### The loops -/

theorem loop_all_uncheck (a : Opd) (r : List Opd) (next : Nat) (s : List Int)
    (hlen : ∀ x ∈ a :: r, x.arr.shape.length = x.arr.strides.length) (hnn : ∀ x ∈ a :: r, ∀ n ∈ x.arr.shape, 0 ≤ n) (hb : Broadcasts ((a :: r).map (·.arr.shape)) s) :
    ∃ cs res, loop a r .all false none next = .ok (cs.map (visit res (a :: r)), res) ∧ cs.Perm (multirange s) ∧ Fresh s cs next none res := by
  refine loop_spec a r .all false none next s (fun w hw => by cases hw) hlen (broadcasts_nonneg _ _ hb fun sh hsh => ?_) (fun hc => ?_) (fun _ => ?_) ?_
  · obtain ⟨x, hx, rfl⟩ := List.mem_map.mp hsh
    exact hnn x hx
  · refine broadcasts_unique _ _ _ hb (broadcasts_same _ _ (by simp) fun sh hsh => ?_)
    obtain ⟨x, hx, rfl⟩ := List.mem_map.mp hsh
    exact (allContig_spec a r hc).1 x hx
  · rcases broadcastShapes_spec ((a :: r).map (·.arr.shape)) (by simp) with ⟨s', e1, e2⟩ | ⟨_, e2⟩
    · rw [broadcasts_unique _ _ _ e2 hb] at e1
      exact broadcastArgs_all false a r s hlen hb (broadcastShapes_uncheck _ _ e1)
    · exact absurd hb (e2 s)
  · obtain ⟨h1, h2⟩ := maxDim_mem a r
    obtain ⟨sh, hsh, e⟩ := hb.2.1
    obtain ⟨x, hx, rfl⟩ := List.mem_map.mp hsh
    have g1 := h2 x hx
    have g2 := hb.1 _ (List.mem_map_of_mem (f := fun y : Opd => y.arr.shape) h1)
    omega

theorem mapM_strides (check : Bool) (s : List Int) : ∀ r : List Opd, (∀ x ∈ r, x.arr.shape.length = x.arr.strides.length) → (∀ x ∈ r, Aligned x.arr.shape s) →
    ∃ sts, r.mapM (fun x => broadcastStrides check x.arr s) = .ok sts ∧
      List.Forall₂ (fun (x : Opd) st => st.length = s.length ∧ ∀ c, Valid c s → ptrOff c st = ptrOff (proj x.arr.shape c) x.arr.strides) r sts
  | [], _, _ => ⟨[], rfl, .nil⟩
  | x :: r, hl, ha => by
    obtain ⟨sts, e1, e2⟩ := mapM_strides check s r (fun y hy => hl y (by simp [hy])) fun y hy => ha y (by simp [hy])
    obtain ⟨st, f1, f2⟩ := broadcastStrides_ok check x.arr s (hl x (by simp)) (ha x (by simp))
    refine ⟨st :: sts, ?_, .cons f2 e2⟩
    rw [List.mapM_cons, f1, e1]; rfl

/-- `_loop` with the shape of the first array. -/
theorem loop_first (a : Opd) (r : List Opd) (check : Bool) (next : Nat)
    (hlen : ∀ x ∈ a :: r, x.arr.shape.length = x.arr.strides.length) (hnn : ∀ n ∈ a.arr.shape, 0 ≤ n) (hal : ∀ x ∈ r, Aligned x.arr.shape a.arr.shape) :
    ∃ cs : List (List Int), loop a r .first check none next = .ok (cs.map (visit none (a :: r)), none) ∧ cs.Perm (multirange a.arr.shape) := by
  obtain ⟨cs, res, e1, e2, e3⟩ := loop_spec a r .first check none next a.arr.shape (fun w hw => by cases hw) hlen hnn (fun _ => rfl) (fun _ => by
    obtain ⟨sts, f1, f2⟩ := mapM_strides check a.arr.shape r (fun x hx => hlen x (by simp [hx])) hal
    refine ⟨a.arr.strides :: sts, by rw [broadcastArgs, f1]; rfl, .cons ⟨(hlen a (by simp)).symm, fun c hc => by rw [proj_self _ _ hc]⟩ f2⟩) (by
    obtain ⟨h1, h2⟩ := maxDim_mem a r
    have g1 := h2 a (by simp)
    rcases List.mem_cons.mp h1 with h | h
    · rw [h]
    · have := (hal _ h).1
      omega)
  have : res = none := e3
  subst this
  exact ⟨cs, e1, e2⟩

theorem loop_first_error (a : Opd) (r : List Opd) (next : Nat) (x : Opd) (hx : x ∈ r) (hlen : x.arr.shape.length = x.arr.strides.length)
    (hal : ¬ Aligned x.arr.shape a.arr.shape) : ∃ e, loop a r .first true none next = .error e := by
  have hc : (allContiguous a r).1 = false := by
    by_contra hc
    have hc' : (allContiguous a r).1 = true := by simpa using hc
    exact hal (by rw [(allContig_spec a r hc').1 x (by simp [hx])]; exact aligned_refl _)
  have hm : ∃ e, r.mapM (fun x => broadcastStrides true x.arr a.arr.shape) = .error e := by
    clear hc
    induction r with
    | nil => simp at hx
    | cons y r ih =>
      rw [List.mapM_cons]
      cases hy : broadcastStrides true y.arr a.arr.shape with
      | error e => exact ⟨e, rfl⟩
      | ok st =>
        rcases List.mem_cons.mp hx with rfl | hx
        · exact absurd (broadcastStrides_aligned _ _ _ hlen hy) hal
        · obtain ⟨e, he⟩ := ih hx
          exact ⟨e, by rw [he]; rfl⟩
  obtain ⟨e, he⟩ := hm
  refine ⟨e, ?_⟩
  simp only [loop, hc, Bool.false_eq_true, if_false, broadcastArgs, he]
  rfl

/-! ### New arrays -/

/-- The strides put the elements of an array of shape `s` one behind the other, in some order. -/
structure Packed (s : List Int) (w : Int) (st : List Int) : Prop where
  len : st.length = s.length
  pos : ∀ c, Valid c s → ∃ i, 0 ≤ i ∧ i < count s ∧ ptrOff c st = i * w
  inj : ∀ c c', Valid c s → Valid c' s → ptrOff c st = ptrOff c' st → c = c'

theorem packed_stridesOf (s : List Int) (f : Bool) (w : Int) (hw : 0 < w) (hn : ∀ n ∈ s, 0 ≤ n) : Packed s w (stridesOf s f w) := by
  refine ⟨stridesOf_length _ _ _, fun c hc => fresh_pos s f w hn c hc, fun c c' hc hc' he => ?_⟩
  have hnd : ((multirange s).map fun c => ptrOff c (stridesOf s f w)).Nodup := (fresh_perm s f w hn).nodup_iff.mpr (nodup_upto_mul _ w hw)
  exact List.inj_on_of_nodup_map hnd ((mem_multirange _ _).mpr hc) ((mem_multirange _ _).mpr hc') he

theorem packed_perm (ax : List Nat) (s st : List Int) (w : Int) (hp : IsPerm ax s.length) (hl : st.length = s.length)
    (h : Packed (ax.map fun j => s.getD j 0) w (ax.map fun j => st.getD j 0)) : Packed s w st := by
  have hoff : ∀ c, Valid c s → ptrOff (ax.map fun j => c.getD j 0) (ax.map fun j => st.getD j 0) = ptrOff c st := fun c hc =>
    ptrOff_perm ax c st (by rw [Valid.length hc]; exact hp) (by rw [Valid.length hc, hl])
  refine ⟨hl, fun c hc => ?_, fun c c' hc hc' he => ?_⟩
  · obtain ⟨i, h1, h2, h3⟩ := h.pos _ (valid_perm ax c s hp hc)
    exact ⟨i, h1, by rw [count_isPerm ax s hp] at h2; exact h2, by rw [← hoff c hc]; exact h3⟩
  · exact perm_left ax c s.length hp (Valid.length hc) c' (Valid.length hc')
      (h.inj _ _ (valid_perm ax c s hp hc) (valid_perm ax c' s hp hc') (by rw [hoff c hc, hoff c' hc', he]))

theorem kStrides_spec (shape : List Int) : ∀ (ps : List Nat) (s : Int) (st : List Int), ps.Nodup → (∀ p ∈ ps, p < st.length) →
    (kStrides shape ps s st).length = st.length ∧ (∀ p, p ∉ ps → (kStrides shape ps s st).getD p 0 = st.getD p 0) ∧
      (ps.map fun p => (kStrides shape ps s st).getD p 0) = stridesLoop (ps.map fun p => shape.getD p 0) s
  | [], _, _, _, _ => ⟨rfl, fun _ _ => rfl, rfl⟩
  | p :: ps, s, st, hnd, hlt => by
    rw [List.nodup_cons] at hnd
    obtain ⟨h1, h2, h3⟩ := kStrides_spec shape ps (s * shape.getD p 0) (st.set p s) hnd.2 fun q hq => by rw [List.length_set]; exact hlt q (by simp [hq])
    rw [kStrides]
    refine ⟨by rw [h1, List.length_set], fun q hq => ?_, ?_⟩
    · rw [h2 q fun hh => hq (by simp [hh])]
      have : p ≠ q := fun hh => hq (by simp [hh])
      simp only [List.getD_eq_getElem?_getD, List.getElem?_set_ne this]
    · rw [List.map_cons, List.map_cons, stridesLoop, h3, h2 p hnd.1]
      have := hlt p (by simp)
      simp only [List.getD_eq_getElem?_getD, List.getElem?_set_self this, Option.getD_some]

theorem order_isPerm (strides : List Int) : IsPerm ((sortByStride ((upto strides.length).zip strides)).map (·.1.toNat)) strides.length := by
  have h := ((sortByStride_perm ((upto strides.length).zip strides)).map fun p => p.1.toNat)
  have e : ((upto strides.length).zip strides).map (fun p => p.1.toNat) = List.range strides.length := by
    have : ((upto strides.length).zip strides).map (fun p => p.1.toNat) = (((upto strides.length).zip strides).map Prod.fst).map Int.toNat := by rw [List.map_map]; rfl
    rw [this, List.map_fst_zip (by simp [length_upto]), upto, List.map_map]
    simp [Function.comp_def]
  rw [e] at h
  exact h

theorem packed_like (a : Arr) (w w' : Int) (hw : 0 < w') (hl : a.shape.length = a.strides.length) (hn : ∀ n ∈ a.shape, 0 ≤ n) : Packed a.shape w' (likeStrides a w w') := by
  unfold likeStrides
  split
  · exact packed_stridesOf _ _ _ hw hn
  · split
    · exact packed_stridesOf _ _ _ hw hn
    · have hp : IsPerm ((sortByStride ((upto a.shape.length).zip a.strides)).map (·.1.toNat)).reverse a.shape.length := by
        have := order_isPerm a.strides
        rw [← hl] at this
        exact (List.reverse_perm _).trans this
      generalize hax : ((sortByStride ((upto a.shape.length).zip a.strides)).map (·.1.toNat)).reverse = ax at hp
      obtain ⟨h1, _, h3⟩ := kStrides_spec a.shape ax w' (List.replicate a.strides.length 0) (hp.nodup_iff.mpr List.nodup_range) fun p hh => by
        rw [List.length_replicate, ← hl]; exact List.mem_range.mp (hp.mem_iff.mp hh)
      refine packed_perm ax a.shape _ w' hp (by rw [h1, List.length_replicate, hl]) ?_
      rw [h3]
      have := packed_stridesOf (ax.map fun j => a.shape.getD j 0) true w' hw (by
        intro n hh
        obtain ⟨j, hj, rfl⟩ := List.mem_map.mp hh
        have hj' := List.mem_range.mp (hp.mem_iff.mp hj)
        rw [List.getD_eq_getElem?_getD, List.getElem?_eq_getElem hj', Option.getD_some]
        exact hn _ (List.getElem_mem hj'))
      simpa [stridesOf] using this

section
variable (h : Heap V) (s st : List Int) (w : Int) (junk : Int → V)

theorem new_wf (hw : 0 < w) (hn : ∀ n ∈ s, 0 ≤ n) (hp : Packed s w st) : Arr.WF ⟨s, st, h.next, 0⟩ (h.new w (count s) junk) := by
  refine ⟨hp.len.symm, hn, fun c hc => ?_, by simp [Heap.new]⟩
  obtain ⟨i, i1, i2, i3⟩ := hp.pos c hc
  obtain ⟨u, hu⟩ := new_get h w (count s) junk hw i i1 i2
  exact ⟨u, by simp only [Arr.read]; rw [i3, Int.zero_add]; exact hu⟩

theorem new_inj (hp : Packed s w st) : ∀ c c', Valid c s → Valid c' s → Arr.addr ⟨s, st, h.next, 0⟩ c = Arr.addr ⟨s, st, h.next, 0⟩ c' → c = c' := by
  intro c c' hc hc' he
  simp only [Arr.addr, Prod.mk.injEq, true_and] at he
  exact hp.inj c c' hc hc' (by omega)

theorem new_read (x : Arr) (hx : x.WF h) (n : Int) (c : List Int) : x.read (h.new w n junk) c = x.read h c := by
  simp only [Arr.read]
  rw [new_other _ _ _ _ _ (by have := hx.block; omega)]

theorem wf_new (x : Arr) (hx : x.WF h) (n : Int) : x.WF (h.new w n junk) :=
  ⟨hx.len, hx.nonneg, fun c hc => by rw [new_read h w junk x hx]; exact hx.alloc c hc, by have := hx.block; simp only [Heap.new]; omega⟩

theorem new_apart (x : Arr) (hx : x.WF h) (c c' : List Int) : Arr.addr ⟨s, st, h.next, 0⟩ c ≠ x.addr c' := by
  intro he
  have := congrArg Prod.fst he
  simp only [Arr.addr] at this
  have := hx.block
  omega

theorem updated_new (hn : ∀ n ∈ s, 0 ≤ n) (hp : Packed s w st) (elem : List Int → Option V) (h' : Heap V)
    (hu : Updated (h.new w (count s) junk) ⟨s, st, h.next, 0⟩ elem h') (hs : ∀ c, Valid c s → ∃ v, elem c = some v) :
    NewArray h s elem h' ⟨s, st, h.next, 0⟩ := by
  obtain ⟨u1, u2, u3⟩ := hu
  refine ⟨rfl, ⟨hp.len.symm, hn, fun c hc => ?_, by rw [u1]; simp [Heap.new]⟩, rfl, fun b hb => ?_, new_inj h s st w hp, u2⟩
  · rw [u2 c hc]; exact hs c hc
  · funext o
    rw [u3 (b, o) fun c _ he => by
      have := congrArg Prod.fst he
      simp only [Arr.addr] at this
      omega]
    rw [new_other _ _ _ _ _ (by omega)]

end

end Codon.Numpy
