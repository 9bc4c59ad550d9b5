import Verif.Numpy.LoopSpec
import Verif.Numpy.PermLemmas
import Verif.Numpy.CopyLemmas
/-!
# Lemmas on `_loop`: which elements are visited together
-/
namespace Codon.Numpy
variable {V : Type}

theorem Ptr.add_zero (p : Ptr) : p.add 0 = p := by simp [Ptr.add]

theorem oneDim_eq (n : Int) (ws ss : List Int) (ptrs : List Ptr) : oneDim n ws ss ptrs = (upto n).map fun i => List.zipWith (fun p s => Ptr.add p (i * s)) ptrs ss := by
  unfold oneDim
  split
  · split
    · next h => rw [h.1, h.2]; rfl
    · split
      · next h => rw [h.1, h.2]; simp [Ptr.add_zero]
      · rfl
  · split
    · next h => rw [h.1, h.2.1, h.2.2]; rfl
    · split
      · next h => rw [h.1, h.2.1, h.2.2]; simp [Ptr.add_zero]
      · split
        · next h => rw [h.1, h.2.1, h.2.2]; simp [Ptr.add_zero]
        · rfl
  · rfl

theorem zipWith_add_zero : ∀ (ptrs : List Ptr) (ss : List Int), ptrs.length = ss.length → List.zipWith (fun p s => Ptr.add p (0 * s)) ptrs ss = ptrs
  | [], [], _ => rfl
  | p :: ptrs, s :: ss, h => by
    rw [List.zipWith_cons_cons, zipWith_add_zero ptrs ss (by simpa using h)]; simp [Ptr.add]

theorem zipWith_add_succ (k : Int) : ∀ (ptrs : List Ptr) (ss : List Int),
    List.zipWith (fun p s => Ptr.add p (k * s)) (List.zipWith Ptr.add ptrs ss) ss = List.zipWith (fun p s => Ptr.add p ((k + 1) * s)) ptrs ss
  | [], _ => by simp
  | _ :: _, [] => by simp
  | p :: ptrs, s :: ss => by
    simp only [List.zipWith_cons_cons]
    rw [zipWith_add_succ k ptrs ss]
    congr 1
    simp only [Ptr.add, Prod.mk.injEq, true_and]; ring

theorem rounds_eq (f : List Ptr → List (List Ptr)) (ss : List Int) : ∀ (n : Nat) (ptrs : List Ptr), ptrs.length = ss.length →
    rounds f ss n ptrs = (List.range n).flatMap fun k : Nat => f (List.zipWith (fun p s => Ptr.add p ((k : Int) * s)) ptrs ss)
  | 0, _, _ => rfl
  | n + 1, ptrs, h => by
    rw [rounds, rounds_eq f ss n _ (by simp [h]), List.range_succ_eq_map, List.flatMap_cons, List.flatMap_map]
    congr 1
    · rw [show ((0 : Nat) : Int) = 0 from rfl, zipWith_add_zero ptrs ss h]
    · congr 1; funext k
      rw [zipWith_add_succ]; simp

theorem zipWith_off (i : Int) (c : List Int) : ∀ (ptrs : List Ptr) (strides : List (List Int)), (∀ st ∈ strides, st ≠ []) →
    List.zipWith (fun p st => Ptr.add p (ptrOff c st)) (List.zipWith (fun p s => Ptr.add p (i * s)) ptrs (strides.map (·.headD 0))) (strides.map List.tail) =
      List.zipWith (fun p st => Ptr.add p (ptrOff (i :: c) st)) ptrs strides
  | [], _, _ => by simp
  | _ :: _, [], _ => by simp
  | p :: ptrs, st :: strides, h => by
    simp only [List.map_cons, List.zipWith_cons_cons]
    rw [zipWith_off i c ptrs strides fun s hs => h s (by simp [hs])]
    cases st with
    | nil => exact absurd rfl (h [] (by simp))
    | cons s st =>
      congr 1
      simp only [Ptr.add, ptrOff, List.headD_cons, List.tail_cons, Prod.mk.injEq, true_and]; ring

/-- The loop visits all coordinates in row-major order. -/
theorem loopPtrs_eq (ws : List Int) : ∀ (sh : List Int) (strides : List (List Int)) (ptrs : List Ptr), (∀ st ∈ strides, st.length = sh.length) → ptrs.length = strides.length →
    loopPtrs ws sh strides ptrs = (multirange sh).map fun c => List.zipWith (fun p st => Ptr.add p (ptrOff c st)) ptrs strides
  | [], strides, ptrs, hs, hp => by
    simp only [loopPtrs, multirange, List.map_cons, List.map_nil, ptrOff]
    congr 1
    have := zipWith_add_zero ptrs (strides.map fun _ => 0) (by simpa using hp)
    simp only [List.zipWith_map_right] at this
    simpa [Ptr.add] using this.symm
  | [n], strides, ptrs, hs, hp => by
    simp only [loopPtrs, oneDim_eq, multirange, List.map_cons, List.map_nil, List.map_flatMap]
    rw [← List.map_eq_flatMap]
    apply List.map_congr_left
    intro i _
    rw [← zipWith_off i [] ptrs strides fun st hst hh => by have := hs st hst; simp [hh] at this]
    have := zipWith_add_zero (List.zipWith (fun p s => Ptr.add p (i * s)) ptrs (strides.map (·.headD 0))) (strides.map fun _ => 0) (by simp [hp])
    simp only [List.zipWith_map_right] at this
    simp only [List.zipWith_map_right, ptrOff]
    simpa [Ptr.add] using this.symm
  | n :: m :: sh, strides, ptrs, hs, hp => by
    rw [loopPtrs, rounds_eq _ _ _ _ (by simpa using hp)]
    rw [multirange, List.map_flatMap, upto, List.flatMap_map]
    congr 1; funext k
    rw [loopPtrs_eq ws (m :: sh) _ _ (by
      intro st hst
      obtain ⟨st', h1, rfl⟩ := List.mem_map.mp hst
      have := hs st' h1
      simp at this ⊢; omega) (by simp [hp]), List.map_map]
    apply List.map_congr_left
    intro c _
    simp only [Function.comp]
    exact zipWith_off k c ptrs strides fun st hst hh => by have := hs st hst; simp [hh] at this

/-! ### Permuting the dimensions -/

theorem cLess_irrefl_list : ∀ c : List Int, ¬ cLess c c
  | [] => fun h => h
  | x :: c => fun h => by
    rcases h with h | h
    · omega
    · exact cLess_irrefl_list c h.2

theorem nodup_multirange (sh : List Int) : (multirange sh).Nodup :=
  (pairwise_multirange sh).imp fun {a b} h (he : a = b) => cLess_irrefl_list a (by rw [← he] at h; exact h)

theorem nodup_fnest (sh : List Int) : (fnest sh).Nodup :=
  ((inOrder_fnest sh).1).imp fun {a b} h (he : a = b) => cLess_irrefl_list a.reverse (by rw [← he] at h; exact h)

theorem fnest_perm (sh : List Int) : (fnest sh).Perm (multirange sh) :=
  (List.perm_ext_iff_of_nodup (nodup_fnest sh) (nodup_multirange sh)).mpr fun c => by rw [(inOrder_fnest sh).2, mem_multirange]

theorem perm_left (ax : List Nat) (c : List Int) (n : Nat) (h : IsPerm ax n) (hc : c.length = n) (c' : List Int) (hc' : c'.length = n)
    (he : (ax.map fun j => c.getD j 0) = ax.map fun j => c'.getD j 0) : c = c' := by
  apply List.ext_getElem (by omega)
  intro k h1 h2
  have hm : k ∈ ax := h.mem_iff.mpr (List.mem_range.mpr (by omega))
  have := List.map_inj_left.mp he k hm
  simpa [List.getD_eq_getElem?_getD, List.getElem?_eq_getElem h1, List.getElem?_eq_getElem h2] using this

theorem perm_visits (ax : List Nat) (sh : List Int) (h : IsPerm ax sh.length) :
    ∃ cs : List (List Int), cs.Perm (multirange sh) ∧ multirange (ax.map fun j => sh.getD j 0) = cs.map fun c => ax.map fun j => c.getD j 0 := by
  have hlen : ax.length = sh.length := by have := h.length_eq; simpa using this
  have hex : ∀ d : List Int, ∃ c : List Int, d ∈ multirange (ax.map fun j => sh.getD j 0) → c.length = sh.length ∧ (ax.map fun j => c.getD j 0) = d := by
    intro d
    by_cases hd : d ∈ multirange (ax.map fun j => sh.getD j 0)
    · obtain ⟨c, h1, h2⟩ := perm_inverse ax d sh.length h (by rw [Valid.length ((mem_multirange _ _).mp hd)]; simp [hlen])
      exact ⟨c, fun _ => ⟨h1, h2⟩⟩
    · exact ⟨[], fun hh => absurd hh hd⟩
  choose inv hinv using hex
  have hmap : multirange (ax.map fun j => sh.getD j 0) = ((multirange (ax.map fun j => sh.getD j 0)).map inv).map fun c => ax.map fun j => c.getD j 0 := by
    rw [List.map_map]
    conv_lhs => rw [← List.map_id (multirange (ax.map fun j => sh.getD j 0))]
    apply List.map_congr_left
    intro d hd
    exact ((hinv d hd).2).symm
  refine ⟨_, ?_, hmap⟩
  refine (List.perm_ext_iff_of_nodup ?_ (nodup_multirange sh)).mpr fun c => ?_
  · refine List.Nodup.map_on ?_ (nodup_multirange _)
    intro x hx y hy he
    rw [← (hinv x hx).2, ← (hinv y hy).2, he]
  · rw [mem_multirange]
    constructor
    · intro hc
      obtain ⟨d, hd, rfl⟩ := List.mem_map.mp hc
      obtain ⟨h1, h2⟩ := hinv d hd
      refine valid_perm_inv ax _ sh h h1 ?_
      rw [h2]; exact (mem_multirange _ _).mp hd
    · intro hc
      have hd := (mem_multirange _ _).mpr (valid_perm ax c sh h hc)
      refine List.mem_map.mpr ⟨_, hd, ?_⟩
      obtain ⟨h1, h2⟩ := hinv _ hd
      exact perm_left ax _ _ h h1 c (Valid.length hc) h2

theorem reorder_isPerm (strides : List Int) : IsPerm (reorderLoops strides) strides.length := by
  unfold reorderLoops
  split
  · exact List.Perm.refl _
  · exact List.Perm.refl _
  · split
    · exact List.Perm.swap 0 1 []
    · exact List.Perm.refl _
  · have hl : (upto strides.length).length = strides.length := by rw [length_upto]; simp
    have h1 := ((sortByStride_perm ((upto strides.length).zip strides)).map (·.1.toNat))
    refine h1.trans ?_
    have : ((upto strides.length).zip strides).map (fun p => p.1.toNat) = List.range strides.length := by
      rw [show (fun p : Int × Int => p.1.toNat) = Int.toNat ∘ Prod.fst from rfl, ← List.map_map, List.map_fst_zip (by omega), upto, List.map_map, Int.toNat_natCast]
      exact (List.map_congr_left fun _ _ => rfl).trans (List.map_id _)
    rw [this]

theorem tuplePerm_eq (t : List Int) (ax : List Nat) (h : IsPerm ax t.length) : tuplePerm t ax = ax.map fun j => t.getD j 0 := by
  unfold tuplePerm
  split
  · next hl =>
    match t, hl with
    | [], _ =>
      have : ax = [] := by simpa [IsPerm] using h
      rw [this]; rfl
    | [x], _ =>
      have : ax = [0] := by simpa [IsPerm, List.range_succ] using h
      rw [this]; rfl
  · rfl

theorem inv_fold (ax : List Nat) (hnd : ax.Nodup) (hlt : ∀ k ∈ ax, k < ax.length) : ∀ m ≤ ax.length,
    ((List.range m).foldl (fun q i => q.set (ax.getD i 0) i) (List.replicate ax.length 0)).length = ax.length ∧
      ∀ i, (hi : i < m) → (hl : i < ax.length) → ((List.range m).foldl (fun q i => q.set (ax.getD i 0) i) (List.replicate ax.length 0))[ax[i]]? = some i
  | 0, _ => ⟨by simp, fun i hi => absurd hi (by omega)⟩
  | m + 1, hm => by
    obtain ⟨h1, h2⟩ := inv_fold ax hnd hlt m (by omega)
    have hmm : m < ax.length := by omega
    have hax : ax.getD m 0 = ax[m] := by rw [List.getD_eq_getElem?_getD, List.getElem?_eq_getElem hmm, Option.getD_some]
    rw [List.range_succ, List.foldl_append, List.foldl_cons, List.foldl_nil, hax]
    refine ⟨by rw [List.length_set]; exact h1, fun i hi hl => ?_⟩
    rw [List.getElem?_set]
    by_cases he : ax[m] = ax[i]
    · have : m = i := (hnd.getElem_inj_iff).mp he
      subst this
      rw [if_pos rfl, if_pos (by rw [h1]; exact hlt _ (List.getElem_mem hmm))]
    · rw [if_neg he]
      exact h2 i (by
        have : i ≠ m := fun hh => he (by subst hh; rfl)
        omega) hl

theorem permInv_spec (ax : List Nat) (n : Nat) (h : IsPerm ax n) : IsPerm (tuplePermInv ax) n ∧ ∀ st : List Int, st.length = n →
    (ax.map fun j => ((tuplePermInv ax).map fun k => st.getD k 0).getD j 0) = st := by
  have hlen : ax.length = n := by have := h.length_eq; simpa using this
  have hnd : ax.Nodup := h.nodup_iff.mpr List.nodup_range
  have hlt : ∀ k ∈ ax, k < ax.length := fun k hk => by rw [hlen]; exact List.mem_range.mp (h.mem_iff.mp hk)
  obtain ⟨h1, h2⟩ := inv_fold ax hnd hlt ax.length le_rfl
  have h3 : ∀ i, (hl : i < ax.length) → (tuplePermInv ax)[ax[i]]? = some i := fun i hl => h2 i hl hl
  constructor
  · have hsub : (List.range n).Subperm (tuplePermInv ax) := by
      refine List.subperm_of_subset List.nodup_range fun i hi => ?_
      have hi' := List.mem_range.mp hi
      exact List.mem_of_getElem? (h3 i (by omega))
    exact (hsub.perm_of_length_le (by rw [show (tuplePermInv ax).length = ax.length from h1]; simp [hlen])).symm
  · intro st hst
    apply List.ext_getElem (by simp [hlen, hst])
    intro k hk1 hk2
    have hk : k < ax.length := by simpa using hk1
    rw [List.getElem_map, List.getD_eq_getElem?_getD, List.getElem?_map, h3 k hk]
    simp [List.getD_eq_getElem?_getD, List.getElem?_eq_getElem hk2]

/-! ### Broadcasting -/

theorem substrides_ok (check : Bool) : ∀ (bs as ss : List Int), as.length = bs.length → as.length = ss.length → (∀ p ∈ as.zip bs, p.1 = 1 ∨ p.1 = p.2) →
    ∃ st, substrides check bs as ss = .ok st ∧ st.length = bs.length ∧
      ∀ c, Valid c bs → ptrOff c st = ptrOff (List.zipWith (fun n x => if n = 1 then 0 else x) as c) ss
  | [], [], [], _, _, _ => ⟨[], rfl, rfl, fun c hc => by cases c <;> simp_all [ptrOff, Valid]⟩
  | b :: bs, a :: as, s :: ss, h1, h2, h3 => by
    obtain ⟨st, e1, e2, e3⟩ := substrides_ok check bs as ss (by simpa using h1) (by simpa using h2) fun p hp => h3 p (by simp [hp])
    have h0 := h3 (a, b) (by simp)
    dsimp only at h0
    by_cases hab : a = b
    · refine ⟨s :: st, by rw [substrides, if_pos hab, e1]; rfl, by simp [e2], fun c hc => ?_⟩
      cases c with
      | nil => simp [Valid] at hc
      | cons x c =>
        rw [Valid] at hc
        rw [ptrOff, List.zipWith_cons_cons, ptrOff, e3 c hc.2]
        split
        · have : x = 0 := by omega
          rw [this]
        · rfl
    · have ha : a = 1 := h0.resolve_right hab
      refine ⟨0 :: st, by rw [substrides, if_neg hab, if_neg (by simp [ha]), e1]; rfl, by simp [e2], fun c hc => ?_⟩
      cases c with
      | nil => simp [Valid] at hc
      | cons x c =>
        rw [Valid] at hc
        rw [ptrOff, List.zipWith_cons_cons, ptrOff, e3 c hc.2, if_pos ha]; ring

theorem ptrOff_zeros : ∀ (m : Nat) (c st : List Int), m ≤ c.length → ptrOff c (List.replicate m 0 ++ st) = ptrOff (c.drop m) st
  | 0, c, st, _ => by simp
  | m + 1, [], st, h => by simp at h
  | m + 1, x :: c, st, h => by
    rw [List.replicate_succ, List.cons_append, ptrOff, ptrOff_zeros m c st (by simpa using h)]; simp

theorem valid_drop : ∀ (m : Nat) (c sh : List Int), Valid c sh → Valid (c.drop m) (sh.drop m)
  | 0, _, _, h => h
  | _ + 1, [], [], _ => trivial
  | m + 1, _ :: c, _ :: sh, h => valid_drop m c sh h.2

/-- The dimensions of `sh`, aligned at the end of `s`, are 1 or those of `s`. -/
def Aligned (sh s : List Int) : Prop := sh.length ≤ s.length ∧ ∀ p ∈ sh.zip (s.drop (s.length - sh.length)), p.1 = 1 ∨ p.1 = p.2

theorem broadcastStrides_ok (check : Bool) (a : Arr) (s : List Int) (hlen : a.shape.length = a.strides.length) (ha : Aligned a.shape s) :
    ∃ st, broadcastStrides check a s = .ok st ∧ st.length = s.length ∧ ∀ c, Valid c s → ptrOff c st = ptrOff (proj a.shape c) a.strides := by
  obtain ⟨st, e1, e2, e3⟩ := substrides_ok check (s.drop (s.length - a.shape.length)) a.shape a.strides (by rw [List.length_drop]; have := ha.1; omega) hlen ha.2
  refine ⟨List.replicate (s.length - a.shape.length) 0 ++ st, by rw [broadcastStrides, if_neg (by have := ha.1; omega), e1]; rfl,
    by rw [List.length_append, List.length_replicate, e2, List.length_drop]; have := ha.1; omega, fun c hc => ?_⟩
  have hl := Valid.length hc
  rw [ptrOff_zeros _ _ _ (by omega), e3 _ (valid_drop _ _ _ hc), proj, hl]

theorem dimAt_aligned (sh s : List Int) (hl : sh.length ≤ s.length) (h : ∀ k < s.length, dimAt sh k = 1 ∨ dimAt sh k = dimAt s k) : Aligned sh s := by
  refine ⟨hl, fun p hp => ?_⟩
  obtain ⟨i, hi, rfl⟩ := List.getElem_of_mem hp
  rw [List.length_zip, List.length_drop] at hi
  rw [List.getElem_zip]
  have hi' : i < sh.length := by omega
  have := h (sh.length - 1 - i) (by omega)
  have e1 : dimAt sh (sh.length - 1 - i) = sh[i] := by
    rw [dimAt, List.getElem?_reverse (by omega), List.getElem?_eq_getElem (by omega), Option.getD_some]
    congr 1; omega
  have e2 : dimAt s (sh.length - 1 - i) = (s.drop (s.length - sh.length))[i]'(by rw [List.length_drop]; omega) := by
    rw [dimAt, List.getElem?_reverse (by omega), List.getElem?_eq_getElem (by omega), Option.getD_some, List.getElem_drop]
    congr 1; omega
  rw [e1, e2] at this
  exact this

/-- The size of dimension `k` in a shape listed from the end. -/
def dimR (l : List Int) (k : Nat) : Int := (l[k]?).getD 1

theorem mergeDims_spec : ∀ (ys xs : List Int), xs.length ≤ ys.length →
    (∃ zs, mergeDims true ys xs = .ok zs ∧ zs.length = ys.length ∧
      ∀ k, (dimR xs k = 1 ∨ dimR xs k = dimR zs k) ∧ (dimR ys k = 1 ∨ dimR ys k = dimR zs k) ∧ (dimR zs k = dimR xs k ∨ dimR zs k = dimR ys k)) ∨
    (mergeDims true ys xs = .error .value ∧ ∃ k, dimR xs k ≠ 1 ∧ dimR ys k ≠ 1 ∧ dimR xs k ≠ dimR ys k)
  | ys, [], _ => Or.inl ⟨ys, by rw [mergeDims], rfl, fun k => by simp [dimR]⟩
  | [], _ :: _, h => by simp at h
  | y :: ys, x :: xs, h => by
    rcases mergeDims_spec ys xs (by simpa using h) with ⟨zs, e1, e2, e3⟩ | ⟨e1, k, e2⟩
    · by_cases hy : y = 1
      · refine Or.inl ⟨x :: zs, by rw [mergeDims, if_pos hy, e1]; rfl, by simp [e2], fun k => ?_⟩
        cases k with
        | zero => simp [dimR, hy]
        | succ k => simpa [dimR] using e3 k
      · by_cases hx : x ≠ 1 ∧ x ≠ y
        · refine Or.inr ⟨by rw [mergeDims, if_neg hy, if_pos ⟨rfl, hx⟩], 0, ?_⟩
          simp [dimR, hy, hx]
        · refine Or.inl ⟨y :: zs, by rw [mergeDims, if_neg hy, if_neg (by tauto), e1]; rfl, by simp [e2], fun k => ?_⟩
          cases k with
          | zero =>
            simp only [dimR, List.getElem?_cons_zero, Option.getD_some]
            have : x = 1 ∨ x = y := by by_contra hh; exact hx (by tauto)
            tauto
          | succ k => simpa [dimR] using e3 k
    · by_cases hy : y = 1
      · refine Or.inr ⟨by rw [mergeDims, if_pos hy, e1]; rfl, k + 1, ?_⟩
        simpa [dimR] using e2
      · by_cases hx : x ≠ 1 ∧ x ≠ y
        · refine Or.inr ⟨by rw [mergeDims, if_neg hy, if_pos ⟨rfl, hx⟩], 0, ?_⟩
          simp [dimR, hy, hx]
        · refine Or.inr ⟨by rw [mergeDims, if_neg hy, if_neg (by tauto), e1]; rfl, k + 1, ?_⟩
          simpa [dimR] using e2

theorem mergeAll_spec : ∀ (args : List (List Int)) (ans : List Int), (∀ a ∈ args, a.length ≤ ans.length) →
    (∃ zs, mergeAll true args ans = .ok zs ∧ zs.length = ans.length ∧
      ∀ k, (∀ a ∈ args, dimAt a k = 1 ∨ dimAt a k = dimR zs k) ∧ (dimR ans k = 1 ∨ dimR ans k = dimR zs k) ∧ (dimR zs k = dimR ans k ∨ ∃ a ∈ args, dimAt a k = dimR zs k)) ∨
    (mergeAll true args ans = .error .value ∧ ∃ k x y, (x = dimR ans k ∨ ∃ a ∈ args, x = dimAt a k) ∧ (y = dimR ans k ∨ ∃ a ∈ args, y = dimAt a k) ∧ x ≠ 1 ∧ y ≠ 1 ∧ x ≠ y)
  | [], ans, _ => Or.inl ⟨ans, rfl, rfl, fun k => by simp⟩
  | a :: r, ans, h => by
    have hd : ∀ k, dimR a.reverse k = dimAt a k := fun _ => rfl
    rcases mergeDims_spec ans a.reverse (by simpa using h a (by simp)) with ⟨ms, e1, e2, e3⟩ | ⟨e1, k, e2, e3, e4⟩
    · rcases mergeAll_spec r ms (fun b hb => by rw [e2]; exact h b (by simp [hb])) with ⟨zs, f1, f2, f3⟩ | ⟨f1, k, x, y, f2, f3, f4⟩
      · refine Or.inl ⟨zs, by simp only [mergeAll, e1]; exact f1, by rw [f2, e2], fun k => ?_⟩
        obtain ⟨g1, g2, g3⟩ := e3 k
        obtain ⟨k1, k2, k3⟩ := f3 k
        rw [hd] at g1 g3
        refine ⟨fun b hb => ?_, ?_, ?_⟩
        · rcases List.mem_cons.mp hb with rfl | hb
          · rcases g1 with g1 | g1
            · exact Or.inl g1
            · rw [g1]; exact k2
          · exact k1 b hb
        · rcases g2 with g2 | g2
          · exact Or.inl g2
          · rw [g2]; exact k2
        · rcases k3 with k3 | ⟨b, hb, k3⟩
          · rcases g3 with g3 | g3
            · exact Or.inr ⟨a, by simp, by rw [k3, g3]⟩
            · exact Or.inl (by rw [k3, g3])
          · exact Or.inr ⟨b, by simp [hb], k3⟩
      · refine Or.inr ⟨by simp only [mergeAll, e1]; exact f1, k, x, y, ?_, ?_, f4⟩
        · rcases f2 with f2 | ⟨b, hb, f2⟩
          · rcases (e3 k).2.2 with g | g
            · exact Or.inr ⟨a, by simp, by rw [f2, g, hd]⟩
            · exact Or.inl (by rw [f2, g])
          · exact Or.inr ⟨b, by simp [hb], f2⟩
        · rcases f3 with f3 | ⟨b, hb, f3⟩
          · rcases (e3 k).2.2 with g | g
            · exact Or.inr ⟨a, by simp, by rw [f3, g, hd]⟩
            · exact Or.inl (by rw [f3, g])
          · exact Or.inr ⟨b, by simp [hb], f3⟩
    · exact Or.inr ⟨by simp only [mergeAll, e1], k, dimAt a k, dimR ans k, Or.inr ⟨a, by simp, rfl⟩, Or.inl rfl, e2, e3, e4⟩

theorem largest_spec : ∀ (args : List (List Int)), args ≠ [] → largest args ∈ args ∧ ∀ a ∈ args, a.length ≤ (largest args).length
  | [], h => absurd rfl h
  | [a], _ => ⟨by simp [largest], fun b hb => by simp at hb; simp [largest, hb]⟩
  | a :: b :: r, _ => by
    obtain ⟨h1, h2⟩ := largest_spec (b :: r) (by simp)
    rw [largest]
    split
    · next hl =>
      refine ⟨List.mem_cons_of_mem _ h1, fun x hx => ?_⟩
      rcases List.mem_cons.mp hx with rfl | hx
      · omega
      · exact h2 x hx
    · next hl =>
      refine ⟨by simp, fun x hx => ?_⟩
      rcases List.mem_cons.mp hx with rfl | hx
      · exact le_rfl
      · have := h2 x hx; omega

theorem dimAt_ge (sh : List Int) (k : Nat) (h : sh.length ≤ k) : dimAt sh k = 1 := by
  rw [dimAt, List.getElem?_eq_none (by simpa using h), Option.getD_none]

theorem broadcastShapes_spec (args : List (List Int)) (hne : args ≠ []) :
    (∃ s, broadcastShapes args true = .ok s ∧ Broadcasts args s) ∨ (broadcastShapes args true = .error .value ∧ ∀ s, ¬ Broadcasts args s) := by
  obtain ⟨l1, l2⟩ := largest_spec args hne
  rcases mergeAll_spec args (largest args).reverse (fun a ha => by simpa using l2 a ha) with ⟨zs, e1, e2, e3⟩ | ⟨e1, k, x, y, e2, e3, e4, e5, e6⟩
  · refine Or.inl ⟨zs.reverse, by rw [broadcastShapes, e1]; rfl, fun sh hsh => ?_, ⟨_, l1, ?_⟩, fun k hk => ?_⟩
    · rw [List.length_reverse, e2, List.length_reverse]; exact l2 sh hsh
    · rw [List.length_reverse, e2, List.length_reverse]
    · have : dimAt zs.reverse k = dimR zs k := by rw [dimAt, dimR, List.reverse_reverse]
      rw [this]
      refine ⟨(e3 k).1, ?_⟩
      rcases (e3 k).2.2 with h | h
      · exact ⟨_, l1, h.symm⟩
      · exact h
  · refine Or.inr ⟨by rw [broadcastShapes, e1]; rfl, fun s hs => ?_⟩
    have key : ∀ z, (z = dimR (largest args).reverse k ∨ ∃ a ∈ args, z = dimAt a k) → z ≠ 1 → z = dimAt s k := by
      intro z hz hz1
      obtain ⟨a, ha, rfl⟩ : ∃ a ∈ args, z = dimAt a k := by
        rcases hz with hz | hz
        · exact ⟨_, l1, hz⟩
        · exact hz
      have hk : k < s.length := by
        by_contra hh
        exact hz1 (dimAt_ge a k (by have := hs.1 a ha; omega))
      exact ((hs.2.2 k hk).1 a ha).resolve_left hz1
    exact e6 (by rw [key x e2 e4, key y e3 e5])

theorem broadcasts_unique (args : List (List Int)) (s s' : List Int) (h : Broadcasts args s) (h' : Broadcasts args s') : s = s' := by
  have hl : s.length = s'.length := by
    obtain ⟨a, ha, e⟩ := h.2.1
    obtain ⟨b, hb, e'⟩ := h'.2.1
    have := h.1 b hb
    have := h'.1 a ha
    omega
  have hd : ∀ k < s.length, dimAt s k = dimAt s' k := by
    intro k hk
    obtain ⟨a, ha, e⟩ := (h.2.2 k hk).2
    obtain ⟨b, hb, e'⟩ := (h'.2.2 k (by omega)).2
    have h1 := (h'.2.2 k (by omega)).1 a ha
    have h2 := (h.2.2 k hk).1 b hb
    rcases h1 with h1 | h1
    · rcases h2 with h2 | h2
      · rw [← e, ← e', h1, h2]
      · rw [← e', h2]
    · rw [← e, h1]
  rw [← List.reverse_inj]
  apply List.ext_getElem (by simpa using hl)
  intro k h1 h2
  have := hd k (by simpa using h1)
  simpa [dimAt, List.getElem?_eq_getElem h1, List.getElem?_eq_getElem h2, -List.getElem_reverse] using this

theorem broadcasts_same (args : List (List Int)) (s : List Int) (hne : args ≠ []) (h : ∀ a ∈ args, a = s) : Broadcasts args s := by
  obtain ⟨a, ha⟩ := List.exists_mem_of_ne_nil args hne
  have hs := h a ha
  refine ⟨fun b hb => by rw [h b hb], ⟨a, ha, by rw [hs]⟩, fun k _ => ⟨fun b hb => Or.inr (by rw [h b hb]), a, ha, by rw [hs]⟩⟩

theorem broadcasts_aligned (args : List (List Int)) (s : List Int) (h : Broadcasts args s) (a : List Int) (ha : a ∈ args) : Aligned a s :=
  dimAt_aligned a s (h.1 a ha) fun k hk => (h.2.2 k hk).1 a ha

theorem broadcasts_nonneg (args : List (List Int)) (s : List Int) (h : Broadcasts args s) (hn : ∀ a ∈ args, ∀ n ∈ a, 0 ≤ n) : ∀ n ∈ s, 0 ≤ n := by
  intro n hm
  obtain ⟨i, hi, rfl⟩ := List.getElem_of_mem hm
  obtain ⟨a, ha, e⟩ := (h.2.2 (s.length - 1 - i) (by omega)).2
  have e2 : dimAt s (s.length - 1 - i) = s[i] := by
    rw [dimAt, List.getElem?_reverse (by omega), List.getElem?_eq_getElem (by omega), Option.getD_some]
    congr 1; omega
  rw [← e2, ← e, dimAt]
  cases hg : a.reverse[s.length - 1 - i]? with
  | none => simp
  | some x => exact hn a ha x (by simpa using List.mem_of_getElem? hg)

theorem valid_proj_aux : ∀ (as bs c : List Int), as.length = bs.length → (∀ p ∈ as.zip bs, p.1 = 1 ∨ p.1 = p.2) → Valid c bs → Valid (List.zipWith (fun n x => if n = 1 then 0 else x) as c) as
  | [], [], [], _, _, _ => trivial
  | a :: as, b :: bs, x :: c, hl, h, hc => by
    rw [List.zipWith_cons_cons, Valid]
    have h0 := h (a, b) (by simp)
    dsimp only at h0
    have hc1 := hc.1
    refine ⟨?_, valid_proj_aux as bs c (by simpa using hl) (fun p hp => h p (by simp [hp])) hc.2⟩
    split
    · omega
    · have := h0.resolve_left (by assumption)
      omega

theorem valid_proj (sh s c : List Int) (ha : Aligned sh s) (hc : Valid c s) : Valid (proj sh c) sh := by
  rw [proj, Valid.length hc]
  exact valid_proj_aux sh _ _ (by rw [List.length_drop]; have := ha.1; omega) ha.2 (valid_drop _ _ _ hc)

theorem proj_self_aux : ∀ (sh c : List Int), Valid c sh → List.zipWith (fun n x => if n = 1 then 0 else x) sh c = c
  | [], [], _ => rfl
  | a :: sh, x :: c, hc => by
    rw [List.zipWith_cons_cons, proj_self_aux sh c hc.2]
    congr 1
    have := hc.1
    split
    · omega
    · rfl

theorem proj_self (sh c : List Int) (hc : Valid c sh) : proj sh c = c := by
  rw [proj, Valid.length hc, Nat.sub_self, List.drop_zero]; exact proj_self_aux sh c hc

end Codon.Numpy
