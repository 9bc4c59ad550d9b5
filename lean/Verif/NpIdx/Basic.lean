import Verif.NpIdx.Spec
import Verif.Numpy.ViewProps
import Verif.Numpy.ApplyLemmas
import Verif.Numpy.CallLemmas
import Verif.NpLine.Lemmas
/-! # Assigning to a part of an array -/
namespace Codon.NpIdx
open Codon.Numpy Codon.NpLine Codon.SliceSpec
variable {U V : Type}

theorem fillAll_spec (v : V) : ∀ (ps : List Ptr) (h : Heap V), (∀ p ∈ ps, ∃ u, h.get p.1 p.2 = some u) →
    ∃ h', fillAll v ps h = some h' ∧ h'.next = h.next ∧ (∀ p ∈ ps, h'.get p.1 p.2 = some v) ∧ ∀ p : Ptr, p ∉ ps → h'.get p.1 p.2 = h.get p.1 p.2 := by
  intro ps
  induction ps with
  | nil => intro h _; exact ⟨h, rfl, rfl, by simp, fun _ _ => rfl⟩
  | cons p ps ih =>
    intro h hd
    obtain ⟨u, hu⟩ := hd p (by simp)
    obtain ⟨h1, hw⟩ := write_some v hu
    obtain ⟨w1, w2⟩ := write_get hw
    obtain ⟨h', e1, e2, e3, e4⟩ := ih h1 fun q hq => by
      rw [w2]
      by_cases c : q.1 = p.1 ∧ q.2 = p.2
      · exact ⟨v, if_pos c⟩
      · rw [if_neg c]; exact hd q (by simp [hq])
    refine ⟨h', by simp [fillAll, hw, e1], by rw [e2, w1], fun q hq => ?_, fun q hq => ?_⟩
    · by_cases hm : q ∈ ps
      · exact e3 q hm
      · rcases List.mem_cons.mp hq with rfl | hq
        · rw [e4 q hm, w2, if_pos ⟨rfl, rfl⟩]
        · exact absurd hq hm
    · rw [List.mem_cons, not_or] at hq
      rw [e4 q hq.2, w2, if_neg fun hh => hq.1 (Prod.ext hh.1 hh.2)]

theorem Src.get_congr (s : Src U V) (h h' : Heap V) (q : Ptr) (he : ∀ b, s = .same b → h'.get q.1 q.2 = h.get q.1 q.2) : s.get h' q = s.get h q := by
  cases s with
  | same b => exact he b rfl
  | other g wu f b => rfl

theorem copyAll_spec {ι : Type} (s : Src U V) (tgt src : ι → Ptr) : ∀ (cs : List ι) (h : Heap V), (∀ c ∈ cs, ∃ u, h.get (tgt c).1 (tgt c).2 = some u) →
    (∀ c ∈ cs, ∃ u, s.get h (src c) = some u) → (cs.map tgt).Nodup → (∀ b, s = .same b → ∀ c ∈ cs, ∀ c' ∈ cs, tgt c = src c' → c = c') →
    ∃ h', copyAll s (cs.map fun c => (tgt c, src c)) h = some h' ∧ h'.next = h.next ∧ (∀ c ∈ cs, h'.get (tgt c).1 (tgt c).2 = s.get h (src c)) ∧
      ∀ p : Ptr, (∀ c ∈ cs, tgt c ≠ p) → h'.get p.1 p.2 = h.get p.1 p.2 := by
  intro cs
  induction cs with
  | nil => intro h _ _ _ _; exact ⟨h, rfl, rfl, by simp, fun _ _ => rfl⟩
  | cons c cs ih =>
    intro h ht hs hnd hap
    rw [List.map_cons, List.nodup_cons] at hnd
    obtain ⟨u, hu⟩ := ht c (by simp)
    obtain ⟨v, hv⟩ := hs c (by simp)
    obtain ⟨h1, hw⟩ := write_some v hu
    obtain ⟨w1, w2⟩ := write_get hw
    have hne : ∀ c' ∈ cs, tgt c' ≠ tgt c := fun c' hc' he => hnd.1 (by rw [← he]; exact List.mem_map_of_mem hc')
    have keep : ∀ p : Ptr, p ≠ tgt c → h1.get p.1 p.2 = h.get p.1 p.2 := fun p hp => by rw [w2, if_neg fun hh => hp (Prod.ext hh.1 hh.2)]
    have srcs : ∀ c' ∈ cs, s.get h1 (src c') = s.get h (src c') := fun c' hc' => s.get_congr h h1 _ fun b hb => keep _ fun he => by
      have := hap b hb c (by simp) c' (by simp [hc']) he.symm
      exact hne c' hc' (by rw [this])
    obtain ⟨h', e1, e2, e3, e4⟩ := ih h1 (fun c' hc' => by rw [keep _ (hne c' hc')]; exact ht c' (by simp [hc'])) (fun c' hc' => by rw [srcs c' hc']; exact hs c' (by simp [hc'])) hnd.2
      fun b hb x hx y hy => hap b hb x (by simp [hx]) y (by simp [hy])
    refine ⟨h', by simp [copyAll, hv, hw, e1], by rw [e2, w1], fun c' hc' => ?_, fun p hp => ?_⟩
    · by_cases hm : c' ∈ cs
      · rw [e3 c' hm, srcs c' hm]
      · rcases List.mem_cons.mp hc' with rfl | hc'
        · rw [e4 _ fun x hx => hne x hx, w2, if_pos ⟨rfl, rfl⟩, hv]
        · exact absurd hc' hm
    · rw [e4 p fun x hx => hp x (by simp [hx]), keep p fun he => hp c (by simp) he.symm]

/-- The coordinates in the order of the memory of a contiguous array. -/
def ord (f : Bool) (s : List Int) : List (List Int) := if f then fnest s else multirange s

theorem mem_ord (f : Bool) (s c : List Int) : c ∈ ord f s ↔ Valid c s := by
  cases f
  · exact mem_multirange s c
  · exact (inOrder_fnest s).2 c

theorem nodup_ord (f : Bool) (s : List Int) : (ord f s).Nodup := by
  cases f
  · exact nodup_multirange s
  · exact nodup_fnest s

theorem flatPtrs_eq (s : List Int) (w : Int) (f : Bool) (b : Arr) (hb : b.shape = s) (hn : ∀ n ∈ s, 0 ≤ n) (hf : Flat s w f b) : flatPtrs b w = (ord f s).map b.addr := by
  cases f with
  | false =>
    rw [flatPtrs, hb, ← multirange_map_index s hn, List.map_map, ord, if_neg (by simp)]
    refine List.map_congr_left fun c hc => ?_
    simp only [Function.comp, Arr.addr]
    rw [hf c ((mem_multirange _ _).mp hc), if_neg (by simp)]
  | true =>
    rw [flatPtrs, hb, ← fnest_map_fIndex s hn, List.map_map, ord, if_pos rfl]
    refine List.map_congr_left fun c hc => ?_
    simp only [Function.comp, Arr.addr]
    rw [hf c (((inOrder_fnest s).2 c).mp hc), if_pos rfl]

theorem coordPtrs_eq (b : Arr) : coordPtrs b = (ord false b.shape).map b.addr := rfl

/-- `_assign_one` fills the array. -/
theorem assignOne_spec (sub : Arr) (w : Int) (v : V) (h : Heap V) (hwf : sub.WF h) :
    ∃ h', assignOne sub w v h = some h' ∧ h'.next = h.next ∧ (∀ c, Valid c sub.shape → sub.read h' c = some v) ∧
      ∀ p : Ptr, (∀ c, Valid c sub.shape → sub.addr c ≠ p) → h'.get p.1 p.2 = h.get p.1 p.2 := by
  have fill : ∀ f, ∃ h', fillAll v ((ord f sub.shape).map sub.addr) h = some h' ∧ h'.next = h.next ∧ (∀ c, Valid c sub.shape → sub.read h' c = some v) ∧
      ∀ p : Ptr, (∀ c, Valid c sub.shape → sub.addr c ≠ p) → h'.get p.1 p.2 = h.get p.1 p.2 := by
    intro f
    obtain ⟨h', e1, e2, e3, e4⟩ := fillAll_spec v ((ord f sub.shape).map sub.addr) h (by
      intro p hp
      obtain ⟨c, hc, rfl⟩ := List.mem_map.mp hp
      exact hwf.alloc c ((mem_ord _ _ _).mp hc))
    refine ⟨h', e1, e2, fun c hc => e3 _ (List.mem_map_of_mem ((mem_ord f _ _).mpr hc)), fun p hp => e4 p fun hm => ?_⟩
    obtain ⟨c, hc, rfl⟩ := List.mem_map.mp hm
    exact hp c ((mem_ord _ _ _).mp hc) rfl
  unfold assignOne
  by_cases hs : sub.shape = []
  · rw [if_pos hs]
    obtain ⟨h', e1, e2, e3, e4⟩ := fill false
    have : (ord false sub.shape).map sub.addr = [(sub.blk, sub.off)] := by
      simp [ord, hs, multirange, Arr.addr, ptrOff]
    rw [this] at e1
    refine ⟨h', ?_, e2, e3, e4⟩
    rw [← e1]; simp [fillAll]
  · rw [if_neg hs]
    by_cases hc : ((sub.contig w).1 || (sub.contig w).2) = true
    · rw [if_pos hc]
      obtain ⟨f, hf⟩ : ∃ f : Bool, (if f then (sub.contig w).2 else (sub.contig w).1) = true := by
        rcases Bool.or_eq_true _ _ ▸ hc with hc | hc
        · exact ⟨false, by simpa using hc⟩
        · exact ⟨true, by simpa using hc⟩
      rw [flatPtrs_eq _ w f sub rfl hwf.nonneg (flat_of _ w f sub rfl hwf.len hf)]
      exact fill f
    · rw [if_neg hc, coordPtrs_eq]
      exact fill false

theorem wf_of_same (sub : Arr) (h h' : Heap V) (hwf : sub.WF h) (hn : h'.next = h.next) (ha : ∀ p : Ptr, (∃ u, h.get p.1 p.2 = some u) → ∃ u, h'.get p.1 p.2 = some u) : sub.WF h' :=
  ⟨hwf.len, hwf.nonneg, fun c hc => ha (sub.addr c) (hwf.alloc c hc), by rw [hn]; exact hwf.block⟩

theorem setNum_spec (sub : Arr) (w : Int) (v : V) (h : Heap V) (hwf : sub.WF h) :
    ∃ h', setNum sub w v h = some h' ∧ h'.next = h.next ∧ (∀ c, Valid c sub.shape → sub.read h' c = some v) ∧
      ∀ p : Ptr, (∀ c, Valid c sub.shape → sub.addr c ≠ p) → h'.get p.1 p.2 = h.get p.1 p.2 := by
  unfold setNum
  by_cases hs : sub.shape = []
  · rw [if_pos hs]
    obtain ⟨u, hu⟩ := hwf.alloc [] (by rw [hs]; trivial)
    simp only [Arr.read, ptrOff, Int.add_zero] at hu
    obtain ⟨h1, hw⟩ := write_some v hu
    obtain ⟨w1, w2⟩ := write_get hw
    obtain ⟨h', e1, e2, e3, e4⟩ := assignOne_spec sub w v h1 (wf_of_same sub h h1 hwf w1 (by
      intro p hp
      rw [w2]
      by_cases c : p.1 = sub.blk ∧ p.2 = sub.off
      · exact ⟨v, if_pos c⟩
      · rw [if_neg c]; exact hp))
    refine ⟨h', by rw [hw]; exact e1, by rw [e2, w1], e3, fun p hp => ?_⟩
    rw [e4 p hp, w2, if_neg]
    intro hh
    refine hp [] (by rw [hs]; trivial) (Prod.ext hh.1.symm ?_)
    simp only [Arr.addr, ptrOff, Int.add_zero]; exact hh.2.symm
  · rw [if_neg hs]
    exact assignOne_spec sub w v h hwf

theorem Src.get_addr (s : Src U V) (h : Heap V) (c : List Int) : s.get h (s.arr.addr c) = s.elem h c := by cases s <;> rfl

theorem Src.elem_some (s : Src U V) (h : Heap V) (hs : s.WF h) (c : List Int) (hc : Valid c s.arr.shape) : ∃ u, s.elem h c = some u := by
  cases s with
  | same b => exact hs.alloc c hc
  | other g wu f b =>
    obtain ⟨u, hu⟩ := hs.alloc c hc
    exact ⟨f u, by simp only [Src.elem, hu]; rfl⟩

theorem Src.len (s : Src U V) (h : Heap V) (hs : s.WF h) : s.arr.shape.length = s.arr.strides.length := by
  cases s with
  | same b => exact Arr.WF.len hs
  | other g wu f b => exact Arr.WF.len hs

/-- The part of `setBasic` after the view is made. -/
theorem setBasic_sub (w : Int) (a sub : Arr) (idx : List Idx) (it : Item U V) (h : Heap V) (hv : a.view idx = .ok sub) (hwf : sub.WF h)
    (hsrc : ∀ s, it = .arr s → s.WF h ∧ Aligned s.arr.shape sub.shape ∧ sub.NoRepeat ∧ ∀ b, s = .same b → sub.Apart b) :
    ∃ h', setBasic w a idx it h = some (h', none) ∧ h'.next = h.next ∧ (∀ c, Valid c sub.shape → sub.read h' c = it.elem h c) ∧
      ∀ p : Ptr, (∀ c, Valid c sub.shape → sub.addr c ≠ p) → h'.get p.1 p.2 = h.get p.1 p.2 := by
  unfold setBasic
  simp only [hv]
  cases it with
  | num v =>
    obtain ⟨h', e1, e2, e3, e4⟩ := setNum_spec sub w v h hwf
    exact ⟨h', by simp only [e1]; rfl, e2, e3, e4⟩
  | arr s =>
    obtain ⟨hs, hal, hrep, hap⟩ := hsrc s rfl
    dsimp only
    by_cases h0 : s.arr.shape = []
    · rw [if_pos h0]
      obtain ⟨u, hu⟩ := s.elem_some h hs [] (by rw [h0]; trivial)
      have hu' : s.get h (s.arr.blk, s.arr.off) = some u := by
        rw [← hu, ← s.get_addr h []]; simp [Arr.addr, ptrOff]
      obtain ⟨h', e1, e2, e3, e4⟩ := setNum_spec sub w u h hwf
      refine ⟨h', by simp [hu', e1], e2, fun c hc => ?_, e4⟩
      rw [e3 c hc, Item.elem, h0, proj_nil, hu]
    · rw [if_neg h0]
      obtain ⟨st, b1, b2, b3⟩ := broadcastStrides_ok true s.arr sub.shape (s.len h hs) hal
      rw [b1]
      dsimp only
      have hadr : ∀ c, Valid c sub.shape → (⟨sub.shape, st, s.arr.blk, s.arr.off⟩ : Arr).addr c = s.arr.addr (proj s.arr.shape c) := fun c hc => by
        simp only [Arr.addr]; rw [b3 c hc]
      have copy : ∀ f, ∃ h', copyAll s (((ord f sub.shape).map sub.addr).zip ((ord f sub.shape).map (⟨sub.shape, st, s.arr.blk, s.arr.off⟩ : Arr).addr)) h = some h' ∧ h'.next = h.next ∧
          (∀ c, Valid c sub.shape → sub.read h' c = s.elem h (proj s.arr.shape c)) ∧ ∀ p : Ptr, (∀ c, Valid c sub.shape → sub.addr c ≠ p) → h'.get p.1 p.2 = h.get p.1 p.2 := by
        intro f
        rw [List.zip_map', List.map_congr_left (g := fun c => (sub.addr c, s.arr.addr (proj s.arr.shape c))) fun c hc => by rw [hadr c ((mem_ord _ _ _).mp hc)]]
        obtain ⟨h', e1, e2, e3, e4⟩ := copyAll_spec s sub.addr (fun c => s.arr.addr (proj s.arr.shape c)) (ord f sub.shape) h (fun c hc => hwf.alloc c ((mem_ord _ _ _).mp hc))
          (fun c hc => by rw [s.get_addr]; exact s.elem_some h hs _ (valid_proj _ _ _ hal ((mem_ord _ _ _).mp hc)))
          (List.Nodup.map_on (fun c hc c' hc' he => hrep c c' ((mem_ord _ _ _).mp hc) ((mem_ord _ _ _).mp hc') he) (nodup_ord f _))
          (fun b hb c hc c' hc' he => hap b hb c c' ((mem_ord _ _ _).mp hc) ((mem_ord _ _ _).mp hc') (by subst hb; exact he))
        exact ⟨h', e1, e2, fun c hc => by rw [← s.get_addr]; exact e3 c ((mem_ord _ _ _).mpr hc), fun p hp => e4 p fun c hc => hp c ((mem_ord _ _ _).mp hc)⟩
      by_cases hcm : contigMatch ⟨sub, w⟩ ⟨⟨sub.shape, st, s.arr.blk, s.arr.off⟩, s.size w⟩ = true
      · rw [if_pos hcm]
        obtain ⟨_, f, c1, c2⟩ := contigMatch_cases _ _ hcm
        rw [flatPtrs_eq _ w f sub rfl hwf.nonneg (flat_of _ w f sub rfl hwf.len c1),
          flatPtrs_eq sub.shape (s.size w) f ⟨sub.shape, st, s.arr.blk, s.arr.off⟩ rfl hwf.nonneg (flat_of _ _ f _ rfl b2.symm c2)]
        obtain ⟨h', e1, e2, e3, e4⟩ := copy f
        exact ⟨h', by rw [e1]; rfl, e2, e3, e4⟩
      · rw [if_neg hcm, coordPtrs_eq, coordPtrs_eq]
        obtain ⟨h', e1, e2, e3, e4⟩ := copy false
        exact ⟨h', by rw [e1]; rfl, e2, e3, e4⟩

end Codon.NpIdx
