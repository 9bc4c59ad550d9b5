import Verif.Numpy.Lemmas
/-!
# C61: flat views and copies list the elements in the requested order

Full statement: `flatten`, `ravel`, `tobytes`, `item`, `flat[i]` and iterating `flat` give the elements of an array in row-major order (`'C'`), in column-major order (`'F'`),
in one of the two (`'A'`), or in the order of their strides (`'K'`), whatever the layout in memory.  It fails for order `'F'` with more than six dimensions
(`c61_violation_seven_dims`: `fmultirange` puts the first index last) and for iterating `flat` of an array without dimensions (`c61_violation_flat_scalar`: writes outside the
coordinates); everything else is proved.
-/
namespace Codon.Numpy
variable {V : Type}

/-- `b` in heap `h'` is a one-dimensional proper array with the elements of `a` in the given order; nothing else changed. -/
def Flattened (less : List Int → List Int → Prop) (h : Heap V) (a : Arr) (h' : Heap V) (b : Arr) : Prop :=
  ∃ vs, Elems less h a vs ∧ Elems cLess h' b vs ∧ b.shape = [count a.shape] ∧ b.WF h' ∧ Kept h h'

theorem flattened_new (less : List Int → List Int → Prop) (h : Heap V) (a : Arr) (w : Int) (hw : 0 < w) (hwf : a.WF h) (cs : List (List Int))
    (ho : InOrder less a.shape cs) (hlen : cs.length = (count a.shape).toNat) :
    ∃ h' b, (cs.mapM (a.read h)).map (newFlat h w (count a.shape)) = some (h', b) ∧ Flattened less h a h' b := by
  obtain ⟨vs, hvs, hl⟩ := mapM_some (a.read h) cs fun c hc => hwf.alloc c ((ho.2 c).mp hc)
  have hn := count_nonneg _ hwf.nonneg
  obtain ⟨e1, e2, e3⟩ := elems_newFlat h w hw vs (count a.shape) (by omega)
  refine ⟨_, _, by rw [hvs]; rfl, vs, ⟨cs, ho, hvs⟩, e1, rfl, e2, e3⟩

theorem flattened_view (less : List Int → List Int → Prop) (h : Heap V) (a : Arr) (w : Int) (hwf : a.WF h) (cs : List (List Int)) (ho : InOrder less a.shape cs)
    (hcs : a.memcpy h w (count a.shape) = cs.mapM (a.read h)) :
    Flattened less h a h ⟨[count a.shape], stridesOf [count a.shape] false w, a.blk, a.off⟩ := by
  obtain ⟨vs, hvs, hl⟩ := mapM_some (a.read h) cs fun c hc => hwf.alloc c ((ho.2 c).mp hc)
  have hn := count_nonneg _ hwf.nonneg
  have hm : (multirange [count a.shape]).mapM (Arr.read ⟨[count a.shape], stridesOf [count a.shape] false w, a.blk, a.off⟩ h) = a.memcpy h w (count a.shape) := by
    have e : multirange [count a.shape] = (upto (count a.shape)).map fun i => [i] := by
      simp only [multirange, List.map_cons, List.map_nil]
      rw [← List.map_eq_flatMap]
    rw [e, mapM_map, Arr.memcpy]
    apply mapM_congr
    intro i _
    simp [Arr.read, Arr.flatRead, stridesOf, stridesLoop, ptrOff]
  refine ⟨vs, ⟨cs, ho, hvs⟩, ⟨multirange [count a.shape], inOrder_multirange _, by rw [hm, hcs, hvs]⟩, rfl, ⟨?_, ?_, ?_, hwf.block⟩, fun _ _ => rfl⟩
  · simp [stridesOf, stridesLoop]
  · simpa using hn
  · intro c hc
    have hmem := (mem_multirange [count a.shape] c).mpr hc
    rw [hcs, hvs] at hm
    obtain ⟨k, hk⟩ := List.getElem?_of_mem hmem
    have := mapM_getElem? _ _ _ hm k c hk
    have hlt := (List.getElem?_eq_some_iff.mp hk).1
    rw [← mapM_length _ _ _ hm] at hlt
    exact ⟨vs[k], by rw [this]; exact List.getElem?_eq_getElem hlt⟩

/-- `flatten('C')`. -/
theorem c61_flatten_c (h : Heap V) (a : Arr) (w : Int) (hw : 0 < w) (hwf : a.WF h) :
    ∃ h' b, a.flatten h w .C = some (h', b) ∧ Flattened cLess h a h' b := by
  have := flattened_new cLess h a w hw hwf _ (inOrder_multirange _) (length_multirange _ hwf.nonneg)
  simpa only [Arr.flatten, reduceCtorEq, if_false, contiguous_eq a h w hwf] using this

/-- `flatten('F')` with up to six dimensions, or when no reordering is needed. -/
theorem c61_flatten_f_partial (h : Heap V) (a : Arr) (w : Int) (hw : 0 < w) (hwf : a.WF h) (h6 : a.shape.length ≤ 6 ∨ (a.contig w).2 = true) :
    ∃ h' b, a.flatten h w .F = some (h', b) ∧ Flattened fLess h a h' b := by
  have := flattened_new fLess h a w hw hwf _ (inOrder_fnest _) (length_fnest _ hwf.nonneg)
  simpa only [Arr.flatten, reduceCtorEq, if_false, fcontiguous_eq a h w hwf h6] using this

/-- `flatten('A')`: one of the two. -/
theorem c61_flatten_a (h : Heap V) (a : Arr) (w : Int) (hw : 0 < w) (hwf : a.WF h) :
    ∃ h' b, a.flatten h w .A = some (h', b) ∧ (Flattened cLess h a h' b ∨ Flattened fLess h a h' b) := by
  by_cases hf : (a.contig w).2 = true
  · obtain ⟨h', b, h1, h2⟩ := c61_flatten_f_partial h a w hw hwf (Or.inr hf)
    refine ⟨h', b, ?_, Or.inr h2⟩
    simpa only [Arr.flatten, reduceCtorEq, if_false, if_true, hf] using h1
  · obtain ⟨h', b, h1, h2⟩ := c61_flatten_c h a w hw hwf
    refine ⟨h', b, ?_, Or.inl h2⟩
    simpa only [Arr.flatten, reduceCtorEq, if_false, if_true, hf] using h1

theorem zip_fst_snd (l : List (Int × Int)) : (l.map (·.1)).zip (l.map (·.2)) = l := by
  induction l with
  | nil => rfl
  | cons x l ih => simp [ih]

theorem count_perm {l l' : List Int} (h : l.Perm l') : count l = count l' := by
  induction h with
  | nil => rfl
  | cons x _ ih => rw [count_cons, count_cons, ih]
  | swap x y l => simp only [count_cons]; ring
  | trans _ _ i1 i2 => rw [i1, i2]

theorem cLess_irrefl : ∀ a : List Int, ¬ cLess a a
  | [] => by simp [cLess]
  | x :: xs => by simp [cLess, cLess_irrefl xs]

/-- An array whose dimensions are permuted is proper and has the same elements. -/
theorem permuted (h : Heap V) (a : Arr) (hwf : a.WF h) (l : List (Int × Int)) (hp : l.Perm (a.shape.zip a.strides)) :
    Arr.WF ⟨l.map (·.1), l.map (·.2), a.blk, a.off⟩ h ∧
    ∀ vs vs', Elems cLess h ⟨l.map (·.1), l.map (·.2), a.blk, a.off⟩ vs → Elems cLess h a vs' → vs.Perm vs' := by
  have hsh : (a.shape.zip a.strides).map (·.1) = a.shape := List.map_fst_zip (by rw [hwf.len])
  have hst : (a.shape.zip a.strides).map (·.2) = a.strides := List.map_snd_zip (by rw [hwf.len])
  have ho := offsets_perm hp
  have hread : ∀ (sh st : List Int), (multirange sh).mapM (Arr.read ⟨sh, st, a.blk, a.off⟩ h) =
      ((multirange sh).map fun c => ptrOff c st).mapM fun o => h.get a.blk (a.off + o) := by
    intro sh st; rw [mapM_map]; rfl
  refine ⟨⟨by simp, ?_, ?_, hwf.block⟩, ?_⟩
  · intro n hn
    have : n ∈ (a.shape.zip a.strides).map (·.1) := (hp.map _).subset hn
    rw [hsh] at this
    exact hwf.nonneg n this
  · intro c hc
    have hm : ptrOff c (l.map (·.2)) ∈ offsets l := List.mem_map.mpr ⟨c, (mem_multirange _ _).mpr hc, rfl⟩
    have := ho.subset hm
    rw [offsets, hsh, hst] at this
    obtain ⟨c', hc', e⟩ := List.mem_map.mp this
    obtain ⟨v, hv⟩ := hwf.alloc c' ((mem_multirange _ _).mp hc')
    exact ⟨v, by simp only [Arr.read] at hv ⊢; rw [← e]; exact hv⟩
  · rintro vs vs' ⟨cs, hcs, h1⟩ ⟨cs', hcs', h2⟩
    have uniq : ∀ (sh : List Int) (cs : List (List Int)), InOrder cLess sh cs → cs.Perm (multirange sh) := by
      intro sh cs hcs
      refine (List.perm_ext_iff_of_nodup ?_ ?_).mpr fun c => by rw [hcs.2, mem_multirange]
      · exact hcs.1.imp fun {a b} hab e => by
          subst e
          exact cLess_irrefl _ hab
      · exact (pairwise_multirange sh).imp fun {a b} hab e => by
          subst e
          exact cLess_irrefl _ hab
    have p1 := (uniq _ _ hcs).map fun c => ptrOff c (l.map (·.2))
    have p2 := (uniq _ _ hcs').map fun c => ptrOff c a.strides
    have e1 : (cs.map fun c => ptrOff c (l.map (·.2))).mapM (fun o => h.get a.blk (a.off + o)) = some vs := by rw [mapM_map]; exact h1
    have e2 : (cs'.map fun c => ptrOff c a.strides).mapM (fun o => h.get a.blk (a.off + o)) = some vs' := by rw [mapM_map]; exact h2
    refine mapM_perm _ ((p1.trans ?_).trans p2.symm) _ _ e1 e2
    have := ho
    rw [offsets, offsets, hsh, hst] at this
    exact this

/-- `flatten('K')`: the elements in row-major order of the dimensions sorted by stride. -/
theorem c61_flatten_k (h : Heap V) (a : Arr) (w : Int) (hw : 0 < w) (hwf : a.WF h) :
    ∃ h' b, ∃ l : List (Int × Int), ∃ vs vs', a.flatten h w .K = some (h', b) ∧ l.Perm (a.shape.zip a.strides) ∧ l.Pairwise (fun x y => y.2.natAbs ≤ x.2.natAbs) ∧
      Elems cLess h ⟨l.map (·.1), l.map (·.2), a.blk, a.off⟩ vs ∧ Elems cLess h' b vs ∧ Elems cLess h a vs' ∧ vs.Perm vs' ∧ b.shape = [count a.shape] ∧ Kept h h' := by
  have hp := sortByStride_perm (a.shape.zip a.strides)
  obtain ⟨hwf', hperm⟩ := permuted h a hwf _ hp
  obtain ⟨h', b, h1, vs, e1, e2, e3, e4, e5⟩ := flattened_new cLess h a.sorted w hw hwf' _ (inOrder_multirange _) (length_multirange _ hwf'.nonneg)
  obtain ⟨vs', hvs', _⟩ := mapM_some (a.read h) _ fun c hc => hwf.alloc c ((mem_multirange _ c).mp hc)
  have hE : Elems cLess h a vs' := ⟨_, inOrder_multirange _, hvs'⟩
  refine ⟨h', b, _, vs, vs', ?_, hp, sortByStride_sorted _, e1, e2, hE, hperm vs vs' e1 hE, ?_, e5⟩
  · have := contiguous_eq a.sorted h w hwf'
    simp only [Arr.flatten, reduceCtorEq, if_false, this]
    exact h1
  · rw [e3]
    have hsh : (a.shape.zip a.strides).map (·.1) = a.shape := List.map_fst_zip (by rw [hwf.len])
    have hc : count ((sortByStride (a.shape.zip a.strides)).map (·.1)) = count a.shape := by
      have := (hp.map (·.1))
      rw [hsh] at this
      exact count_perm this
    show [count _] = _
    rw [show a.sorted.shape = (sortByStride (a.shape.zip a.strides)).map (·.1) from rfl, hc]

/-- `ravel('C')`, a view when the array is contiguous. -/
theorem c61_ravel_c (h : Heap V) (a : Arr) (w : Int) (hw : 0 < w) (hwf : a.WF h) :
    ∃ h' b, a.ravel h w .C = some (h', b) ∧ Flattened cLess h a h' b ∧ ((a.contig w).1 = true → h' = h ∧ b.blk = a.blk) := by
  simp only [Arr.ravel, reduceCtorEq, if_false]
  by_cases hc : (a.contig w).1 = true
  · rw [if_pos hc]
    exact ⟨_, _, rfl, flattened_view cLess h a w hwf _ (inOrder_multirange _) (memcpy_c a h w hwf hc), fun _ => ⟨rfl, rfl⟩⟩
  · rw [if_neg hc, contiguous_eq a h w hwf]
    obtain ⟨h', b, h1, h2⟩ := flattened_new cLess h a w hw hwf _ (inOrder_multirange _) (length_multirange _ hwf.nonneg)
    exact ⟨h', b, h1, h2, fun h => absurd h hc⟩

/-- `ravel('F')` with up to six dimensions, or a view. -/
theorem c61_ravel_f_partial (h : Heap V) (a : Arr) (w : Int) (hw : 0 < w) (hwf : a.WF h) (h6 : a.shape.length ≤ 6 ∨ (a.contig w).2 = true) :
    ∃ h' b, a.ravel h w .F = some (h', b) ∧ Flattened fLess h a h' b ∧ ((a.contig w).2 = true → h' = h ∧ b.blk = a.blk) := by
  simp only [Arr.ravel, reduceCtorEq, if_false]
  by_cases hc : (a.contig w).2 = true
  · rw [if_pos hc]
    exact ⟨_, _, rfl, flattened_view fLess h a w hwf _ (inOrder_fnest _) (memcpy_f a h w hwf hc), fun _ => ⟨rfl, rfl⟩⟩
  · rw [if_neg hc, fcontiguous_eq a h w hwf h6]
    obtain ⟨h', b, h1, h2⟩ := flattened_new fLess h a w hw hwf _ (inOrder_fnest _) (length_fnest _ hwf.nonneg)
    exact ⟨h', b, h1, h2, fun h => absurd h hc⟩

/-- `tobytes('C')` copies the elements in row-major order. -/
theorem c61_tobytes_c (h : Heap V) (a : Arr) (w : Int) (hwf : a.WF h) : ∃ vs, a.tobytes h w .C = some vs ∧ Elems cLess h a vs := by
  obtain ⟨vs, hvs, _⟩ := mapM_some (a.read h) (multirange a.shape) fun c hc => hwf.alloc c ((mem_multirange _ c).mp hc)
  refine ⟨vs, ?_, _, inOrder_multirange _, hvs⟩
  simp only [Arr.tobytes, reduceCtorEq, if_false, true_and, false_and, or_false]
  split
  · next hc => rw [memcpy_c a h w hwf hc]; exact hvs
  · exact hvs

/-- `tobytes('F')` copies them in column-major order. -/
theorem c61_tobytes_f_partial (h : Heap V) (a : Arr) (w : Int) (hwf : a.WF h) (h6 : a.shape.length ≤ 6 ∨ (a.contig w).2 = true) :
    ∃ vs, a.tobytes h w .F = some vs ∧ Elems fLess h a vs := by
  obtain ⟨vs, hvs, _⟩ := mapM_some (a.read h) (fnest a.shape) fun c hc => hwf.alloc c (((inOrder_fnest _).2 c).mp hc)
  refine ⟨vs, ?_, _, inOrder_fnest _, hvs⟩
  simp only [Arr.tobytes, reduceCtorEq, if_false, if_true, true_and, false_and, false_or]
  split
  · next hc => rw [memcpy_f a h w hwf hc]; exact hvs
  · next hc => rw [fmultirange_eq _ (h6.resolve_right hc)]; exact hvs

/-- `tobytes('A')` is column-major if the array is laid out so and not also in row-major order, and row-major otherwise. -/
theorem c61_tobytes_a (h : Heap V) (a : Arr) (w : Int) (hwf : a.WF h) :
    ∃ vs, a.tobytes h w .A = some vs ∧ Elems (if a.contig w = (false, true) then fLess else cLess) h a vs := by
  by_cases hc : a.contig w = (false, true)
  · obtain ⟨vs, h1, h2⟩ := c61_tobytes_f_partial h a w hwf (Or.inr (by rw [hc]))
    refine ⟨vs, ?_, by rw [if_pos hc]; exact h2⟩
    rw [← h1]; simp [Arr.tobytes, hc]
  · obtain ⟨vs, h1, h2⟩ := c61_tobytes_c h a w hwf
    refine ⟨vs, ?_, by rw [if_neg hc]; exact h2⟩
    have : ((a.contig w).2 && !(a.contig w).1) = false := by
      rcases he : a.contig w with ⟨x, y⟩
      cases x <;> cases y <;> simp_all
    rw [← h1]; simp [Arr.tobytes, this]

theorem index_read (h : Heap V) (a : Arr) (hwf : a.WF h) (j : Int) (h0 : 0 ≤ j) (hj : j < count a.shape) (vs : List V)
    (hvs : (multirange a.shape).mapM (a.read h) = some vs) :
    ∃ c, indexToCoords j a.shape = some c ∧ a.read h c = vs[j.toNat]? := by
  obtain ⟨c, h1, _, _, h4⟩ := multirange_getElem? a.shape hwf.nonneg j.toNat (by omega)
  rw [Int.toNat_of_nonneg h0] at h4
  exact ⟨c, h4, mapM_getElem? _ _ _ hvs _ _ h1⟩

/-- `item(i)` and `flat[i]` are the element at row-major position `i`, counted from the end when negative; outside they raise `IndexError`. -/
theorem c61_item (h : Heap V) (a : Arr) (hwf : a.WF h) (i : Int) :
    ∃ vs, Elems cLess h a vs ∧ (vs.length : Int) = count a.shape ∧
      (0 ≤ i → i < vs.length → ∃ v, vs[i.toNat]? = some v ∧ a.item h i = some (some v) ∧ a.flatGet h i = some (some v)) ∧
      (i < 0 → -(vs.length : Int) ≤ i → ∃ v, vs[(i + vs.length).toNat]? = some v ∧ a.item h i = some (some v) ∧ a.flatGet h i = some (some v)) ∧
      ((i < -(vs.length : Int) ∨ (vs.length : Int) ≤ i) → a.item h i = some none ∧ a.flatGet h i = some none) := by
  obtain ⟨vs, hvs, hl⟩ := mapM_some (a.read h) (multirange a.shape) fun c hc => hwf.alloc c ((mem_multirange _ c).mp hc)
  have hn := count_nonneg _ hwf.nonneg
  have hlen : (vs.length : Int) = count a.shape := by rw [hl, length_multirange _ hwf.nonneg]; omega
  refine ⟨vs, ⟨_, inOrder_multirange _, hvs⟩, hlen, ?_, ?_, ?_⟩
  · intro h0 hi
    obtain ⟨c, h1, h2⟩ := index_read h a hwf i h0 (by omega) vs hvs
    have hb : i.toNat < vs.length := by omega
    rw [List.getElem?_eq_getElem hb] at h2 ⊢
    refine ⟨vs[i.toNat], rfl, ?_, ?_⟩
    · simp only [Arr.item, if_neg (show ¬ (i < -count a.shape ∨ i ≥ count a.shape) by omega), if_neg (show ¬ i < 0 by omega), h1, h2, Option.map_some]
    · simp only [Arr.flatGet, if_neg (show ¬ i < 0 by omega), if_neg (show ¬ (i < 0 ∨ i ≥ count a.shape) by omega), h1, h2, Option.map_some]
  · intro h0 hi
    obtain ⟨c, h1, h2⟩ := index_read h a hwf (i + count a.shape) (by omega) (by omega) vs hvs
    have hb : (i + vs.length).toNat < vs.length := by omega
    rw [← hlen] at h2
    rw [List.getElem?_eq_getElem hb] at h2 ⊢
    refine ⟨vs[(i + vs.length).toNat], rfl, ?_, ?_⟩
    · simp only [Arr.item, if_neg (show ¬ (i < -count a.shape ∨ i ≥ count a.shape) by omega), if_pos h0, h1, h2, Option.map_some]
    · simp only [Arr.flatGet, if_pos h0, if_neg (show ¬ (i + count a.shape < 0 ∨ i + count a.shape ≥ count a.shape) by omega), h1, h2, Option.map_some]
  · intro hi
    constructor
    · simp only [Arr.item, if_pos (show i < -count a.shape ∨ i ≥ count a.shape by omega)]
    · simp only [Arr.flatGet]
      by_cases h0 : i < 0
      · simp only [if_pos h0, if_pos (show i + count a.shape < 0 ∨ i + count a.shape ≥ count a.shape by omega)]
      · simp only [if_neg h0, if_pos (show i < 0 ∨ i ≥ count a.shape by omega)]

/-- Iterating `flat` yields the elements from its position on, in row-major order, for arrays with at least one dimension. -/
theorem c61_flat_iter_partial (h : Heap V) (a : Arr) (hwf : a.WF h) (hne : a.shape ≠ []) (k : Nat) :
    ∃ vs, Elems cLess h a vs ∧ a.flatIter h k = some (vs.drop k) := by
  obtain ⟨vs, hvs, hl⟩ := mapM_some (a.read h) (multirange a.shape) fun c hc => hwf.alloc c ((mem_multirange _ c).mp hc)
  have hn := count_nonneg _ hwf.nonneg
  have hlen : (vs.length : Int) = count a.shape := by rw [hl, length_multirange _ hwf.nonneg]; omega
  refine ⟨vs, ⟨_, inOrder_multirange _, hvs⟩, ?_⟩
  have drop_mapM : ∀ (k : Nat) (l : List (List Int)) (vs : List V), l.mapM (a.read h) = some vs → (l.drop k).mapM (a.read h) = some (vs.drop k) := by
    intro k l vs hm
    apply mapM_of_getElem?
    · simp [mapM_length _ _ _ hm]
    · intro i x hx
      rw [List.getElem?_drop] at hx ⊢
      exact mapM_getElem? _ _ _ hm _ _ hx
  by_cases hk : (k : Int) < count a.shape
  · obtain ⟨c, h1, h2, h3, h4⟩ := multirange_getElem? a.shape hwf.nonneg k hk
    have hc : a.flatCoords (k : Int) = some c := by
      cases hs : a.shape with
      | nil => exact absurd hs hne
      | cons n ns =>
        simp only [Arr.flatCoords, hs]
        rw [← hs, if_neg (by omega), h4]
    simp only [Arr.flatIter, hc]
    rw [flatLoop_eq a h hwf hne _ k c (by omega) fun _ => h1]
    exact drop_mapM k _ _ hvs
  · have hz : (count a.shape - (k : Int)).toNat = 0 := by omega
    have hd : vs.drop k = [] := List.drop_eq_nil_of_le (by omega)
    cases hs : a.shape with
    | nil => exact absurd hs hne
    | cons n ns =>
      have hc : a.flatCoords (k : Int) = some (n :: ns.map fun _ => 0) := by
        simp only [Arr.flatCoords, hs]
        rw [← hs, if_pos (by omega)]
      simp only [Arr.flatIter, hc, hz, flatLoop, hd]

/-- The conversions between positions and coordinates are inverse to each other and follow the order of the coordinates. -/
theorem c61_coords (l : List Int) (hl : ∀ n ∈ l, 0 ≤ n) :
    (∀ c, Valid c l → 0 ≤ coordsToIndex c l ∧ coordsToIndex c l < count l ∧ indexToCoords (coordsToIndex c l) l = some c) ∧
    (∀ k, 0 ≤ k → k < count l → ∃ c, indexToCoords k l = some c ∧ Valid c l ∧ coordsToIndex c l = k) ∧
    (∀ c, Valid c l → 0 ≤ coordsToFIndex c l ∧ coordsToFIndex c l < count l ∧ indexToFCoords (coordsToFIndex c l) l = some c) ∧
    (∀ k, 0 ≤ k → k < count l → ∃ c, indexToFCoords k l = some c ∧ Valid c l ∧ coordsToFIndex c l = k) := by
  refine ⟨fun c hc => ?_, fun k h0 hk => ?_, fun c hc => ?_, fun k h0 hk => ?_⟩
  · rw [coordsToIndex_eq _ _ (Valid.length hc)]
    have hr := (valid_reverse c l).mpr hc
    have := fIndex_bounds _ _ hr
    rw [count_reverse] at this
    exact ⟨this.1, this.2, by simp [indexToCoords, indexToFCoords_fIndex _ _ hr]⟩
  · obtain ⟨c, _, h2, h3, h4⟩ := multirange_getElem? l hl k.toNat (by omega)
    rw [Int.toNat_of_nonneg h0] at h3 h4
    exact ⟨c, h4, h2, by rw [coordsToIndex_eq _ _ (Valid.length h2), h3]⟩
  · rw [coordsToFIndex_eq]
    have := fIndex_bounds _ _ hc
    exact ⟨this.1, this.2, indexToFCoords_fIndex _ _ hc⟩
  · obtain ⟨c, _, h2, h3, h4⟩ := fnest_getElem? l hl k.toNat (by omega)
    rw [Int.toNat_of_nonneg h0] at h3 h4
    exact ⟨c, h4, h2, by rw [coordsToFIndex_eq, h3]⟩

/-! ### Examples and violations -/

/-- A heap in which every cell holds its offset. -/
def idHeap : Heap Int := ⟨fun _ o => some o, 1⟩

/-- A two by three array, transposed: not contiguous in row-major order. -/
def tArr : Arr := ⟨[3, 2], [8, 24], 0, 0⟩

example : tArr.WF idHeap := ⟨rfl, by decide, fun _ _ => ⟨_, rfl⟩, by decide⟩
example : (tArr.contig 8) = (false, true) := rfl
example : (tArr.flatten idHeap 8 .C).map (fun r => r.2.memcpy r.1 8 6) = some (some [0, 24, 8, 32, 16, 40]) := rfl
example : (tArr.flatten idHeap 8 .F).map (fun r => r.2.memcpy r.1 8 6) = some (some [0, 8, 16, 24, 32, 40]) := rfl
example : (tArr.flatten idHeap 8 .K).map (fun r => r.2.memcpy r.1 8 6) = some (some [0, 8, 16, 24, 32, 40]) := rfl
example : tArr.flatIter idHeap 2 = some [8, 32, 16, 40] := rfl
example : tArr.item idHeap (-2) = some (some 16) := rfl

/-- Seven dimensions, contiguous in row-major order. -/
def sevenArr : Arr := ⟨[2, 1, 1, 1, 1, 1, 2], [2, 2, 2, 2, 2, 2, 1], 0, 0⟩

/-- With seven dimensions `flatten('F')` gives another order. -/
theorem c61_violation_seven_dims : sevenArr.WF idHeap ∧ Elems fLess idHeap sevenArr [0, 2, 1, 3] ∧ sevenArr.fcontiguous idHeap 1 = some [0, 1, 2, 3] ∧
    (sevenArr.flatten idHeap 1 .F).map (fun r => r.2.memcpy r.1 1 4) = some (some [0, 1, 2, 3]) :=
  ⟨⟨rfl, by decide, fun _ _ => ⟨_, rfl⟩, by decide⟩, ⟨_, inOrder_fnest _, rfl⟩, rfl, rfl⟩

/-- Every second row of an array with seven dimensions: an element that does not belong to the view is read. -/
theorem c61_violation_seven_dims_outside : Elems fLess idHeap ⟨[2, 1, 1, 1, 1, 1, 1], [2, 1, 1, 1, 1, 1, 1], 0, 0⟩ [0, 2] ∧
    Arr.fcontiguous ⟨[2, 1, 1, 1, 1, 1, 1], [2, 1, 1, 1, 1, 1, 1], 0, 0⟩ idHeap 1 = some [0, 1] := ⟨⟨_, inOrder_fnest _, rfl⟩, rfl⟩

/-- Iterating `flat` of an array without dimensions has undefined behaviour. -/
theorem c61_violation_flat_scalar : Arr.WF ⟨[], [], 0, 5⟩ idHeap ∧ Elems cLess idHeap ⟨[], [], 0, 5⟩ [5] ∧ Arr.flatIter ⟨[], [], 0, 5⟩ idHeap 0 = none :=
  ⟨⟨rfl, by decide, fun _ _ => ⟨_, rfl⟩, by decide⟩, ⟨_, inOrder_multirange _, rfl⟩, rfl⟩

end Codon.Numpy
