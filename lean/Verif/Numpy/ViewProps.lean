import Verif.Numpy.ViewLemmas
import Verif.Numpy.PermLemmas
/-!
# C63: views

Full statement: indexing with integers, slices, `None` and `...`, and exchanging axes, give a view whose elements are exactly the elements that Python's rules select, at the same
place in memory, with the shape those rules give; an integer out of range is an `IndexError`, a zero step a `ValueError`, a repeated axis a `ValueError`, an axis out of range an
`AxisError`.  It fails for `transpose(i)` with one axis of several (`c63_violation_one_axis`: a part of the array is dropped) and for `transpose([…])` with a list, where an axis
may be repeated in negative form (`c63_violation_list`); everything else is proved.
-/
namespace Codon.Numpy
open Codon.SliceSpec
variable {V : Type}

/-- Basic indexing. -/
theorem c63_index (h : Heap V) (a : Arr) (hwf : a.WF h) (idx : List Idx) (h1 : Idx.num .ellipsis idx ≤ 1) (h2 : used idx ≤ a.shape.length) (hp : Proper idx a.shape) :
    ∃ b, a.view idx = .ok b ∧ b.WF h ∧ b.shape = resShape idx a.shape ∧ (∀ c i, Sel idx a.shape c i → Valid c b.shape ∧ Valid i a.shape ∧ b.addr c = a.addr i) ∧
      ∀ c, Valid c b.shape → ∃ i, Sel idx a.shape c i := by
  obtain ⟨E, e1, e2, e3, e4, e5, _, _, e6⟩ := view_expand a idx hwf.len hwf.nonneg h1 h2
  obtain ⟨axes, g1, g2⟩ := view_core E a.shape a.strides e1 e2 hwf.len hwf.nonneg
  rcases g2 with ⟨m, hm, _, hs⟩ | ⟨e, _, hn, _⟩
  · rw [e6, g1]
    simp only [hm]
    have hsel : ∀ c i, Sel idx a.shape c i → Valid c ((m.filter (·.keep)).map (·.len)) ∧ Valid i a.shape ∧
        Arr.addr ⟨(m.filter (·.keep)).map (·.len), (m.filter (·.keep)).map fun t => t.step * t.stride, a.blk, a.off + baseOffset m⟩ c = a.addr i := by
      intro c i hsel
      obtain ⟨v1, v2, v3⟩ := hs.2.1 c i ((e3 c i).mp hsel)
      refine ⟨v2, v1, ?_⟩
      simp only [Arr.addr, Prod.mk.injEq, true_and]
      rw [← v3]; ring
    have hsur : ∀ c, Valid c ((m.filter (·.keep)).map (·.len)) → ∃ i, Sel idx a.shape c i := by
      intro c hc
      obtain ⟨i, hi⟩ := hs.2.2 c hc
      exact ⟨i, (e3 c i).mpr hi⟩
    refine ⟨_, rfl, ⟨by simp, ?_, ?_, hwf.block⟩, ?_, hsel, hsur⟩
    · intro n hn
      obtain ⟨t, ht, rfl⟩ := List.mem_map.mp hn
      exact hs.1 t (List.mem_filter.mp ht).1
    · intro c hc
      obtain ⟨i, hi⟩ := hsur c hc
      obtain ⟨_, v1, v2⟩ := hsel c i hi
      obtain ⟨v, hv⟩ := hwf.alloc i v1
      refine ⟨v, ?_⟩
      simp only [Arr.addr, Prod.mk.injEq, true_and] at v2
      simp only [Arr.read, v2]; exact hv
    · rw [e5]; exact shape_core E a.shape a.strides axes m e1 e2 hwf.len hwf.nonneg g1 hm
  · exact absurd (e4.mp hp) hn

/-- Errors at run time: `IndexError` for an integer, `ValueError` for a zero step. -/
theorem c63_index_error (h : Heap V) (a : Arr) (hwf : a.WF h) (idx : List Idx) (h1 : Idx.num .ellipsis idx ≤ 1) (h2 : used idx ≤ a.shape.length) (hp : ¬ Proper idx a.shape) :
    (a.view idx = .error .index ∧ ∃ i, .int i ∈ idx) ∨ (a.view idx = .error .value ∧ ∃ b s, .slice b s (some 0) ∈ idx) := by
  obtain ⟨E, e1, e2, e3, e4, e5, e7, e8, e6⟩ := view_expand a idx hwf.len hwf.nonneg h1 h2
  obtain ⟨axes, g1, g2⟩ := view_core E a.shape a.strides e1 e2 hwf.len hwf.nonneg
  rcases g2 with ⟨m, hm, hpp, hs⟩ | ⟨e, hm, hn, hor⟩
  · exact absurd (e4.mpr hpp) hp
  · rw [e6, g1]
    simp only [hm]
    rcases hor with ⟨rfl, i, hi⟩ | ⟨rfl, b, s, hi⟩
    · exact Or.inl ⟨rfl, i, e7 i hi⟩
    · exact Or.inr ⟨rfl, b, s, e8 b s hi⟩

/-- Two `...`, or more indices than axes, are refused by the compiler. -/
theorem c63_index_compile (a : Arr) (idx : List Idx) (hbad : 1 < Idx.num .ellipsis idx ∨ a.shape.length < used idx) : a.view idx = .error .compile := by
  have hnum := used_num idx
  simp only [Arr.view]
  rcases hbad with hb | hb
  · rw [if_pos hb]
  · split
    · rfl
    · rw [if_pos (by omega)]

/-- Two elements of a view without repetition of memory are at different places exactly if they are different elements of the array. -/
theorem c63_index_injective (idx : List Idx) : ∀ (sh c c' i : List Int), (∀ b s k, .slice b s k ∈ idx → k ≠ some 0) → (∀ n ∈ sh, 0 ≤ n) →
    Sel idx sh c i → Sel idx sh c' i → c = c' := by
  induction idx with
  | nil => intro sh c c' i _ _ h1 h2; rw [Sel] at h1 h2; rw [h1.2, h2.2]
  | cons x r ih =>
    intro sh c c' i hk hn h1 h2
    have hk' : ∀ b s k, .slice b s k ∈ r → k ≠ some 0 := fun b s k hm => hk b s k (by simp [hm])
    cases x with
    | int j =>
      cases sh with
      | nil => simp [Sel] at h1
      | cons n sh =>
        cases i with
        | nil => simp [Sel] at h1
        | cons q i =>
          rw [Sel] at h1 h2
          exact ih sh c c' i hk' (fun x hx => hn x (by simp [hx])) h1.2 h2.2
    | slice b s k =>
      cases sh with
      | nil => simp [Sel] at h1
      | cons n sh =>
        cases i with
        | nil => cases c <;> simp [Sel] at h1
        | cons q i =>
          cases c with
          | nil => simp [Sel] at h1
          | cons t c =>
            cases c' with
            | nil => simp [Sel] at h2
            | cons t' c' =>
              rw [Sel] at h1 h2
              rw [ih sh c c' i hk' (fun x hx => hn x (by simp [hx])) h1.2 h2.2]
              have hnd : (positions n.toNat b s (k.getD 1)).Nodup := by
                have : ((List.range n.toNat).filter fun x => decide (Selected n.toNat b s (k.getD 1) x)).Nodup := List.nodup_range.filter _
                simp only [positions]
                split
                · exact this
                · exact List.nodup_reverse.mpr this
              obtain ⟨l1, p1⟩ := List.getElem?_eq_some_iff.mp h1.1.2.2
              obtain ⟨l2, p2⟩ := List.getElem?_eq_some_iff.mp h2.1.2.2
              have := (hnd.getElem_inj_iff (hi := l1) (hj := l2)).mp (by rw [p1, p2])
              have h3 := h1.1.1
              have h4 := h2.1.1
              congr 1; omega
    | newaxis =>
      cases c with
      | nil => simp [Sel] at h1
      | cons t c =>
        cases c' with
        | nil => simp [Sel] at h2
        | cons t' c' =>
          rw [Sel] at h1 h2
          rw [h1.1, h2.1, ih sh c c' i hk' hn h1.2 h2.2]
    | ellipsis =>
      rw [Sel] at h1 h2
      obtain ⟨m, a1, a2, a3, a4⟩ := h1
      obtain ⟨m', b1, b2, b3, b4⟩ := h2
      have : m' = m := by omega
      subst this
      have e1 := ih _ _ _ _ hk' (fun x hx => hn x (List.mem_of_mem_drop hx)) a4 b4
      rw [← List.take_append_drop m' c, ← List.take_append_drop m' c', a3, b3, e1]

/-! ### Exchanging axes -/

/-- `transpose()` reverses the axes. -/
theorem c63_transpose (h : Heap V) (a : Arr) (hwf : a.WF h) :
    a.transpose.WF h ∧ a.transpose.shape = a.shape.reverse ∧ ∀ c, Valid c a.shape → Valid c.reverse a.transpose.shape ∧ a.transpose.addr c.reverse = a.addr c := by
  have key : ∀ c, Valid c a.shape → a.transpose.addr c.reverse = a.addr c := by
    intro c hc
    simp only [Arr.addr, Arr.transpose]
    rw [ptrOff_reverse c a.strides (by rw [Valid.length hc, hwf.len])]
  refine ⟨⟨by simp [Arr.transpose, hwf.len], fun n hn => hwf.nonneg n (by simpa [Arr.transpose] using hn), fun c hc => ?_, hwf.block⟩, rfl,
    fun c hc => ⟨(valid_reverse c a.shape).mpr hc, key c hc⟩⟩
  have hv : Valid c.reverse a.shape := by
    have := (valid_reverse c.reverse a.shape).mp (by rw [List.reverse_reverse]; exact hc)
    exact this
  obtain ⟨v, hv'⟩ := hwf.alloc _ hv
  have := key _ hv
  rw [List.reverse_reverse] at this
  simp only [Arr.addr, Prod.mk.injEq] at this
  exact ⟨v, by simp only [Arr.read]; rw [this.2]; exact hv'⟩

theorem pick_perm (ax : List Nat) (l : List Int) (h : ∀ k ∈ ax, k < l.length) : pick l (ax.map fun k : Nat => (k : Int)) = some (ax.map fun j => l.getD j 0) := by
  induction ax with
  | nil => rfl
  | cons k ax ih =>
    have hk := h k (by simp)
    simp only [pick] at ih ⊢
    rw [List.map_cons, List.mapM_cons, ih fun j hj => h j (by simp [hj])]
    simp [List.getElem?_eq_getElem hk, List.getD_eq_getElem?_getD]

/-- `b` is `a` with the axes in the order `ax`. -/
def Permuted (h : Heap V) (a b : Arr) (ax : List Nat) : Prop :=
  b.WF h ∧ b.shape = ax.map (fun j => a.shape.getD j 0) ∧
  (∀ c, Valid c a.shape → Valid (ax.map fun j => c.getD j 0) b.shape ∧ b.addr (ax.map fun j => c.getD j 0) = a.addr c) ∧
  ∀ d, Valid d b.shape → ∃ c, Valid c a.shape ∧ d = ax.map fun j => c.getD j 0

theorem permuted_of (h : Heap V) (a : Arr) (hwf : a.WF h) (ax : List Nat) (hp : IsPerm ax a.shape.length) :
    Permuted h a ⟨ax.map fun j => a.shape.getD j 0, ax.map fun j => a.strides.getD j 0, a.blk, a.off⟩ ax := by
  have key : ∀ c, Valid c a.shape → Valid (ax.map fun j => c.getD j 0) (ax.map fun j => a.shape.getD j 0) ∧
      Arr.addr ⟨ax.map fun j => a.shape.getD j 0, ax.map fun j => a.strides.getD j 0, a.blk, a.off⟩ (ax.map fun j => c.getD j 0) = a.addr c := by
    intro c hc
    refine ⟨valid_perm ax c a.shape hp hc, ?_⟩
    have hl := Valid.length hc
    simp only [Arr.addr]
    rw [ptrOff_perm ax c a.strides (by rw [hl]; exact hp) (by rw [hl, hwf.len])]
  have hinv : ∀ d, Valid d (ax.map fun j => a.shape.getD j 0) → ∃ c, Valid c a.shape ∧ d = ax.map fun j => c.getD j 0 := by
    intro d hd
    have hlen : ax.length = a.shape.length := by have := hp.length_eq; simpa using this
    obtain ⟨c, hc, rfl⟩ := perm_inverse ax d a.shape.length hp (by rw [Valid.length hd]; simp [hlen])
    exact ⟨c, valid_perm_inv ax c a.shape hp hc hd, rfl⟩
  refine ⟨⟨by simp, ?_, ?_, hwf.block⟩, rfl, key, hinv⟩
  · intro n hn
    obtain ⟨j, hj, rfl⟩ := List.mem_map.mp hn
    have hj' := List.mem_range.mp (hp.mem_iff.mp hj)
    rw [List.getD_eq_getElem?_getD, List.getElem?_eq_getElem hj', Option.getD_some]
    exact hwf.nonneg _ (List.getElem_mem hj')
  · intro d hd
    obtain ⟨c, hc, rfl⟩ := hinv d hd
    obtain ⟨v, hv⟩ := hwf.alloc c hc
    have := (key c hc).2
    simp only [Arr.addr, Prod.mk.injEq, true_and] at this
    exact ⟨v, by simp only [Arr.read]; rw [this]; exact hv⟩

theorem hasDuplicate_iff (t : List Int) : hasDuplicate t = true ↔ ¬ t.Nodup := by
  simp only [hasDuplicate, List.any_eq_true, List.mem_range, beq_iff_eq, List.nodup_iff_getElem?_ne_getElem?]
  push Not
  constructor
  · rintro ⟨i, hi, j, hj, he⟩
    refine ⟨j, i, hj, hi, ?_⟩
    rw [List.getElem?_eq_getElem hi, List.getElem?_eq_getElem (by omega)]
    rw [List.getD_eq_getElem?_getD, List.getD_eq_getElem?_getD, List.getElem?_eq_getElem hi, List.getElem?_eq_getElem (show j < t.length by omega)] at he
    simpa using he.symm
  · rintro ⟨j, i, hj, hi, he⟩
    exact ⟨i, hi, j, hj, by rw [List.getD_eq_getElem?_getD, List.getD_eq_getElem?_getD, he]⟩

theorem mapM_norm (axes : List Int) (n : Int) (h : ∀ x ∈ axes, -n ≤ x ∧ x < n) : axes.mapM (normAxis · n) = .ok (axes.map (rel n)) := by
  induction axes with
  | nil => rfl
  | cons x axes ih =>
    have hx := h x (by simp)
    rw [List.mapM_cons, ih fun y hy => h y (by simp [hy])]
    have : normAxis x n = .ok (rel n x) := by
      simp only [normAxis, rel]; rw [if_neg (by omega)]
    rw [this]; rfl

theorem mapM_norm_error (axes : List Int) (n : Int) (h : ∃ x ∈ axes, ¬ (-n ≤ x ∧ x < n)) : axes.mapM (normAxis · n) = .error .axis := by
  induction axes with
  | nil => simp at h
  | cons x axes ih =>
    rw [List.mapM_cons]
    by_cases hx : -n ≤ x ∧ x < n
    · have h1 : normAxis x n = .ok (rel n x) := by
        simp only [normAxis, rel]; rw [if_neg (by omega)]
      have h2 := ih (by
        obtain ⟨y, hy, hy'⟩ := h
        rcases List.mem_cons.mp hy with rfl | hy
        · exact absurd hx hy'
        · exact ⟨y, hy, hy'⟩)
      rw [h1, h2]; rfl
    · have h1 : normAxis x n = .error .axis := by
        simp only [normAxis]; rw [if_pos (by omega)]
      rw [h1]; rfl

theorem axes_nat (axes : List Int) (h : ∀ x ∈ axes, 0 ≤ x) : axes = (axes.map Int.toNat).map fun k : Nat => (k : Int) := by
  induction axes with
  | nil => rfl
  | cons x axes ih =>
    have hx := h x (by simp)
    rw [List.map_cons, List.map_cons, ← ih fun y hy => h y (by simp [hy]), Int.toNat_of_nonneg hx]

/-- A list of axes, counted from the end if negative, that names every axis once. -/
def AxesOk (axes : List Int) (n : Nat) : Prop := axes.length = n ∧ (∀ x ∈ axes, -(n : Int) ≤ x ∧ x < n) ∧ (axes.map (rel n)).Nodup

theorem axes_perm (axes : List Int) (n : Nat) (h : AxesOk axes n) : IsPerm ((axes.map (rel n)).map Int.toNat) n ∧ ∀ x ∈ axes.map (rel (n : Int)), 0 ≤ x := by
  have hpos : ∀ x ∈ axes.map (rel (n : Int)), 0 ≤ x ∧ x < n := by
    intro x hx
    obtain ⟨y, hy, rfl⟩ := List.mem_map.mp hx
    have := h.2.1 y hy
    simp only [rel]; split <;> omega
  refine ⟨isPerm_of _ n ?_ ?_ ?_, fun x hx => (hpos x hx).1⟩
  · refine List.Nodup.map_on ?_ h.2.2
    intro x hx y hy he
    have h1 := hpos x hx
    have h2 := hpos y hy
    omega
  · intro k hk
    obtain ⟨x, hx, rfl⟩ := List.mem_map.mp hk
    have := hpos x hx
    omega
  · simp [h.1]

theorem permute_ok (h : Heap V) (a : Arr) (hwf : a.WF h) (axes : List Int) (hok : AxesOk axes a.shape.length) :
    ∃ b, a.permute (axes.map (rel a.shape.length)) = .ok b ∧ Permuted h a b ((axes.map (rel a.shape.length)).map Int.toNat) := by
  obtain ⟨hp, hpos⟩ := axes_perm axes _ hok
  have hlt : ∀ k ∈ (axes.map (rel a.shape.length)).map Int.toNat, k < a.shape.length := fun k hk => List.mem_range.mp (hp.mem_iff.mp hk)
  refine ⟨_, ?_, permuted_of h a hwf _ hp⟩
  rw [Arr.permute, axes_nat _ hpos, pick_perm _ _ hlt, pick_perm _ _ (by rw [← hwf.len]; exact hlt), ← axes_nat _ hpos]

/-- `transpose(i, j, …)` with every axis. -/
theorem c63_transpose_axes_partial (h : Heap V) (a : Arr) (hwf : a.WF h) (axes : List Int) (hne : axes ≠ []) (hlen : axes.length = a.shape.length) :
    (AxesOk axes a.shape.length → ∃ b, a.transposeAxes axes = .ok b ∧ Permuted h a b ((axes.map (rel a.shape.length)).map Int.toNat)) ∧
    ((∃ x ∈ axes, ¬ (-(a.shape.length : Int) ≤ x ∧ x < a.shape.length)) → a.transposeAxes axes = .error .axis) ∧
    ((∀ x ∈ axes, -(a.shape.length : Int) ≤ x ∧ x < a.shape.length) → ¬ (axes.map (rel a.shape.length)).Nodup → a.transposeAxes axes = .error .value) := by
  have h0 : axes.length ≠ 0 := fun hh => hne (List.length_eq_zero_iff.mp hh)
  refine ⟨fun hok => ?_, fun hbad => ?_, fun hr hd => ?_⟩
  · obtain ⟨b, hb, hp⟩ := permute_ok h a hwf axes hok
    refine ⟨b, ?_, hp⟩
    rw [Arr.transposeAxes, if_neg h0, if_neg (by omega), mapM_norm axes _ hok.2.1]
    dsimp only
    rw [if_neg (by rw [hasDuplicate_iff]; exact fun hh => hh hok.2.2), hb]
  · rw [Arr.transposeAxes, if_neg h0, if_neg (by omega), mapM_norm_error axes _ hbad]
  · rw [Arr.transposeAxes, if_neg h0, if_neg (by omega), mapM_norm axes _ hr]
    dsimp only
    rw [if_pos ((hasDuplicate_iff _).mpr hd)]

/-- `transpose([i, j, …])` with a list that names every axis once. -/
theorem c63_transpose_list_partial (h : Heap V) (a : Arr) (hwf : a.WF h) (axes : List Int) (hok : AxesOk axes a.shape.length) :
    ∃ b, a.transposeList axes = .ok b ∧ Permuted h a b ((axes.map (rel a.shape.length)).map Int.toNat) := by
  obtain ⟨b, hb, hp⟩ := permute_ok h a hwf axes hok
  refine ⟨b, ?_, hp⟩
  rw [Arr.transposeList, if_neg (by simp [hok.1]), if_neg]
  · exact hb
  · rw [hasDuplicate_iff]; exact fun hh => hh (List.Nodup.of_map _ hok.2.2)

theorem swap_eq (l : List Int) (i j : Nat) (hi : i < l.length) (hj : j < l.length) : swap l i j = exchange i j l := by
  apply List.ext_getElem
  · simp [swap, exchange]
  · intro k h1 h2
    have hk : k < l.length := by simpa [swap] using h1
    have hl : l[k] = l.getD k 0 := by rw [List.getD_eq_getElem?_getD, List.getElem?_eq_getElem hk, Option.getD_some]
    simp only [swap, exchange, List.getElem_set, List.getElem_map, List.getElem_range]
    by_cases e1 : k = i
    · subst e1
      by_cases e2 : k = j
      · subst e2; simp
      · rw [if_neg (by omega), if_pos rfl, if_pos rfl]
    · by_cases e2 : k = j
      · subst e2; rw [if_pos rfl, if_neg e1, if_pos rfl]
      · rw [if_neg (by omega), if_neg (by omega), if_neg e1, if_neg e2, hl]

/-- `swapaxes`. -/
theorem c63_swapaxes (h : Heap V) (a : Arr) (hwf : a.WF h) (i j : Int) :
    ((-(a.shape.length : Int) ≤ i ∧ i < a.shape.length) → (-(a.shape.length : Int) ≤ j ∧ j < a.shape.length) →
      ∃ b, a.swapaxes i j = .ok b ∧ b.WF h ∧ b.shape = exchange (rel a.shape.length i).toNat (rel a.shape.length j).toNat a.shape ∧
        ∀ c, Valid c a.shape → Valid (exchange (rel a.shape.length i).toNat (rel a.shape.length j).toNat c) b.shape ∧
          b.addr (exchange (rel a.shape.length i).toNat (rel a.shape.length j).toNat c) = a.addr c) ∧
    (¬ ((-(a.shape.length : Int) ≤ i ∧ i < a.shape.length) ∧ (-(a.shape.length : Int) ≤ j ∧ j < a.shape.length)) → a.swapaxes i j = .error .axis) := by
  constructor
  · intro hi hj
    have n1 : normAxis i a.shape.length = .ok (rel a.shape.length i) := by simp only [normAxis, rel]; rw [if_neg (by omega)]
    have n2 : normAxis j a.shape.length = .ok (rel a.shape.length j) := by simp only [normAxis, rel]; rw [if_neg (by omega)]
    have r1 : (rel a.shape.length i).toNat < a.shape.length := by simp only [rel]; split <;> omega
    have r2 : (rel a.shape.length j).toNat < a.shape.length := by simp only [rel]; split <;> omega
    have hsw : a.swapaxes i j = .ok ⟨exchange (rel a.shape.length i).toNat (rel a.shape.length j).toNat a.shape,
        exchange (rel a.shape.length i).toNat (rel a.shape.length j).toNat a.strides, a.blk, a.off⟩ := by
      simp only [Arr.swapaxes, n1, n2]
      rw [swap_eq _ _ _ r1 r2, swap_eq _ _ _ (hwf.len ▸ r1) (hwf.len ▸ r2)]
    generalize (rel a.shape.length i).toNat = p at *
    generalize (rel a.shape.length j).toNat = q at *
    have hperm : IsPerm ((List.range a.shape.length).map fun k => if k = p then q else if k = q then p else k) a.shape.length := by
      refine isPerm_of _ _ (List.nodup_range.map ?_) ?_ (by simp)
      · intro x y hxy
        dsimp only at hxy
        split at hxy <;> split at hxy <;> (try split at hxy) <;> (try split at hxy) <;> omega
      · intro k hk
        obtain ⟨x, hx, rfl⟩ := List.mem_map.mp hk
        have := List.mem_range.mp hx
        split
        · exact r2
        · split
          · exact r1
          · exact this
    have hex : ∀ l : List Int, l.length = a.shape.length →
        exchange p q l = ((List.range a.shape.length).map fun k => if k = p then q else if k = q then p else k).map fun j => l.getD j 0 := by
      intro l hl
      rw [exchange, hl, List.map_map]; rfl
    obtain ⟨w1, w2, w3, _⟩ := permuted_of h a hwf _ hperm
    rw [← hex a.shape rfl, ← hex a.strides hwf.len.symm] at w1 w3
    refine ⟨_, hsw, w1, rfl, fun c hc => ?_⟩
    rw [hex c (Valid.length hc)]
    exact w3 c hc
  · intro hbad
    rw [Arr.swapaxes]
    by_cases hi : -(a.shape.length : Int) ≤ i ∧ i < a.shape.length
    · have n1 : normAxis i a.shape.length = .ok (rel a.shape.length i) := by simp only [normAxis, rel]; rw [if_neg (by omega)]
      have n2 : normAxis j a.shape.length = .error .axis := by simp only [normAxis]; rw [if_pos (by omega)]
      rw [n1]; dsimp only; rw [n2]
    · have n1 : normAxis i a.shape.length = .error .axis := by simp only [normAxis]; rw [if_pos (by omega)]
      rw [n1]

/-! ### Examples and violations -/

/-- A heap in which every cell holds its offset. -/
def cells : Heap Int := ⟨fun _ o => some o, 1⟩

/-- A 2 × 3 × 4 array. -/
def box : Arr := ⟨[2, 3, 4], [12, 4, 1], 0, 0⟩

example : box.WF cells := ⟨rfl, by decide, fun _ _ => ⟨_, rfl⟩, by decide⟩

example : box.view [.int (-1), .ellipsis, .slice none none (some (-2)), .newaxis] = .ok ⟨[3, 2, 1], [4, -2, 0], 0, 15⟩ := by rfl
example : Proper [.int (-1), .ellipsis, .slice none none (some (-2)), .newaxis] box.shape := ⟨by decide, by simp [Proper, used]⟩
example : Sel [.int (-1), .ellipsis, .slice none none (some (-2)), .newaxis] box.shape [2, 1, 0] [1, 2, 1] :=
  ⟨⟨rfl, by decide⟩, 1, rfl, by simp [Valid], rfl, ⟨by decide, by decide, by decide⟩, rfl, by simp [Sel, Valid]⟩
example : AxesOk [2, 0, -2] 3 := ⟨rfl, by decide, by decide⟩

/-- `a.transpose(0)` on an array with two dimensions: the second one is dropped instead of an error. -/
theorem c63_violation_one_axis : Arr.WF ⟨[2, 3], [3, 1], 0, 0⟩ cells ∧ Arr.transposeAxes ⟨[2, 3], [3, 1], 0, 0⟩ [0] = .ok ⟨[2], [3], 0, 0⟩ :=
  ⟨⟨rfl, by decide, fun _ _ => ⟨_, rfl⟩, by decide⟩, rfl⟩

/-- `a.transpose([0, -2])` names axis 0 twice and is accepted: both axes of the result are axis 0. -/
theorem c63_violation_list : ¬ AxesOk [0, -2] 2 ∧ Arr.transposeList ⟨[2, 3], [3, 1], 0, 0⟩ [0, -2] = .ok ⟨[2, 2], [3, 3], 0, 0⟩ :=
  ⟨fun hh => absurd hh.2.2 (by decide), rfl⟩

end Codon.Numpy
