import Verif.NpRed.Lemmas
/-!
# C88: reductions of NumPy arrays
-/
namespace Codon.NpRed
open Codon.Numpy Codon.NpLine Codon.SliceSpec
variable {V S O T : Type}

/-! ### Arrays for the examples -/

/-- Memory with one array of 8-byte elements. -/
def one8 (l : List Int) : Heap Int := (⟨fun _ _ => none, 0⟩ : Heap Int).new 8 l.length fun o => l.getD (o / 8).toNat 0
/-- No memory allocated. -/
def none8 {α : Type} : Heap α := ⟨fun _ _ => none, 0⟩
/-- The shape and the elements of an answer. -/
def seen {α : Type} : Except Fail (Ans α) → Option (List Int × List (Option α))
  | .ok (.num v) => some ([], [some v])
  | .ok (.arr h a) => some (a.shape, (multirange a.shape).map (a.read h))
  | .error _ => none
/-- The error of an answer. -/
def failed {α : Type} : Except Fail (Ans α) → Option Fail
  | .ok _ => none
  | .error e => some e

/-- `array([[1, 5, 2], [7, 0, 4]])`. -/
def exArr : Arr := ⟨[2, 3], stridesOf [2, 3] false 8, 0, 0⟩
/-- The same elements in memory, in the order of columns: `array([[1, 2, 0], [5, 7, 4]], order='F')`. -/
def exF : Arr := ⟨[2, 3], stridesOf [2, 3] true 8, 0, 0⟩
def exMem : Heap Int := one8 [1, 5, 2, 7, 0, 4]

theorem exArr_wf : exArr.WF exMem := new_wf none8 [2, 3] _ 8 _ (by omega) (by decide) (packed_stridesOf [2, 3] false 8 (by omega) (by decide))
theorem exF_wf : exF.WF exMem := new_wf none8 [2, 3] _ 8 _ (by omega) (by decide) (packed_stridesOf [2, 3] true 8 (by omega) (by decide))
theorem intLinear : Linear fun x y : Int => decide (x < y) :=
  ⟨fun x => by simp, fun x y z h1 h2 => by simp only [decide_eq_true_eq] at *; omega, fun x y h1 h2 => by simp only [decide_eq_false_iff_not] at *; omega⟩

/-! ### The argument `axis` -/

/-- An `axis` that names no axes is an error: `AxisError` if it is out of range, `ValueError` if an axis is named twice. -/
theorem c88_axis_error (R : Redux V S O) (w wo : Int) (a : Arr) (h : Heap V) (wh : Option (Arr × Heap Bool)) (ho : Heap O) (junk : Int → O) :
    (∀ i, (¬ ∃ ax, AxesOf a.shape.length (.one i) ax) → reduce R w wo a h (.one i) wh ho junk = .error .axis) ∧
    (∀ l, (∃ i ∈ l, ¬ ∃ k, Names a.shape.length i k) → reduce R w wo a h (.many l) wh ho junk = .error .axis) ∧
    ∀ l ax, List.Forall₂ (Names a.shape.length) l ax → ¬ ax.Nodup → reduce R w wo a h (.many l) wh ho junk = .error .value := by
  refine ⟨fun i hi => ?_, fun l hl => ?_, fun l ax hl hd => ?_⟩
  · unfold reduce
    cases hs : a.shape with
    | nil =>
      simp only []
      rw [if_pos]
      by_contra hh
      exact hi ⟨[], Or.inl ⟨by rw [hs]; rfl, by omega, rfl⟩⟩
    | cons x s =>
      have : axes (x :: s).length (.one i) = .error .axis := by
        simp only [axes]
        rw [if_pos]
        by_contra hh
        exact hi ⟨[_], Or.inr ⟨_, (names_rel _ _ _).mpr ⟨by rw [hs]; omega, rfl⟩, rfl⟩⟩
      simp only [this]
      rfl
  · obtain ⟨i, hi, hn⟩ := hl
    have : axes a.shape.length (.many l) = .error .axis := by
      simp only [axes, mapM_norm_error l a.shape.length ⟨i, hi, fun hh => hn ⟨_, (names_rel _ _ _).mpr ⟨hh, rfl⟩⟩⟩]
    unfold reduce
    cases hs : a.shape with
    | nil => rw [hs] at this; simp only [this]; rfl
    | cons x s => rw [hs] at this; simp only [this]; rfl
  · obtain ⟨h1, h2⟩ := (names_many _ _ _).mp hl
    have : axes a.shape.length (.many l) = .error .value := by
      simp only [axes, mapM_norm l _ h1]
      rw [if_pos]
      rw [hasDuplicate_iff, ← rel_nodup _ _ h1, h2]
      exact hd
    unfold reduce
    cases hs : a.shape with
    | nil => rw [hs] at this; simp only [this]; rfl
    | cons x s => rw [hs] at this; simp only [this]; rfl

example : (failed (reduce (foldRedux (· + ·) 0 id 0) 8 8 exArr exMem (.one 2) none none8 fun _ => 0),
    failed (reduce (foldRedux (· + ·) 0 id 0) 8 8 exArr exMem (.many [0, -3]) none none8 fun _ => 0),
    failed (reduce (foldRedux (· + ·) 0 id 0) 8 8 exArr exMem (.many [1, -1]) none none8 fun _ => 0)) = (some .axis, some .axis, some .value) := by decide +kernel

/-! ### `sum`, `prod` -/

/-- `sum`: every element of the result is the initial value plus the sum of exactly the elements that belong to it, whatever the memory layout of the array and of the mask. -/
theorem c88_sum [AddCommMonoid T] (cast : V → T) (initial : T) (w wo : Int) (hwo : 0 < wo) (a : Arr) (h : Heap V) (hwf : a.WF h) (axis : Axis) (ax : List Nat)
    (hax : AxesOf a.shape.length axis ax) (wh : Option (Arr × Heap Bool)) (hm : MaskOk a wh) (ho : Heap T) (junk : Int → T) :
    Answer (fun vs o => o = initial + (vs.map cast).sum) h a wh ax ho (reduce (foldRedux (· + ·) 0 cast initial) w wo a h axis wh ho junk) := by
  have hsum : ∀ (vs : List V) (t : T), vs.foldl (fun t v => t + cast v) t = t + (vs.map cast).sum := by
    intro vs
    induction vs with
    | nil => intro t; simp
    | cons v vs ih => intro t; rw [List.foldl_cons, ih, List.map_cons, List.sum_cons, add_assoc]
  refine answer_imp (fun vs o h => h.trans (hsum vs initial)) (answer_ok _ _ _ (fold_law (· + ·) 0 cast initial add_assoc add_zero) w wo hwo a h hwf axis ax hax wh hm ho junk
    (fun _ => rfl) (fun _ _ _ _ => trivial) (Or.inl (fold_sym (· + ·) cast initial add_assoc add_comm)))

/-- Along each axis, over a tuple of axes, over all, and with a mask that is stored with its rows reversed. -/
example : AxesOf exArr.shape.length (.one (-1)) [1] ∧ exArr.WF exMem := ⟨Or.inr ⟨1, ⟨by decide, by decide⟩, rfl⟩, exArr_wf⟩
example : seen (reduce (foldRedux (· + ·) 0 id 0) 8 8 exArr exMem (.one 0) none none8 fun _ => 77) = some ([3], [some 8, some 5, some 6]) := by decide +kernel
example : seen (reduce (foldRedux (· + ·) 0 id 0) 8 8 exArr exMem (.one (-1)) none none8 fun _ => 77) = some ([2], [some 8, some 11]) := by decide +kernel
example : seen (reduce (foldRedux (· + ·) 0 id 10) 8 8 exF exMem (.many [1, 0]) none none8 fun _ => 77) = some ([], [some 29]) := by decide +kernel
example : seen (reduce (foldRedux (· + ·) 0 id 10) 8 8 exF exMem (.one 1) none none8 fun _ => 77) = some ([2], [some 13, some 26]) := by decide +kernel
example : seen (reduce (foldRedux (· + ·) 0 id 0) 8 8 exArr exMem (.one 1) (some (⟨[2, 3], [-3, 1], 0, 3⟩, (⟨fun _ _ => none, 0⟩ : Heap Bool).new 1 6 fun o => o % 2 == 0)) none8 fun _ => 77) =
    some ([2], [some 5, some 11]) := by decide +kernel

/-- `prod`: likewise for the product. -/
theorem c88_prod [CommMonoid T] (cast : V → T) (initial : T) (w wo : Int) (hwo : 0 < wo) (a : Arr) (h : Heap V) (hwf : a.WF h) (axis : Axis) (ax : List Nat)
    (hax : AxesOf a.shape.length axis ax) (wh : Option (Arr × Heap Bool)) (hm : MaskOk a wh) (ho : Heap T) (junk : Int → T) :
    Answer (fun vs o => o = initial * (vs.map cast).prod) h a wh ax ho (reduce (foldRedux (· * ·) 1 cast initial) w wo a h axis wh ho junk) := by
  have hprod : ∀ (vs : List V) (t : T), vs.foldl (fun t v => t * cast v) t = t * (vs.map cast).prod := by
    intro vs
    induction vs with
    | nil => intro t; simp
    | cons v vs ih => intro t; rw [List.foldl_cons, ih, List.map_cons, List.prod_cons, mul_assoc]
  refine answer_imp (fun vs o h => h.trans (hprod vs initial)) (answer_ok _ _ _ (fold_law (· * ·) 1 cast initial mul_assoc mul_one) w wo hwo a h hwf axis ax hax wh hm ho junk
    (fun _ => rfl) (fun _ _ _ _ => trivial) (Or.inl (fold_sym (· * ·) cast initial mul_assoc mul_comm)))

example : (seen (reduce (foldRedux (· * ·) 1 id 1) 8 8 exArr exMem (.one 0) none none8 fun _ => 77), seen (reduce (foldRedux (· * ·) 1 id 2) 8 8 ⟨[3], [-8], 0, 24⟩ exMem .all none none8 fun _ => 77)) =
    (some ([3], [some 7, some 0, some 8]), some ([], [some 140])) := by decide +kernel

/-! ### `min`, `max`, `ptp` -/

/-- `min`, and `max` with the order reversed: every element of the result is among the elements that belong to it and the initial value, and none of them comes before it. -/
theorem c88_min (lt : V → V → Bool) (L : Linear lt) (initial : Option V) (w wo : Int) (hwo : 0 < wo) (a : Arr) (h : Heap V) (hwf : a.WF h) (axis : Axis) (ax : List Nat)
    (hax : AxesOf a.shape.length axis ax) (wh : Option (Arr × Heap Bool)) (hm : MaskOk a wh) (ho : Heap V) (junk : Int → V)
    (hd : initial ≠ none ∨ (count a.shape ≠ 0 ∧ (wh = none ∨ ∀ idx, Valid idx (outPart ax a.shape) → ∃ c, Valid c a.shape ∧ outPart ax c = idx ∧ Selected wh c))) :
    Answer (Best lt initial) h a wh ax ho (reduce (minRedux lt initial) w wo a h axis wh ho junk) := by
  refine answer_imp (fun vs o => (best_iff lt initial vs o).mp) (answer_ok _ _ _ (min_law lt L initial) w wo hwo a h hwf axis ax hax wh hm ho junk (fun hc => ?_) (fun idx vs hi hg => ?_)
    (Or.inl (min_sym lt initial)))
  · rcases hd with hd | hd
    · show initial.isNone = false
      cases initial with
      | none => exact absurd rfl hd
      | some _ => rfl
    · exact absurd hc hd.1
  · rcases hd with hd | ⟨hc, hd⟩
    · exact Or.inr hd
    · refine Or.inl (group_ne hg ?_)
      rcases hd with rfl | hd
      · obtain ⟨c, h1, h2⟩ := group_exists a h hwf hc ax idx hi
        exact ⟨c, h1, h2, fun m g he => by cases he⟩
      · exact hd idx hi

example : (seen (reduce (minRedux (fun x y : Int => decide (x < y)) none) 8 8 exArr exMem (.one 0) none none8 fun _ => 77),
    seen (reduce (minRedux (fun x y : Int => decide (y < x)) (some 4)) 8 8 exF exMem (.one (-1)) none none8 fun _ => 77),
    seen (reduce (minRedux (fun x y : Int => decide (y < x)) none) 8 8 exF exMem .all none none8 fun _ => 77)) =
    (some ([3], [some 1, some 0, some 2]), some ([2], [some 4, some 7]), some ([], [some 7])) := by decide +kernel

/-- Without an initial value, an array without elements is an error when reduced over all axes. -/
theorem c88_min_error (lt : V → V → Bool) (w wo : Int) (a : Arr) (h : Heap V) (wh : Option (Arr × Heap Bool)) (ho : Heap V) (junk : Int → V) (hc : count a.shape = 0) :
    reduce (minRedux lt none) w wo a h .all wh ho junk = .error .value := by
  rw [reduce_axes _ w wo a h .all (List.range a.shape.length) wh ho junk rfl, reduceAxes, if_pos (by simp), reduceAll, if_pos ⟨rfl, hc, rfl⟩]
  rfl

example : failed (reduce (minRedux (fun x y : Int => decide (x < y)) none) 8 8 ⟨[2, 0], [8, 8], 0, 0⟩ exMem .all none none8 fun _ => 77) = some .value := by decide +kernel

/-- `ptp`: the difference of the greatest and the least of the elements. -/
theorem c88_ptp (lt : V → V → Bool) (L : Linear lt) (sub : V → V → V) (w wo : Int) (hwo : 0 < wo) (a : Arr) (h : Heap V) (hwf : a.WF h) (axis : Axis) (ax : List Nat)
    (hax : AxesOf a.shape.length axis ax) (hc : count a.shape ≠ 0) (ho : Heap V) (junk : Int → V) :
    Answer (fun vs o => ∃ hi lo, Best (fun x y => lt y x) none vs hi ∧ Best lt none vs lo ∧ o = sub hi lo) h a none ax ho (reduce (ptpRedux lt sub) w wo a h axis none ho junk) := by
  refine answer_imp (fun vs o ⟨hi, lo, h1, h2, h3⟩ => ⟨hi, lo, (best_iff _ none vs hi).mp h1, (best_iff lt none vs lo).mp h2, h3⟩)
    (answer_ok _ _ _ (ptp_law lt L sub) w wo hwo a h hwf axis ax hax none (fun m g he => by cases he) ho junk (fun h0 => absurd h0 hc) (fun idx vs hi hg => ?_) (Or.inl (ptp_sym lt sub)))
  obtain ⟨c, h1, h2⟩ := group_exists a h hwf hc ax idx hi
  exact group_ne hg ⟨c, h1, h2, fun m g he => by cases he⟩

example : (seen (reduce (ptpRedux (fun x y : Int => decide (x < y)) (· - ·)) 8 8 exF exMem (.one 0) none none8 fun _ => 77),
    seen (reduce (ptpRedux (fun x y : Int => decide (x < y)) (· - ·)) 8 8 exArr exMem .all none none8 fun _ => 77)) =
    (some ([3], [some 4, some 5, some 4]), some ([], [some 7])) := by decide +kernel

/-! ### `any`, `all`, `count_nonzero` -/

/-- `any`: whether an element that belongs to it is true. -/
theorem c88_any (truth : V → Bool) (w wo : Int) (hwo : 0 < wo) (a : Arr) (h : Heap V) (hwf : a.WF h) (axis : Axis) (ax : List Nat)
    (hax : AxesOf a.shape.length axis ax) (wh : Option (Arr × Heap Bool)) (hm : MaskOk a wh) (ho : Heap Bool) (junk : Int → Bool) :
    Answer (fun vs o => (o = true ↔ ∃ x ∈ vs, truth x = true)) h a wh ax ho (reduce (anyRedux truth) w wo a h axis wh ho junk) :=
  answer_ok _ _ _ (any_law truth) w wo hwo a h hwf axis ax hax wh hm ho junk (fun _ => rfl) (fun _ _ _ _ => trivial) (Or.inl (sym_any truth))

/-- `all`: whether all elements that belong to it are true. -/
theorem c88_all (truth : V → Bool) (w wo : Int) (hwo : 0 < wo) (a : Arr) (h : Heap V) (hwf : a.WF h) (axis : Axis) (ax : List Nat)
    (hax : AxesOf a.shape.length axis ax) (wh : Option (Arr × Heap Bool)) (hm : MaskOk a wh) (ho : Heap Bool) (junk : Int → Bool) :
    Answer (fun vs o => (o = true ↔ ∀ x ∈ vs, truth x = true)) h a wh ax ho (reduce (allRedux truth) w wo a h axis wh ho junk) :=
  answer_ok _ _ _ (all_law truth) w wo hwo a h hwf axis ax hax wh hm ho junk (fun _ => rfl) (fun _ _ _ _ => trivial) (Or.inl (sym_all truth))

/-- `count_nonzero`: how many of the elements that belong to it are true. -/
theorem c88_count_nonzero (truth : V → Bool) (w wo : Int) (hwo : 0 < wo) (a : Arr) (h : Heap V) (hwf : a.WF h) (axis : Axis) (ax : List Nat)
    (hax : AxesOf a.shape.length axis ax) (wh : Option (Arr × Heap Bool)) (hm : MaskOk a wh) (ho : Heap Nat) (junk : Int → Nat) :
    Answer (fun vs o => o = (vs.filter truth).length) h a wh ax ho (reduce (nonzeroRedux truth) w wo a h axis wh ho junk) :=
  answer_ok _ _ _ (nonzero_law truth) w wo hwo a h hwf axis ax hax wh hm ho junk (fun _ => rfl) (fun _ _ _ _ => trivial) (Or.inl (sym_nonzero truth))

example : seen (reduce (anyRedux fun x : Int => x != 0) 8 1 exArr exMem (.one 0) none none8 fun _ => false) = some ([3], [some true, some true, some true]) := by decide +kernel
example : seen (reduce (allRedux fun x : Int => x != 0) 8 1 exArr exMem (.one 0) none none8 fun _ => false) = some ([3], [some true, some false, some true]) := by decide +kernel
example : seen (reduce (nonzeroRedux fun x : Int => x != 0) 8 8 exF exMem (.one 1) none none8 fun _ => 77) = some ([2], [some 2, some 3]) := by decide +kernel

/-! ### `argmin`, `argmax` -/

/-- `argmin(axis=k)`, and `argmax` with the order reversed: the position along the axis of the first of the least elements. -/
theorem c88_arg_axis (lt : V → V → Bool) (L : Linear lt) (w wo : Int) (hwo : 0 < wo) (a : Arr) (h : Heap V) (hwf : a.WF h) (i : Int) (k : Nat) (hk : Names a.shape.length i k)
    (hc : count a.shape ≠ 0) (ho : Heap Nat) (junk : Int → Nat) :
    Answer (FirstBest lt) h a none [k] ho (reduce (argRedux lt) w wo a h (.one i) none ho junk) := by
  refine answer_ok _ _ _ (arg_law lt L) w wo hwo a h hwf (.one i) [k] (Or.inr ⟨k, hk, rfl⟩) none (fun m g he => by cases he) ho junk (fun h0 => absurd h0 hc) (fun idx vs hi hg => ?_)
    (Or.inr ⟨rfl, rfl, rfl, straight_one w a k hk.1⟩)
  obtain ⟨c, h1, h2⟩ := group_exists a h hwf hc [k] idx hi
  exact group_ne hg ⟨c, h1, h2, fun m g he => by cases he⟩

example : (seen (reduce (argRedux fun x y : Int => decide (x < y)) 8 8 exF exMem (.one 0) none none8 fun _ => 77),
    seen (reduce (argRedux fun x y : Int => decide (y < x)) 8 8 exArr exMem (.one (-1)) none none8 fun _ => 77)) = (some ([3], [some 0, some 0, some 0]), some ([2], [some 1, some 0])) := by decide +kernel

/-- `argmin()` over all elements: the position in row-major order of the first of the least elements, for arrays with one dimension, C-contiguous ones, and those that are not contiguous and
whose strides do not grow.  Others are gone through in the order of the memory (`c88_violation_order`). -/
theorem c88_arg_all_partial (lt : V → V → Bool) (L : Linear lt) (w wo : Int) (hwo : 0 < wo) (a : Arr) (h : Heap V) (hwf : a.WF h) (hc : count a.shape ≠ 0)
    (hs : a.shape.length = 1 ∨ (a.contig w).1 = true ∨ ((a.contig w).2 = false ∧ a.shouldTranspose = false)) (ho : Heap Nat) (junk : Int → Nat) :
    ∃ i vs, reduce (argRedux lt) w wo a h .all none ho junk = .ok (.num i) ∧ Group h a none (List.range a.shape.length) [] vs ∧ FirstBest lt vs i := by
  have hax : AxesOf a.shape.length .all (List.range a.shape.length) := rfl
  obtain ⟨h1, h2⟩ := axesOf_ok _ _ _ hax
  have := answer_ok _ _ _ (arg_law lt L) w wo hwo a h hwf .all (List.range a.shape.length) hax none (fun m g he => by cases he) ho junk (fun h0 => absurd h0 hc) (fun idx vs hi hg => (by
    obtain ⟨c, h1, h2⟩ := group_exists a h hwf hc _ idx hi
    exact group_ne hg ⟨c, h1, h2, fun m g he => by cases he⟩))
    (Or.inr ⟨rfl, rfl, rfl, fun idx => by rw [(sub_all a h hwf _ h1 h2 (by simp) idx).1]; exact hs⟩)
  exact this.1 (by simp)

example : (exArr.contig 8).1 = true ∧ seen (reduce (argRedux fun x y : Int => decide (x < y)) 8 8 exArr exMem .all none none8 fun _ => 77) = some ([], [some 4]) := by decide +kernel

/-- `array([[1, 5], [2, 3]], order='F').argmax()` is 2, the position of the 5 in memory, not 1. -/
theorem c88_violation_order : let a : Arr := ⟨[2, 2], stridesOf [2, 2] true 8, 0, 0⟩
    (multirange a.shape).map (a.read (one8 [1, 2, 5, 3])) = [some 1, some 5, some 2, some 3] ∧
      seen (reduce (argRedux fun x y : Int => decide (y < x)) 8 8 a (one8 [1, 2, 5, 3]) .all none none8 fun _ => 77) = some ([], [some 2]) := by decide +kernel

/-- `empty((0, 3)).min(axis=1)` raises `ValueError`, although the result has no elements (in NumPy it is an empty array); so does `argmin`. -/
theorem c88_violation_empty : failed (reduce (minRedux (fun x y : Int => decide (x < y)) none) 8 8 ⟨[0, 3], [24, 8], 0, 0⟩ exMem (.one 1) none none8 fun _ => 77) = some .value ∧
    failed (reduce (argRedux fun x y : Int => decide (x < y)) 8 8 ⟨[0, 3], [24, 8], 0, 0⟩ exMem (.one 1) none none8 fun _ => 77) = some .value ∧
    count (outPart [1] [0, 3]) = 0 := by decide +kernel

/-- `argmin` of floats with a NaN, here `none`, that is not the first: `array([1.0, nan]).argmin()` is 0 (in NumPy 1). -/
theorem c88_violation_nan : let lt : Option Int → Option Int → Bool := fun x y => match x, y with | some x, some y => decide (x < y) | _, _ => false
    seen (reduce (argRedux lt) 8 8 ⟨[2], [8], 0, 0⟩ ((⟨fun _ _ => none, 0⟩ : Heap (Option Int)).new 8 2 fun o => if o = 0 then some 1 else none) .all none none8 fun _ => 77) = some ([], [some 0]) := by decide +kernel

end Codon.NpRed
