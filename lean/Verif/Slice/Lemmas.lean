import Verif.Slice.Spec
import Verif.Slice.Model
import Mathlib.Data.List.Sort
import Mathlib.Tactic.Ring
import Mathlib.Tactic.Linarith

/-! Helper lemmas about slices and ranges. -/
namespace Codon.Slice
open Codon.SliceSpec

/-- `a, a+k, ..., a+(n-1)k`. -/
def prog (a k : Int) (n : Nat) : List Int := (List.range n).map fun i : Nat => a + (i : Int) * k

theorem lt_count_iff {s e k : Int} (hk : 0 < k) (n : Nat) :
    (n : Int) < (e - s - 1).tdiv k + 1 ∧ s < e ↔ s + n * k < e := by
  constructor
  · rintro ⟨h, hse⟩
    rw [Int.tdiv_eq_ediv_of_nonneg (by omega)] at h
    have h' : (n : Int) ≤ (e - s - 1) / k := by omega
    rw [Int.le_ediv_iff_mul_le hk] at h'
    omega
  · intro h
    have hn : 0 ≤ (n : Int) * k := Int.mul_nonneg (by omega) (by omega)
    have hse : s < e := by omega
    refine ⟨?_, hse⟩
    rw [Int.tdiv_eq_ediv_of_nonneg (by omega)]
    have : (n : Int) ≤ (e - s - 1) / k := by
      rw [Int.le_ediv_iff_mul_le hk]; omega
    omega

theorem count_nonneg {s e k : Int} (hk : 0 < k) (hse : s < e) : 0 ≤ (e - s - 1).tdiv k + 1 := by
  rw [Int.tdiv_eq_ediv_of_nonneg (by omega)]
  have := Int.ediv_nonneg (a := e - s - 1) (b := k) (by omega) (by omega)
  omega

theorem mem_prog {a k : Int} {n : Nat} {x : Int} : x ∈ prog a k n ↔ ∃ i < n, x = a + (i : Int) * k := by
  simp only [prog, List.mem_map, List.mem_range]
  constructor
  · rintro ⟨i, h, rfl⟩; exact ⟨i, h, rfl⟩
  · rintro ⟨i, h, rfl⟩; exact ⟨i, h, rfl⟩

@[simp] theorem length_prog {a k : Int} {n : Nat} : (prog a k n).length = n := by simp [prog]

theorem getElem?_prog {a k : Int} {n i : Nat} (h : i < n) : (prog a k n)[i]? = some (a + i * k) := by
  simp [prog, h]

theorem prog_zero (a k : Int) : prog a k 0 = [] := rfl

theorem prog_succ (a k : Int) (n : Nat) : prog a k (n + 1) = a :: prog (a + k) k n := by
  simp only [prog, List.range_succ_eq_map, List.map_cons, List.map_map]
  congr 1
  · simp
  · apply List.map_congr_left; intro i _; simp; ring

theorem prog_pairwise_lt {a k : Int} (hk : 0 < k) (n : Nat) : (prog a k n).Pairwise (· < ·) := by
  rw [prog, List.pairwise_map]
  apply List.Pairwise.imp _ List.pairwise_lt_range
  intro i j hij
  have : (i : Int) * k < j * k := Int.mul_lt_mul_of_pos_right (by omega) hk
  omega

theorem prog_pairwise_gt {a k : Int} (hk : k < 0) (n : Nat) : (prog a k n).Pairwise (· > ·) := by
  rw [prog, List.pairwise_map]
  apply List.Pairwise.imp _ List.pairwise_lt_range
  intro i j hij
  have : (i : Int) * (-k) < j * (-k) := Int.mul_lt_mul_of_pos_right (by omega) (by omega)
  have h1 : (i : Int) * (-k) = - (i * k) := by ring
  have h2 : (j : Int) * (-k) = - (j * k) := by ring
  simp only [gt_iff_lt]; omega

/-! ### Adjusted indices -/

theorem adjust_some_iff (len : Int) (start stop step : Option Int) :
    (adjust len start stop step).isSome ↔ step ≠ some 0 := by
  unfold adjust
  rcases step with _ | k
  · simp
  · by_cases h0 : k = 0
    · subst h0; simp
    · by_cases h : k > 0 <;> simp [h0, h]

theorem adjust_fields {len : Nat} {start stop step : Option Int} {a : Adj}
    (h : adjust len start stop step = some a) :
    a.step = step.getD 1 ∧ a.step ≠ 0 ∧
    a.start = first len start a.step ∧
    a.stop = last len stop a.step ∧
    a.length = (if a.step < 0 then (if a.stop < a.start then (a.start - a.stop - 1).tdiv (-a.step) + 1 else 0)
      else (if a.start < a.stop then (a.stop - a.start - 1).tdiv a.step + 1 else 0)) := by
  have hlen : (0 : Int) ≤ len := by omega
  unfold adjust at h
  generalize hk : step.getD 1 = k at h ⊢
  have hne : k ≠ 0 := by intro h0; simp [h0] at h
  simp only [hne, if_false] at h
  have key : ∀ s e : Int, let b := adjustHelper len s e k
      b.step = k ∧
      b.start = (if 0 < k then clamp 0 len (rel len s) else clamp (-1) (len - 1) (rel len s)) ∧
      b.stop = (if 0 < k then clamp 0 len (rel len e) else clamp (-1) (len - 1) (rel len e)) ∧
      b.length = (if b.step < 0 then (if b.stop < b.start then (b.start - b.stop - 1).tdiv (-b.step) + 1 else 0)
        else (if b.start < b.stop then (b.stop - b.start - 1).tdiv b.step + 1 else 0)) := by
    intro s e
    have hs : ∀ x : Int, (if x < 0 then if x + len < 0 then (if k < 0 then -1 else 0) else x + (len : Int)
        else if x ≥ len then (if k < 0 then (len : Int) - 1 else len) else x)
        = (if 0 < k then clamp 0 len (rel len x) else clamp (-1) (len - 1) (rel len x)) := by
      intro x
      simp only [clamp, rel]
      split_ifs <;> omega
    simp only [adjustHelper, hs]
    split_ifs <;> simp_all
  rcases lt_or_gt_of_ne hne with hk0 | hk0
  · rw [if_neg (by omega)] at h
    injection h with h
    obtain ⟨h1, h2, h3, h4⟩ := key (start.getD (len - 1)) (stop.getD (-(len + 1)))
    rw [h] at h1 h2 h3 h4
    refine ⟨h1, by rw [h1]; exact hne, ?_, ?_, h4⟩
    · rw [h2, h1, first.eq_def, if_neg (by omega), if_neg (by omega)]
      cases start
      · simp [clamp, rel]; omega
      · simp
    · rw [h3, h1, last.eq_def, if_neg (by omega), if_neg (by omega)]
      cases stop
      · simp [clamp, rel]; omega
      · simp
  · rw [if_pos (by omega)] at h
    injection h with h
    obtain ⟨h1, h2, h3, h4⟩ := key (start.getD 0) (stop.getD len)
    rw [h] at h1 h2 h3 h4
    refine ⟨h1, by rw [h1]; exact hne, ?_, ?_, h4⟩
    · rw [h2, h1, first.eq_def, if_pos (by omega), if_pos (by omega)]
      cases start
      · simp [clamp, rel]
      · simp
    · rw [h3, h1, last.eq_def, if_pos (by omega), if_pos (by omega)]
      cases stop
      · simp only [Option.getD_none, clamp, rel]; omega
      · simp

theorem first_bounds (n : Nat) (start : Option Int) (k : Int) :
    (0 < k → 0 ≤ first n start k ∧ first n start k ≤ n) ∧
    (¬ 0 < k → -1 ≤ first n start k ∧ first n start k ≤ n - 1) := by
  unfold first clamp
  rcases start with _ | i <;> constructor <;> intro h <;> simp only [h, if_true, if_false] <;> omega

theorem last_bounds (n : Nat) (stop : Option Int) (k : Int) :
    (0 < k → 0 ≤ last n stop k ∧ last n stop k ≤ n) ∧
    (¬ 0 < k → -1 ≤ last n stop k ∧ last n stop k ≤ n - 1) := by
  unfold last clamp
  rcases stop with _ | i <;> constructor <;> intro h <;> simp only [h, if_true, if_false] <;> omega

/-- The enumeration `start, start+step, ...` of `length` items is exactly the list of positions
Python selects. -/
theorem adjust_positions {n : Nat} {start stop step : Option Int} {a : Adj}
    (h : adjust n start stop step = some a) :
    (positions n start stop a.step).map (fun x : Nat => (x : Int)) = prog a.start a.step a.length.toNat := by
  obtain ⟨-, hne, h1, h2, h3⟩ := adjust_fields h
  have hf := first_bounds n start a.step
  have hl := last_bounds n stop a.step
  rw [← h1] at hf
  rw [← h2] at hl
  rcases lt_or_gt_of_ne hne with hk | hk
  · -- negative step
    rw [if_pos hk] at h3
    have hno : ¬ 0 < a.step := by omega
    have hmem : ∀ x : Int, x ∈ (positions n start stop a.step).map (fun x : Nat => (x : Int)) ↔
        x ∈ prog a.start a.step a.length.toNat := by
      intro x
      rw [mem_prog]
      simp only [positions, hno, if_false, List.mem_map, List.mem_reverse, List.mem_filter, List.mem_range,
        decide_eq_true_eq, Selected, ← h1, ← h2]
      constructor
      · rintro ⟨y, ⟨hy, -, hd, hy1, hy2⟩, rfl⟩
        obtain ⟨c, hc⟩ := hd
        have hc0 : 0 ≤ c := by
          by_contra hneg
          have : 0 < a.step * c := Int.mul_pos_of_neg_of_neg hk (by omega)
          omega
        refine ⟨c.toNat, ?_, ?_⟩
        · have := (lt_count_iff (s := -a.start) (e := -a.stop) (k := -a.step) (by omega) c.toNat).2 (by
            rw [Int.toNat_of_nonneg hc0]
            have : c * -a.step = -(a.step * c) := by ring
            omega)
          have e1 : -a.stop - -a.start - 1 = a.start - a.stop - 1 := by ring
          rw [e1] at this
          rw [if_pos (by omega)] at h3
          omega
        · rw [Int.toNat_of_nonneg hc0]
          have : c * a.step = a.step * c := by ring
          omega
      · rintro ⟨i, hi, rfl⟩
        have hlt : a.stop < a.start := by
          by_contra hge
          rw [if_neg hge] at h3
          rw [h3] at hi; simp at hi
        rw [if_pos hlt] at h3
        have := (lt_count_iff (s := -a.start) (e := -a.stop) (k := -a.step) (by omega) i).1 ⟨by
            have e1 : -a.stop - -a.start - 1 = a.start - a.stop - 1 := by ring
            rw [e1]; omega, by omega⟩
        have e2 : (i : Int) * -a.step = -(i * a.step) := by ring
        have hi0 : 0 ≤ (i : Int) * -a.step := Int.mul_nonneg (by omega) (by omega)
        have hb := hf.2 hno
        have hb2 := hl.2 hno
        refine ⟨(a.start + i * a.step).toNat, ⟨?_, ?_, ?_, ?_, ?_⟩, ?_⟩
        · omega
        · omega
        · rw [Int.toNat_of_nonneg (by omega)]
          exact ⟨i, by ring⟩
        · omega
        · omega
        · rw [Int.toNat_of_nonneg (by omega)]
    refine List.Pairwise.eq_of_mem_iff (r := (· > ·)) ?_ (prog_pairwise_gt hk _) (fun {x} => hmem x)
    rw [List.pairwise_map]
    simp only [positions, hno, if_false, List.pairwise_reverse]
    refine List.Pairwise.filter _ (List.Pairwise.imp ?_ List.pairwise_lt_range)
    intro x y hxy
    show (y : Int) > x
    omega
  · -- positive step
    rw [if_neg (by omega)] at h3
    have hpos : 0 < a.step := hk
    have hmem : ∀ x : Int, x ∈ (positions n start stop a.step).map (fun x : Nat => (x : Int)) ↔
        x ∈ prog a.start a.step a.length.toNat := by
      intro x
      rw [mem_prog]
      simp only [positions, hpos, if_true, List.mem_map, List.mem_filter, List.mem_range,
        decide_eq_true_eq, Selected, ← h1, ← h2]
      constructor
      · rintro ⟨y, ⟨hy, -, hd, hy1, hy2⟩, rfl⟩
        obtain ⟨c, hc⟩ := hd
        have hc0 : 0 ≤ c := by
          by_contra hneg
          have : a.step * c < 0 := Int.mul_neg_of_pos_of_neg hpos (by omega)
          omega
        refine ⟨c.toNat, ?_, ?_⟩
        · have := (lt_count_iff (s := a.start) (e := a.stop) (k := a.step) hpos c.toNat).2 (by
            rw [Int.toNat_of_nonneg hc0]
            have : c * a.step = a.step * c := by ring
            omega)
          rw [if_pos (by omega)] at h3
          omega
        · rw [Int.toNat_of_nonneg hc0]
          have : c * a.step = a.step * c := by ring
          omega
      · rintro ⟨i, hi, rfl⟩
        have hlt : a.start < a.stop := by
          by_contra hge
          rw [if_neg hge] at h3
          rw [h3] at hi; simp at hi
        rw [if_pos hlt] at h3
        have := (lt_count_iff (s := a.start) (e := a.stop) (k := a.step) hpos i).1 ⟨by omega, hlt⟩
        have hi0 : 0 ≤ (i : Int) * a.step := Int.mul_nonneg (by omega) (by omega)
        have hb := hf.1 hpos
        have hb2 := hl.1 hpos
        refine ⟨(a.start + i * a.step).toNat, ⟨?_, ?_, ?_, ?_, ?_⟩, ?_⟩
        · omega
        · omega
        · rw [Int.toNat_of_nonneg (by omega)]
          exact ⟨i, by ring⟩
        · omega
        · omega
        · rw [Int.toNat_of_nonneg (by omega)]
    refine List.Pairwise.eq_of_mem_iff (r := (· < ·)) ?_ (prog_pairwise_lt hk _) (fun {x} => hmem x)
    rw [List.pairwise_map]
    simp only [positions, hpos, if_true]
    refine List.Pairwise.filter _ (List.Pairwise.imp ?_ List.pairwise_lt_range)
    intro x y hxy
    show (x : Int) < y
    omega

/-! ### Ranges -/

theorem iterUp_eq_prog (stop step : Int) (hs : 0 < step) (i : Int) :
    iterUp stop step hs i = prog i step (if i < stop then (1 + (stop - 1 - i).tdiv step).toNat else 0) := by
  fun_induction iterUp stop step hs i with
  | case1 i h ih =>
    rw [ih, if_pos h, Int.tdiv_eq_ediv_of_nonneg (a := stop - 1 - i) (by omega)]
    split
    · rename_i h2
      rw [Int.tdiv_eq_ediv_of_nonneg (by omega)]
      have e : stop - 1 - i = (stop - 1 - (i + step)) + 1 * step := by ring
      rw [e, Int.add_mul_ediv_right _ _ (by omega)]
      have h0 := Int.ediv_nonneg (a := stop - 1 - (i + step)) (b := step) (by omega) (by omega)
      have : (1 + ((stop - 1 - (i + step)) / step + 1)).toNat = (1 + (stop - 1 - (i + step)) / step).toNat + 1 := by omega
      rw [this, prog_succ]
    · rename_i h2
      have : (stop - 1 - i) / step = 0 := Int.ediv_eq_zero_of_lt (by omega) (by omega)
      rw [this]
      show i :: prog (i + step) step 0 = prog i step 1
      rw [prog_succ]
  | case2 i h => simp [h, prog_zero]

theorem iterDown_eq_prog (stop step : Int) (hs : step < 0) (i : Int) :
    iterDown stop step hs i = prog i step (if i > stop then (1 + (i - 1 - stop).tdiv (-step)).toNat else 0) := by
  fun_induction iterDown stop step hs i with
  | case1 i h ih =>
    rw [ih, if_pos h, Int.tdiv_eq_ediv_of_nonneg (a := i - 1 - stop) (by omega)]
    split
    · rename_i h2
      rw [Int.tdiv_eq_ediv_of_nonneg (by omega)]
      have e : i - 1 - stop = (i + step - 1 - stop) + 1 * (-step) := by ring
      rw [e, Int.add_mul_ediv_right _ _ (by omega)]
      have h0 := Int.ediv_nonneg (a := i + step - 1 - stop) (b := -step) (by omega) (by omega)
      have : (1 + ((i + step - 1 - stop) / (-step) + 1)).toNat = (1 + (i + step - 1 - stop) / (-step)).toNat + 1 := by omega
      rw [this, prog_succ]
    · rename_i h2
      have : (i - 1 - stop) / (-step) = 0 := Int.ediv_eq_zero_of_lt (by omega) (by omega)
      rw [this]
      show i :: prog (i + step) step 0 = prog i step 1
      rw [prog_succ]
  | case2 i h => simp [h, prog_zero]

theorem iter_eq_prog (r : Range) (h : r.step ≠ 0) : r.iter = some (prog r.start r.step r.len.toNat) := by
  unfold Range.iter Range.len
  rcases lt_or_gt_of_ne h with hk | hk
  · rw [dif_neg (by omega), dif_pos hk, iterDown_eq_prog]
    congr 2
    split_ifs <;> first | rfl | omega
  · rw [dif_pos hk, iterUp_eq_prog]
    congr 2
    split_ifs <;> first | rfl | omega

theorem len_nonneg (r : Range) : 0 ≤ r.len := by
  unfold Range.len
  split
  · rename_i h
    have := count_nonneg h.1 h.2
    have e : r.stop - 1 - r.start = r.stop - r.start - 1 := by ring
    rw [e]; omega
  · split
    · rename_i h
      have := count_nonneg (s := r.stop) (e := r.start) (k := -r.step) (by omega) h.2
      have e : r.start - 1 - r.stop = r.start - r.stop - 1 := by ring
      rw [e]; omega
    · omega

/-- Number of elements: index `i` is in range iff the value at `i` is before `stop`. -/
theorem lt_len_iff (r : Range) (h : r.step ≠ 0) (i : Nat) :
    (i : Int) < r.len ↔
      (if 0 < r.step then r.get i < r.stop else r.stop < r.get i) := by
  unfold Range.len Range.get
  rcases lt_or_gt_of_ne h with hk | hk
  · rw [if_neg (show ¬ (r.step > 0 ∧ r.start < r.stop) by omega), if_neg (show ¬ 0 < r.step by omega)]
    have e1 := lt_count_iff (s := -r.start) (e := -r.stop) (k := -r.step) (by omega) i
    have e2 : -r.stop - -r.start - 1 = r.start - 1 - r.stop := by ring
    have e3 : -r.start + i * -r.step = -(r.start + i * r.step) := by ring
    rw [e2, e3] at e1
    constructor
    · intro hi
      split at hi
      · rename_i h1; have := e1.1 ⟨by omega, by omega⟩; omega
      · omega
    · intro hi
      have := e1.2 (by omega)
      rw [if_pos ⟨hk, by omega⟩]; omega
  · rw [if_pos (show 0 < r.step from hk)]
    have e1 := lt_count_iff (s := r.start) (e := r.stop) (k := r.step) hk i
    have e2 : r.stop - r.start - 1 = r.stop - 1 - r.start := by ring
    rw [e2] at e1
    constructor
    · intro hi
      split at hi
      · rename_i h1; exact e1.1 ⟨by omega, by omega⟩
      · split at hi <;> omega
    · intro hi
      have := e1.2 hi
      rw [if_pos ⟨hk, by omega⟩]; omega

end Codon.Slice
