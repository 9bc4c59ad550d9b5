import Verif.Slice.Lemmas

/-!
# C24 (slice adjustment) and C25 (range)
-/
namespace Codon.Slice
open Codon.SliceSpec

/-! ## C24 -/

/-- The adjustment raises exactly for step 0. -/
theorem c24_zero_step_rejected (n : Nat) (start stop step : Option Int) :
    adjust n start stop step = none ↔ step = some 0 := by
  have := adjust_some_iff n start stop step
  rw [← Option.not_isSome_iff_eq_none, this]
  simp

/-- Enumerating `start, start+step, ...` for the returned length visits exactly the positions that
Python selects, in Python's order (in particular all positions are within the sequence). -/
theorem c24_adjust_selects_python_positions (n : Nat) (start stop step : Option Int) (a : Adj)
    (h : adjust n start stop step = some a) :
    (List.range a.length.toNat).map (fun i : Nat => a.start + (i : Int) * a.step)
      = (positions n start stop (step.getD 1)).map (fun x : Nat => (x : Int))
    ∧ 0 ≤ a.length ∧ a.step = step.getD 1 := by
  obtain ⟨h0, h1, -, -, h2⟩ := adjust_fields h
  refine ⟨?_, ?_, h0⟩
  · rw [← h0, adjust_positions h]; rfl
  · rw [h2]
    split
    · split
      · have := count_nonneg (s := a.stop) (e := a.start) (k := -a.step) (by omega) (by omega)
        exact this
      · omega
    · split
      · exact count_nonneg (by omega) (by omega)
      · omega

/-- Walking with `range(start, stop, step)` (as `str` and `list` slicing do) visits the same
positions as counting `length` of them: the returned `stop` and `length` agree. -/
theorem c24_stop_agrees_with_length (n : Nat) (start stop step : Option Int) (a : Adj)
    (h : adjust n start stop step = some a) :
    (Range.iter ⟨a.start, a.stop, a.step⟩)
      = some ((positions n start stop (step.getD 1)).map (fun x : Nat => (x : Int))) := by
  obtain ⟨h0, h1, -, -, h2⟩ := adjust_fields h
  rw [iter_eq_prog _ h1, ← h0, adjust_positions h]
  congr 2
  rw [h2]
  simp only [Range.len]
  split_ifs <;> first | omega | (congr 1; rw [Int.add_comm]; congr 2; ring)

example : adjust 10 (some 8) (some (-20)) (some (-3)) = some ⟨8, -1, -3, 3⟩ := by decide

/-! ## C25 -/

/-- Specification of the progression denoted by `range(start, stop, step)`: strictly monotone in
the direction of the step, and containing exactly the numbers `start + n*step` before `stop`. -/
structure IsProgression (start stop step : Int) (l : List Int) : Prop where
  mono : if 0 < step then l.Pairwise (· < ·) else l.Pairwise (· > ·)
  mem : ∀ x, x ∈ l ↔ ∃ n : Nat, x = start + n * step ∧ (if 0 < step then x < stop else stop < x)

/-- Python indexing of a sequence: negative indices count from the end, `none` is `IndexError`. -/
def pyGet {α} (l : List α) (i : Int) : Option α :=
  if 0 ≤ i then l[i.toNat]? else if 0 ≤ i + l.length then l[(i + l.length).toNat]? else none

theorem c25_zero_step_rejected (start stop step : Int) :
    Range.new start stop step = none ↔ step = 0 := by
  unfold Range.new; split <;> simp_all

/-- Iteration terminates and yields the progression. -/
theorem c25_iter_is_progression (start stop step : Int) (r : Range)
    (h : Range.new start stop step = some r) :
    ∃ l, r.iter = some l ∧ IsProgression start stop step l := by
  have hs : step ≠ 0 := by
    intro h0; simp [Range.new, h0] at h
  have hr : r = ⟨start, stop, step⟩ := by simpa [Range.new, hs] using h.symm
  subst hr
  refine ⟨_, iter_eq_prog _ hs, ?_, ?_⟩
  · rcases lt_or_gt_of_ne hs with hk | hk
    · rw [if_neg (by omega)]; exact prog_pairwise_gt hk _
    · rw [if_pos hk]; exact prog_pairwise_lt hk _
  · intro x
    rw [mem_prog]
    have hn := len_nonneg ⟨start, stop, step⟩
    constructor
    · rintro ⟨i, hi, rfl⟩
      have := (lt_len_iff ⟨start, stop, step⟩ hs i).1 (by omega)
      exact ⟨i, rfl, this⟩
    · rintro ⟨i, rfl, hx⟩
      have := (lt_len_iff ⟨start, stop, step⟩ hs i).2 hx
      exact ⟨i, by omega, rfl⟩

/-- The specification determines the list. -/
theorem c25_progression_unique (start stop step : Int) (l l' : List Int)
    (h : IsProgression start stop step l) (h' : IsProgression start stop step l') : l = l' := by
  have hm : ∀ x, x ∈ l ↔ x ∈ l' := fun x => (h.mem x).trans (h'.mem x).symm
  have h1 := h.mono
  have h2 := h'.mono
  split at h1
  · rw [if_pos (by assumption)] at h2
    exact List.Pairwise.eq_of_mem_iff (r := (· < ·)) h1 h2 (fun {x} => hm x)
  · rw [if_neg (by assumption)] at h2
    exact List.Pairwise.eq_of_mem_iff (r := (· > ·)) h1 h2 (fun {x} => hm x)

theorem c25_len (r : Range) (l : List Int) (h : r.iter = some l) : r.len = l.length := by
  have hs : r.step ≠ 0 := by intro h0; simp [Range.iter, h0] at h
  rw [iter_eq_prog _ hs] at h
  injection h with h
  have := len_nonneg r
  rw [← h, length_prog]; omega

theorem c25_getitem (r : Range) (l : List Int) (h : r.iter = some l) (i : Int) :
    r.getItem i = pyGet l i := by
  have hlen := c25_len r l h
  have hs : r.step ≠ 0 := by intro h0; simp [Range.iter, h0] at h
  rw [iter_eq_prog _ hs] at h
  injection h with h
  unfold Range.getItem pyGet
  have hget : ∀ j : Int, 0 ≤ j → j < r.len → l[j.toNat]? = some (r.get j) := by
    intro j h0 h1
    rw [← h, getElem?_prog (by omega), Range.get, Int.toNat_of_nonneg h0]
  simp only [← hlen]
  by_cases h0 : 0 ≤ i
  · rw [if_pos h0, if_neg (show ¬ i < 0 by omega)]
    by_cases h1 : i < r.len
    · rw [if_neg (by omega), hget i h0 h1]
    · rw [if_pos (by omega), List.getElem?_eq_none (by omega)]
  · rw [if_neg h0, if_pos (show i < 0 by omega)]
    by_cases h1 : 0 ≤ i + r.len
    · rw [if_pos h1, if_neg (by omega), hget _ h1 (by omega)]
    · rw [if_neg h1, if_pos (by omega)]

theorem c25_contains (r : Range) (l : List Int) (h : r.iter = some l) (x : Int) :
    r.contains x = true ↔ x ∈ l := by
  have hs : r.step ≠ 0 := by intro h0; simp [Range.iter, h0] at h
  obtain ⟨l', hl', hp⟩ := c25_iter_is_progression r.start r.stop r.step r (by simp [Range.new, hs])
  rw [h] at hl'
  injection hl' with hl'
  rw [hl', hp.mem]
  unfold Range.contains
  have hdvd : (x - r.start).tmod r.step = 0 ↔ ∃ c, x - r.start = r.step * c := by
    rw [← Int.dvd_iff_tmod_eq_zero]; rfl
  rcases lt_or_gt_of_ne hs with hk | hk
  · rw [if_neg (show ¬ 0 < r.step by omega)]
    constructor
    · intro hc
      split at hc
      · simp at hc
      · rename_i hb
        obtain ⟨c, hc⟩ := hdvd.1 (by simpa using hc)
        have hc0 : 0 ≤ c := by
          by_contra hneg
          have : 0 < r.step * c := Int.mul_pos_of_neg_of_neg hk (by omega)
          omega
        refine ⟨c.toNat, ?_, by omega⟩
        rw [Int.toNat_of_nonneg hc0]
        have : c * r.step = r.step * c := by ring
        omega
    · rintro ⟨n, rfl, hx⟩
      have : 0 ≤ (n : Int) * -r.step := Int.mul_nonneg (by omega) (by omega)
      have e : (n : Int) * -r.step = -(n * r.step) := by ring
      rw [if_neg (by omega)]
      simp only [beq_iff_eq]
      exact hdvd.2 ⟨n, by ring⟩
  · rw [if_pos (show 0 < r.step from hk)]
    constructor
    · intro hc
      split at hc
      · simp at hc
      · rename_i hb
        obtain ⟨c, hc⟩ := hdvd.1 (by simpa using hc)
        have hc0 : 0 ≤ c := by
          by_contra hneg
          have : r.step * c < 0 := Int.mul_neg_of_pos_of_neg hk (by omega)
          omega
        refine ⟨c.toNat, ?_, by omega⟩
        rw [Int.toNat_of_nonneg hc0]
        have : c * r.step = r.step * c := by ring
        omega
    · rintro ⟨n, rfl, hx⟩
      have : 0 ≤ (n : Int) * r.step := Int.mul_nonneg (by omega) (by omega)
      rw [if_neg (by omega)]
      simp only [beq_iff_eq]
      exact hdvd.2 ⟨n, by ring⟩

/-- `index` returns the position of a contained value and raises otherwise; `count` is 0 or 1. -/
theorem c25_index_count (r : Range) (l : List Int) (h : r.iter = some l) (x : Int) :
    (∀ i, r.index x = some i → 0 ≤ i ∧ l[i.toNat]? = some x) ∧
    (r.index x = none ↔ x ∉ l) ∧ r.count x = l.count x := by
  have hs : r.step ≠ 0 := by intro h0; simp [Range.iter, h0] at h
  have hc := c25_contains r l h x
  have hl : l = prog r.start r.step r.len.toNat := by
    rw [iter_eq_prog _ hs] at h; injection h with h; exact h.symm
  refine ⟨?_, ?_, ?_⟩
  · intro i hi
    unfold Range.index at hi
    split at hi
    · rename_i hin
      injection hi with hi
      have hm := hc.1 hin
      rw [hl, mem_prog] at hm
      obtain ⟨j, hj, hx⟩ := hm
      have hij : i = j := by
        rw [← hi, hx]
        have : r.start + j * r.step - r.start = j * r.step := by ring
        rw [this, Int.mul_tdiv_cancel _ hs]
      subst hij
      refine ⟨by omega, ?_⟩
      rw [Int.toNat_natCast, hl, getElem?_prog hj, hx]
    · simp at hi
  · unfold Range.index
    split
    · rename_i hin; simp [hc.1 hin]
    · rename_i hin; simp only [true_iff]; intro hm; exact hin (hc.2 hm)
  · unfold Range.count
    have hnd : l.Nodup := by
      rw [hl]
      rcases lt_or_gt_of_ne hs with hk | hk
      · exact (prog_pairwise_gt hk _).imp (fun h => by simp at h; omega)
      · exact (prog_pairwise_lt hk _).imp (fun h => by omega)
    split
    · rename_i hin; exact (List.count_eq_one_of_mem hnd (hc.1 hin)).symm
    · rename_i hin; exact (List.count_eq_zero_of_not_mem (fun hm => hin (hc.2 hm))).symm

/-- Reversed iteration yields the reversed sequence. -/
theorem c25_reversed (r : Range) (l : List Int) (h : r.iter = some l) :
    r.reversed = some l.reverse := by
  have hs : r.step ≠ 0 := by intro h0; simp [Range.iter, h0] at h
  have hl : l = prog r.start r.step r.len.toNat := by
    rw [iter_eq_prog _ hs] at h; injection h with h; exact h.symm
  have hns : -r.step ≠ 0 := by omega
  unfold Range.reversed
  rw [Range.new, if_neg hns, Option.bind_some, iter_eq_prog _ hns]
  congr 1
  set r' : Range := ⟨r.start + (r.len - 1) * r.step, r.start - r.step, -r.step⟩ with hr'
  have hn := len_nonneg r
  have hn' := len_nonneg r'
  -- same number of elements
  have hlen : r'.len = r.len := by
    have hiff : ∀ i : Nat, (i : Int) < r'.len ↔ (i : Int) < r.len := by
      intro i
      rw [lt_len_iff r' hns]
      have e : r'.get i = r.start + (r.len - 1 - i) * r.step := by
        simp only [Range.get, hr']; ring
      have e2 : r.start + (r.len - 1 - i) * r.step - (r.start - r.step) = (r.len - i) * r.step := by ring
      rw [e]
      show (if 0 < -r.step then r.start + (r.len - 1 - i) * r.step < r.start - r.step
        else r.start - r.step < r.start + (r.len - 1 - i) * r.step) ↔ _
      rcases lt_or_gt_of_ne hs with hk | hk
      · rw [if_pos (by omega)]
        constructor
        · intro hlt
          by_contra hge
          have : 0 ≤ (r.len - i) * r.step := Int.mul_nonneg_of_nonpos_of_nonpos (by omega) (by omega)
          omega
        · intro hlt
          have : (r.len - i) * r.step < 0 := Int.mul_neg_of_pos_of_neg (by omega) hk
          omega
      · rw [if_neg (by omega)]
        constructor
        · intro hlt
          by_contra hge
          have : (r.len - i) * r.step ≤ 0 := Int.mul_nonpos_of_nonpos_of_nonneg (by omega) (by omega)
          omega
        · intro hlt
          have : 0 < (r.len - i) * r.step := Int.mul_pos (by omega) hk
          omega
    have h1 := hiff r.len.toNat
    have h2 := hiff r'.len.toNat
    omega
  rw [hlen, hl]
  apply List.ext_getElem?
  intro i
  by_cases hi : i < r.len.toNat
  · rw [getElem?_prog hi, List.getElem?_reverse (by simpa using hi), getElem?_prog (by simp; omega)]
    congr 1
    simp only [length_prog, hr']
    have : ((r.len.toNat - 1 - i : Nat) : Int) = r.len - 1 - i := by omega
    rw [this]; ring
  · rw [List.getElem?_eq_none (by simpa using hi), List.getElem?_eq_none (by simpa using hi)]

/-- Slicing a range gives the range whose elements are the selected ones. -/
theorem c25_slice (r : Range) (l : List Int) (h : r.iter = some l) (start stop step : Option Int) :
    (r.getSlice start stop step = none ↔ step = some 0) ∧
    ∀ r', r.getSlice start stop step = some r' →
      ∃ l', r'.iter = some l' ∧
        l'.map some = (positions l.length start stop (step.getD 1)).map (fun x => l[x]?) := by
  have hs : r.step ≠ 0 := by intro h0; simp [Range.iter, h0] at h
  have hl : l = prog r.start r.step r.len.toNat := by
    rw [iter_eq_prog _ hs] at h; injection h with h; exact h.symm
  have hlen := c25_len r l h
  unfold Range.getSlice
  by_cases hall : start = none ∧ stop = none ∧ step = none
  · obtain ⟨rfl, rfl, rfl⟩ := hall
    simp only [and_self, if_true]
    refine ⟨by simp, ?_⟩
    intro r' hr'
    injection hr' with hr'
    subst hr'
    refine ⟨l, h, ?_⟩
    have hpos : positions l.length none none ((none : Option Int).getD 1) = List.range l.length := by
      simp only [positions, Option.getD_none]
      rw [if_pos (by omega), List.filter_eq_self]
      intro x hx
      simp only [List.mem_range] at hx
      simp [Selected, first, last]; omega
    rw [hpos]
    apply List.ext_getElem?
    intro i
    by_cases hi : i < l.length
    · simp [hi]
    · simp [hi]
  · rw [if_neg hall, hlen]
    have hz := c24_zero_step_rejected l.length start stop step
    cases ha : adjust (l.length : Int) start stop step with
    | none => exact ⟨by simpa using hz.1 ha, by simp⟩
    | some a =>
      obtain ⟨h0, h1, -, -, h2⟩ := adjust_fields ha
      have hss : r.step * a.step ≠ 0 := Int.mul_ne_zero hs h1
      simp only [Range.new, if_neg hss]
      refine ⟨?_, ?_⟩
      · constructor
        · intro hc; simp at hc
        · intro hc; rw [hz.2 hc] at ha; simp at ha
      intro r' hr'
      injection hr' with hr'
      subst hr'
      refine ⟨_, iter_eq_prog _ hss, ?_⟩
      obtain ⟨hp, hnn, -⟩ := c24_adjust_selects_python_positions l.length start stop step a ha
      -- number of elements
      have hcount : (Range.len ⟨r.get a.start, r.get a.stop, r.step * a.step⟩) = a.length := by
        set r' : Range := ⟨r.get a.start, r.get a.stop, r.step * a.step⟩ with hr'
        have hn' := len_nonneg r'
        have hiff : ∀ i : Nat, (i : Int) < r'.len ↔ (i : Int) < a.length := by
          intro i
          rw [lt_len_iff r' hss]
          have hal : a.length = Range.len ⟨a.start, a.stop, a.step⟩ := by
            rw [h2]; simp only [Range.len]
            split_ifs <;> first | omega | (rw [Int.add_comm]; congr 2; ring)
          rw [hal, lt_len_iff ⟨a.start, a.stop, a.step⟩ h1]
          have e : r'.get i - r'.stop = r.step * ((a.start + i * a.step) - a.stop) := by
            simp only [Range.get, hr']; ring
          show (if 0 < r.step * a.step then r'.get i < r'.stop else r'.stop < r'.get i) ↔
            (if 0 < a.step then a.start + i * a.step < a.stop else a.stop < a.start + i * a.step)
          generalize (a.start + i * a.step) = y at e ⊢
          have hmul : ∀ z : Int, r.step * z = z * r.step := fun z => by ring
          rcases lt_or_gt_of_ne hs with hk | hk <;> rcases lt_or_gt_of_ne h1 with hk' | hk'
          · rw [if_pos (Int.mul_pos_of_neg_of_neg hk hk'), if_neg (by omega)]
            constructor
            · intro hh
              by_contra hc
              have := Int.mul_nonneg_of_nonpos_of_nonpos (a := r.step) (b := y - a.stop) (by omega) (by omega)
              omega
            · intro hh
              have := Int.mul_neg_of_neg_of_pos (a := r.step) (b := y - a.stop) hk (by omega)
              omega
          · rw [if_neg (by have := Int.mul_neg_of_neg_of_pos hk hk'; omega), if_pos hk']
            constructor
            · intro hh
              by_contra hc
              have := Int.mul_nonpos_of_nonpos_of_nonneg (a := r.step) (b := y - a.stop) (by omega) (by omega)
              omega
            · intro hh
              have := Int.mul_pos_of_neg_of_neg (a := r.step) (b := y - a.stop) hk (by omega)
              omega
          · rw [if_neg (by have := Int.mul_neg_of_pos_of_neg hk hk'; omega), if_neg (by omega)]
            constructor
            · intro hh
              by_contra hc
              have := Int.mul_nonpos_of_nonneg_of_nonpos (a := r.step) (b := y - a.stop) (by omega) (by omega)
              omega
            · intro hh
              have := Int.mul_pos (a := r.step) (b := y - a.stop) hk (by omega)
              omega
          · rw [if_pos (Int.mul_pos hk hk'), if_pos hk']
            constructor
            · intro hh
              by_contra hc
              have := Int.mul_nonneg (a := r.step) (b := y - a.stop) (by omega) (by omega)
              omega
            · intro hh
              have := Int.mul_neg_of_pos_of_neg (a := r.step) (b := y - a.stop) hk (by omega)
              omega
        have h3 := hiff a.length.toNat
        have h4 := hiff r'.len.toNat
        omega
      rw [hcount]
      apply List.ext_getElem?
      intro i
      have hplen : (positions l.length start stop (step.getD 1)).length = a.length.toNat := by
        have := congrArg List.length hp
        simpa using this.symm
      by_cases hi : i < a.length.toNat
      · have hpi := congrArg (fun L => L[i]?) hp
        simp only [List.getElem?_map, List.getElem?_range hi, Option.map_some] at hpi
        rw [List.getElem?_map, List.getElem?_map, getElem?_prog hi]
        have hpl : i < (positions l.length start stop (step.getD 1)).length := by omega
        rw [List.getElem?_eq_getElem hpl] at hpi ⊢
        simp only [Option.map_some, Option.some.injEq] at hpi ⊢
        have hmem := List.getElem_mem hpl
        set x := (positions l.length start stop (step.getD 1))[i] with hx
        have hxlt : x < l.length := by
          have : x ∈ (List.range l.length).filter (fun x => Selected l.length start stop (step.getD 1) x) := by
            have hm2 := hmem
            simp only [positions] at hm2
            split at hm2
            · exact hm2
            · exact List.mem_reverse.1 hm2
          simp only [List.mem_filter, List.mem_range] at this
          exact this.1
        have hxl : x < r.len.toNat := by omega
        conv_rhs => rw [hl, getElem?_prog hxl]
        rw [← hpi]
        congr 1
        simp only [Range.get]; ring
      · rw [List.getElem?_eq_none (by simpa using hi), List.getElem?_eq_none (by simp; omega)]

-- non-vacuity: `range(10, -3, -4)` and its slice `[::-2]`
example : Range.new 10 (-3) (-4) = some ⟨10, -3, -4⟩ := by decide
example : (Range.mk 10 (-3) (-4)).len = 4 := by decide
example : (Range.mk 10 (-3) (-4)).getSlice none none (some (-2)) = some ⟨-2, 14, 8⟩ := by decide
example : (Range.mk 10 (-3) (-4)).contains (-2) = true ∧ (Range.mk 10 (-3) (-4)).contains (-6) = false := by
  decide

end Codon.Slice
