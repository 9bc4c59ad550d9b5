import Verif.Omp.Lemmas
/-! # Collapsed loops -/
namespace Codon.Omp
open Spec

/-- No number in the computation of the loop leaves 64 bits. -/
structure Safe (start stop step : Int) : Prop where
  nz : step ≠ 0
  fits : Fits start ∧ Fits stop ∧ Fits step ∧ Fits (-step)
  diff : Fits (stop - 1 - start) ∧ Fits (start - 1 - stop)
  last : Fits (start + count start stop step * step)

def Level.count (r : Level) : Nat := Spec.count r.start r.stop r.step

def Level.Safe (r : Level) : Prop := Omp.Safe r.start r.stop r.step

theorem Level.len_eq {r : Level} (h : r.Safe) : r.len = r.count := rangeLen_eq h.nz h.fits.2.2 h.diff

def total (rs : List Level) : Nat := (rs.map Level.count).prod

theorem nest_append (rs : List Level) (r : Level) :
    nest (rs ++ [r]) = (nest rs).flatMap fun is => (iterations r.start r.stop r.step).map fun i => is ++ [i] := by
  induction rs with
  | nil => simp [nest, List.map_eq_flatMap]
  | cons q rs ih =>
    simp only [List.cons_append, nest, ih]
    rw [List.flatMap_assoc]
    congr 1
    funext i
    rw [List.map_flatMap, List.flatMap_map]
    congr 1
    funext is
    rw [List.map_map]
    rfl

theorem range_mul (a b : Nat) : List.range (a * b) = (List.range a).flatMap fun q => (List.range b).map fun j => q * b + j := by
  induction a with
  | zero => simp
  | succ a ih =>
    rw [Nat.succ_mul, List.range_add, ih, List.range_succ, List.flatMap_append]
    simp

/-- Decoding the number `k` with the loops in reverse order. -/
theorem decode_nest : ∀ rs : List Level, (∀ r ∈ rs, r.Safe) → total rs < 2 ^ 63 →
    (List.range (total rs)).map (fun k : Nat => (decode rs k).reverse) = nest rs.reverse := by
  intro rs
  induction rs with
  | nil => intro _ _; rfl
  | cons r rs ih =>
    intro hs ht
    have hr : r.Safe := hs r (by simp)
    have et : total (r :: rs) = total rs * r.count := by simp [total, Nat.mul_comm]
    rw [List.reverse_cons, nest_append, et, range_mul, List.map_flatMap]
    by_cases c0 : r.count = 0
    · have : iterations r.start r.stop r.step = [] := by
        unfold iterations
        rw [show Spec.count r.start r.stop r.step = 0 from c0]; rfl
      have hn : ∀ {α β : Type} (l : List α), l.flatMap (fun _ => ([] : List β)) = [] := by intro α β l; simp [List.flatMap_eq_nil_iff]
      simp [c0, this, hn]
    · have hle : total rs ≤ total rs * r.count := Nat.le_mul_of_pos_right _ (by omega)
      rw [← ih (fun q hq => hs q (by simp [hq])) (by omega), List.flatMap_map]
      apply List.flatMap_congr
      intro q hq
      have hq' : q < total rs := List.mem_range.1 hq
      rw [List.map_map]
      unfold iterations
      rw [List.map_map, show Spec.count r.start r.stop r.step = r.count from rfl]
      apply List.map_congr_left
      intro j hj
      have hj' : j < r.count := List.mem_range.1 hj
      simp only [Function.comp, decode]
      have hb : r.count < 2 ^ 63 := by
        have : 1 * r.count ≤ total rs * r.count := Nat.mul_le_mul_right _ (by omega)
        omega
      have em : ((q * r.count + j : Nat) : Int).tmod r.len = j := by
        rw [r.len_eq hr, ← Int.ofNat_tmod]
        congr 1
        rw [Nat.mul_comm, Nat.mul_add_mod, Nat.mod_eq_of_lt hj']
      have ed : ((q * r.count + j : Nat) : Int).tdiv r.len = q := by
        rw [r.len_eq hr, ← Int.ofNat_tdiv]
        congr 1
        rw [Nat.mul_comm, Nat.mul_add_div (by omega), Nat.div_eq_of_lt hj', Nat.add_zero]
      rw [em, ed, w_eq (x := (j : Int)) (by unfold Fits; omega), w_eq (x := (q : Int)) (by unfold Fits; omega), w_add_w,
        w_eq (fits_between hr.fits.1 hr.last (by show j ≤ r.count; omega)), List.reverse_cons]

theorem w_w_mul (a b : Int) : w (w a * b) = w (a * b) := by
  unfold w; rw [Int.bmod_mul_bmod]

theorem total_foldl (rs : List Level) (hs : ∀ r ∈ rs, r.Safe) : ∀ a : Nat, rs.foldl (fun x r => w (x * r.len)) (w (a : Int)) = w ((a * total rs : Nat) : Int) := by
  induction rs with
  | nil =>
    intro a
    rw [show total [] = 1 from rfl, Nat.mul_one, List.foldl_nil]
  | cons r rs ih =>
    intro a
    have e : w (w (a : Int) * r.len) = w ((a * r.count : Nat) : Int) := by
      rw [r.len_eq (hs r (by simp))]
      rw [w_w_mul, Nat.cast_mul]
    rw [List.foldl_cons, e, ih (fun q hq => hs q (by simp [hq]))]
    rw [show a * r.count * total rs = a * total (r :: rs) by simp [total, Nat.mul_assoc]]

theorem numIters_eq {rs : List Level} (hs : ∀ r ∈ rs, r.Safe) (ht : total rs < 2 ^ 63) : numIters rs = total rs := by
  have := total_foldl rs hs 1
  unfold numIters
  rw [show w ((1 : Nat) : Int) = 1 by decide, Nat.one_mul] at this
  rw [this, w_eq (by unfold Fits; omega)]

end Codon.Omp
