import Verif.Omp.Collapse
import Mathlib.Tactic.Choose
/-!
# C47: parallel loops execute each iteration exactly once
-/
namespace Codon.Omp
open Spec

/-- The loop ends with this result, with any fuel that is large enough. -/
def Ends {α : Type} (p : Nat → Option α) (a : α) : Prop := ∃ F, ∀ fuel ≥ F, p fuel = some a

/-- The loop without threads: what the others are compared to. -/
theorem c47_sequential {start stop step : Int} (h : Safe start stop step) :
    Ends (fun fuel => seqLoop stop step fuel start) (iterations start stop step) := by
  refine ⟨count start stop step + 1, fun fuel hf => ?_⟩
  have := seqLoop_seg (start := start) (stop := stop) h.nz (fun k hk => fits_between h.fits.1 h.last hk) fuel 0 (by omega)
  rw [iterations_seg]
  simpa using this

/-- **C47** (part: no overflow) Static schedule: whatever the number of threads and however the runtime divides the
    iterations, the bodies run by all threads are the iterations of the loop, each once. -/
theorem c47_static_partial {start stop step : Int} (h : Safe start stop step) {threads : Nat} {lo up : Nat → Int}
    (hi : StaticInit (rangeLen start stop step).toNat threads lo up) :
    ∃ f : Nat → List Int, (∀ t < threads, Ends (staticThread start stop step (lo t) (up t)) (f t)) ∧
      (allThreads threads f).Perm (iterations start stop step) := by
  have hl := rangeLen_eq h.nz h.fits.2.2 h.diff
  rw [hl, Int.toNat_natCast] at hi
  have hfit : ∀ k : Nat, k ≤ count start stop step → Fits (k : Int) := by
    intro k hk
    have h1 := rangeLen_fits start stop step
    rw [hl] at h1
    unfold Fits at *; omega
  have hseg : ∀ t < threads, lo t = (lo t).toNat ∧ up t + 1 = ((up t + 1).toNat : Nat) ∧ (lo t).toNat ≤ (up t + 1).toNat ∧
      (up t + 1).toNat ≤ count start stop step := by
    intro t ht
    have := hi.bounds t ht
    omega
  refine ⟨fun t => seg start step (lo t).toNat (up t + 1).toNat, ?_, ?_⟩
  · intro t ht
    obtain ⟨e1, e2, e3, e4⟩ := hseg t ht
    exact ⟨(up t + 1).toNat + 1, fun fuel hf => static_seg h.nz e3 e4 h.fits.1 h.last (hfit _ e4) e1 e2 (by omega)⟩
  · apply perm_all h.nz
    · intro t ht; exact nodup_seg h.nz _ _
    · intro t ht x hx
      obtain ⟨k, a1, a2, rfl⟩ := mem_seg.1 hx
      obtain ⟨e1, e2, e3, e4⟩ := hseg t ht
      exact ⟨k, by omega, rfl⟩
    · intro k hk
      obtain ⟨t, ht, b1, b2⟩ := hi.cover k hk
      exact ⟨t, ht, mem_seg.2 ⟨k, by omega, by omega, rfl⟩⟩
    · intro t ht u hu x h1 h2
      obtain ⟨k, a1, a2, rfl⟩ := mem_seg.1 h1
      obtain ⟨l, b1, b2, e⟩ := mem_seg.1 h2
      have := val_inj h.nz e
      subst this
      exact hi.once t ht u hu k (by omega) (by omega) (by omega) (by omega)

/-- **C47** (part: no overflow) Static schedule with chunks, whatever the chunk size. -/
theorem c47_chunked_partial {start stop step : Int} (h : Safe start stop step) {threads c m : Nat} {lo up : Nat → Int} {stride : Int}
    (hi : ChunkedInit (rangeLen start stop step).toNat threads c m lo up stride)
    (hroom : Fits (start + (count start stop step + 2 * (c * m) : Nat) * step)) :
    ∃ f : Nat → List Int, (∀ t < threads, Ends (chunkedThread start stop step (lo t) (up t) stride) (f t)) ∧
      (allThreads threads f).Perm (iterations start stop step) := by
  have hl := rangeLen_eq h.nz h.fits.2.2 h.diff
  rw [hl, Int.toNat_natCast] at hi
  obtain ⟨hc, hm⟩ := hi.pos
  have hup : ((c * m : Nat) : Int) < 2 ^ 63 := by
    have h0 := h.fits.1
    have hk := fits_between h0 hroom (k := 2 * (c * m)) (by omega)
    unfold Fits at h0 hk
    rcases lt_or_gt_of_ne h.nz with hn | hp
    · have : ((2 * (c * m) : Nat) : Int) * step ≤ ((2 * (c * m) : Nat) : Int) * (-1) := Int.mul_le_mul_of_nonneg_left (by omega) (by omega)
      omega
    · have : ((2 * (c * m) : Nat) : Int) * 1 ≤ ((2 * (c * m) : Nat) : Int) * step := Int.mul_le_mul_of_nonneg_left (by omega) (by omega)
      omega
  have hcm : c ≤ c * m := Nat.le_mul_of_pos_right c hm
  have hex : ∀ t < threads, ∃ l, Ends (chunkedThread start stop step (lo t) (up t) stride) l ∧ l.Nodup ∧
      ∀ x, x ∈ l ↔ ∃ k : Nat, k < count start stop step ∧ k / c % m = t ∧ x = start + k * step := by
    intro t ht
    by_cases htm : t < m
    · obtain ⟨e1, e2⟩ := hi.busy t ht htm
      have hct : c * t + c ≤ c * m := by
        have : c * (t + 1) ≤ c * m := Nat.mul_le_mul_left c (by omega)
        rw [Nat.mul_add, Nat.mul_one] at this
        exact this
      obtain ⟨l, r1, r2, r3⟩ := chunks_run h.nz hc htm h.fits.1 hroom (count start stop step + 2 * c + 1) 0 (by omega) (by omega)
      refine ⟨l, ⟨count start stop step + 2 * c + 1, fun fuel hf => ?_⟩, r2, ?_⟩
      · have r4 := chunks_mono r1 fuel hf
        rw [Nat.zero_mul, Nat.add_zero] at r4
        unfold chunkedThread
        have eu : up t + 1 = ((c * t + c : Nat) : Int) := by rw [e2]; push_cast; omega
        have el : lo t = ((c * t : Nat) : Int) := by rw [e1]; push_cast; rfl
        rw [eu, el, w_eq (x := ((c * t + c : Nat) : Int)) (by unfold Fits; omega),
          get_eq (fits_between h.fits.1 hroom (by omega)), get_eq (fits_between h.fits.1 hroom (by omega)), hi.stride,
          show (c : Int) * (m : Int) = ((c * m : Nat) : Int) by push_cast; rfl]
        exact r4
      · intro x
        rw [r3]
        constructor
        · rintro ⟨k, _, a2, a3, a4⟩; exact ⟨k, a2, a3, a4⟩
        · rintro ⟨k, a2, a3, a4⟩
          refine ⟨k, ?_, a2, a3, a4⟩
          have : t ≤ k / c := by rw [← a3]; exact Nat.mod_le _ _
          have := (Nat.le_div_iff_mul_le hc).1 this
          rw [Nat.mul_comm] at this
          omega
    · obtain ⟨e1, e2⟩ := hi.idle t ht (by omega)
      refine ⟨[], ⟨1, fun fuel hf => ?_⟩, List.nodup_nil, ?_⟩
      · obtain ⟨g, rfl⟩ : ∃ g, fuel = g + 1 := ⟨fuel - 1, by omega⟩
        unfold chunkedThread chunks
        rw [e1, get_eq h.last, if_neg (fun q => Nat.lt_irrefl _ ((more_stop h.nz _).1 q))]
      · intro x
        constructor
        · intro hx; simp at hx
        · rintro ⟨k, _, a3, _⟩
          have := Nat.mod_lt (k / c) hm
          omega
  choose! f hf using hex
  refine ⟨f, fun t ht => (hf t ht).1, perm_all h.nz (fun t ht => (hf t ht).2.1) ?_ ?_ ?_⟩
  · intro t ht x hx
    obtain ⟨k, a1, _, a2⟩ := ((hf t ht).2.2 x).1 hx
    exact ⟨k, a1, a2⟩
  · intro k hk
    have hlt := Nat.mod_lt (k / c) hm
    have htt : k / c % m < threads := by rcases hi.all with e | e <;> omega
    exact ⟨k / c % m, htt, ((hf _ htt).2.2 _).2 ⟨k, hk, rfl, rfl⟩⟩
  · intro t ht u hu x h1 h2
    obtain ⟨k, _, a2, rfl⟩ := ((hf t ht).2.2 x).1 h1
    obtain ⟨l, _, b2, e⟩ := ((hf u hu).2.2 _).1 h2
    have := val_inj h.nz e
    subst this
    omega

/-- With no iterations the runtime leaves the bounds as they are (0 and -1) and every thread does nothing, whatever the stride. -/
theorem c47_chunked_empty {start stop step : Int} (h : Safe start stop step) (h0 : iterations start stop step = [])
    (stride : Int) (fuel : Nat) : chunkedThread start stop step 0 (-1) stride (fuel + 1) = some [] := by
  have hc : count start stop step = 0 := by simpa [iterations] using h0
  have hf := h.last
  rw [hc] at hf
  unfold chunkedThread chunks
  have e := get_eq hf
  rw [Nat.cast_zero] at e
  rw [e, if_neg]
  intro q
  have := (more_stop (start := start) (stop := stop) h.nz 0).1 (by simpa using q)
  omega

/-- **C47** (part: no overflow) Dynamic schedules, whichever thread gets which part. -/
theorem c47_dynamic_partial {start stop step : Int} (h : Safe start stop step) {threads : Nat} {parts : Nat → List (Int × Int)}
    (hi : DynamicParts (rangeLen start stop step).toNat threads parts) :
    ∃ f : Nat → List Int, (∀ t < threads, Ends (dynamicThread start step (parts t)) (f t)) ∧
      (allThreads threads f).Perm (iterations start stop step) := by
  have hl := rangeLen_eq h.nz h.fits.2.2 h.diff
  have hlf := rangeLen_fits start stop step
  rw [hl] at hlf
  rw [hl, Int.toNat_natCast] at hi
  have hone : ∀ p : Int × Int, 0 ≤ p.1 → p.1 ≤ p.2 → p.2 < count start stop step → ∀ fuel ≥ count start stop step + 1,
      body step (get start step (w (p.2 + 1))) fuel (get start step p.1) = some (seg start step p.1.toNat (p.2 + 1).toNat) := by
    intro p h1 h2 h3 fuel hf
    unfold Fits at hlf
    have ea : p.1 = (p.1.toNat : Int) := by omega
    have eb : p.2 + 1 = ((p.2 + 1).toNat : Int) := by omega
    have fa : Fits (start + (p.1.toNat : Int) * step) := fits_between h.fits.1 h.last (by omega)
    have fb : Fits (start + ((p.2 + 1).toNat : Int) * step) := fits_between h.fits.1 h.last (by omega)
    rw [w_eq (x := p.2 + 1) (by unfold Fits; omega)]
    conv => lhs; rw [ea, eb]
    rw [get_eq fa, get_eq fb]
    apply body_seg
    · intro k
      rw [more_idx h.nz]; omega
    · intro k hk
      exact fits_between h.fits.1 h.last (by omega)
    · omega
  have hall : ∀ ps : List (Int × Int), (∀ p ∈ ps, 0 ≤ p.1 ∧ p.1 ≤ p.2 ∧ p.2 < count start stop step) →
      ∀ fuel ≥ count start stop step + 1,
      dynamicThread start step ps fuel = some (ps.flatMap fun p => seg start step p.1.toNat (p.2 + 1).toNat) := by
    intro ps
    induction ps with
    | nil => intro _ fuel _; rfl
    | cons p ps ih =>
      intro hb fuel hf
      obtain ⟨h1, h2, h3⟩ := hb p (by simp)
      unfold dynamicThread
      rw [hone p h1 h2 h3 fuel hf, Option.bind_some, ih (fun q hq => hb q (by simp [hq])) fuel hf]
      rfl
  refine ⟨fun t => (parts t).flatMap fun p => seg start step p.1.toNat (p.2 + 1).toNat, ?_, ?_⟩
  · intro t ht
    exact ⟨count start stop step + 1, hall (parts t) (hi.bounds t ht)⟩
  · have hmem : ∀ t < threads, ∀ x, (x ∈ (parts t).flatMap fun p => seg start step p.1.toNat (p.2 + 1).toNat) →
        ∃ p ∈ parts t, ∃ k : Nat, p.1 ≤ k ∧ k ≤ p.2 ∧ x = start + k * step := by
      intro t ht x hx
      obtain ⟨p, hp, hx⟩ := List.mem_flatMap.1 hx
      obtain ⟨k, a1, a2, rfl⟩ := mem_seg.1 hx
      have := hi.bounds t ht p hp
      exact ⟨p, hp, k, by omega, by omega, rfl⟩
    apply perm_all h.nz
    · intro t ht
      rw [List.nodup_flatMap]
      refine ⟨fun p _ => nodup_seg h.nz _ _, (hi.apart t ht).imp_of_mem ?_⟩
      intro p q hp hq hpq x h1 h2
      obtain ⟨k, a1, a2, rfl⟩ := mem_seg.1 h1
      obtain ⟨l, b1, b2, e⟩ := mem_seg.1 h2
      have := val_inj h.nz e
      subst this
      have := hi.bounds t ht p hp
      have := hi.bounds t ht q hq
      exact hpq k (by omega)
    · intro t ht x hx
      obtain ⟨p, hp, k, a1, a2, rfl⟩ := hmem t ht x hx
      have := hi.bounds t ht p hp
      exact ⟨k, by omega, rfl⟩
    · intro k hk
      obtain ⟨t, ht, p, hp, b1, b2⟩ := hi.cover k hk
      exact ⟨t, ht, List.mem_flatMap.2 ⟨p, hp, mem_seg.2 ⟨k, by omega, by omega, rfl⟩⟩⟩
    · intro t ht u hu x h1 h2
      obtain ⟨p, hp, k, a1, a2, rfl⟩ := hmem t ht x h1
      obtain ⟨q, hq, l, b1, b2, e⟩ := hmem u hu _ h2
      have := val_inj h.nz e
      subst this
      by_contra hne
      exact hi.once t ht u hu hne p hp q hq k ⟨a1, a2, b1, b2⟩

/-- **C47** (part: no overflow, bounds of inner loops do not depend on outer variables) A collapsed nest runs its body for the same
    values of the loop variables, in the same order, as the nest. -/
theorem c47_collapse_partial {rs : List Level} (hs : ∀ r ∈ rs, r.Safe) (ht : total rs < 2 ^ 63) :
    Ends (collapsed rs) (nest rs) := by
  have hn := numIters_eq hs ht
  have hsafe : Safe 0 (total rs : Int) 1 := by
    refine ⟨by omega, ?_, ?_, ?_⟩
    · unfold Fits; omega
    · unfold Fits; omega
    · have : count 0 (total rs : Int) 1 = total rs := by unfold count; rw [if_pos (by omega)]; simp
      rw [this]; unfold Fits; omega
  obtain ⟨F, hF⟩ := c47_sequential hsafe
  refine ⟨F, fun fuel hf => ?_⟩
  have e := hF fuel hf
  dsimp only at e
  unfold collapsed
  rw [hn, e, Option.map_some]
  have hc : count 0 (total rs : Int) 1 = total rs := by unfold count; rw [if_pos (by omega)]; simp
  unfold iterations
  rw [hc, List.map_map]
  have := decode_nest rs.reverse (fun r hr => hs r (by simpa using hr)) (by simpa [total, List.prod_reverse] using ht)
  rw [List.reverse_reverse, show total rs.reverse = total rs by simp [total, List.prod_reverse]] at this
  rw [← this]
  congr 1
  apply List.map_congr_left
  intro k _
  simp

/-! ### Non-vacuity: what LLVM's runtime computes -/

/-- Ten iterations, step 3, on four threads: 3, 3, 2, 2. -/
example : Safe 5 35 3 ∧ StaticInit (rangeLen 5 35 3).toNat 4 (fun t => [0, 3, 6, 8].getD t 0) (fun t => [2, 5, 7, 9].getD t 0) := by
  refine ⟨⟨by decide, by unfold Fits; decide, by unfold Fits; decide, by unfold Fits; decide⟩, ⟨by decide, by decide, ?_⟩⟩
  intro t ht u hu k h1 h2 h3 h4
  rcases t with _ | _ | _ | _ | t <;> rcases u with _ | _ | _ | _ | u <;> simp at h1 h2 h3 h4 <;> omega

/-- Ten iterations in chunks of three on two threads, and on six. -/
example : Safe 35 5 (-3) ∧
    ChunkedInit (rangeLen 35 5 (-3)).toNat 2 3 2 (fun t => 3 * t) (fun t => 3 * t + 3 - 1) 6 ∧
    ChunkedInit (rangeLen 35 5 (-3)).toNat 6 3 4 (fun t => if t < 4 then 3 * t else 10) (fun t => if t < 4 then 3 * t + 3 - 1 else 9) 12 := by
  refine ⟨⟨by decide, by unfold Fits; decide, by unfold Fits; decide, by unfold Fits; decide⟩,
    ⟨by decide, by decide, by decide, by decide, by decide⟩, ⟨by decide, by decide, by decide, by decide, by decide⟩⟩

/-- Five iterations in parts of two, taken by two threads. -/
example : Safe 0 5 1 ∧ DynamicParts (rangeLen 0 5 1).toNat 2 (fun t => if t = 0 then [(2, 3)] else [(0, 1), (4, 4)]) := by
  refine ⟨⟨by decide, by unfold Fits; decide, by unfold Fits; decide, by unfold Fits; decide⟩, ⟨by decide, by decide, ?_, ?_⟩⟩
  · intro t ht
    rcases t with _ | _ | t
    · simp
    · simp; intro k; omega
    · omega
  · intro t ht u hu htu p hp q hq k
    rcases t with _ | _ | t <;> rcases u with _ | _ | u <;> simp at hp hq <;> first
      | omega
      | (rcases hp with rfl | rfl <;> subst hq <;> simp <;> omega)
      | (rcases hq with rfl | rfl <;> subst hp <;> simp <;> omega)

example : (∀ r ∈ [(⟨0, 4, 1⟩ : Level), ⟨10, 4, -2⟩], r.Safe) ∧ total [⟨0, 4, 1⟩, ⟨10, 4, -2⟩] < 2 ^ 63 ∧
    nest [⟨0, 2, 1⟩, ⟨10, 4, -2⟩] = [[0, 10], [0, 8], [0, 6], [1, 10], [1, 8], [1, 6]] := by
  refine ⟨?_, by decide, by decide⟩
  intro r hr
  simp only [List.mem_cons, List.not_mem_nil, or_false] at hr
  rcases hr with rfl | rfl <;> exact ⟨by decide, by unfold Fits; decide, by unfold Fits; decide, by unfold Fits; decide⟩

/-! ### Where the code fails -/

/-- `@par(chunk_size=8)` over `range(2**63-10, 2**63-1)` on two threads: the start of the next chunk overflows and thread 0 never
    ends, although the loop has nine iterations. -/
theorem c47_violation_chunk_overflow :
    (∀ fuel, chunkedThread (2 ^ 63 - 10) (2 ^ 63 - 1) 1 0 7 16 fuel = none) ∧
    ChunkedInit (rangeLen (2 ^ 63 - 10) (2 ^ 63 - 1) 1).toNat 2 8 2 (fun t => 8 * t) (fun t => 8 * t + 8 - 1) 16 ∧
    Ends (fun fuel => seqLoop (2 ^ 63 - 1) 1 fuel (2 ^ 63 - 10)) (iterations (2 ^ 63 - 10) (2 ^ 63 - 1) 1) := by
  refine ⟨?_, ⟨by decide, by decide, by decide, by decide, by decide⟩,
    c47_sequential ⟨by decide, by unfold Fits; decide, by unfold Fits; decide, by unfold Fits; decide⟩⟩
  intro fuel
  unfold chunkedThread
  have key : ∀ (fuel : Nat) (s e : Int), Fits s → s % 16 = 6 → chunks (2 ^ 63 - 1) 1 16 fuel s e = none := by
    intro fuel
    induction fuel with
    | zero => intros; rfl
    | succ f ih =>
      intro s e hs hm
      unfold Fits at hs
      unfold chunks
      rw [if_pos (by rw [more_iff]; omega)]
      cases body 1 e f s with
      | none => rfl
      | some l =>
        rw [Option.bind_some, ih _ _ (w_fits _) (by unfold w; rw [Int.bmod_def, Int.bmod_def]; omega)]
        rfl
  exact key fuel _ _ (by unfold Fits; decide) (by decide)

/-- `for i in range(-2**63, 2**62, 2**62)` has three iterations; run in parallel it has none, because its length overflows. -/
theorem c47_violation_length :
    rangeLen (-(2 ^ 63)) (2 ^ 62) (2 ^ 62) = 0 ∧
    iterations (-(2 ^ 63)) (2 ^ 62) (2 ^ 62) = [-(2 ^ 63), -(2 ^ 62), 0] ∧
    seqLoop (2 ^ 62) (2 ^ 62) 4 (-(2 ^ 63)) = some [-(2 ^ 63), -(2 ^ 62), 0] := by
  refine ⟨by decide, by decide, by decide⟩

/-- Bounds of inner loops are evaluated once, before the nest (openmp.cpp:1352-1362): `for i in range(3): for j in range(i)` with
    `collapse=2` runs `range(i)` for the value of `i` before the loop, here 0. -/
theorem c47_violation_collapse_triangle :
    collapsed [⟨0, 3, 1⟩, ⟨0, 0, 1⟩] 10 = some [] ∧
    ((iterations 0 3 1).flatMap fun i => (iterations 0 i 1).map fun j => [i, j]) = [[1, 0], [2, 0], [2, 1]] := by
  refine ⟨by decide, by decide⟩

end Codon.Omp
