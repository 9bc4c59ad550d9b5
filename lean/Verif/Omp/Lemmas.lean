import Verif.Omp.Spec
import Mathlib.Tactic.Ring
import Mathlib.Tactic.Linarith
import Mathlib.Algebra.Order.Ring.Int
import Mathlib.Algebra.Order.Group.Int
import Mathlib.Data.List.Nodup
/-! # Lemmas on parallel loops -/
namespace Codon.Omp
open Spec

theorem w_eq {x : Int} (h : Fits x) : w x = x := by
  unfold w Fits at *
  rw [Int.bmod_def]; omega

theorem w_add_w (a b : Int) : w (a + w b) = w (a + b) := by
  unfold w; rw [Int.add_bmod_bmod]

theorem w_w_add (a b : Int) : w (w a + b) = w (a + b) := by
  unfold w; rw [Int.bmod_add_bmod]

theorem get_eq {start step idx : Int} (h : Fits (start + idx * step)) : get start step idx = start + idx * step := by
  unfold get
  rw [w_add_w, w_eq h]

/-! ### Which iterations -/

theorem more_iff (step stop i : Int) : more step stop i = true ↔ (0 ≤ step ∧ i < stop) ∨ (step < 0 ∧ stop < i) := by
  unfold more; simp

theorem more_stop {start stop step : Int} (hs : step ≠ 0) (k : Nat) :
    more step stop (start + k * step) = true ↔ k < count start stop step := by
  rw [more_iff]
  unfold count
  rcases lt_or_gt_of_ne hs with h | h
  · rw [if_neg (by omega), Int.lt_toNat]
    have : (k : Int) < (start - stop - step - 1) / -step ↔ (k + 1 : Int) * (-step) ≤ start - stop - step - 1 := by
      rw [← Int.le_ediv_iff_mul_le (by omega : 0 < -step)]; omega
    rw [this]
    have e : (k + 1 : Int) * (-step) = -(k * step) - step := by ring
    rw [e]
    generalize (k : Int) * step = q
    omega
  · rw [if_pos h, Int.lt_toNat]
    have : (k : Int) < (stop - start + step - 1) / step ↔ (k + 1 : Int) * step ≤ stop - start + step - 1 := by
      rw [← Int.le_ediv_iff_mul_le h]; omega
    rw [this]
    have e : (k + 1 : Int) * step = k * step + step := by ring
    rw [e]
    generalize (k : Int) * step = q
    omega

theorem more_idx {start step : Int} (hs : step ≠ 0) (b k : Int) :
    more step (start + b * step) (start + k * step) = true ↔ k < b := by
  rw [more_iff]
  rcases lt_or_gt_of_ne hs with h | h
  · constructor
    · rintro (⟨h1, _⟩ | ⟨_, h2⟩)
      · omega
      · by_contra c
        have : k * step ≤ b * step := Int.mul_le_mul_of_nonpos_right (by omega) (by omega)
        omega
    · intro c
      refine .inr ⟨h, ?_⟩
      have : b * step < k * step := Int.mul_lt_mul_of_neg_right c h
      omega
  · constructor
    · rintro (⟨_, h2⟩ | ⟨h1, _⟩)
      · by_contra c
        have : b * step ≤ k * step := Int.mul_le_mul_of_nonneg_right (by omega) (by omega)
        omega
      · omega
    · intro c
      refine .inl ⟨by omega, ?_⟩
      have : k * step < b * step := Int.mul_lt_mul_of_pos_right c h
      omega

theorem more_cut (step stop part i : Int) : more step (cut step stop part) i = true ↔ more step part i = true ∧ more step stop i = true := by
  rw [more_iff, more_iff, more_iff]
  unfold cut
  by_cases h : step ≥ 0
  · rw [if_pos h]; omega
  · rw [if_neg h]; omega

/-- The values from `lo` up to (not including) `m`. -/
def seg (start step : Int) (lo m : Nat) : List Int := (List.range' lo (m - lo)).map fun k : Nat => start + k * step

theorem seg_step (start step : Int) {lo m : Nat} (h : lo < m) : seg start step lo m = (start + lo * step) :: seg start step (lo + 1) m := by
  unfold seg
  rw [show m - lo = (m - (lo + 1)) + 1 by omega, List.range'_succ]
  rfl

theorem seg_empty (start step : Int) {lo m : Nat} (h : m ≤ lo) : seg start step lo m = [] := by
  unfold seg
  rw [show m - lo = 0 by omega]; rfl

theorem body_seg {start step e : Int} {m : Nat} (he : ∀ k : Nat, more step e (start + k * step) = true ↔ k < m)
    (hf : ∀ k : Nat, k ≤ m → Fits (start + k * step)) : ∀ (fuel lo : Nat), m - lo < fuel →
    body step e fuel (start + lo * step) = some (seg start step lo m) := by
  intro fuel
  induction fuel with
  | zero => intro lo h; omega
  | succ f ih =>
    intro lo h
    unfold body
    by_cases c : lo < m
    · rw [if_pos ((he lo).2 c), seg_step _ _ c]
      have e1 : start + (lo : Int) * step + step = start + ((lo + 1 : Nat) : Int) * step := by push_cast; ring
      rw [e1, w_eq (hf (lo + 1) (by omega)), ih (lo + 1) (by omega)]
      rfl
    · rw [if_neg (fun q => c ((he lo).1 q)), seg_empty _ _ (by omega)]

theorem seqLoop_seg {start stop step : Int} (hs : step ≠ 0)
    (hf : ∀ k : Nat, k ≤ count start stop step → Fits (start + k * step)) : ∀ (fuel lo : Nat), count start stop step - lo < fuel →
    seqLoop stop step fuel (start + lo * step) = some (seg start step lo (count start stop step)) := by
  intro fuel
  induction fuel with
  | zero => intro lo h; omega
  | succ f ih =>
    intro lo h
    unfold seqLoop
    have hm := more_stop (start := start) (stop := stop) hs lo
    rw [more_iff] at hm
    have hc : (if step > 0 then start + (lo : Int) * step ≥ stop else start + (lo : Int) * step ≤ stop) ↔ ¬ lo < count start stop step := by
      rw [← hm]
      generalize (lo : Int) * step = q
      split <;> omega
    by_cases c : lo < count start stop step
    · rw [if_neg (fun q => hc.1 q c), seg_step _ _ c]
      have e1 : start + (lo : Int) * step + step = start + ((lo + 1 : Nat) : Int) * step := by push_cast; ring
      rw [e1, w_eq (hf (lo + 1) (by omega)), ih (lo + 1) (by omega)]
      rfl
    · rw [if_pos (hc.2 c), seg_empty _ _ (by omega)]

theorem iterations_seg (start stop step : Int) : iterations start stop step = seg start step 0 (count start stop step) := by
  unfold iterations seg
  rw [List.range_eq_range']; rfl

theorem w_w_sub (a b : Int) : w (w a - b) = w (a - b) := by
  unfold w; rw [Int.bmod_sub_bmod]

theorem rangeLen_eq {start stop step : Int} (hs : step ≠ 0) (h2 : Fits step ∧ Fits (-step))
    (hd : Fits (stop - 1 - start) ∧ Fits (start - 1 - stop)) : rangeLen start stop step = count start stop step := by
  unfold rangeLen count
  rcases lt_or_gt_of_ne hs with h | h
  · rw [if_neg (fun q => absurd q.1 (by omega))]
    by_cases c : start > stop
    · have e : (start - stop - step - 1) / -step = (start - 1 - stop) / -step + 1 := by
        rw [show start - stop - step - 1 = (start - 1 - stop) + 1 * (-step) by ring, Int.add_mul_ediv_right _ _ (by omega)]
      have hq : 0 ≤ (start - 1 - stop) / -step := Int.ediv_nonneg (by omega) (by omega)
      have hq2 : (start - 1 - stop) / -step ≤ start - 1 - stop := Int.ediv_le_self _ (by omega)
      rw [if_pos ⟨h, c⟩, if_neg (by omega : ¬ 0 < step), w_w_sub, w_eq hd.2, w_eq h2.2, Int.tdiv_eq_ediv_of_nonneg (by omega), e]
      unfold Fits at hd
      rw [w_eq (by unfold Fits; omega)]
      omega
    · rw [if_neg (by omega), if_neg (by omega : ¬ 0 < step)]
      have : (start - stop - step - 1) / -step ≤ 0 := by
        have := Int.ediv_lt_of_lt_mul (a := start - stop - step - 1) (b := 1) (c := -step) (by omega) (by omega)
        omega
      omega
  · by_cases c : start < stop
    · have e : (stop - start + step - 1) / step = (stop - 1 - start) / step + 1 := by
        rw [show stop - start + step - 1 = (stop - 1 - start) + 1 * step by ring, Int.add_mul_ediv_right _ _ (by omega)]
      have hq : 0 ≤ (stop - 1 - start) / step := Int.ediv_nonneg (by omega) (by omega)
      have hq2 : (stop - 1 - start) / step ≤ stop - 1 - start := Int.ediv_le_self _ (by omega)
      rw [if_pos ⟨h, c⟩, if_pos h, w_w_sub, w_eq hd.1, Int.tdiv_eq_ediv_of_nonneg (by omega), e]
      unfold Fits at hd
      rw [w_eq (by unfold Fits; omega)]
      omega
    · rw [if_neg (by omega), if_neg (by omega), if_pos h]
      have : (stop - start + step - 1) / step ≤ 0 := by
        have := Int.ediv_lt_of_lt_mul (a := stop - start + step - 1) (b := 1) (c := step) (by omega) (by omega)
        omega
      omega

theorem w_fits (x : Int) : Fits (w x) := by
  unfold w Fits
  rw [Int.bmod_def]; omega

theorem rangeLen_fits (start stop step : Int) : Fits (rangeLen start stop step) := by
  unfold rangeLen
  split
  · exact w_fits _
  · split
    · exact w_fits _
    · unfold Fits; omega

theorem fits_between {start step : Int} {m : Nat} (h0 : Fits start) (h1 : Fits (start + m * step)) {k : Nat} (hk : k ≤ m) :
    Fits (start + k * step) := by
  unfold Fits at *
  rcases le_or_gt 0 step with h | h
  · have a : (k : Int) * step ≤ m * step := Int.mul_le_mul_of_nonneg_right (by omega) h
    have b : 0 ≤ (k : Int) * step := Int.mul_nonneg (by omega) h
    omega
  · have a : (m : Int) * step ≤ k * step := Int.mul_le_mul_of_nonpos_right (by omega) (by omega)
    have b : (k : Int) * step ≤ 0 := Int.mul_nonpos_of_nonneg_of_nonpos (by omega) (by omega)
    omega

/-! ### Static schedules -/

theorem static_seg {start stop step : Int} (hs : step ≠ 0) {a b : Nat} (hab : a ≤ b) (hb : b ≤ count start stop step)
    (h0 : Fits start) (h1 : Fits (start + count start stop step * step)) (hn : Fits (b : Int)) {lo up : Int} (el : lo = a) (eu : up + 1 = b) {fuel : Nat} (hfuel : b - a < fuel) :
    staticThread start stop step lo up fuel = some (seg start step a b) := by
  unfold staticThread
  have fb : Fits (start + (b : Int) * step) := fits_between h0 h1 hb
  have fa : Fits (start + (a : Int) * step) := fits_between h0 h1 (by omega)
  rw [el, eu, w_eq hn, get_eq fa, get_eq fb]
  apply body_seg _ _ _ _ hfuel
  · intro k
    rw [more_cut, more_idx hs, more_stop hs]
    omega
  · intro k hk
    exact fits_between h0 h1 (by omega)

theorem mem_seg {start step : Int} {a b : Nat} {x : Int} : x ∈ seg start step a b ↔ ∃ k : Nat, a ≤ k ∧ k < b ∧ x = start + k * step := by
  unfold seg
  simp only [List.mem_map, List.mem_range'_1]
  constructor
  · rintro ⟨k, h, rfl⟩
    exact ⟨k, by omega, by omega, rfl⟩
  · rintro ⟨k, h1, h2, rfl⟩
    exact ⟨k, by omega, rfl⟩

theorem val_inj {start step : Int} (hs : step ≠ 0) {k l : Nat} (h : start + k * step = start + (l : Int) * step) : k = l := by
  have : (k : Int) * step = l * step := by omega
  have := Int.eq_of_mul_eq_mul_right hs this
  omega

theorem nodup_seg {start step : Int} (hs : step ≠ 0) (a b : Nat) : (seg start step a b).Nodup := by
  unfold seg
  apply List.Nodup.map
  · intro k l h
    exact val_inj hs h
  · exact List.nodup_range'

/-- Lists of iterations by their indices. -/
theorem perm_all {start stop step : Int} (hs : step ≠ 0) {threads : Nat} {f : Nat → List Int}
    (hn : ∀ t < threads, (f t).Nodup)
    (hm : ∀ t < threads, ∀ x ∈ f t, ∃ k : Nat, k < count start stop step ∧ x = start + k * step)
    (hc : ∀ k : Nat, k < count start stop step → ∃ t < threads, start + k * step ∈ f t)
    (ho : ∀ t < threads, ∀ u < threads, ∀ x, x ∈ f t → x ∈ f u → t = u) :
    (allThreads threads f).Perm (iterations start stop step) := by
  rw [iterations_seg]
  rw [List.perm_ext_iff_of_nodup _ (nodup_seg hs _ _)]
  · intro x
    unfold allThreads
    rw [mem_seg]
    simp only [List.mem_flatMap, List.mem_range]
    constructor
    · rintro ⟨t, ht, hx⟩
      obtain ⟨k, hk, rfl⟩ := hm t ht x hx
      exact ⟨k, by omega, hk, rfl⟩
    · rintro ⟨k, _, hk, rfl⟩
      exact hc k hk
  · unfold allThreads
    rw [List.nodup_flatMap]
    constructor
    · intro t ht
      exact hn t (List.mem_range.1 ht)
    · have := List.nodup_range (n := threads)
      rw [List.nodup_iff_pairwise_ne] at this
      refine (List.pairwise_iff_forall_sublist.2 fun {t u} hsub => ?_)
      have ht := List.mem_range.1 (hsub.subset (by simp : t ∈ [t, u]))
      have hu := List.mem_range.1 (hsub.subset (by simp : u ∈ [t, u]))
      have hne : t ≠ u := (List.pairwise_iff_forall_sublist.1 this) hsub
      intro x h1 h2
      exact hne (ho t ht u hu x h1 h2)

/-! ### Chunks -/

theorem chunk_owner {c m t r k : Nat} (hc : 0 < c) (ht : t < m) (h1 : c * t + r * (c * m) ≤ k) (h2 : k < c * t + (r + 1) * (c * m)) :
    k / c % m = t ↔ k < c * t + r * (c * m) + c := by
  obtain ⟨d, rfl⟩ : ∃ d, k = c * t + r * (c * m) + d := ⟨k - (c * t + r * (c * m)), by omega⟩
  have hd : d < c * m := by
    have : (r + 1) * (c * m) = r * (c * m) + c * m := by ring
    omega
  have e : (c * t + r * (c * m) + d) / c = t + d / c + m * r := by
    rw [show c * t + r * (c * m) + d = d + c * (t + m * r) by ring, Nat.add_mul_div_left _ _ hc]; ring
  rw [e, Nat.add_mul_mod_self_left]
  have hq : d / c < m := Nat.div_lt_of_lt_mul hd
  constructor
  · intro h
    by_contra hcon
    have hd1 : 1 ≤ d / c := (Nat.le_div_iff_mul_le hc).2 (by omega)
    by_cases hlt : t + d / c < m
    · rw [Nat.mod_eq_of_lt hlt] at h; omega
    · rw [Nat.mod_eq_sub_mod (by omega), Nat.mod_eq_of_lt (by omega)] at h; omega
  · intro h
    rw [Nat.div_eq_of_lt (by omega), Nat.add_zero, Nat.mod_eq_of_lt ht]

theorem chunks_run {start stop step : Int} (hs : step ≠ 0) {c m t : Nat} (hc : 0 < c) (ht : t < m) (h0 : Fits start)
    (h1 : Fits (start + (count start stop step + 2 * (c * m) : Nat) * step)) :
    ∀ (fuel r : Nat), count start stop step + c - (c * t + r * (c * m)) + c < fuel → c * t + r * (c * m) ≤ count start stop step + c * m →
    ∃ l, chunks stop step ((c * m : Nat) : Int) fuel (start + ((c * t + r * (c * m) : Nat) : Int) * step)
        (cut step stop (start + ((c * t + r * (c * m) + c : Nat) : Int) * step)) = some l ∧ l.Nodup ∧
      ∀ x, x ∈ l ↔ ∃ k : Nat, c * t + r * (c * m) ≤ k ∧ k < count start stop step ∧ k / c % m = t ∧ x = start + k * step := by
  have hcm : c ≤ c * m := Nat.le_mul_of_pos_right c (by omega)
  intro fuel
  induction fuel with
  | zero => intro r h; omega
  | succ f ih =>
    intro r hfu hle
    unfold chunks
    generalize hp : c * t + r * (c * m) = p at *
    have hp1 : c * t + (r + 1) * (c * m) = p + c * m := by rw [← hp]; ring
    by_cases ca : p < count start stop step
    · rw [if_pos ((more_stop hs p).2 ca)]
      have hb : body step (cut step stop (start + ((p + c : Nat) : Int) * step)) f (start + (p : Int) * step) =
          some (seg start step p (min (p + c) (count start stop step))) := by
        apply body_seg
        · intro k
          rw [more_cut, more_idx hs, more_stop hs]
          omega
        · intro k hk
          exact fits_between h0 h1 (by omega)
        · omega
      rw [hb, Option.bind_some]
      have es : w (start + (p : Int) * step + w (((c * m : Nat) : Int) * step)) = start + ((p + c * m : Nat) : Int) * step := by
        rw [w_add_w, show start + (p : Int) * step + ((c * m : Nat) : Int) * step = start + ((p + c * m : Nat) : Int) * step by push_cast; ring]
        exact w_eq (fits_between h0 h1 (by omega))
      rw [es]
      by_cases cb : p + c * m < count start stop step
      · have ec : cut step stop (start + ((p + c : Nat) : Int) * step) = start + ((p + c : Nat) : Int) * step := by
          have := (more_stop (start := start) (stop := stop) hs (p + c)).2 (by omega)
          rw [more_iff] at this
          unfold cut
          split <;> omega
        have ee : w (start + ((p + c : Nat) : Int) * step + w (((c * m : Nat) : Int) * step)) = start + ((p + c * m + c : Nat) : Int) * step := by
          rw [w_add_w, show start + ((p + c : Nat) : Int) * step + ((c * m : Nat) : Int) * step = start + ((p + c * m + c : Nat) : Int) * step by push_cast; ring]
          exact w_eq (fits_between h0 h1 (by omega))
        rw [ec, ee]
        obtain ⟨l, hl, hn, hmem⟩ := ih (r + 1) (by rw [hp1]; omega) (by rw [hp1]; omega)
        rw [hp1] at hl hmem
        rw [hl]
        refine ⟨_, rfl, ?_, ?_⟩
        · rw [List.nodup_append]
          refine ⟨nodup_seg hs _ _, hn, ?_⟩
          intro a ha b hb hab
          subst hab
          obtain ⟨k, hk1, hk2, rfl⟩ := mem_seg.1 ha
          obtain ⟨k', hk3, _, _, e⟩ := (hmem _).1 hb
          have := val_inj hs e
          omega
        · intro x
          rw [List.mem_append, mem_seg, hmem]
          constructor
          · rintro (⟨k, a1, a2, rfl⟩ | ⟨k, a1, a2, a3, rfl⟩)
            · refine ⟨k, a1, by omega, ?_, rfl⟩
              rw [chunk_owner hc ht (r := r) (by omega) (by rw [hp1]; omega), hp]; omega
            · exact ⟨k, by omega, a2, a3, rfl⟩
          · rintro ⟨k, a1, a2, a3, rfl⟩
            by_cases cc : k < p + c * m
            · rw [chunk_owner hc ht (r := r) (by omega) (by rw [hp1]; omega), hp] at a3
              exact .inl ⟨k, a1, by omega, rfl⟩
            · exact .inr ⟨k, by omega, a2, a3, rfl⟩
      · have hend : ∀ e, chunks stop step ((c * m : Nat) : Int) f (start + ((p + c * m : Nat) : Int) * step) e = some [] := by
          intro e
          obtain ⟨g, rfl⟩ : ∃ g, f = g + 1 := ⟨f - 1, by omega⟩
          unfold chunks
          rw [if_neg (fun q => cb ((more_stop hs (p + c * m)).1 q))]
        rw [hend]
        refine ⟨_, rfl, by simpa using nodup_seg hs _ _, ?_⟩
        intro x
        show x ∈ _ ++ [] ↔ _
        rw [List.append_nil, mem_seg]
        constructor
        · rintro ⟨k, a1, a2, rfl⟩
          refine ⟨k, a1, by omega, ?_, rfl⟩
          rw [chunk_owner hc ht (r := r) (by omega) (by rw [hp1]; omega), hp]; omega
        · rintro ⟨k, a1, a2, a3, rfl⟩
          rw [chunk_owner hc ht (r := r) (by omega) (by rw [hp1]; omega), hp] at a3
          exact ⟨k, a1, by omega, rfl⟩
    · rw [if_neg (fun q => ca ((more_stop hs p).1 q))]
      refine ⟨[], rfl, List.nodup_nil, ?_⟩
      intro x
      constructor
      · intro h; simp at h
      · rintro ⟨k, a1, a2, _⟩; omega

/-! ### Fuel -/

theorem body_mono {step e : Int} : ∀ {f : Nat} {i : Int} {l : List Int}, body step e f i = some l → ∀ g ≥ f, body step e g i = some l := by
  intro f
  induction f with
  | zero => intro i l h; cases h
  | succ f ih =>
    intro i l h g hg
    obtain ⟨g, rfl⟩ : ∃ k, g = k + 1 := ⟨g - 1, by omega⟩
    unfold body at h ⊢
    by_cases c : more step e i = true
    · rw [if_pos c] at h ⊢
      obtain ⟨q, h1, h2⟩ := Option.map_eq_some_iff.1 h
      rw [ih h1 g (by omega), Option.map_some, h2]
    · rw [if_neg c] at h ⊢
      exact h

theorem chunks_mono {stop step stride : Int} : ∀ {f : Nat} {s e : Int} {l : List Int}, chunks stop step stride f s e = some l →
    ∀ g ≥ f, chunks stop step stride g s e = some l := by
  intro f
  induction f with
  | zero => intro s e l h; cases h
  | succ f ih =>
    intro s e l h g hg
    obtain ⟨g, rfl⟩ : ∃ k, g = k + 1 := ⟨g - 1, by omega⟩
    unfold chunks at h ⊢
    by_cases c : more step stop s = true
    · rw [if_pos c] at h ⊢
      obtain ⟨q, h1, h2⟩ := Option.bind_eq_some_iff.1 h
      obtain ⟨p, h3, h4⟩ := Option.map_eq_some_iff.1 h2
      rw [body_mono h1 g (by omega), Option.bind_some, ih h3 g (by omega), Option.map_some, h4]
    · rw [if_neg c] at h ⊢
      exact h

end Codon.Omp
