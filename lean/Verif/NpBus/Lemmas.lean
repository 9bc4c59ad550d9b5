import Verif.NpBus.Spec
import Mathlib.Tactic.Ring
import Mathlib.Tactic.Linarith

/-!
# Lemmas for business days
-/

namespace Codon.NpBus

/-! ### The searches -/

/-- The number of holidays before `d`. -/
def lowc (hs : List Int) (d : Int) : Nat := hs.countP fun h => decide (h < d)

theorem lowc_le (hs : List Int) (d : Int) : lowc hs d ≤ hs.length := List.countP_le_length

theorem lowc_mono (hs : List Int) {a b : Int} (h : a ≤ b) : lowc hs a ≤ lowc hs b := by
  unfold lowc
  refine List.countP_mono_left fun x _ hx => ?_
  simp only [decide_eq_true_eq] at hx ⊢
  omega

theorem lowc_zero {hs : List Int} {d : Int} (h : ∀ x ∈ hs, d ≤ x) : lowc hs d = 0 := by
  unfold lowc
  refine List.countP_eq_zero.2 fun x hx => ?_
  have := h x hx
  simp only [decide_eq_true_eq]
  omega

theorem get_lt_iff {hs : List Int} (hp : hs.Pairwise (· < ·)) (d : Int) :
    ∀ {i : Nat} {h : Int}, hs[i]? = some h → (h < d ↔ i < lowc hs d) := by
  induction hs with
  | nil => intro i h e; simp at e
  | cons a t ih =>
    intro i h e
    obtain ⟨q1, q2⟩ := List.pairwise_cons.1 hp
    by_cases ha : a < d
    · have hc : lowc (a :: t) d = lowc t d + 1 := by
        unfold lowc; rw [List.countP_cons_of_pos (by simpa using ha)]
      rcases i with _ | i
      · simp only [List.getElem?_cons_zero, Option.some.injEq] at e
        omega
      · simp only [List.getElem?_cons_succ] at e
        have := ih q2 e
        omega
    · have hc : lowc (a :: t) d = 0 := by
        refine lowc_zero fun x hx => ?_
        rcases List.mem_cons.1 hx with rfl | hx
        · omega
        · have := q1 x hx; omega
      have : a ≤ h := by
        have hm := List.mem_of_getElem? e
        rcases List.mem_cons.1 hm with rfl | hm
        · omega
        · have := q1 h hm; omega
      omega

theorem lowc_succ {hs : List Int} (hp : hs.Pairwise (· < ·)) (d : Int) :
    lowc hs (d + 1) = lowc hs d + if d ∈ hs then 1 else 0 := by
  induction hs with
  | nil => simp [lowc]
  | cons a t ih =>
    obtain ⟨q1, q2⟩ := List.pairwise_cons.1 hp
    have i := ih q2
    have hc : ∀ x, lowc (a :: t) x = lowc t x + if a < x then 1 else 0 := by
      intro x; unfold lowc; rw [List.countP_cons]; simp
    rw [hc, hc]
    by_cases he : d = a
    · subst he
      have hn : d ∉ t := fun hm => by have := q1 d hm; omega
      simp only [hn, if_false] at i
      simp [i]
    · have hm : (d ∈ a :: t) ↔ d ∈ t := by simp [he]
      have : (a < d + 1) ↔ a < d := by omega
      simp only [hm, this, i]
      omega

theorem search_id {hs : List Int} (hp : hs.Pairwise (· < ·)) (d : Int) :
    ∀ (f lo hi : Nat), lo ≤ lowc hs d → lowc hs d ≤ hi → hi ≤ hs.length → hi - lo < f →
      search id hs d f lo hi = some (lowc hs d) := by
  intro f
  induction f with
  | zero => intro lo hi _ _ _ h; omega
  | succ f ih =>
    intro lo hi h1 h2 h3 h4
    unfold search
    by_cases hl : lo < hi
    · simp only [hl, if_true]
      obtain ⟨h, e⟩ : ∃ h, hs[lo + (hi - lo) / 2]? = some h :=
        ⟨_, List.getElem?_eq_getElem (by omega)⟩
      simp only [e]
      have g := get_lt_iff hp d e
      have g' := get_lt_iff hp (d + 1) e
      by_cases c1 : d < h
      · simp only [c1, if_true]
        exact ih _ _ h1 (by omega) (by omega) (by omega)
      · simp only [c1, if_false]
        by_cases c2 : d > h
        · simp only [c2, if_true]
          exact ih _ _ (by omega) h2 h3 (by omega)
        · simp only [c2, if_false, id_eq, Option.some.injEq]
          have := lowc_succ hp d
          split_ifs at this <;> omega
    · simp only [hl, if_false, Option.some.injEq]; omega

theorem search_succ {hs : List Int} (hp : hs.Pairwise (· < ·)) (d : Int) :
    ∀ (f lo hi : Nat), lo ≤ lowc hs (d + 1) → lowc hs (d + 1) ≤ hi → hi ≤ hs.length → hi - lo < f →
      search (· + 1) hs d f lo hi = some (lowc hs (d + 1)) := by
  intro f
  induction f with
  | zero => intro lo hi _ _ _ h; omega
  | succ f ih =>
    intro lo hi h1 h2 h3 h4
    unfold search
    by_cases hl : lo < hi
    · simp only [hl, if_true]
      obtain ⟨h, e⟩ : ∃ h, hs[lo + (hi - lo) / 2]? = some h :=
        ⟨_, List.getElem?_eq_getElem (by omega)⟩
      simp only [e]
      have g := get_lt_iff hp d e
      have g' := get_lt_iff hp (d + 1) e
      by_cases c1 : d < h
      · simp only [c1, if_true]
        exact ih _ _ h1 (by omega) (by omega) (by omega)
      · simp only [c1, if_false]
        by_cases c2 : d > h
        · simp only [c2, if_true]
          exact ih _ _ (by omega) h2 h3 (by omega)
        · simp only [c2, if_false, Option.some.injEq]
          have := lowc_succ hp d
          split_ifs at this <;> omega
    · simp only [hl, if_false, Option.some.injEq]; omega

theorem isHoliday_spec {hs : List Int} (hp : hs.Pairwise (· < ·)) (d : Int) :
    ∀ (f lo hi : Nat), lo ≤ lowc hs d → lowc hs (d + 1) ≤ hi → hi ≤ hs.length → hi - lo < f →
      isHoliday hs d f lo hi = some (decide (d ∈ hs)) := by
  intro f
  induction f with
  | zero => intro lo hi _ _ _ h; omega
  | succ f ih =>
    intro lo hi h1 h2 h3 h4
    unfold isHoliday
    by_cases hl : lo < hi
    · simp only [hl, if_true]
      obtain ⟨h, e⟩ : ∃ h, hs[lo + (hi - lo) / 2]? = some h :=
        ⟨_, List.getElem?_eq_getElem (by omega)⟩
      simp only [e]
      have g := get_lt_iff hp d e
      have g' := get_lt_iff hp (d + 1) e
      by_cases c1 : d < h
      · simp only [c1, if_true]
        exact ih _ _ h1 (by omega) (by omega) (by omega)
      · simp only [c1, if_false]
        by_cases c2 : d > h
        · simp only [c2, if_true]
          exact ih _ _ (by omega) h2 h3 (by omega)
        · simp only [c2, if_false]
          have : d = h := by omega
          subst this
          simp [List.mem_of_getElem? e]
    · simp only [hl, if_false, Option.some.injEq]
      have := lowc_succ hp d
      split_ifs at this with hm
      · have := lowc_mono hs (show d ≤ d + 1 by omega); omega
      · simp [hm]

/-! ### Days of the week -/

theorem dow_eq (d : Int) : dow d = (d - 4) % 7 := by
  unfold dow
  generalize d - 4 = x
  rcases le_total 0 x with h | h
  · rw [Int.tmod_eq_emod_of_nonneg h]
    have := Int.emod_nonneg x (show (7 : Int) ≠ 0 by decide)
    simp only
    rw [if_neg (by omega)]
  · obtain ⟨y, rfl⟩ : ∃ y, x = -y := ⟨-x, by omega⟩
    rw [Int.neg_tmod, Int.tmod_eq_emod_of_nonneg (by omega)]
    simp only
    split_ifs <;> omega

theorem step_eq (fwd : Bool) (d : Int) : step fwd d (dow d) = (d + sgn fwd, dow (d + sgn fwd)) := by
  cases fwd
  · simp only [step, sgn, dow_eq, Bool.false_eq_true, if_false, Prod.mk.injEq]
    refine ⟨by omega, ?_⟩
    split_ifs <;> omega
  · simp only [step, sgn, dow_eq, if_true, Prod.mk.injEq]
    refine ⟨trivial, ?_⟩
    split_ifs <;> omega

theorem bit_dow (wm : Nat) (d : Int) : bit wm (dow d) = decide (Masked wm d) := by
  by_cases hm : Masked wm d
  · have h' := hm
    unfold Masked at h'
    simp only [bit, dow_eq, h', hm, decide_true]
  · have h' := hm
    unfold Masked at h'
    simp only [bit, dow_eq, h', hm, decide_false]

theorem open_spec {wm : Nat} {hs : List Int} (hp : hs.Pairwise (· < ·)) {lo hi : Nat} {d : Int}
    (h1 : lo ≤ lowc hs d) (h2 : lowc hs (d + 1) ≤ hi) (h3 : hi ≤ hs.length) :
    open_ wm hs lo hi d (dow d) = .ok (decide (Business wm hs d)) := by
  unfold open_ Business
  rw [bit_dow, isHoliday_spec hp d _ _ _ h1 h2 h3 (by unfold rounds; omega)]
  by_cases hm : Masked wm d <;> simp [hm, Out.of, Out.bind]

/-! ### Counting -/

theorem cnt_congr {p q : Nat → Prop} [DecidablePred p] [DecidablePred q] (n : Nat)
    (h : ∀ k < n, (p k ↔ q k)) : Nat.count p n = Nat.count q n := by
  induction n with
  | zero => simp
  | succ n ih =>
    rw [Nat.count_succ, Nat.count_succ, ih fun k hk => h k (by omega)]
    simp [h n (by omega)]

theorem masked_add (wm : Nat) (d q : Int) : Masked wm (d + 7 * q) ↔ Masked wm d := by
  unfold Masked
  have : (d + 7 * q - 4) % 7 = (d - 4) % 7 := by omega
  rw [this]

theorem count_week {wm : Nat} (h : wm < 128) (fwd : Bool) (d : Int) :
    Nat.count (fun i : Nat => Masked wm (d + sgn fwd * (i + 1))) 7 = popcnt wm := by
  obtain ⟨r, q, hr, e⟩ : ∃ r q : Int, (r = 0 ∨ r = 1 ∨ r = 2 ∨ r = 3 ∨ r = 4 ∨ r = 5 ∨ r = 6) ∧
      d = r + 4 + 7 * q := ⟨(d - 4) % 7, (d - 4) / 7, by omega, by omega⟩
  have h7 : wm.testBit 7 = false := Nat.testBit_lt_two_pow (by simpa using h)
  subst e
  rw [cnt_congr (q := fun i : Nat => Masked wm (r + 4 + sgn fwd * (i + 1))) 7 fun k _ => by
    rw [show r + 4 + 7 * q + sgn fwd * ((k : Int) + 1) = r + 4 + sgn fwd * (k + 1) + 7 * q by ring]
    exact masked_add _ _ _]
  rcases hr with rfl | rfl | rfl | rfl | rfl | rfl | rfl <;> cases fwd <;>
    simp [Nat.count_succ, Masked, sgn, popcnt, List.range_succ, List.countP_cons, h7] <;> omega

theorem count_weeks {wm : Nat} (h : wm < 128) (fwd : Bool) (d : Int) (q : Nat) :
    Nat.count (fun i : Nat => Masked wm (d + sgn fwd * (i + 1))) (7 * q) = q * popcnt wm := by
  induction q with
  | zero => simp
  | succ q ih =>
    rw [show 7 * (q + 1) = 7 * q + 7 by ring, Nat.count_add, ih,
      cnt_congr (q := fun i : Nat => Masked wm (d + sgn fwd * (i + 1))) 7 fun k _ => by
        rw [show d + sgn fwd * (((7 * q + k : Nat) : Int) + 1) =
          d + sgn fwd * (k + 1) + 7 * (sgn fwd * q) by push_cast; ring]
        exact masked_add _ _ _,
      count_week h]
    ring

theorem count_split {wm : Nat} {hs : List Int} (hk : ∀ d ∈ hs, Masked wm d) (f : Nat → Int)
    (n : Nat) : Nat.count (fun i => Business wm hs (f i)) n + Nat.count (fun i => f i ∈ hs) n =
      Nat.count (fun i => Masked wm (f i)) n := by
  induction n with
  | zero => simp
  | succ n ih =>
    rw [Nat.count_succ, Nat.count_succ, Nat.count_succ, ← ih]
    by_cases h1 : f n ∈ hs
    · have := hk _ h1
      simp only [Business, h1, this, not_true, and_false, if_true, if_false]; omega
    · by_cases h2 : Masked wm (f n) <;>
        simp only [Business, h1, h2, not_false_eq_true, and_true,
          if_true, if_false] <;> omega

theorem count_hol_fwd {hs : List Int} (hp : hs.Pairwise (· < ·)) (d : Int) (n : Nat) :
    Nat.count (fun i : Nat => d + i ∈ hs) n + lowc hs d = lowc hs (d + n) := by
  induction n with
  | zero => simp
  | succ n ih =>
    rw [Nat.count_succ, show d + ((n + 1 : Nat) : Int) = d + n + 1 by push_cast; ring,
      lowc_succ hp, ← ih]
    omega

theorem count_hol_bwd {hs : List Int} (hp : hs.Pairwise (· < ·)) (d : Int) (n : Nat) :
    Nat.count (fun i : Nat => d - (i + 1) ∈ hs) n + lowc hs (d - n) = lowc hs d := by
  induction n with
  | zero => simp
  | succ n ih =>
    have := lowc_succ hp (d - (n + 1))
    rw [show d - ((n : Int) + 1) + 1 = d - n by ring] at this
    rw [Nat.count_succ, show d - ((n + 1 : Nat) : Int) = d - (n + 1) by push_cast; ring, ← ih, this]
    omega

/-! ### There is a next business day -/

theorem exists_bit {wm : Nat} (h : MaskOk wm) : ∃ b : Nat, b < 7 ∧ wm.testBit b = true := by
  obtain ⟨b, hb⟩ := Nat.exists_testBit_of_ne_zero h.1
  refine ⟨b, ?_, hb⟩
  by_contra hc
  have h7 : wm < 2 ^ b := lt_of_lt_of_le h.2 (by
    calc 128 = 2 ^ 7 := by norm_num
      _ ≤ 2 ^ b := Nat.pow_le_pow_right (by omega) (by omega))
  rw [Nat.testBit_lt_two_pow h7] at hb
  cases hb

theorem hol_bound (hs : List Int) : ∃ K : Nat, ∀ h ∈ hs, -(K : Int) ≤ h ∧ h ≤ K := by
  induction hs with
  | nil => exact ⟨0, by simp⟩
  | cons a t ih =>
    obtain ⟨K, hK⟩ := ih
    refine ⟨K + a.natAbs, fun h hh => ?_⟩
    rcases List.mem_cons.1 hh with rfl | hh
    · omega
    · have := hK h hh; omega

theorem exists_next {wm : Nat} {hs : List Int} (h : MaskOk wm) (fwd : Bool) (d : Int) :
    ∃ j : Nat, Business wm hs (d + sgn fwd * (j + 1)) := by
  obtain ⟨b, hb, hbit⟩ := exists_bit h
  obtain ⟨K, hK⟩ := hol_bound hs
  have key : ∀ x : Int, (x - 4) % 7 = b → (x > K ∨ x < -K) → Business wm hs x := by
    intro x h1 h2
    refine ⟨?_, fun hm => ?_⟩
    · unfold Masked; rw [h1]; simpa using hbit
    · have := hK x hm; omega
  cases fwd
  · refine ⟨(d - 1 - (4 + b - 7 * (d.natAbs + K + 3))).toNat, key _ ?_ (Or.inr ?_)⟩ <;>
      simp only [sgn, Bool.false_eq_true, if_false] <;> omega
  · refine ⟨((4 + b + 7 * (d.natAbs + K + 3)) - d - 1).toNat, key _ ?_ (Or.inl ?_)⟩ <;>
      simp only [sgn, if_true] <;> omega

/-- The first business day after (before) `d`. -/
theorem first_next {wm : Nat} {hs : List Int} (h : MaskOk wm) (fwd : Bool) (d : Int) :
    ∃ j : Nat, (∀ i < j, ¬ Business wm hs (d + sgn fwd * (i + 1))) ∧
      Business wm hs (d + sgn fwd * (j + 1)) := by
  classical
  have he := exists_next (hs := hs) h fwd d
  exact ⟨Nat.find he, fun i hi => Nat.find_min he hi, Nat.find_spec he⟩

theorem nth_one {B : Int → Prop} [DecidablePred B] {fwd : Bool} {d : Int} {j : Nat}
    (h1 : ∀ i < j, ¬ B (d + sgn fwd * (i + 1))) (h2 : B (d + sgn fwd * (j + 1))) :
    Nth B fwd d 1 (d + sgn fwd * (j + 1)) := by
  refine ⟨j + 1, by push_cast; ring, ?_, by simp, fun _ => h2⟩
  rw [Nat.count_succ, Nat.count_iff_forall_not.2 h1]
  simp [h2]

theorem nth_trans {B : Int → Prop} [DecidablePred B] {fwd : Bool} {d r : Int} {j k : Nat} {c : Nat}
    (h0 : Nat.count (fun i : Nat => B (d + sgn fwd * (i + 1))) j = c)
    (h1 : k = 0 → c ≠ 0 → B (d + sgn fwd * j)) (hz : c = 0 → k = 0 → j = 0)
    (h2 : Nth B fwd (d + sgn fwd * j) k r) : Nth B fwd d (c + k) r := by
  obtain ⟨j', e, e2, e3, e4⟩ := h2
  refine ⟨j + j', by rw [e]; push_cast; ring, ?_, fun hk => ?_, fun hk => ?_⟩
  · rw [Nat.count_add, h0, ← e2]
    congr 1
    refine cnt_congr _ fun i _ => ?_
    rw [show d + sgn fwd * (((j + i : Nat) : Int) + 1) = d + sgn fwd * j + sgn fwd * (i + 1) by
      push_cast; ring]
  · have : c = 0 := by omega
    have : k = 0 := by omega
    have := hz (by omega) this
    have := e3 (by omega)
    omega
  · by_cases hk0 : k = 0
    · have h5 := e3 hk0
      rw [e, h5]
      simpa using h1 hk0 (by omega)
    · exact e4 hk0

/-! ### The loops -/

theorem rollLoop_hit {wm : Nat} {hs : List Int} (hp : hs.Pairwise (· < ·)) (fwd : Bool) (n : Nat) :
    ∀ (j : Nat) (d : Int), (∀ i < j, ¬ Business wm hs (d + sgn fwd * (i + 1))) →
      Business wm hs (d + sgn fwd * (j + 1)) →
      rollLoop wm hs fwd (n + j + 1) d (dow d) =
        .ok (d + sgn fwd * (j + 1), dow (d + sgn fwd * (j + 1))) := by
  intro j
  induction j with
  | zero =>
    intro d _ h2
    simp only [Nat.cast_zero, zero_add, mul_one] at h2 ⊢
    simp only [rollLoop, step_eq, Nat.add_zero]
    rw [open_spec hp (by omega) (lowc_le _ _) le_rfl]
    simp [Out.bind, h2]
  | succ j ih =>
    intro d h1 h2
    have e0 := h1 0 (by omega)
    simp only [Nat.cast_zero, zero_add, mul_one] at e0
    rw [show n + (j + 1) + 1 = (n + j + 1) + 1 by ring, rollLoop]
    simp only [step_eq]
    rw [open_spec hp (by omega) (lowc_le _ _) le_rfl]
    simp only [Out.bind, e0, decide_false, Bool.false_eq_true, if_false]
    rw [ih (d + sgn fwd) (fun i hi => by
        have := h1 (i + 1) (by omega)
        rwa [show d + sgn fwd * (((i + 1 : Nat) : Int) + 1) = d + sgn fwd + sgn fwd * (i + 1) by
          push_cast; ring] at this)
      (by rwa [show d + sgn fwd * (((j + 1 : Nat) : Int) + 1) = d + sgn fwd + sgn fwd * (j + 1) by
          push_cast; ring] at h2)]
    rw [show d + sgn fwd * (((j + 1 : Nat) : Int) + 1) = d + sgn fwd + sgn fwd * (j + 1) by
          push_cast; ring]

theorem rollLoop_spec {wm : Nat} {hs : List Int} (hm : MaskOk wm) (hp : hs.Pairwise (· < ·))
    (fwd : Bool) (d : Int) : ∃ r N, Nth (Business wm hs) fwd d 1 r ∧ Business wm hs r ∧
      ∀ n ≥ N, rollLoop wm hs fwd n d (dow d) = .ok (r, dow r) := by
  obtain ⟨j, h1, h2⟩ := first_next (hs := hs) hm fwd d
  refine ⟨_, j + 1, nth_one h1 h2, h2, fun n hn => ?_⟩
  obtain ⟨m, rfl⟩ : ∃ m, n = m + j + 1 := ⟨n - j - 1, by omega⟩
  exact rollLoop_hit hp fwd m j d h1 h2

theorem offsetLoop_hit {wm : Nat} {hs : List Int} (hp : hs.Pairwise (· < ·)) {lo hi : Nat}
    (hhi : hi ≤ hs.length) (fwd : Bool) (n k : Nat) :
    ∀ (j : Nat) (d : Int),
      (∀ i : Nat, lo ≤ lowc hs (d + sgn fwd * (i + 1)) ∧
        lowc hs (d + sgn fwd * (i + 1) + 1) ≤ hi) →
      (∀ i < j, ¬ Business wm hs (d + sgn fwd * (i + 1))) →
      Business wm hs (d + sgn fwd * (j + 1)) →
      offsetLoop wm hs lo hi fwd (n + j + 1) (sgn fwd * ((k : Int) + 1)) d (dow d) =
        offsetLoop wm hs lo hi fwd n (sgn fwd * k) (d + sgn fwd * (j + 1))
          (dow (d + sgn fwd * (j + 1))) := by
  have hgo : (if fwd = true then 0 < sgn fwd * ((k : Int) + 1) else sgn fwd * ((k : Int) + 1) < 0) := by
    cases fwd <;> simp [sgn] <;> omega
  intro j
  induction j with
  | zero =>
    intro d hb _ h2
    have b0 := hb 0
    simp only [Nat.cast_zero, zero_add, mul_one] at h2 b0 ⊢
    simp only [offsetLoop, step_eq, Nat.add_zero, hgo, if_true]
    rw [open_spec hp b0.1 b0.2 hhi]
    simp only [Out.bind, h2, decide_true, if_true]
    congr 1
    cases fwd <;> simp [sgn]
  | succ j ih =>
    intro d hb h1 h2
    have b0 := hb 0
    have e0 := h1 0 (by omega)
    simp only [Nat.cast_zero, zero_add, mul_one] at e0 b0
    rw [show n + (j + 1) + 1 = (n + j + 1) + 1 by ring, offsetLoop]
    simp only [step_eq, hgo, if_true]
    rw [open_spec hp b0.1 b0.2 hhi]
    simp only [Out.bind, e0, decide_false, Bool.false_eq_true, if_false]
    have sh : ∀ i : Nat, d + sgn fwd * (((i + 1 : Nat) : Int) + 1) =
        d + sgn fwd + sgn fwd * (i + 1) := fun i => by push_cast; ring
    rw [ih (d + sgn fwd) (fun i => by have := hb (i + 1); rwa [sh] at this)
      (fun i hi => by have := h1 (i + 1) (by omega); rwa [sh] at this) (by rwa [sh] at h2), sh]

theorem offsetLoop_spec {wm : Nat} {hs : List Int} (hm : MaskOk wm) (hp : hs.Pairwise (· < ·))
    {lo hi : Nat} (hhi : hi ≤ hs.length) (fwd : Bool) :
    ∀ (k : Nat) (d : Int),
      (∀ i : Nat, lo ≤ lowc hs (d + sgn fwd * (i + 1)) ∧
        lowc hs (d + sgn fwd * (i + 1) + 1) ≤ hi) →
      ∃ r N, Nth (Business wm hs) fwd d k r ∧
        ∀ n ≥ N, offsetLoop wm hs lo hi fwd n (sgn fwd * k) d (dow d) = .ok r := by
  intro k
  induction k with
  | zero =>
    intro d _
    refine ⟨d, 1, ⟨0, by simp, by simp, by simp, by simp⟩, fun n hn => ?_⟩
    obtain ⟨m, rfl⟩ : ∃ m, n = m + 1 := ⟨n - 1, by omega⟩
    simp [offsetLoop]
  | succ k ih =>
    intro d hb
    obtain ⟨j, h1, h2⟩ := first_next (hs := hs) hm fwd d
    obtain ⟨r, N, hr, hN⟩ := ih (d + sgn fwd * (j + 1)) (fun i => by
      have := hb (j + 1 + i)
      rwa [show d + sgn fwd * (((j + 1 + i : Nat) : Int) + 1) =
        d + sgn fwd * (j + 1) + sgn fwd * (i + 1) by push_cast; ring] at this)
    refine ⟨r, N + j + 1, ?_, fun n hn => ?_⟩
    · rw [show k + 1 = 1 + k by ring]
      refine nth_trans (j := j + 1) ?_ (fun _ _ => ?_) (by simp) ?_
      · rw [Nat.count_succ, Nat.count_iff_forall_not.2 h1]; simp [h2]
      · push_cast; exact h2
      · push_cast; exact hr
    · obtain ⟨m, rfl⟩ : ∃ m, n = m + j + 1 := ⟨n - j - 1, by omega⟩
      rw [show ((k + 1 : Nat) : Int) = (k : Int) + 1 by push_cast; ring,
        offsetLoop_hit hp hhi fwd m k j d hb h1 h2]
      exact hN m (by omega)

theorem countLoop_spec (wm : Nat) : ∀ (k : Nat) (d c : Int),
    countLoop wm k d (dow d) c = c + Nat.count (fun i : Nat => Masked wm (d + i)) k := by
  intro k
  induction k with
  | zero => intro d c; simp [countLoop]
  | succ k ih =>
    intro d c
    have hs := step_eq true d
    simp only [step, if_true, sgn, Prod.mk.injEq, true_and] at hs
    rw [countLoop, hs, ih, bit_dow, show k + 1 = 1 + k by ring, Nat.count_add, Nat.count_one]
    rw [cnt_congr (q := fun i : Nat => Masked wm (d + ((1 + i : Nat) : Int))) k fun i _ => by
      rw [show d + 1 + (i : Int) = d + ((1 + i : Nat) : Int) by push_cast; ring]]
    by_cases hm : Masked wm d <;> simp [hm]
    ring

/-! ### The calendar -/

theorem trim_mem {wm : Nat} : ∀ (l : List Int) (last : Int), l.Pairwise (· ≤ ·) →
    (last = nat ∨ ∀ d ∈ l, last ≤ d) → (∀ d ∈ l, d ≠ nat) →
    (trim wm l last).Pairwise (· < ·) ∧
      ∀ d, d ∈ trim wm l last ↔ d ∈ l ∧ d ≠ last ∧ Masked wm d := by
  intro l
  induction l with
  | nil => intro last _ _ _; simp [trim]
  | cons a t ih =>
    intro last hp hl hn
    obtain ⟨q1, q2⟩ := List.pairwise_cons.1 hp
    have ha := hn a (by simp)
    have hn' : ∀ d ∈ t, d ≠ nat := fun d hd => hn d (by simp [hd])
    unfold trim
    rw [bit_dow]
    by_cases hc : a ≠ nat ∧ a ≠ last ∧ decide (Masked wm a) = true
    · rw [if_pos hc]
      obtain ⟨_, c2, c3⟩ := hc
      simp only [decide_eq_true_eq] at c3
      obtain ⟨i1, i2⟩ := ih a q2 (Or.inr q1) hn'
      refine ⟨List.pairwise_cons.2 ⟨fun d hd => ?_, i1⟩, fun d => ?_⟩
      · obtain ⟨m1, m2, _⟩ := (i2 d).1 hd
        have := q1 d m1; omega
      · rw [List.mem_cons, i2, List.mem_cons]
        constructor
        · rintro (rfl | ⟨h1, h2, h3⟩)
          · exact ⟨Or.inl rfl, c2, c3⟩
          · refine ⟨Or.inr h1, ?_, h3⟩
            rcases hl with rfl | hl
            · exact hn' d h1
            · have := hl a (by simp); have := q1 d h1; omega
        · rintro ⟨h1 | h1, h2, h3⟩
          · exact Or.inl h1
          · by_cases he : d = a
            · exact Or.inl he
            · exact Or.inr ⟨h1, he, h3⟩
    · rw [if_neg hc]
      obtain ⟨i1, i2⟩ := ih last q2 (hl.imp id fun h d hd => h d (by simp [hd])) hn'
      refine ⟨i1, fun d => ?_⟩
      rw [i2, List.mem_cons]
      constructor
      · rintro ⟨h1, h2⟩; exact ⟨Or.inr h1, h2⟩
      · rintro ⟨rfl | h1, h2, h3⟩
        · exact absurd ⟨ha, h2, by simpa using h3⟩ hc
        · exact ⟨h1, h2, h3⟩

theorem swo_dtLt {α : Type} {val : α → Int} (h : ∀ a, val a ≠ nat) : SWO (dtLt val) := by
  constructor
  · intro a b hab
    simp only [dtLt, h a, h b, or_self, if_false, decide_eq_true_eq, decide_eq_false_iff_not] at hab ⊢
    omega
  · intro a b c h1 h2
    simp only [dtLt, h a, h b, h c, or_self, if_false, decide_eq_false_iff_not] at h1 h2 ⊢
    omega

/-! ### Counting between two days -/

/-- The days from `b` on before `e`, counted by weeks, a rest, and the holidays among them. -/
theorem count_between {wm : Nat} {hs : List Int} (hm : MaskOk wm) (hk : Kept wm hs) {b e : Int}
    (h : b < e) {α : Type} (f : Int → Out α) :
    ((Out.of (search id hs b (rounds hs) 0 hs.length)).bind fun lo =>
      (Out.of (search id hs e (rounds hs) lo hs.length)).bind fun hi =>
        let c := -((hi : Int) - lo)
        let weeks := Int.tdiv (e - b) 7
        let c := c + weeks * popcnt wm
        let b := b + weeks * 7
        let c := if b < e then countLoop wm (e - b).toNat b (dow b) c else c
        f c) = f (Between (Business wm hs) b e) := by
  have hp := hk.1
  have hl := lowc_le hs b
  have hle := lowc_mono hs (le_of_lt h)
  rw [search_id hp b _ _ _ (by omega) hl le_rfl (by unfold rounds; omega)]
  simp only [Out.of, Out.bind]
  rw [search_id hp e _ _ _ hle (lowc_le _ _) le_rfl (by unfold rounds; omega)]
  simp only
  obtain ⟨n, hn⟩ : ∃ n : Nat, e - b = n := ⟨(e - b).toNat, by omega⟩
  have e1 : Int.tdiv (e - b) 7 = ((n / 7 : Nat) : Int) := by rw [hn]; rfl
  rw [e1]
  have cs := count_split hk.2 (fun i : Nat => b + i) n
  have ch := count_hol_fwd hp b n
  rw [show b + (n : Int) = e by omega] at ch
  have cw := count_weeks hm.2 true (b - 1) (n / 7)
  have cw' : Nat.count (fun i : Nat => Masked wm (b - 1 + sgn true * (i + 1))) (7 * (n / 7)) =
      Nat.count (fun i : Nat => Masked wm (b + i)) (7 * (n / 7)) := by
    refine cnt_congr _ fun i _ => ?_
    rw [show b - 1 + sgn true * ((i : Int) + 1) = b + i by simp [sgn]]
  have ca := Nat.count_add (fun i : Nat => Masked wm (b + i)) (7 * (n / 7)) (n % 7)
  rw [Nat.div_add_mod] at ca
  have cb : Nat.count (fun i : Nat => Masked wm (b + ((7 * (n / 7) + i : Nat) : Int))) (n % 7) =
      Nat.count (fun i : Nat => Masked wm (b + ((n / 7 : Nat) : Int) * 7 + i)) (n % 7) := by
    refine cnt_congr _ fun i _ => ?_
    rw [show b + ((7 * (n / 7) + i : Nat) : Int) = b + ((n / 7 : Nat) : Int) * 7 + i by
      push_cast; ring]
  have hb : Between (Business wm hs) b e = Nat.count (fun i : Nat => Business wm hs (b + i)) n := by
    unfold Between; rw [hn]; rfl
  congr 1
  rw [hb]
  have hw : (((n / 7 : Nat) : Int) * (popcnt wm : Int)) = ((n / 7 * popcnt wm : Nat) : Int) := by
    push_cast; ring
  by_cases hr : b + ((n / 7 : Nat) : Int) * 7 < e
  · rw [if_pos hr, countLoop_spec, show (e - (b + ((n / 7 : Nat) : Int) * 7)).toNat = n % 7 by omega, hw]
    omega
  · rw [if_neg hr, hw]
    have h0 : n % 7 = 0 := by omega
    rw [h0] at ca cb
    simp only [Nat.count_zero] at ca cb
    omega

/-! ### Weekmask strings -/

theorem testBit_or_shift (m i j : Nat) :
    (m ||| 1 <<< i).testBit j = true ↔ m.testBit j = true ∨ j = i := by
  rw [Nat.testBit_or, Nat.shiftLeft_eq, Nat.one_mul, Nat.testBit_two_pow, Bool.or_eq_true,
    decide_eq_true_eq]
  exact or_congr Iff.rfl eq_comm

theorem maskDigits_spec : ∀ (s : List Char) (i m : Nat),
    ((∀ c ∈ s, c = '0' ∨ c = '1') → ∃ m', maskDigits s i m = some m' ∧
      ∀ j, m'.testBit j = true ↔ m.testBit j = true ∨ (i ≤ j ∧ s[j - i]? = some '1')) ∧
    ((∃ c ∈ s, c ≠ '0' ∧ c ≠ '1') → maskDigits s i m = none) := by
  intro s
  induction s with
  | nil => intro i m; simp [maskDigits]
  | cons w r ih =>
    intro i m
    unfold maskDigits
    by_cases h1 : w = '1'
    · subst h1
      simp only [if_true]
      obtain ⟨i1, i2⟩ := ih (i + 1) (m ||| 1 <<< i)
      refine ⟨fun h => ?_, ?_⟩
      · obtain ⟨m', e1, e2⟩ := i1 fun c hc => h c (by simp [hc])
        refine ⟨m', e1, fun j => ?_⟩
        rw [e2, testBit_or_shift]
        by_cases hj : j = i
        · subst hj; simp
        · by_cases hl : i ≤ j
          · obtain ⟨k, rfl⟩ : ∃ k, j = i + 1 + k := ⟨j - i - 1, by omega⟩
            rw [show i + 1 + k - i = k + 1 by omega, show i + 1 + k - (i + 1) = k by omega]
            have z1 : i + 1 + k ≠ i := by omega
            have z2 : i ≤ i + 1 + k := by omega
            simp [z1, z2]
          · have : ¬ i + 1 ≤ j := by omega
            simp [hj, hl, this]
      · rintro ⟨c, hc, h2, h3⟩
        rcases List.mem_cons.1 hc with rfl | hc
        · exact absurd rfl h3
        · exact i2 ⟨c, hc, h2, h3⟩
    · by_cases h0 : w = '0'
      · subst h0
        obtain ⟨i1, i2⟩ := ih (i + 1) m
        rw [if_neg (by decide), if_neg (by simp)]
        refine ⟨fun h => ?_, ?_⟩
        · obtain ⟨m', e1, e2⟩ := i1 fun c hc => h c (by simp [hc])
          refine ⟨m', e1, fun j => ?_⟩
          rw [e2]
          by_cases hj : j = i
          · subst hj; simp
          · by_cases hl : i ≤ j
            · obtain ⟨k, rfl⟩ : ∃ k, j = i + 1 + k := ⟨j - i - 1, by omega⟩
              rw [show i + 1 + k - i = k + 1 by omega, show i + 1 + k - (i + 1) = k by omega]
              have z1 : i + 1 + k ≠ i := by omega
              have z2 : i ≤ i + 1 + k := by omega
              simp [z1, z2]
            · have : ¬ i + 1 ≤ j := by omega
              simp [hl, this]
        · rintro ⟨c, hc, h2, h3⟩
          rcases List.mem_cons.1 hc with rfl | hc
          · exact absurd rfl h2
          · exact i2 ⟨c, hc, h2, h3⟩
      · rw [if_neg h1, if_pos h0]
        refine ⟨fun h => ?_, fun _ => rfl⟩
        rcases h w (by simp) with h | h
        · exact absurd h h0
        · exact absurd h h1

theorem dayNumber_iff (w : List Char) (j : Nat) : dayNumber w = some j ↔ names[j]? = some w := by
  unfold dayNumber names
  constructor
  · intro h
    split_ifs at h <;> simp only [Option.some.injEq] at h <;> subst h <;> simp [*]
  · intro h
    rcases j with _ | _ | _ | _ | _ | _ | _ | j <;> simp at h <;> subst h <;> decide

theorem names_shape {w : List Char} {j : Nat} (h : names[j]? = some w) :
    ∃ c a b, w = [c, a, b] ∧ isSpace c = false := by
  unfold names at h
  rcases j with _ | _ | _ | _ | _ | _ | _ | j <;> simp at h <;> subst h <;>
    exact ⟨_, _, _, rfl, by decide⟩

theorem maskNames_of {s : List Char} {ds : List Nat} (h : Names s ds) : ∀ m,
    ∃ m', maskNames s m = some m' ∧ ∀ j, m'.testBit j = true ↔ m.testBit j = true ∨ j ∈ ds := by
  induction h with
  | done => intro m; exact ⟨m, by simp [maskNames], by simp⟩
  | blank hc _ ih =>
    intro m
    obtain ⟨m', e1, e2⟩ := ih m
    exact ⟨m', by rw [maskNames.eq_def]; simp [hc, e1], e2⟩
  | day hw _ ih =>
    rename_i w s j ds _
    intro m
    obtain ⟨m', e1, e2⟩ := ih (m ||| 1 <<< j)
    obtain ⟨c, a, b, rfl, hc⟩ := names_shape hw
    refine ⟨m', ?_, fun i => ?_⟩
    · rw [List.cons_append, List.cons_append, List.cons_append, List.nil_append, maskNames]
      simp [hc, (dayNumber_iff _ _).2 hw, e1]
    · rw [e2, testBit_or_shift, List.mem_cons]
      tauto

theorem of_maskNames : ∀ (n : Nat) (s : List Char), s.length ≤ n → ∀ m m',
    maskNames s m = some m' → ∃ ds, Names s ds := by
  intro n
  induction n with
  | zero =>
    intro s h m m' _
    have : s = [] := List.length_eq_zero_iff.1 (by omega)
    subst this
    exact ⟨[], .done⟩
  | succ n ih =>
    intro s h m m' e
    rcases s with _ | ⟨c, r⟩
    · exact ⟨[], .done⟩
    · rw [maskNames.eq_def] at e
      simp only at e
      simp only [List.length_cons] at h
      by_cases hc : isSpace c = true
      · rw [if_pos hc] at e
        obtain ⟨ds, hd⟩ := ih r (by omega) _ _ e
        exact ⟨ds, .blank hc hd⟩
      · rw [if_neg hc] at e
        rcases r with _ | ⟨a, _ | ⟨b, r'⟩⟩
        · simp at e
        · simp at e
        · simp only at e
          rcases hd : dayNumber [c, a, b] with _ | j
          · simp [hd] at e
          · simp only [hd] at e
            simp only [List.length_cons] at h
            obtain ⟨ds, hds⟩ := ih r' (by omega) _ _ e
            exact ⟨j :: ds, .day (w := [c, a, b]) ((dayNumber_iff _ _).1 hd) hds⟩

theorem names_lt {s : List Char} {ds : List Nat} (h : Names s ds) : ∀ j ∈ ds, j < 7 := by
  induction h with
  | done => simp
  | blank _ _ ih => exact ih
  | day hw _ ih =>
    intro i hi
    rcases List.mem_cons.1 hi with rfl | hi
    · obtain ⟨hl, _⟩ := List.getElem?_eq_some_iff.1 hw
      simpa [names] using hl
    · exact ih i hi

end Codon.NpBus
