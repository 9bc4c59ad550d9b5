import Verif.NpRearr.Spec
import Mathlib.Tactic.Ring
import Mathlib.Data.List.Nodup

/-! Helper lemmas about rearranging. -/

namespace Codon.NpRearr

variable {α : Type}

/-! ### `roll` -/

theorem pymod_eq (a b : Int) (hb : 0 < b) : pymod a b = a % b := by
  have hm : a - a.tdiv b * b = a.tmod b := by
    have := Int.tmod_add_mul_tdiv a b
    rw [Int.mul_comm] at this
    omega
  simp only [pymod, hm]
  have h1 : a.tmod b = if 0 ≤ a ∨ b ∣ a then a % b else a % b - b.natAbs := by
    rw [Int.tmod_eq_emod]; split <;> simp
  have hn := Int.emod_nonneg a (show b ≠ 0 by omega)
  have hl := Int.emod_lt_of_pos a hb
  have hbf : decide (b < 0) = false := decide_eq_false (by omega)
  rw [hbf, h1]
  by_cases h : 0 ≤ a ∨ b ∣ a
  · rw [if_pos h]
    rw [if_neg]
    rintro ⟨_, h2⟩
    have : ¬ a % b < 0 := by omega
    simp [this] at h2
  · rw [if_neg h]
    have h3 : a % b - (b.natAbs : Int) < 0 := by omega
    rw [if_pos ⟨by omega, by simp; omega⟩]
    omega

theorem writeAll_spec : ∀ (ws : List (Int × α)) (l : List (Option α)),
    (∀ w ∈ ws, 0 ≤ w.1 ∧ w.1 < (l.length : Int)) → (ws.map (·.1)).Nodup →
    ∃ r, writeAll ws l = some r ∧ r.length = l.length ∧
      (∀ w ∈ ws, r[w.1.toNat]? = some (some w.2)) ∧
      ∀ k : Nat, (∀ w ∈ ws, w.1 ≠ (k : Int)) → r[k]? = l[k]? := by
  intro ws
  induction ws with
  | nil => intro l _ _; exact ⟨l, rfl, rfl, by simp, by simp⟩
  | cons w ws ih =>
    intro l h hn
    obtain ⟨t, v⟩ := w
    have ht := h (t, v) (by simp)
    simp only at ht
    rw [List.map_cons, List.nodup_cons] at hn
    obtain ⟨r, h1, h2, h3, h4⟩ := ih (l.set t.toNat (some v))
      (fun w hw => by rw [List.length_set]; exact h w (by simp [hw])) hn.2
    rw [List.length_set] at h2
    refine ⟨r, by rw [writeAll, if_pos ht, h1], h2, ?_, ?_⟩
    · intro w hw
      rcases List.mem_cons.1 hw with rfl | hw
      · simp only
        rw [h4 t.toNat, List.getElem?_set_self (by omega)]
        intro w' hw' he
        apply hn.1
        rw [List.mem_map]
        exact ⟨w', hw', by omega⟩
      · exact h3 w hw
    · intro k hk
      have hkt := hk (t, v) (by simp)
      simp only at hkt
      rw [h4 k (fun w hw => hk w (by simp [hw])), List.getElem?_set_ne (by omega)]

theorem finished_spec : ∀ (l : List (Option α)), (∀ k : Nat, k < l.length → ∃ v, l[k]? = some (some v)) →
    ∃ r, l.mapM id = some r ∧ r.length = l.length ∧ ∀ (k : Nat) (v : α), l[k]? = some (some v) → r[k]? = some v := by
  intro l
  induction l with
  | nil => intro _; exact ⟨[], rfl, rfl, by simp⟩
  | cons x l ih =>
    intro h
    obtain ⟨v, hv⟩ := h 0 (by simp)
    simp only [List.getElem?_cons_zero, Option.some.injEq] at hv
    subst hv
    obtain ⟨r, h1, h2, h3⟩ := ih (fun k hk => by
      have := h (k + 1) (by simp; omega)
      simpa using this)
    refine ⟨v :: r, by simp [List.mapM_cons, h1], by simp [h2], ?_⟩
    intro k w hw
    cases k with
    | zero => simpa using hw
    | succ k => simpa using h3 k w (by simpa using hw)

theorem mod_inj {n : Nat} {i j : Nat} (s : Int) (hi : i < n) (hj : j < n)
    (h : ((i : Int) + s) % n = ((j : Int) + s) % n) : i = j := by
  have h1 := Int.emod_emod_of_dvd ((i : Int) + s) (Int.dvd_refl (n : Int))
  have : ((i : Int) + s - ((j : Int) + s)) % n = 0 := Int.emod_eq_emod_iff_emod_sub_eq_zero.1 h
  rw [show (i : Int) + s - ((j : Int) + s) = (i : Int) - j by omega] at this
  obtain ⟨q, hq⟩ := Int.dvd_of_emod_eq_zero this
  have hq0 : q = 0 := by
    rcases Int.lt_trichotomy q 0 with h | h | h
    · have : (n : Int) * q ≤ (n : Int) * (-1) := Int.mul_le_mul_of_nonneg_left (by omega) (by omega)
      omega
    · exact h
    · have : (n : Int) * 1 ≤ (n : Int) * q := Int.mul_le_mul_of_nonneg_left (by omega) (by omega)
      omega
  subst hq0
  simp at hq
  omega

/-! ### `array_split` -/

theorem slice_in (a : List α) {s t : Int} (h0 : 0 ≤ s) (h1 : s ≤ t) (h2 : t ≤ a.length) :
    sliceAxis a s t = (a.drop s.toNat).take (t - s).toNat := by
  have e1 : correct s a.length = s := by
    unfold correct; rw [if_neg (by omega), if_neg (by omega), if_neg (by omega)]
  have e2 : correct t a.length = t := by
    unfold correct; rw [if_neg (by omega), if_neg (by omega), if_neg (by omega)]
  simp only [sliceAxis, e1, e2]
  by_cases h : t > s
  · rw [if_pos h]
  · rw [if_neg h, show (t - s).toNat = 0 by omega]; rfl

theorem splitLoop_spec (a : List α) (q x : Int) (hq : 0 ≤ q) : ∀ (k : Nat) (i start : Int),
    0 ≤ start → start + q * k + max 0 (min (x - i) k) = a.length →
    (splitLoop a q x k i start).flatten = a.drop start.toNat ∧ (splitLoop a q x k i start).length = k ∧
      ∀ j : Nat, j < k → ∃ p, (splitLoop a q x k i start)[j]? = some p ∧
        (p.length : Int) = q + (if i + j < x then 1 else 0) := by
  intro k
  induction k with
  | zero =>
    intro i start h0 h
    refine ⟨?_, rfl, by omega⟩
    rw [splitLoop, List.flatten_nil, List.drop_eq_nil_of_le]
    simp at h
    omega
  | succ k ih =>
    intro i start h0 h
    have hqk : 0 ≤ q * (k : Int) := Int.mul_nonneg hq (by omega)
    have hexp : q * ((k + 1 : Nat) : Int) = q * k + q := by push_cast; ring
    rw [hexp] at h
    rw [splitLoop]
    have hstep : start + q + (if i < x then 1 else 0) + q * k + max 0 (min (x - (i + 1)) k) = a.length := by
      split <;> omega
    obtain ⟨h1, h2, h3⟩ := ih (i + 1) (start + q + (if i < x then 1 else 0)) (by split <;> omega) hstep
    have hs := slice_in a h0 (show start ≤ start + q + (if i < x then 1 else 0) by split <;> omega)
      (by have : 0 ≤ max 0 (min (x - (i + 1)) (k : Int)) := by omega
          omega)
    refine ⟨?_, by rw [List.length_cons, h2], ?_⟩
    · rw [List.flatten_cons, h1, hs]
      have : (start + q + (if i < x then 1 else 0)).toNat
          = start.toNat + (start + q + (if i < x then 1 else 0) - start).toNat := by split <;> omega
      rw [this, ← List.drop_drop, List.take_append_drop]
    · intro j hj
      cases j with
      | zero =>
        refine ⟨_, rfl, ?_⟩
        rw [hs, List.length_take, List.length_drop]
        have : 0 ≤ max 0 (min (x - (i + 1)) (k : Int)) := by omega
        have e : i + ((0 : Nat) : Int) = i := by simp
        rw [e]
        split at hstep <;> split <;> omega
      | succ j =>
        obtain ⟨p, hp, hl⟩ := h3 j (by omega)
        refine ⟨p, by simpa using hp, ?_⟩
        rw [hl]
        rw [show i + 1 + (j : Int) = i + ((j + 1 : Nat) : Int) by push_cast; omega]

/-! ### `resize` -/

theorem resizeLoop_spec (a : List α) (ha : 0 < a.length) : ∀ (f left : Nat), left < f →
    ∃ l, resizeLoop a f left = .ok l ∧ l.length = left ∧ ∀ i, i < left → l[i]? = a[i % a.length]? := by
  intro f
  induction f with
  | zero => intro left h; omega
  | succ f ih =>
    intro left h
    rw [resizeLoop]
    by_cases hl : left ≤ a.length
    · rw [if_pos hl]
      refine ⟨_, rfl, by rw [List.length_take]; omega, ?_⟩
      intro i hi
      rw [List.getElem?_take_of_lt hi, Nat.mod_eq_of_lt (by omega)]
    · rw [if_neg hl]
      obtain ⟨l, h1, h2, h3⟩ := ih (left - a.length) (by omega)
      refine ⟨a ++ l, by rw [h1], by rw [List.length_append, h2]; omega, ?_⟩
      intro i hi
      by_cases hia : i < a.length
      · rw [List.getElem?_append_left hia, Nat.mod_eq_of_lt hia]
      · rw [List.getElem?_append_right (by omega), h3 _ (by omega)]
        rw [← Nat.mod_eq_sub_mod (by omega)]

/-! ### `delete` -/

theorem distinct_mem : ∀ (l : List Int) (x : Int), x ∈ distinct l ↔ x ∈ l := by
  intro l
  induction l with
  | nil => intro x; simp [distinct]
  | cons a r ih =>
    intro x
    cases r with
    | nil => simp [distinct]
    | cons b r =>
      rw [distinct]
      by_cases h : a ≠ b
      · rw [if_pos h, List.mem_cons, ih x, List.mem_cons (a := x) (b := a)]
      · have : a = b := by simpa using h
        subst this
        rw [if_neg h, ih x]
        simp

theorem distinct_lt : ∀ (l : List Int), l.Pairwise (· ≤ ·) → (distinct l).Pairwise (· < ·) := by
  intro l
  induction l with
  | nil => intro _; exact List.Pairwise.nil
  | cons a r ih =>
    intro h
    have hp := List.pairwise_cons.1 h
    cases r with
    | nil => exact List.pairwise_singleton _ _
    | cons b r =>
      rw [distinct]
      by_cases hab : a ≠ b
      · rw [if_pos hab]
        refine List.pairwise_cons.2 ⟨?_, ih hp.2⟩
        intro x hx
        rw [distinct_mem] at hx
        have h1 := hp.1 b (by simp)
        rcases List.mem_cons.1 hx with rfl | hx
        · omega
        · have := (List.pairwise_cons.1 hp.2).1 x hx
          omega
      · rw [if_neg hab]; exact ih hp.2

theorem keep_cons (p : Nat → Bool) (x : α) (r : List α) (i : Nat) :
    (((x :: r).zipIdx i).filter fun q => p q.2).map (·.1)
      = (if p i then [x] else []) ++ ((r.zipIdx (i + 1)).filter fun q => p q.2).map (·.1) := by
  rw [List.zipIdx_cons, List.filter_cons]
  cases p i <;> simp

theorem deleteLoop_spec : ∀ (a : List α) (i : Nat) (rem : List Int), rem.Pairwise (· < ·) →
    (∀ s ∈ rem, (i : Int) ≤ s) →
    deleteLoop a i rem = ((a.zipIdx i).filter fun q => decide ((q.2 : Int) ∉ rem)).map (·.1) := by
  intro a
  induction a with
  | nil => intro i rem _ _; cases rem <;> simp [deleteLoop]
  | cons x r ih =>
    intro i rem hp hge
    cases rem with
    | nil => simp [deleteLoop, List.zipIdx_map_fst]
    | cons s rs =>
      have hps := List.pairwise_cons.1 hp
      rw [keep_cons (fun k => decide ((k : Int) ∉ s :: rs)), deleteLoop]
      by_cases h : (i : Int) = s
      · rw [if_pos h]
        have := ih (i + 1) rs hps.2 (fun t ht => by have := hps.1 t ht; push_cast; omega)
        push_cast at this
        rw [this]
        have hi : decide ((i : Int) ∉ s :: rs) = false := by simp [h]
        simp only [hi, Bool.false_eq_true, if_false, List.nil_append]
        congr 1
        apply List.filter_congr
        intro q hq
        have hq2 := List.le_snd_of_mem_zipIdx hq
        have : ((q.2 : Int) ∉ rs) ↔ ((q.2 : Int) ∉ s :: rs) := by
          rw [List.mem_cons, not_or]
          constructor
          · intro h'; exact ⟨by omega, h'⟩
          · exact fun h' => h'.2
        simp only [this]
      · rw [if_neg h]
        have hs := hge s (by simp)
        have := ih (i + 1) (s :: rs) hp (fun t ht => by
          rcases List.mem_cons.1 ht with rfl | ht
          · push_cast; omega
          · have := hps.1 t ht; push_cast; omega)
        push_cast at this
        rw [this]
        have hi : decide ((i : Int) ∉ s :: rs) = true := by
          rw [decide_eq_true_iff, List.mem_cons, not_or]
          refine ⟨h, ?_⟩
          intro hm
          have := hps.1 _ hm
          omega
        simp only [hi, if_true, List.singleton_append]

theorem normalize_iff (idx : Int) (n : Nat) (i : Int) :
    normalizeIndex idx n = some i ↔ ∃ k : Nat, (k : Int) = i ∧ Means n idx k := by
  simp only [normalizeIndex, Means]
  constructor
  · intro h
    by_cases h0 : idx < 0
    · rw [if_pos h0] at h
      by_cases h1 : idx + n < 0 ∨ idx + n ≥ (n : Int)
      · rw [if_pos h1] at h; cases h
      · rw [if_neg h1] at h; cases h
        exact ⟨(idx + n).toNat, by omega, by omega, by omega⟩
    · rw [if_neg h0] at h
      by_cases h1 : idx < 0 ∨ idx ≥ (n : Int)
      · rw [if_pos h1] at h; cases h
      · rw [if_neg h1] at h; cases h
        exact ⟨idx.toNat, by omega, by omega, by omega⟩
  · rintro ⟨k, rfl, h1, h2⟩
    by_cases h0 : idx < 0
    · rw [if_pos h0, if_neg (by omega)]; congr 1; omega
    · rw [if_neg h0, if_neg (by omega)]; congr 1; omega

theorem mapM_some {β γ : Type} (f : β → Option γ) : ∀ (l : List β) (r : List γ), l.mapM f = some r →
    (∀ y, y ∈ r ↔ ∃ x ∈ l, f x = some y) ∧ ∀ x ∈ l, ∃ y, f x = some y := by
  intro l
  induction l with
  | nil => intro r h; simp at h; subst h; simp
  | cons a l ih =>
    intro r h
    rw [List.mapM_cons] at h
    cases hf : f a with
    | none => simp [hf] at h
    | some b =>
      cases hl : l.mapM f with
      | none => simp [hf, hl] at h
      | some r' =>
        simp [hf, hl] at h
        subst h
        obtain ⟨h1, h2⟩ := ih r' hl
        refine ⟨?_, ?_⟩
        · intro y
          simp only [List.mem_cons, h1 y]
          constructor
          · rintro (rfl | ⟨x, hx, he⟩)
            · exact ⟨a, .inl rfl, hf⟩
            · exact ⟨x, .inr hx, he⟩
          · rintro ⟨x, rfl | hx, he⟩
            · rw [hf] at he; cases he; exact .inl rfl
            · exact .inr ⟨x, hx, he⟩
        · intro x hx
          rcases List.mem_cons.1 hx with rfl | hx
          · exact ⟨b, hf⟩
          · exact h2 x hx

theorem mapM_none {β γ : Type} (f : β → Option γ) : ∀ (l : List β), l.mapM f = none ↔
    ∃ x ∈ l, f x = none := by
  intro l
  induction l with
  | nil => simp
  | cons a l ih =>
    rw [List.mapM_cons]
    cases hf : f a with
    | none => simp [hf]
    | some b =>
      cases hl : l.mapM f with
      | none => simpa [hf, hl] using ih.1 hl
      | some r =>
        have : ¬ ∃ x ∈ l, f x = none := fun h => by rw [ih.2 h] at hl; cases hl
        simpa [hf, hl] using this

theorem maskLoop_spec : ∀ (a : List α) (mask : List Bool) (i : Nat), mask.length = a.length →
    maskLoop a mask = ((a.zipIdx i).filter fun q => !(mask.getD (q.2 - i) false)).map (·.1) := by
  intro a
  induction a with
  | nil => intro mask i _; cases mask <;> simp [maskLoop]
  | cons x r ih =>
    intro mask i h
    cases mask with
    | nil => simp at h
    | cons m ms =>
      rw [keep_cons (fun k => !((m :: ms).getD (k - i) false)), maskLoop, ih ms (i + 1) (by simpa using h)]
      have e : ((r.zipIdx (i + 1)).filter fun q => !((m :: ms).getD (q.2 - i) false))
          = ((r.zipIdx (i + 1)).filter fun q => !(ms.getD (q.2 - (i + 1)) false)) := by
        apply List.filter_congr
        intro q hq
        have hq2 := List.le_snd_of_mem_zipIdx hq
        rw [show q.2 - i = q.2 - (i + 1) + 1 by omega, List.getD_cons_succ]
      rw [e]
      cases m <;> simp

end Codon.NpRearr
