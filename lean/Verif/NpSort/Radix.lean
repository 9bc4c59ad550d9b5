import Verif.NpSort.Stable

/-! The radix sort. -/

namespace Codon.NpSort
open Codon.Sort
variable {α : Type} (key : α → Nat)

theorem nthByte_lt (k l : Nat) : nthByte k l < 256 := Nat.mod_lt _ (by decide)

/-- The elements of `a` with byte `b`. -/
def bucket (l : Nat) (a : List α) (b : Nat) : List α := a.filter fun x => nthByte (key x) l == b

/-- The part of the buffer for byte `b` when `P` has been written and `n` elements will be. -/
def blk (l : Nat) (n : Nat → Nat) (P : List α) (b : Nat) : List (Option α) := (bucket key l P b).map some ++ List.replicate (n b - (bucket key l P b).length) none

theorem bucket_length (l : Nat) (a : List α) (b : Nat) : (bucket key l a b).length = cntOf key a l b := by
  unfold bucket cntOf
  rw [List.countP_eq_length_filter]

theorem cntOf_perm {a a' : List α} (h : a.Perm a') (l b : Nat) : cntOf key a l b = cntOf key a' l b := h.countP_eq _

theorem sumOf_perm {a a' : List α} (h : a.Perm a') (l : Nat) : ∀ b, sumOf key a l b = sumOf key a' l b := by
  intro b
  induction b with
  | zero => rfl
  | succ b ih => simp only [sumOf]; rw [ih, cntOf_perm key h]

theorem blk_length (l : Nat) (n : Nat → Nat) (P : List α) (b : Nat) (h : (bucket key l P b).length ≤ n b) : (blk key l n P b).length = n b := by
  unfold blk
  simp
  omega

theorem bucket_snoc (l : Nat) (P : List α) (x : α) (b : Nat) : bucket key l (P ++ [x]) b = bucket key l P b ++ if nthByte (key x) l = b then [x] else [] := by
  unfold bucket
  rw [List.filter_append]
  congr 1
  by_cases h : nthByte (key x) l = b <;> simp [h]

theorem flat_length (l : Nat) (a P : List α) (hP : ∀ b, (bucket key l P b).length ≤ cntOf key a l b) : ∀ m, ((List.range m).flatMap (blk key l (cntOf key a l) P)).length = sumOf key a l m := by
  intro m
  induction m with
  | zero => rfl
  | succ m ih =>
    rw [List.range_succ, List.flatMap_append, List.length_append, ih]
    simp only [List.flatMap_cons, List.flatMap_nil, List.append_nil]
    rw [blk_length key l _ P m (hP m)]
    rfl

theorem flatMap_congr' {β γ : Type} {f g : β → List γ} : ∀ {l : List β}, (∀ x ∈ l, f x = g x) → l.flatMap f = l.flatMap g := by
  intro l
  induction l with
  | nil => intro _; rfl
  | cons x l ih =>
    intro h
    rw [List.flatMap_cons, List.flatMap_cons, h x (by simp), ih fun y hy => h y (by simp [hy])]

/-- Writing the next element. -/
theorem flat_set (l : Nat) (a P : List α) (x : α) (hP : ∀ b, (bucket key l P b).length ≤ cntOf key a l b) (hx : (bucket key l P (nthByte (key x) l)).length < cntOf key a l (nthByte (key x) l)) :
    ((List.range 256).flatMap (blk key l (cntOf key a l) P)).set (sumOf key a l (nthByte (key x) l) + (bucket key l P (nthByte (key x) l)).length) (some x) =
      (List.range 256).flatMap (blk key l (cntOf key a l) (P ++ [x])) ∧
    sumOf key a l (nthByte (key x) l) + (bucket key l P (nthByte (key x) l)).length < ((List.range 256).flatMap (blk key l (cntOf key a l) P)).length := by
  generalize hd : nthByte (key x) l = d at *
  have hd' : d < 256 := by rw [← hd]; exact nthByte_lt _ _
  have hr : List.range 256 = List.range d ++ (d :: List.range' (d + 1) (255 - d)) := by
    rw [List.range_eq_range', List.range_eq_range', show (256 : Nat) = d + (1 + (255 - d)) by omega, ← List.range'_append_1, show (1 + (255 - d)) = (255 - d) + 1 by omega, List.range'_succ]
    simp
  have hU := flat_length key l a P hP d
  have hne : ∀ b, b ≠ d → blk key l (cntOf key a l) (P ++ [x]) b = blk key l (cntOf key a l) P b := by
    intro b hb
    unfold blk
    rw [bucket_snoc, hd, if_neg (Ne.symm hb), List.append_nil]
  have e1 : (List.range d).flatMap (blk key l (cntOf key a l) (P ++ [x])) = (List.range d).flatMap (blk key l (cntOf key a l) P) :=
    flatMap_congr' fun b hb => hne b (by have := List.mem_range.1 hb; omega)
  have e2 : (List.range' (d + 1) (255 - d)).flatMap (blk key l (cntOf key a l) (P ++ [x])) = (List.range' (d + 1) (255 - d)).flatMap (blk key l (cntOf key a l) P) :=
    flatMap_congr' fun b hb => hne b (by have := List.mem_range'_1.1 hb; omega)
  rw [hr, List.flatMap_append, List.flatMap_append, List.flatMap_cons, List.flatMap_cons, e1, e2]
  generalize hUU : (List.range d).flatMap (blk key l (cntOf key a l) P) = U at *
  generalize (List.range' (d + 1) (255 - d)).flatMap (blk key l (cntOf key a l) P) = V
  have hb : blk key l (cntOf key a l) P d = (bucket key l P d).map some ++ none :: List.replicate (cntOf key a l d - (bucket key l P d).length - 1) none := by
    unfold blk
    congr 1
    rw [← List.replicate_succ]
    congr 1
    omega
  have hb' : blk key l (cntOf key a l) (P ++ [x]) d = (bucket key l P d).map some ++ some x :: List.replicate (cntOf key a l d - (bucket key l P d).length - 1) none := by
    unfold blk
    rw [bucket_snoc, hd, if_pos rfl]
    simp only [List.map_append, List.map_cons, List.map_nil, List.append_assoc, List.length_append, List.length_singleton, List.cons_append, List.nil_append]
    rw [Nat.sub_sub]
  rw [hb, hb', ← hU]
  constructor
  · simp only [List.append_assoc]
    rw [List.set_append_right _ _ (by omega), Nat.add_sub_cancel_left, List.set_append_right _ _ (by simp)]
    simp
  · simp

theorem passLoop_spec (l : Nat) (a : List α) : ∀ (xs P : List α), P ++ xs = a → ∀ cnt : Nat → Nat, (∀ b, cnt b = sumOf key a l b + (bucket key l P b).length) →
    passLoop key l xs cnt ((List.range 256).flatMap (blk key l (cntOf key a l) P)) = some ((List.range 256).flatMap (blk key l (cntOf key a l) a)) := by
  intro xs
  induction xs with
  | nil => intro P h cnt _; rw [← h, List.append_nil]; rfl
  | cons x xs ih =>
    intro P h cnt hc
    have hP : ∀ b, (bucket key l P b).length ≤ cntOf key a l b := by
      intro b
      rw [← bucket_length, ← h]
      unfold bucket
      rw [List.filter_append, List.length_append]
      omega
    have hx : (bucket key l P (nthByte (key x) l)).length < cntOf key a l (nthByte (key x) l) := by
      rw [← bucket_length, ← h]
      unfold bucket
      rw [List.filter_append, List.length_append]
      simp
    obtain ⟨f1, f2⟩ := flat_set key l a P x hP hx
    unfold passLoop
    simp only
    rw [hc, if_pos f2, f1]
    refine ih (P ++ [x]) (by simpa using h) _ fun b => ?_
    rw [bucket_snoc]
    by_cases hb : b = nthByte (key x) l
    · subst hb
      simp only [if_true, List.length_append, List.length_singleton]
      rw [hc]; omega
    · rw [if_neg hb, if_neg (Ne.symm hb), List.append_nil, hc]

theorem flat_none (l : Nat) (a : List α) : ∀ m, (List.range m).flatMap (blk key l (cntOf key a l) []) = List.replicate (sumOf key a l m) none := by
  intro m
  induction m with
  | zero => rfl
  | succ m ih =>
    rw [List.range_succ, List.flatMap_append, ih]
    simp only [List.flatMap_cons, List.flatMap_nil, List.append_nil]
    have : blk key l (cntOf key a l) [] m = List.replicate (cntOf key a l m) none := by simp [blk, bucket]
    rw [this, List.replicate_append_replicate]
    rfl

theorem sumOf_total (l : Nat) : ∀ (a : List α) m, sumOf key a l m = a.countP fun x => decide (nthByte (key x) l < m) := by
  intro a m
  induction m with
  | zero => simp [sumOf]
  | succ m ih =>
    simp only [sumOf]
    rw [ih]
    unfold cntOf
    clear ih
    induction a with
    | nil => rfl
    | cons x a ih =>
      simp only [List.countP_cons]
      have : (if decide (nthByte (key x) l < m) = true then 1 else 0) + (if (nthByte (key x) l == m) = true then 1 else 0) = (if decide (nthByte (key x) l < m + 1) = true then (1 : Nat) else 0) := by
        rcases Nat.lt_trichotomy (nthByte (key x) l) m with h | h | h
        · have h1 : nthByte (key x) l < m + 1 := by omega
          have h2 : nthByte (key x) l ≠ m := by omega
          simp [h, h1, h2]
        · have h1 : ¬ nthByte (key x) l < m := by omega
          have h2 : nthByte (key x) l < m + 1 := by omega
          simp [h1, h2, h]
        · have h1 : ¬ nthByte (key x) l < m := by omega
          have h2 : ¬ nthByte (key x) l < m + 1 := by omega
          have h3 : nthByte (key x) l ≠ m := by omega
          simp [h1, h2, h3]
      omega

theorem sumOf_all (l : Nat) (a : List α) : sumOf key a l 256 = a.length := by
  rw [sumOf_total, List.countP_eq_length]
  intro x _
  simpa using nthByte_lt (key x) l

theorem mapM_id_some : ∀ (xs : List α), (xs.map some).mapM (id : Option α → Option α) = some xs := by
  intro xs
  induction xs with
  | nil => rfl
  | cons x xs ih => rw [List.map_cons, List.mapM_cons, ih]; rfl

/-- A pass puts the elements in the order of the byte, keeping the order of those with the same one. -/
theorem pass_spec (a0 a : List α) (h : a.Perm a0) (l : Nat) : pass key a0 l a = some ((List.range 256).flatMap (bucket key l a)) := by
  unfold pass
  have h0 := flat_none key l a 256
  rw [sumOf_all] at h0
  rw [show sumOf key a0 l = sumOf key a l from funext fun b => (sumOf_perm key h l b).symm, ← h0, passLoop_spec key l a a [] rfl _ (fun b => by simp [bucket])]
  simp only [Option.bind_eq_bind, Option.bind_some]
  have : (List.range 256).flatMap (blk key l (cntOf key a l) a) = ((List.range 256).flatMap (bucket key l a)).map some := by
    rw [List.map_flatMap]
    refine flatMap_congr' fun b _ => ?_
    unfold blk
    rw [bucket_length, Nat.sub_self]
    simp
  rw [this, mapM_id_some]

/-- The order of the byte `l`. -/
def ltByte (l : Nat) (x y : α) : Bool := decide (nthByte (key x) l < nthByte (key y) l)

theorem flat_filter (l : Nat) (a : List α) (c : Nat) : ∀ m, ((List.range m).flatMap (bucket key l a)).filter (fun w => nthByte (key w) l == c) = if c < m then bucket key l a c else [] := by
  intro m
  induction m with
  | zero => rfl
  | succ m ih =>
    rw [List.range_succ, List.flatMap_append, List.filter_append, ih]
    simp only [List.flatMap_cons, List.flatMap_nil, List.append_nil]
    have : (bucket key l a m).filter (fun w => nthByte (key w) l == c) = if m = c then bucket key l a c else [] := by
      unfold bucket
      rw [List.filter_filter]
      by_cases h : m = c
      · subst h; simp
      · rw [if_neg h, List.filter_eq_nil_iff]
        intro w _ hw
        simp at hw
        omega
    rw [this]
    by_cases h : m = c
    · subst h; simp
    · rw [if_neg h, List.append_nil]
      by_cases h2 : c < m
      · rw [if_pos h2, if_pos (by omega)]
      · rw [if_neg h2, if_neg (by omega)]

theorem flat_sorted (l : Nat) (a : List α) : ∀ m, ((List.range m).flatMap (bucket key l a)).Pairwise (fun x y => nthByte (key x) l ≤ nthByte (key y) l) ∧ ∀ x ∈ (List.range m).flatMap (bucket key l a), nthByte (key x) l < m := by
  intro m
  induction m with
  | zero => exact ⟨List.Pairwise.nil, fun x hx => by simp at hx⟩
  | succ m ih =>
    have hb : ∀ x ∈ bucket key l a m, nthByte (key x) l = m := by
      intro x hx
      have := (List.mem_filter.1 hx).2
      simpa using this
    rw [List.range_succ, List.flatMap_append]
    simp only [List.flatMap_cons, List.flatMap_nil, List.append_nil]
    constructor
    · rw [List.pairwise_append]
      refine ⟨ih.1, ?_, ?_⟩
      · rw [List.pairwise_iff_forall_sublist]
        intro x y hs
        have h1 := hb x (hs.subset (by simp))
        have h2 := hb y (hs.subset (by simp))
        omega
      · intro x hx y hy
        have h1 := ih.2 x hx
        have h2 := hb y hy
        omega
    · intro x hx
      rcases List.mem_append.1 hx with h | h
      · have := ih.2 x h; omega
      · have := hb x h; omega

theorem flat_perm (l : Nat) (a : List α) : ((List.range 256).flatMap (bucket key l a)).Perm a := by
  have key2 : ∀ (m : Nat), ((List.range m).flatMap (bucket key l a)).Perm (a.filter fun x => decide (nthByte (key x) l < m)) := by
    intro m
    induction m with
    | zero => simp
    | succ m ih =>
      rw [List.range_succ, List.flatMap_append]
      simp only [List.flatMap_cons, List.flatMap_nil, List.append_nil]
      refine (ih.append_right _).trans ?_
      have := List.filter_append_perm (fun x => decide (nthByte (key x) l < m)) (a.filter fun x => decide (nthByte (key x) l < m + 1))
      refine List.Perm.trans (List.Perm.of_eq ?_) this
      rw [List.filter_filter, List.filter_filter]
      congr 1
      · refine List.filter_congr fun x _ => ?_
        by_cases h : nthByte (key x) l < m
        · have : nthByte (key x) l < m + 1 := by omega
          simp [h, this]
        · simp [h]
      · unfold bucket
        refine List.filter_congr fun x _ => ?_
        rcases Nat.lt_trichotomy (nthByte (key x) l) m with h | h | h
        · have h2 : nthByte (key x) l ≠ m := by omega
          simp [h, h2]
        · simp [h]
        · have h1 : ¬ nthByte (key x) l < m := by omega
          have h2 : ¬ nthByte (key x) l < m + 1 := by omega
          have h3 : nthByte (key x) l ≠ m := by omega
          simp [h1, h2, h3]
  refine (key2 256).trans (List.Perm.of_eq ?_)
  rw [List.filter_eq_self]
  intro x _
  simpa using nthByte_lt (key x) l

theorem pass_stable (l : Nat) (a : List α) : StableSortOf (ltByte key l) a ((List.range 256).flatMap (bucket key l a)) where
  sorted := (flat_sorted key l a 256).1.imp fun h => by simpa [ltByte] using h
  perm := flat_perm key l a
  stable := by
    intro z
    have : (fun w => !ltByte key l z w && !ltByte key l w z) = fun w => nthByte (key w) l == nthByte (key z) l := by
      funext w
      unfold ltByte
      rcases Nat.lt_trichotomy (nthByte (key w) l) (nthByte (key z) l) with h | h | h
      · have h1 : ¬ nthByte (key z) l < nthByte (key w) l := by omega
        have h2 : nthByte (key w) l ≠ nthByte (key z) l := by omega
        simp [h, h2]
      · simp [h]
      · have h2 : nthByte (key w) l ≠ nthByte (key z) l := by omega
        simp [h, h2]
    rw [this, flat_filter, if_pos (nthByte_lt _ _)]
    rfl

/-- The order of the lowest `l` bytes. -/
def ltLow (l : Nat) (x y : α) : Bool := decide (key x % 256 ^ l < key y % 256 ^ l)

theorem low_succ (k l : Nat) : k % 256 ^ (l + 1) = 256 ^ l * nthByte k l + k % 256 ^ l := by
  unfold nthByte
  rw [Nat.pow_succ, Nat.mod_mul]
  omega

theorem lex_digits (B p q r s : Nat) (h1 : r < B) (h2 : s < B) : decide (B * p + r < B * q + s) = (decide (p < q) || (!decide (q < p) && decide (r < s))) := by
  rcases Nat.lt_trichotomy p q with h | h | h
  · have : B * p + B ≤ B * q := by rw [← Nat.mul_succ]; exact Nat.mul_le_mul_left _ h
    have g : B * p + r < B * q + s := by omega
    simp [h, g]
  · subst h
    simp
  · have : B * q + B ≤ B * p := by rw [← Nat.mul_succ]; exact Nat.mul_le_mul_left _ h
    have g : ¬ B * p + r < B * q + s := by omega
    have g2 : ¬ p < q := by omega
    simp only [g, g2, h, decide_false, decide_true, Bool.not_true, Bool.false_and, Bool.or_self]

theorem ltLow_succ (l : Nat) : ltLow key (l + 1) = lexOf (ltByte key l) (ltLow key l) := by
  funext x y
  unfold ltLow lexOf ltByte
  rw [low_succ, low_succ]
  exact lex_digits (256 ^ l) _ _ _ _ (Nat.mod_lt _ (Nat.pow_pos (by decide))) (Nat.mod_lt _ (Nat.pow_pos (by decide)))

/-- A column in which all bytes are the same need not be sorted. -/
theorem low_skip (l : Nat) {a b : List α} {c : Nat} (hc : ∀ x ∈ a, nthByte (key x) l = c) (h : StableSortOf (ltLow key l) a b) : StableSortOf (ltLow key (l + 1)) a b := by
  have e : StableSortOf (ltByte key l) b b := by
    refine StableSortOf.refl ?_
    rw [List.pairwise_iff_forall_sublist]
    intro x y hs
    have h1 := hc x (h.perm.mem_iff.1 (hs.subset (by simp)))
    have h2 := hc y (h.perm.mem_iff.1 (hs.subset (by simp)))
    simp [ltByte, h1, h2]
  rw [ltLow_succ]
  exact h.step (fun x => by simp [ltByte]) e

theorem columns_succ (a : List α) (k0 m : Nat) : columns key a k0 (m + 1) = columns key a k0 m ++ if cntOf key a m (nthByte k0 m) != a.length then [m] else [] := by
  unfold columns
  rw [List.range_succ, List.filter_append]
  congr 1
  by_cases h : (cntOf key a m (nthByte k0 m) != a.length) = true
  · rw [if_pos h, List.filter_cons, if_pos h, List.filter_nil]
  · rw [if_neg h, List.filter_cons, if_neg h, List.filter_nil]

theorem radix0_cols (a0 a : List α) (hp : a.Perm a0) (k0 : Nat) : ∀ m, ∃ b, (columns key a0 k0 m).foldlM (fun b l => pass key a0 l b) a = some b ∧ StableSortOf (ltLow key m) a b := by
  intro m
  induction m with
  | zero =>
    refine ⟨a, rfl, StableSortOf.refl ?_⟩
    rw [List.pairwise_iff_forall_sublist]
    intro x y _
    simp [ltLow, Nat.mod_one]
  | succ m ih =>
    obtain ⟨b, b1, b2⟩ := ih
    rw [columns_succ, List.foldlM_append, b1]
    simp only [Option.bind_eq_bind, Option.bind_some]
    by_cases h : (cntOf key a0 m (nthByte k0 m) != a0.length) = true
    · rw [if_pos h]
      refine ⟨(List.range 256).flatMap (bucket key m b), ?_, ?_⟩
      · rw [List.foldlM_cons, pass_spec key a0 b (b2.perm.trans hp) m]
        rfl
      · rw [ltLow_succ]
        exact b2.step (fun x => by simp [ltByte]) (pass_stable key m b)
    · rw [if_neg h]
      refine ⟨b, rfl, low_skip key m (c := nthByte k0 m) ?_ b2⟩
      intro x hx
      have hh : cntOf key a0 m (nthByte k0 m) = a0.length := by simpa using h
      unfold cntOf at hh
      rw [List.countP_eq_length] at hh
      simpa using hh x (hp.mem_iff.1 hx)

theorem allSorted_pairwise : ∀ (a : List α), allSorted key a = true → a.Pairwise fun x y => key x ≤ key y := by
  intro a
  induction a with
  | nil => intro _; exact List.Pairwise.nil
  | cons x a ih =>
    intro h
    cases a with
    | nil => exact List.pairwise_singleton _ _
    | cons y r =>
      unfold allSorted at h
      by_cases c : key x > key y
      · rw [if_pos c] at h; cases h
      · rw [if_neg c] at h
        have := ih h
        rw [List.pairwise_cons]
        refine ⟨fun w hw => ?_, this⟩
        rcases List.mem_cons.1 hw with rfl | hw
        · omega
        · have := (List.pairwise_cons.1 this).1 w hw
          omega

/-- The order of the keys. -/
def ltKey (x y : α) : Bool := decide (key x < key y)

theorem ltLow_all {m : Nat} (hk : ∀ x, key x < 256 ^ m) : ltLow key m = ltKey key := by
  funext x y
  unfold ltLow ltKey
  rw [Nat.mod_eq_of_lt (hk x), Nat.mod_eq_of_lt (hk y)]

theorem radix0_stable (m : Nat) (hk : ∀ x, key x < 256 ^ m) (a0 a : List α) (hp : a.Perm a0) (hne : a ≠ []) : ∃ b, radix0 key m a0 a = some b ∧ StableSortOf (ltKey key) a b := by
  unfold radix0
  cases a0 with
  | nil => exact absurd hp.eq_nil hne
  | cons x r =>
    obtain ⟨b, b1, b2⟩ := radix0_cols key (x :: r) a hp (key x) m
    rw [ltLow_all key hk] at b2
    exact ⟨b, b1, b2⟩

theorem short_pairwise {R : α → α → Prop} : ∀ {a : List α}, a.length < 2 → a.Pairwise R
  | [], _ => List.Pairwise.nil
  | [_], _ => List.pairwise_singleton _ _
  | _ :: _ :: _, h => by simp at h; omega

theorem radixsort_stable (m : Nat) (hk : ∀ x, key x < 256 ^ m) (a : List α) : ∃ b, radixsort key m a = some b ∧ StableSortOf (ltKey key) a b := by
  unfold radixsort
  by_cases h1 : a.length < 2
  · rw [if_pos h1]
    exact ⟨a, rfl, StableSortOf.refl (short_pairwise h1)⟩
  · rw [if_neg h1]
    by_cases h2 : allSorted key a = true
    · rw [if_pos h2]
      exact ⟨a, rfl, StableSortOf.refl ((allSorted_pairwise key a h2).imp fun h => by simpa [ltKey] using h)⟩
    · rw [if_neg h2]
      exact radix0_stable key m hk a a (List.Perm.refl _) (by intro e; rw [e] at h1; simp at h1)

theorem aradixsort_stable (key : Nat → Nat) (m num : Nat) (hk : ∀ x, key x < 256 ^ m) (a : List Nat) (hp : a.Perm (List.range num)) : ∃ b, aradixsort key m num a = some b ∧ StableSortOf (ltKey key) a b := by
  have hlen : a.length = num := by rw [hp.length_eq, List.length_range]
  unfold aradixsort
  by_cases h1 : num < 2
  · rw [if_pos h1]
    exact ⟨a, rfl, StableSortOf.refl (short_pairwise (by omega))⟩
  · rw [if_neg h1]
    by_cases h2 : allSorted key a = true
    · rw [if_pos h2]
      exact ⟨a, rfl, StableSortOf.refl ((allSorted_pairwise key a h2).imp fun h => by simpa [ltKey] using h)⟩
    · rw [if_neg h2]
      exact radix0_stable key m hk (List.range num) a hp (by intro e; rw [e] at hlen; simp at hlen; omega)

theorem keyOf_signed (w x : Nat) (hw : 1 ≤ w) (hx : x < 2 ^ w) : (keyOf true w x : Int) = toSigned w x + 2 ^ (w - 1) ∧ keyOf true w x < 2 ^ w := by
  unfold keyOf toSigned
  rw [if_pos rfl]
  obtain ⟨v, rfl⟩ : ∃ v, w = v + 1 := ⟨w - 1, by omega⟩
  simp only [Nat.add_sub_cancel]
  have hp : (2 : Nat) ^ (v + 1) = 2 * 2 ^ v := by rw [Nat.pow_succ]; omega
  have hlt : x ^^^ 2 ^ v < 2 ^ (v + 1) := Nat.xor_lt_two_pow hx (by omega)
  refine ⟨?_, hlt⟩
  have hpi : ((2 : Int) ^ (v + 1)) = 2 * ((2 ^ v : Nat) : Int) := by push_cast; rw [Int.pow_succ]; omega
  have hpv : ((2 : Int) ^ v) = ((2 ^ v : Nat) : Int) := by push_cast; rfl
  by_cases c : x < 2 ^ v
  · rw [if_pos c, hpv]
    have : x ^^^ 2 ^ v = 2 ^ v + x := by
      have h1 := Nat.two_pow_add_eq_or_of_lt c 1
      have h2 : 2 ^ v ||| x = x ^^^ 2 ^ v := by
        apply Nat.eq_of_testBit_eq
        intro i
        rw [Nat.testBit_or, Nat.testBit_xor, Nat.testBit_two_pow]
        by_cases hi : v = i
        · subst hi
          rw [Nat.testBit_lt_two_pow c]
          simp
        · simp [hi]
      rw [Nat.mul_one] at h1
      rw [← h2, ← h1]
    rw [this]
    omega
  · rw [if_neg c, hpv, hpi]
    obtain ⟨y, rfl⟩ : ∃ y, x = 2 ^ v + y := ⟨x - 2 ^ v, by omega⟩
    have hy : y < 2 ^ v := by omega
    have : (2 ^ v + y) ^^^ 2 ^ v = y := by
      have h1 := Nat.two_pow_add_eq_or_of_lt hy 1
      rw [Nat.mul_one] at h1
      rw [h1]
      apply Nat.eq_of_testBit_eq
      intro i
      rw [Nat.testBit_xor, Nat.testBit_or, Nat.testBit_two_pow]
      by_cases hi : v = i
      · subst hi
        rw [Nat.testBit_lt_two_pow hy]
        simp
      · simp [hi]
    rw [this]
    push_cast
    omega
end Codon.NpSort
