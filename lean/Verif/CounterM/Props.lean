import Verif.CounterM.Lemmas

/-!
# C38: Counter arithmetic agrees with multisets

`count m k` is the count of `k` in the map a counter represents (0 when absent).  The hypotheses
`Bd`/bounds on the number of buckets and elements (2^41, 2^38) are far above what fits in memory.
-/

namespace Codon.CounterM

open Codon.KHash
open Codon.KHash.Spec (find erase store)

section
set_option linter.unusedSectionVars false
variable {K : Type} [DecidableEq K] {h : K → BitVec 64}

/-- The counter has exactly the counts `f`, and stores exactly the keys with a positive count. -/
def Exactly (h : K → BitVec 64) (t : Ctr K) (f : K → Int) : Prop :=
  ∃ m, Rel h t m ∧ ∀ k, find m k = if 0 < f k then some (f k) else none

/-- The counter has the counts `f` (absent keys count 0). -/
def Counts (h : K → BitVec 64) (t : Ctr K) (f : K → Int) : Prop :=
  ∃ m, Rel h t m ∧ ∀ k, (find m k).getD 0 = f k

/-- **C38.** `a += b` -/
theorem c38_iadd {a b : Ctr K} {A B : CMap K} (ra : Rel h a A) (rb : Rel h b B)
    (hn : a.nb ≤ 2 ^ 41) (hl : A.length + B.length ≤ 2 ^ 38) :
    ∃ t, iadd h a b = some t ∧ Exactly h t fun k => cnt A k + cnt B k := by
  obtain ⟨l, e1, -, nd, hlen, hf⟩ := items_rel' rb
  obtain ⟨t1, e2, r1, -⟩ := incrAll_rel id l ra ⟨hn, by omega⟩
  obtain ⟨t2, m2, e3, r2, -, -, f2⟩ := delNonPositives_rel r1
  refine ⟨t2, by simp [iadd, e1, e2, e3], m2, r2, ?_⟩
  intro k
  rw [f2]
  have : cnt (foldStore (fun c v => c + id v) A l) k = cnt A k + cnt B k := by
    unfold cnt
    rw [find_foldStore _ l A nd, hf]
    cases find B k <;> simp [cnt]
  rw [this]

/-- **C38.** `a -= b` -/
theorem c38_isub {a b : Ctr K} {A B : CMap K} (ra : Rel h a A) (rb : Rel h b B)
    (hn : a.nb ≤ 2 ^ 41) (hl : A.length + B.length ≤ 2 ^ 38) :
    ∃ t, isub h a b = some t ∧ Exactly h t fun k => cnt A k - cnt B k := by
  obtain ⟨l, e1, -, nd, hlen, hf⟩ := items_rel' rb
  obtain ⟨t1, e2, r1, -⟩ := incrAll_rel (- ·) l ra ⟨hn, by omega⟩
  obtain ⟨t2, m2, e3, r2, -, -, f2⟩ := delNonPositives_rel r1
  refine ⟨t2, by simp [isub, e1, e2, e3], m2, r2, ?_⟩
  intro k
  rw [f2]
  have : cnt (foldStore (fun c v => c + -v) A l) k = cnt A k - cnt B k := by
    unfold cnt
    rw [find_foldStore _ l A nd, hf]
    cases find B k <;> simp [cnt]
    omega
  rw [this]

/-- **C38.** `a |= b` -/
theorem c38_ior {a b : Ctr K} {A B : CMap K} (ra : Rel h a A) (rb : Rel h b B)
    (hn : a.nb ≤ 2 ^ 41) (hl : A.length + B.length ≤ 2 ^ 38) :
    ∃ t, ior h a b = some t ∧ Exactly h t fun k => max (cnt A k) (cnt B k) := by
  obtain ⟨l, e1, -, nd, hlen, hf⟩ := items_rel' rb
  obtain ⟨t0, m0, e0, r0, n0, l0, f0⟩ := delNonPositives_rel ra
  obtain ⟨t1, e2, r1, -⟩ := combineAll_rel max l r0 ⟨by omega, by omega⟩
  obtain ⟨t2, m2, e3, r2, -, -, f2⟩ := delNonPositives_rel r1
  refine ⟨t2, by simp [ior, e1, e0, e2, e3], m2, r2, ?_⟩
  intro k
  rw [f2]
  have h0 : cnt m0 k = max (cnt A k) 0 := by
    unfold cnt
    rw [f0]
    unfold cnt
    split
    · rw [Option.getD_some]; omega
    · rw [Option.getD_none]; omega
  have : cnt (foldStore max m0 l) k = max (max (cnt A k) (cnt B k)) 0 ∨
      cnt (foldStore max m0 l) k = max (cnt A k) 0 ∧ cnt B k = 0 := by
    by_cases hB : find B k = none
    · right
      constructor
      · rw [← h0]
        unfold cnt
        rw [find_foldStore _ l m0 nd, hf, hB]
      · simp [cnt, hB]
    · left
      obtain ⟨v, hv⟩ := Option.ne_none_iff_exists'.mp hB
      have hcB : cnt B k = v := by simp [cnt, hv]
      have : cnt (foldStore max m0 l) k = max (cnt m0 k) v := by
        conv_lhs => unfold cnt
        rw [find_foldStore _ l m0 nd, hf, hv]
        rfl
      rw [this, h0, hcB]
      omega
  have key : cnt (foldStore max m0 l) k = max (max (cnt A k) (cnt B k)) 0 := by omega
  rw [key]
  by_cases hp : 0 < max (cnt A k) (cnt B k)
  · rw [if_pos hp, if_pos (by omega), Int.max_eq_left (by omega)]
  · rw [if_neg hp, if_neg (by omega)]

/-- **C38.** `a &= b`, what the code really computes: keys of `b` get the smaller count, but keys
absent from `b` keep the count they had.  The claim (`min` of the counts for every key) holds for the
keys of `b` only. -/
theorem c38_iand_partial {a b : Ctr K} {A B : CMap K} (ra : Rel h a A) (rb : Rel h b B)
    (hn : a.nb ≤ 2 ^ 41) (hl : A.length + B.length ≤ 2 ^ 38) :
    ∃ t, iand h a b = some t ∧
      Exactly h t fun k => if (find B k).isSome then min (cnt A k) (cnt B k) else cnt A k := by
  obtain ⟨l, e1, -, nd, hlen, hf⟩ := items_rel' rb
  obtain ⟨t1, e2, r1, -⟩ := combineAll_rel min l ra ⟨by omega, by omega⟩
  obtain ⟨t2, m2, e3, r2, -, -, f2⟩ := delNonPositives_rel r1
  refine ⟨t2, by simp [iand, e1, e2, e3], m2, r2, ?_⟩
  intro k
  rw [f2]
  have : cnt (foldStore min A l) k =
      if (find B k).isSome then min (cnt A k) (cnt B k) else cnt A k := by
    conv_lhs => unfold cnt
    rw [find_foldStore _ l A nd, hf]
    cases hB : find B k with
    | none => simp [cnt]
    | some v => simp [cnt, hB]
  rw [this]

/-- When every key of `a` is a key of `b`, `a &= b` is the multiset intersection. -/
theorem c38_iand_subset_partial {a b : Ctr K} {A B : CMap K} (ra : Rel h a A) (rb : Rel h b B)
    (hn : a.nb ≤ 2 ^ 41) (hl : A.length + B.length ≤ 2 ^ 38)
    (hsub : ∀ k, (find A k).isSome → (find B k).isSome) :
    ∃ t, iand h a b = some t ∧ Exactly h t fun k => min (cnt A k) (cnt B k) := by
  obtain ⟨t, e, m, r, hf⟩ := c38_iand_partial ra rb hn hl
  refine ⟨t, e, m, r, ?_⟩
  intro k
  rw [hf]
  by_cases hB : (find B k).isSome
  · simp only [hB, if_true]
  · simp only [hB]
    have hA : find A k = none := by
      cases hA : find A k with
      | none => rfl
      | some v => exact absurd (hsub k (by simp [hA])) hB
    have hB' : find B k = none := by simpa using hB
    simp [cnt, hA, hB']

/-- **C38, violation.** Whenever `a` has a positive count for a key that `b` lacks, `a &= b` keeps
it. -/
theorem c38_violation_iand {a b : Ctr K} {A B : CMap K} (ra : Rel h a A) (rb : Rel h b B)
    (hn : a.nb ≤ 2 ^ 41) (hl : A.length + B.length ≤ 2 ^ 38) {k : K} (hA : 0 < cnt A k)
    (hB : find B k = none) :
    ¬ ∃ t, iand h a b = some t ∧ Exactly h t fun k => min (cnt A k) (cnt B k) := by
  rintro ⟨t, e, m, r, hf⟩
  obtain ⟨t', e', m', r', hf'⟩ := c38_iand_partial ra rb hn hl
  rw [e] at e'
  cases e'
  have h1 := getitem_rel r k
  have h2 := getitem_rel r' k
  rw [h1, hf, hf'] at h2
  simp only [hB, Option.isSome_none, Bool.false_eq_true, if_false, if_pos hA] at h2
  have : cnt B k = 0 := by simp [cnt, hB]
  rw [this, if_neg (by omega)] at h2
  simp at h2

/-- **C38.** `a + b` -/
theorem c38_add {a b : Ctr K} {A B : CMap K} (ra : Rel h a A) (rb : Rel h b B)
    (hn : a.nb ≤ 2 ^ 41) (hl : A.length + B.length ≤ 2 ^ 38) :
    ∃ t, add h a b = some t ∧ Exactly h t fun k => cnt A k + cnt B k := by
  obtain ⟨rc, hc⟩ := copy_rel' ra
  exact c38_iadd rc rb (by omega) hl

/-- **C38.** `a - b` -/
theorem c38_sub {a b : Ctr K} {A B : CMap K} (ra : Rel h a A) (rb : Rel h b B)
    (hn : a.nb ≤ 2 ^ 41) (hl : A.length + B.length ≤ 2 ^ 38) :
    ∃ t, sub h a b = some t ∧ Exactly h t fun k => cnt A k - cnt B k := by
  obtain ⟨rc, hc⟩ := copy_rel' ra
  exact c38_isub rc rb (by omega) hl

/-- **C38.** `a | b` -/
theorem c38_or {a b : Ctr K} {A B : CMap K} (ra : Rel h a A) (rb : Rel h b B)
    (hn : a.nb ≤ 2 ^ 41) (hl : A.length + B.length ≤ 2 ^ 38) :
    ∃ t, or h a b = some t ∧ Exactly h t fun k => max (cnt A k) (cnt B k) := by
  obtain ⟨rc, hc⟩ := copy_rel' ra
  exact c38_ior rc rb (by omega) hl

/-- **C38.** `a & b`, under the same restriction as `&=`. -/
theorem c38_and_partial {a b : Ctr K} {A B : CMap K} (ra : Rel h a A) (rb : Rel h b B)
    (hn : a.nb ≤ 2 ^ 41) (hl : A.length + B.length ≤ 2 ^ 38)
    (hsub : ∀ k, (find A k).isSome → (find B k).isSome) :
    ∃ t, and h a b = some t ∧ Exactly h t fun k => min (cnt A k) (cnt B k) := by
  obtain ⟨rc, hc⟩ := copy_rel' ra
  exact c38_iand_subset_partial rc rb (by omega) hl hsub

/-- **C38.** `+a` keeps the positive counts. -/
theorem c38_pos {a : Ctr K} {A : CMap K} (ra : Rel h a A) (hn : a.nb ≤ 2 ^ 41)
    (hl : A.length ≤ 2 ^ 38) : ∃ t, pos h a = some t ∧ Exactly h t fun k => cnt A k := by
  obtain ⟨l, e1, -, nd, hlen, hf⟩ := items_rel' ra
  obtain ⟨s, e2, r2, n2⟩ := resize_empty (h := h) a.nb hn
  obtain ⟨t, m, e3, r3, f3⟩ := keepLoop_rel (fun v => if v > 0 then some v else none) l s [] r2
    ⟨n2, by simp; omega⟩ nd
  refine ⟨t, by simp [pos, e1, e2, e3], m, r3, ?_⟩
  intro k
  have h0 : find ([] : CMap K) k = none := rfl
  rw [f3, hf, h0]
  cases hA : find A k with
  | none => simp [cnt, hA]
  | some v => by_cases hv : 0 < v <;> simp [cnt, hA, hv]

/-- **C38.** `-a` negates, keeping what becomes positive. -/
theorem c38_neg {a : Ctr K} {A : CMap K} (ra : Rel h a A) (hn : a.nb ≤ 2 ^ 41)
    (hl : A.length ≤ 2 ^ 38) : ∃ t, neg h a = some t ∧ Exactly h t fun k => - cnt A k := by
  obtain ⟨l, e1, -, nd, hlen, hf⟩ := items_rel' ra
  obtain ⟨s, e2, r2, n2⟩ := resize_empty (h := h) a.nb hn
  obtain ⟨t, m, e3, r3, f3⟩ := keepLoop_rel (fun v => if v < 0 then some (-v) else none) l s [] r2
    ⟨n2, by simp; omega⟩ nd
  refine ⟨t, by simp [neg, e1, e2, e3], m, r3, ?_⟩
  intro k
  have h0 : find ([] : CMap K) k = none := rfl
  rw [f3, hf, h0]
  cases hA : find A k with
  | none => simp [cnt, hA]
  | some v => by_cases hv : v < 0 <;> simp [cnt, hA, hv]

theorem sum_marks (xs : List K) (c : Int) (k : K) :
    (((xs.map fun x => (x, c)).filter fun p => decide (p.1 = k)).map fun p => id p.2).sum
      = c * xs.count k := by
  induction xs with
  | nil => simp
  | cons x xs ih =>
    by_cases hx : x = k
    · subst hx
      simp only [List.map_cons, List.filter_cons, decide_true, if_true, List.sum_cons,
        List.count_cons_self, ih]
      push_cast
      simp [Int.mul_add, Int.add_comm]
    · simp only [List.map_cons, List.filter_cons, hx, decide_false, Bool.false_eq_true, if_false,
        ih, List.count_cons_of_ne hx]

/-- **C38.** `c.update(elements)` adds the number of occurrences. -/
theorem c38_update_elements {a : Ctr K} {A : CMap K} (ra : Rel h a A) (xs : List K)
    (hn : a.nb ≤ 2 ^ 41) (hl : A.length + xs.length ≤ 2 ^ 38) :
    ∃ t, updateElements h a xs = some t ∧ Counts h t fun k => cnt A k + xs.count k := by
  obtain ⟨t, e, r, -⟩ := incrAll_rel id (xs.map fun x => (x, 1)) ra ⟨hn, by simpa using hl⟩
  refine ⟨t, e, _, r, fun k => ?_⟩
  have := cnt_foldAdd id (xs.map fun x => (x, (1 : Int))) A k
  rw [sum_marks, Int.one_mul] at this
  exact this

/-- **C38.** `c.subtract(elements)` subtracts the number of occurrences. -/
theorem c38_subtract_elements {a : Ctr K} {A : CMap K} (ra : Rel h a A) (xs : List K)
    (hn : a.nb ≤ 2 ^ 41) (hl : A.length + xs.length ≤ 2 ^ 38) :
    ∃ t, subtractElements h a xs = some t ∧ Counts h t fun k => cnt A k - xs.count k := by
  obtain ⟨t, e, r, -⟩ := incrAll_rel id (xs.map fun x => (x, -1)) ra ⟨hn, by simpa using hl⟩
  refine ⟨t, e, _, r, fun k => ?_⟩
  have := cnt_foldAdd id (xs.map fun x => (x, (-1 : Int))) A k
  rw [sum_marks] at this
  unfold cnt at this ⊢
  rw [this]
  dsimp only
  omega

/-- **C38.** `Counter(elements)` counts the occurrences of each element. -/
theorem c38_counter_of_elements (xs : List K) (hl : xs.length ≤ 2 ^ 38) :
    ∃ t, fromElements h xs = some t ∧ Counts h t fun k => xs.count k := by
  obtain ⟨t, e, m, r, hf⟩ := c38_update_elements (rel_empty (h := h)) xs (Nat.zero_le _)
    (by simpa using hl)
  refine ⟨t, e, m, r, fun k => ?_⟩
  rw [hf]
  have : cnt ([] : CMap K) k = 0 := rfl
  dsimp only
  rw [this, Int.zero_add]

/-- **C38.** `update` / `subtract` with another counter add and subtract counts, keeping zero and
negative ones. -/
theorem c38_update_counter {a b : Ctr K} {A B : CMap K} (ra : Rel h a A) (rb : Rel h b B)
    (hn : a.nb ≤ 2 ^ 41) (hl : A.length + B.length ≤ 2 ^ 38) :
    (∃ t, updateFrom h a b = some t ∧ Counts h t fun k => cnt A k + cnt B k) ∧
    ∃ t, subtractFrom h a b = some t ∧ Counts h t fun k => cnt A k - cnt B k := by
  obtain ⟨l, e1, -, nd, hlen, hf⟩ := items_rel' rb
  constructor
  · obtain ⟨t1, e2, r1, -⟩ := incrAll_rel id l ra ⟨hn, by omega⟩
    refine ⟨t1, by simp [updateFrom, e1, e2], _, r1, fun k => ?_⟩
    rw [find_foldStore _ l A nd, hf]
    cases hB : find B k <;> simp [cnt, hB]
  · obtain ⟨t1, e2, r1, -⟩ := incrAll_rel (- ·) l ra ⟨hn, by omega⟩
    refine ⟨t1, by simp [subtractFrom, e1, e2], _, r1, fun k => ?_⟩
    rw [find_foldStore _ l A nd, hf]
    cases hB : find B k <;> simp [cnt, hB]
    omega

/-- **C38.** `c[k]` is the count; a missing key counts 0 and raises nothing. -/
theorem c38_getitem {a : Ctr K} {A : CMap K} (ra : Rel h a A) (k : K) :
    getitem h a k = some (cnt A k) := getD_rel ra k 0

theorem count_flatMap (l : List (K × Int)) (nd : (l.map Prod.fst).Nodup) (k : K) :
    (l.flatMap fun p => List.replicate p.2.toNat p.1).count k = (cnt l k).toNat := by
  induction l with
  | nil => rfl
  | cons p l ih =>
    obtain ⟨a, v⟩ := p
    rw [List.map_cons, List.nodup_cons] at nd
    rw [List.flatMap_cons, List.count_append, ih nd.2, List.count_replicate]
    have hc : cnt ((a, v) :: l) k = if a = k then v else cnt l k := by
      unfold cnt find
      rw [List.find?_cons]
      by_cases hk : a = k
      · simp [hk]
      · simp [hk]
    rw [hc]
    by_cases hk : a = k
    · subst hk
      have hn : find l a = none := find_none_iff.mpr fun v hv =>
        nd.1 (List.mem_map.mpr ⟨_, hv, rfl⟩)
      have : cnt l a = 0 := by simp [cnt, hn]
      simp [this]
    · simp [hk]

/-- **C38.** `elements()` yields each key as often as its count says. -/
theorem c38_elements {a : Ctr K} {A : CMap K} (ra : Rel h a A) :
    ∃ l, elements a = some l ∧ ∀ k, l.count k = (cnt A k).toNat := by
  obtain ⟨l, e1, -, nd, -, hf⟩ := items_rel' ra
  refine ⟨_, by simp [elements, e1]; rfl, fun k => ?_⟩
  rw [count_flatMap l nd]
  unfold cnt
  rw [hf]

/-- **C38.** `Counter(c.elements())` has the positive counts of `c` back. -/
theorem c38_elements_round_trip {a : Ctr K} {A : CMap K} (ra : Rel h a A) :
    ∃ l, elements a = some l ∧ (l.length ≤ 2 ^ 38 →
      ∃ t, fromElements h l = some t ∧ Counts h t fun k => max 0 (cnt A k)) := by
  obtain ⟨l, e, hc⟩ := c38_elements ra
  refine ⟨l, e, fun hl => ?_⟩
  obtain ⟨t, e2, m, r, hf⟩ := c38_counter_of_elements (h := h) l hl
  refine ⟨t, e2, m, r, fun k => ?_⟩
  rw [hf]
  dsimp only
  rw [hc]
  omega

theorem perm_sum {l l' : List Int} (hp : l.Perm l') : l.sum = l'.sum := by
  induction hp with
  | nil => rfl
  | cons x _ ih => simp [ih]
  | swap x y l => simp only [List.sum_cons]; omega
  | trans _ _ h1 h2 => exact h1.trans h2

theorem foldl_sum (l : List (K × Int)) (c : Int) :
    l.foldl (fun m p => m + p.2) c = c + (l.map Prod.snd).sum := by
  induction l generalizing c with
  | nil => simp
  | cons p l ih => rw [List.foldl_cons, ih, List.map_cons, List.sum_cons]; omega

/-- **C38.** `total()` is the sum of all counts. -/
theorem c38_total {a : Ctr K} {A : CMap K} (ra : Rel h a A) :
    total a = some (A.map Prod.snd).sum := by
  obtain ⟨l, e1, hp, -⟩ := items_rel' ra
  simp only [total, e1, foldl_sum, Int.zero_add, Option.bind_eq_bind, Option.bind_some,
    Option.pure_def, Option.some.injEq]
  exact perm_sum (hp.map Prod.snd)

theorem eqLoop_rel {b : Ctr K} {B : CMap K} (rb : Rel h b B) (l : List (K × Int)) :
    eqLoop h b l = some (decide (∀ p ∈ l, find B p.1 = some p.2)) := by
  induction l with
  | nil => simp [eqLoop]
  | cons p l ih =>
    obtain ⟨k, v⟩ := p
    unfold eqLoop
    rw [contains_rel rb, c38_getitem rb]
    cases hB : find B k with
    | none => simp [hB]
    | some w =>
      by_cases hw : w = v
      · subst hw
        simp [hB, cnt, ih]
      · simp [hB, cnt, hw]

/-- **C38 (partial).** `==` says whether the stored items are the same.  (Python compares counts,
with absent keys counting 0: `c38_violation_eq`.) -/
theorem c38_eq_partial {a b : Ctr K} {A B : CMap K} (ra : Rel h a A) (rb : Rel h b B) :
    ∃ r, eq h a b = some r ∧ (r = true ↔ ∀ k, find A k = find B k) := by
  obtain ⟨l, e1, hp, nd, hlen, hf⟩ := items_rel' ra
  have hsa := ra.size
  have hsb := rb.size
  unfold eq
  by_cases hs : a.size = b.size
  · rw [if_neg (by simpa using hs), e1]
    refine ⟨_, eqLoop_rel rb l, ?_⟩
    rw [decide_eq_true_eq]
    constructor
    · intro hh k
      have hsub : ∀ p ∈ A, p ∈ B := fun p hp' =>
        (find_some_iff rb.nd).mp (hh p (hp.mem_iff.mpr hp'))
      have ndA : A.Nodup := List.Nodup.of_map _ ra.nd
      have hperm : A.Perm B := by
        apply List.Subperm.perm_of_length_le
        · exact ndA.subperm hsub
        · omega
      exact perm_find hperm ra.nd k
    · rintro hh ⟨k, v⟩ hm
      rw [← hh k, ← hf k]
      exact (find_some_iff nd).mpr hm
  · rw [if_pos (by simpa using hs)]
    refine ⟨false, rfl, ?_⟩
    constructor
    · intro hc; cases hc
    · intro hh
      exfalso
      apply hs
      rw [hsa, hsb]
      have ndA : A.Nodup := List.Nodup.of_map _ ra.nd
      have ndB : B.Nodup := List.Nodup.of_map _ rb.nd
      have : A.Perm B := (List.perm_ext_iff_of_nodup ndA ndB).mpr (by
        rintro ⟨k, v⟩
        rw [← find_some_iff ra.nd, ← find_some_iff rb.nd, hh k])
      exact this.length_eq

/-- **C38, violation.** `Counter(a=0) == Counter()` is `False`; in Python both have the same counts
and are equal. -/
theorem c38_violation_eq :
    ∃ t : Ctr Nat, setitem (fun _ => 0) Tbl.empty 7 0 = some t ∧
      getitem (fun _ => 0) t 7 = some 0 ∧ eq (fun _ => 0) t Tbl.empty = some false := by
  refine ⟨_, rfl, ?_⟩
  decide +kernel

/-! Non-vacuity: two concrete counters, built by the code itself, meet the hypotheses. -/

example : ∃ a b : Ctr Nat, fromElements (fun k => BitVec.ofNat 64 k) [1, 2, 2, 5] = some a ∧
    fromElements (fun k => BitVec.ofNat 64 k) [2, 5, 5, 9] = some b ∧
    (∃ A, Rel (fun k => BitVec.ofNat 64 k) a A ∧ cnt A 2 = 2 ∧ a.nb ≤ 2 ^ 41) ∧
    (∃ B, Rel (fun k => BitVec.ofNat 64 k) b B ∧ cnt B 5 = 2) := by
  obtain ⟨a, ea, A, ra, ha⟩ := c38_counter_of_elements (h := fun k => BitVec.ofNat 64 k)
    [1, 2, 2, 5] (by norm_num)
  obtain ⟨b, eb, B, rb, hb⟩ := c38_counter_of_elements (h := fun k => BitVec.ofNat 64 k)
    [2, 5, 5, 9] (by norm_num)
  refine ⟨a, b, ea, eb, ⟨A, ra, ha 2, ?_⟩, ⟨B, rb, hb 5⟩⟩
  have : a.nb ≤ 4 := by
    have e : fromElements (fun k => BitVec.ofNat 64 k) [1, 2, 2, 5] = some a := ea
    have h2 : (fromElements (fun k => BitVec.ofNat 64 k) [1, 2, 2, 5]).map
        (fun t : Ctr Nat => decide (t.nb ≤ 4)) = some true := by decide +kernel
    rw [e] at h2
    simpa using h2
  omega

end

end Codon.CounterM
