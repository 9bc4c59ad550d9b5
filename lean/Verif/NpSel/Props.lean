import Verif.NpSel.Line
/-!
# C76: `np.partition` and `np.argpartition` put the elements asked for in their places

Not covered (hence `_partial`): the sorting of the positions by `kth.sort()` (the theorem takes any ascending rearrangement of the positions).  The walk over the lines of an array along an axis and the
copies to and from the buffer are covered by C78.
-/
namespace Codon.NpSel
open Codon.Sort

variable {α : Type}

/-- **C76 (partition).** For every strict weak order, every line, and every list of positions (negative ones counting from the end), in any order and with repetitions: `partition` never accesses an element outside
the line, its result is a rearrangement of the line, and each position asked for holds the element that sorting would put there, with nothing greater before it and nothing less behind it.  This holds
on every path: short searches, the selection of the largest float, the median of three and the median of medians, and whatever pivots are kept between the positions. -/
theorem c76_partition_partial {lt : α → α → Bool} (ho : SWO lt) (inexact : Bool) (a : List α) (kth ks ks' : List Int) (hk : fixKth a.length kth = some ks) (hp : ks'.Perm ks) (hs : ks'.Pairwise (· ≤ ·)) :
    ∃ a', partitionLoop lt inexact ks' a [] = some a' ∧ a'.Perm a ∧ ∀ k ∈ kth, ∃ p, PyPos a.length k p ∧ SplitAt lt a' p ∧
      ∀ s : List α, s.Perm a → Ascending lt s → ∃ x y, a'[p]? = some x ∧ s[p]? = some y ∧ lt x y = false ∧ lt y x = false := by
  have hr := fixKth_range hk
  obtain ⟨a', e1, e2, e3, _⟩ := partitionLoop_ok ho inexact ks' a [] none ⟨by simp, by simp, by simp⟩ (by simp) (by simp) hs (fun k h => hr k (hp.mem_iff.1 h))
  refine ⟨a', e1, e2, fun k hmem => ?_⟩
  have hf := fixKth_iff.1 hk
  have : ∃ p : Nat, PyPos a.length k p ∧ (p : Int) ∈ ks := by
    clear hk hp hr e3
    induction hf with
    | nil => cases hmem
    | cons h1 _ ih =>
      obtain ⟨q, q1, q2⟩ := h1
      rcases List.mem_cons.1 hmem with e | e
      · subst e; exact ⟨q, q2, by simp [q1]⟩
      · obtain ⟨p, p1, p2⟩ := ih e
        exact ⟨p, p1, by simp [p2]⟩
  obtain ⟨p, p1, p2⟩ := this
  have hsp : SplitAt lt a' p := by
    have := e3 p (hp.mem_iff.2 p2)
    rw [← e2.length_eq] at this
    exact this.splitAt (by rw [e2.length_eq]; exact p1.1)
  exact ⟨p, p1, hsp, fun s s1 s2 => hsp.rank ho (s1.trans e2.symm) s2⟩

/-- The hypotheses are met, the result is the one expected, and the search leaves the short paths: positions 5 and −2 of twelve numbers. -/
example : fixKth 12 [-2, 5] = some [10, 5] ∧
    partitionLoop (fun a b : Nat => decide (a < b)) false [5, 10] [7, 3, 9, 1, 11, 0, 5, 8, 2, 10, 4, 6] [] = some [2, 3, 0, 1, 4, 5, 6, 7, 8, 9, 10, 11] := by decide +kernel

/-- The median of medians is used when the depth is exhausted. -/
example : selLoop (fun a b : Nat => decide (a < b)) (fun a _ _ _ => some a) 6 14 [7, 3, 9, 1, 11, 0, 5, 8, 2, 10, 4, 6, 13] 0 12 0 none =
    some ([4, 3, 1, 2, 0, 5, 7, 6, 8, 9, 11, 10, 13], 6, 7, none) := by decide +kernel

/-- **C76 (positions).** `partition` raises an exception exactly when some position is out of range. -/
theorem c76_positions (n : Nat) (kth : List Int) : (fixKth n kth = none ↔ ∃ k ∈ kth, ¬ ∃ p, PyPos n k p) ∧
    ∀ r, fixKth n kth = some r ↔ List.Forall₂ (fun (k p : Int) => ∃ q : Nat, p = q ∧ PyPos n k q) kth r := by
  refine ⟨?_, fun r => fixKth_iff⟩
  induction kth with
  | nil => simp [fixKth]
  | cons k ks ih =>
    by_cases c : ∃ p, PyPos n k p
    · obtain ⟨p, p1, p2⟩ := c
      have e : (if k < 0 then k + (n : Int) else k) = p := by split <;> omega
      simp only [fixKth, e]
      rw [if_neg (by omega), Option.map_eq_none_iff, ih]
      constructor
      · rintro ⟨q, q1, q2⟩; exact ⟨q, by simp [q1], q2⟩
      · rintro ⟨q, q1, q2⟩
        rcases List.mem_cons.1 q1 with h | h
        · subst h; exact absurd ⟨p, p1, p2⟩ q2
        · exact ⟨q, h, q2⟩
    · simp only [fixKth]
      have : (if k < 0 then k + (n : Int) else k) < 0 ∨ (if k < 0 then k + (n : Int) else k) ≥ n := by
        by_cases q : (if k < 0 then k + (n : Int) else k) < 0 ∨ (if k < 0 then k + (n : Int) else k) ≥ n
        · exact q
        · exfalso
          apply c
          refine ⟨(if k < 0 then k + (n : Int) else k).toNat, ?_, ?_⟩
          · split at q <;> omega
          · split at q <;> omega
      rw [if_pos this]
      simp only [true_iff]
      exact ⟨k, by simp, c⟩

example : fixKth 3 [0, -4] = none ∧ fixKth 3 [-3, 2] = some [0, 2] := by decide

/-- **C76 (argpartition).** The result of `argpartition` is a rearrangement of the indices; read through it, the line is partitioned at each position asked for. -/
theorem c76_argpartition_partial {lt : α → α → Bool} (ho : SWO lt) (inexact : Bool) (v : List α) (ks : List Int) (hs : ks.Pairwise (· ≤ ·)) (hr : ∀ k ∈ ks, 0 ≤ k ∧ k < v.length) :
    ∃ r, argPartitionLoop lt inexact ks v = some r ∧ r.Perm (List.finRange v.length) ∧ (r.map fun i => v[i]).Perm v ∧
      ∀ p : Nat, (p : Int) ∈ ks → SplitAt lt (r.map fun i => v[i]) p := by
  have ho' : SWO (argLt lt v) := ho.key fun i : Fin v.length => v[i]
  obtain ⟨r, e1, e2, e3, _⟩ := partitionLoop_ok ho' inexact ks (List.finRange v.length) [] none ⟨by simp, by simp, by simp⟩ (by simp) (by simp) hs (by simpa using hr)
  refine ⟨r, e1, e2, ?_, fun p hp => ?_⟩
  · have := e2.map fun i : Fin v.length => v[i]
    refine this.trans (List.Perm.of_eq ?_)
    apply List.ext_getElem
    · simp
    · intro i h1 h2
      simp
  · have h1 := e3 p hp
    rw [← e2.length_eq] at h1
    have hlt : p < r.length := by
      have := hr p hp
      rw [e2.length_eq, List.length_finRange]; omega
    obtain ⟨x, x1, x2, x3⟩ := h1.splitAt hlt
    refine ⟨v[x], by rw [List.getElem?_map, x1]; rfl, ?_, ?_⟩
    · intro i y hi hy
      rw [List.getElem?_map, Option.map_eq_some_iff] at hy
      obtain ⟨z, z1, z2⟩ := hy
      rw [← z2]
      exact x2 i z hi z1
    · intro i y hi hy
      rw [List.getElem?_map, Option.map_eq_some_iff] at hy
      obtain ⟨z, z1, z2⟩ := hy
      rw [← z2]
      exact x3 i z hi z1

example : (argPartitionLoop (fun a b : Nat => decide (a < b)) false [3, 4] [50, 30, 90, 10, 70, 20]).map (·.map Fin.val) = some [3, 5, 1, 0, 4, 2] := by decide +kernel

/-- **C76 (order).** `_less` is a strict weak order on floats, with the NaNs last, and on complex numbers: the assumption of the other theorems holds for what the library passes. -/
theorem c76_less {β : Type} {lt0 : β → β → Bool} (h : SWO lt0) :
    SWO (fless lt0) ∧ SWO (cless lt0) ∧ (∀ x : β, fless lt0 (some x) none = true) ∧ (∀ a, fless lt0 none a = false) ∧ ∀ x y, fless lt0 (some x) (some y) = lt0 x y := by
  refine ⟨fless_swo h, cless_swo h, fun x => ?_, fun a => ?_, fun x y => ?_⟩
  · rw [fless_some h]
  · rw [fless_some h]
  · rw [fless_some h]

/-- Floats with NaNs, the last position asked for twice. -/
example : partitionLoop (fless fun a b : Nat => decide (a < b)) true [2, 4, 4] [some 3, none, some 1, none, some 2] [] = some [some 1, some 2, some 3, none, none] := by decide +kernel

end Codon.NpSel
