import Verif.Numpy.ViewSpec
import Verif.Numpy.Lemmas
import Mathlib.Algebra.BigOperators.Group.List.Basic
import Mathlib.Data.List.Perm.Subperm
/-!
# Lemmas on permuting the axes of an array
-/
namespace Codon.Numpy

theorem valid_iff : ∀ (c sh : List Int), Valid c sh ↔ c.length = sh.length ∧ ∀ k < sh.length, 0 ≤ c.getD k 0 ∧ c.getD k 0 < sh.getD k 0
  | [], [] => by simp [Valid]
  | [], n :: sh => by simp [Valid]
  | x :: c, [] => by simp [Valid]
  | x :: c, n :: sh => by
    rw [Valid, valid_iff c sh]
    constructor
    · rintro ⟨h1, h2, h3⟩
      refine ⟨by simp [h2], fun k hk => ?_⟩
      cases k with
      | zero => exact h1
      | succ k => exact h3 k (by simpa using hk)
    · rintro ⟨h1, h2⟩
      refine ⟨h2 0 (by simp), by simpa using h1, fun k hk => ?_⟩
      have := h2 (k + 1) (by simpa using hk)
      simpa using this

theorem ptrOff_sum : ∀ (c st : List Int), c.length = st.length → ptrOff c st = ((List.range c.length).map fun k => c.getD k 0 * st.getD k 0).sum
  | [], [], _ => rfl
  | [], s :: st, h => by simp at h
  | x :: c, [], h => by simp at h
  | x :: c, s :: st, h => by
    rw [ptrOff, ptrOff_sum c st (by simpa using h), List.length_cons, List.range_succ_eq_map, List.map_cons, List.sum_cons, List.map_map]
    rfl

/-- `ax` lists every axis once. -/
def IsPerm (ax : List Nat) (n : Nat) : Prop := ax.Perm (List.range n)

theorem isPerm_of (ax : List Nat) (n : Nat) (hnd : ax.Nodup) (hlt : ∀ k ∈ ax, k < n) (hlen : ax.length = n) : IsPerm ax n := by
  have : ax.Subperm (List.range n) := List.subperm_of_subset hnd fun k hk => List.mem_range.mpr (hlt k hk)
  exact this.perm_of_length_le (by simp [hlen])

theorem getD_map (ax : List Nat) (l : List Int) (k : Nat) (hk : k < ax.length) : (ax.map fun j => l.getD j 0).getD k 0 = l.getD ax[k] 0 := by
  rw [List.getD_eq_getElem?_getD, List.getElem?_map, List.getElem?_eq_getElem hk]; rfl

theorem ptrOff_perm (ax : List Nat) (c st : List Int) (h : IsPerm ax c.length) (hl : c.length = st.length) :
    ptrOff (ax.map fun j => c.getD j 0) (ax.map fun j => st.getD j 0) = ptrOff c st := by
  rw [ptrOff_sum _ _ (by simp), ptrOff_sum c st hl]
  have e : ((List.range (ax.map fun j => c.getD j 0).length).map fun k => (ax.map fun j => c.getD j 0).getD k 0 * (ax.map fun j => st.getD j 0).getD k 0) =
      ax.map fun j => c.getD j 0 * st.getD j 0 := by
    apply List.ext_getElem
    · simp
    · intro k h1 h2
      have hk : k < ax.length := by simpa using h2
      simp only [List.getElem_map, List.getElem_range]
      rw [getD_map ax c k hk, getD_map ax st k hk]
  rw [e]
  exact (h.map _).sum_eq

theorem valid_perm (ax : List Nat) (c sh : List Int) (h : IsPerm ax sh.length) (hc : Valid c sh) : Valid (ax.map fun j => c.getD j 0) (ax.map fun j => sh.getD j 0) := by
  rw [valid_iff] at hc ⊢
  refine ⟨by simp, fun k hk => ?_⟩
  have hk' : k < ax.length := by simpa using hk
  rw [getD_map ax c k hk', getD_map ax sh k hk']
  exact hc.2 _ (List.mem_range.mp (h.mem_iff.mp (List.getElem_mem hk')))

theorem perm_inverse (ax : List Nat) (d : List Int) (n : Nat) (h : IsPerm ax n) (hd : d.length = n) :
    ∃ c : List Int, c.length = n ∧ (ax.map fun j => c.getD j 0) = d := by
  have hlen : ax.length = n := by have := h.length_eq; simpa using this
  have hnd : ax.Nodup := h.nodup_iff.mpr List.nodup_range
  refine ⟨(List.range n).map fun k => d.getD (ax.idxOf k) 0, by simp, ?_⟩
  apply List.ext_getElem
  · simp [hlen, hd]
  · intro k h1 h2
    have hk : k < ax.length := by simpa using h1
    have hlt : ax[k] < n := List.mem_range.mp (h.mem_iff.mp (List.getElem_mem hk))
    rw [List.getElem_map, List.getD_eq_getElem?_getD, List.getElem?_map, List.getElem?_range hlt, Option.map_some, Option.getD_some, hnd.idxOf_getElem,
      List.getD_eq_getElem?_getD, List.getElem?_eq_getElem h2, Option.getD_some]

theorem valid_perm_inv (ax : List Nat) (c sh : List Int) (h : IsPerm ax sh.length) (hl : c.length = sh.length)
    (hc : Valid (ax.map fun j => c.getD j 0) (ax.map fun j => sh.getD j 0)) : Valid c sh := by
  rw [valid_iff] at hc ⊢
  refine ⟨hl, fun k hk => ?_⟩
  have hm : k ∈ ax := h.mem_iff.mpr (List.mem_range.mpr hk)
  obtain ⟨q, hq, rfl⟩ := List.getElem_of_mem hm
  have := hc.2 q (by simpa using hq)
  rwa [getD_map ax c q hq, getD_map ax sh q hq] at this

end Codon.Numpy
