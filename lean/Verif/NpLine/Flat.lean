import Verif.NpLine.Lemmas
/-! # The elements of a one-dimensional array are its line -/
namespace Codon.NpLine
open Codon.Numpy
variable {V : Type}

theorem cLess_asymm : ∀ x y : List Int, cLess x y → cLess y x → False
  | [], y, h1, _ => by simp [cLess] at h1
  | p :: x, [], h1, _ => by simp [cLess] at h1
  | p :: x, q :: y, h1, h2 => by
    simp only [cLess] at h1 h2
    rcases h1 with h1 | h1 <;> rcases h2 with h2 | h2
    · omega
    · omega
    · omega
    · exact cLess_asymm x y h1.2 h2.2

theorem inOrder_unique (l : List Int) {cs : List (List Int)} (hcs : InOrder cLess l cs) : cs = multirange l := by
  have hnd : ∀ l : List (List Int), l.Pairwise cLess → l.Nodup := fun l hl => hl.imp fun {x y} (hxy : cLess x y) (he : x = y) => cLess_asymm x x (by rw [← he] at hxy; exact hxy) (by rw [← he] at hxy; exact hxy)
  have hperm : cs.Perm (multirange l) := (List.perm_ext_iff_of_nodup (hnd _ hcs.1) (hnd _ (pairwise_multirange l))).mpr fun x => by rw [hcs.2, mem_multirange]
  exact hperm.eq_of_pairwise (fun x y _ _ h1 h2 => (cLess_asymm x y h1 h2).elim) hcs.1 (pairwise_multirange l)

theorem multirange_one (n : Int) : multirange [n] = (upto n).map fun i => [i] := by
  simp only [multirange, List.map_cons, List.map_nil]
  rw [← List.map_eq_flatMap]

theorem multirange_one_get (n : Int) {i : Nat} (hi : i < n.toNat) : (multirange [n])[i]? = some [(i : Int)] := by
  rw [multirange_one, List.getElem?_map]
  unfold upto
  rw [List.getElem?_map, List.getElem?_range hi]
  rfl

theorem elems_line {h : Heap V} {b : Arr} {n : Int} (hs : b.shape = [n]) {vs : List V} (he : Elems cLess h b vs) : Line h b 0 [] vs := by
  obtain ⟨cs, o, m⟩ := he
  rw [hs] at o
  rw [inOrder_unique _ o] at m
  have hl := mapM_length _ _ _ m
  rw [multirange_one] at hl
  simp [upto] at hl
  refine ⟨by rw [hs]; simpa using hl, fun i hi => ?_⟩
  rw [hs] at hi
  exact mapM_getElem? _ _ _ m i _ (multirange_one_get n (by simpa using hi))

theorem line_elems {h : Heap V} {b : Arr} {n : Int} (hs : b.shape = [n]) {vs : List V} (hl : Line h b 0 [] vs) : Elems cLess h b vs := by
  obtain ⟨h1, h2⟩ := hl
  rw [hs] at h1 h2
  simp only [List.getD_cons_zero] at h1 h2
  refine ⟨multirange [n], by rw [hs]; exact inOrder_multirange _, ?_⟩
  obtain ⟨us, e1, e2⟩ := mapM_some (b.read h) (multirange [n]) fun c hc => by
    obtain ⟨i, hi, hic⟩ := List.getElem_of_mem hc
    have hi' : i < n.toNat := by rw [multirange_one] at hi; simpa [upto] using hi
    have e := multirange_one_get n hi'
    rw [List.getElem?_eq_getElem hi, hic, Option.some.injEq] at e
    have := h2 i hi'
    simp only [List.insertIdx_zero] at this
    rw [← e] at this
    exact ⟨vs[i]'(by omega), by rw [this, List.getElem?_eq_getElem (by omega)]⟩
  have : us = vs := by
    have e3 := e2
    rw [multirange_one] at e3
    simp [upto] at e3
    refine List.ext_getElem? fun i => ?_
    by_cases hi : i < n.toNat
    · rw [← mapM_getElem? _ _ _ e1 i _ (multirange_one_get n hi), ← h2 i hi]; rfl
    · rw [List.getElem?_eq_none (by omega), List.getElem?_eq_none (by omega)]
  rw [e1, this]

end Codon.NpLine
