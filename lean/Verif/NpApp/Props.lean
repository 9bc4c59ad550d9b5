import Verif.NpApp.Lemmas

/-!
# C100: `numpy.append`
-/

namespace Codon.NpApp

variable {β : Type}

/-- C100: without an axis, `append` gives the elements of both operands, if both or none are copied as a
whole, or if only the second is and the sizes of the first's elements and the result's are the same.
Missing: the other cases, see the deviations. -/
theorem c100_append_flat_partial (s : Nat) (arr values : Arr β) (h1 : arr.Valid s) (h2 : values.Valid s)
    (h : (arr.same && arr.contig) = true → (values.same && values.contig) = true)
    (h' : (values.same && values.contig) = true → arr.item = s) :
    appendFlat s arr values = some (joined arr values) := by
  have hf1 := flatten_length s _ h1.1
  have hrep : ∀ n : Nat, (List.replicate n (none : Option β)) = [] ++ List.replicate n none := fun _ => rfl
  have hfirst : ∀ (m : Option (List (Option β))),
      m = some ([] ++ arr.elems.flatten.map some ++ (List.replicate ((arr.elems.length
        + values.elems.length) * s) (none : Option β)).drop (arr.elems.length * s)) →
      m = some (arr.elems.flatten.map some ++ List.replicate (values.elems.length * s) none) := by
    intro m hm
    rw [hm, List.drop_replicate, Nat.add_mul, Nat.add_sub_cancel_left]
    rfl
  have hend : ∀ (m : Option (List (Option β))), m = some (arr.elems.flatten.map some
        ++ values.elems.flatten.map some ++ (List.replicate (values.elems.length * s)
          (none : Option β)).drop (values.elems.length * s)) → m = some (joined arr values) := by
    intro m hm
    rw [hm, List.drop_replicate, Nat.sub_self, joined, List.flatten_append, List.map_append]
    simp
  unfold appendFlat
  simp only
  by_cases hc : (arr.same && arr.contig) = true
  · have hd := h hc
    rw [if_pos hc]
    simp only [Bool.and_eq_true] at hc
    rw [hfirst (memcpy _ 0 arr) (by
      rw [hrep]
      refine memcpy_at s arr h1 hc.1 hc.2 [] _ 0 rfl ?_
      rw [List.length_replicate, Nat.add_mul]; omega)]
    simp only [Option.map_some, if_pos hd]
    simp only [Bool.and_eq_true] at hd
    apply hend
    refine memcpy_at s values h2 hd.1 hd.2 _ _ _ ?_ ?_
    · rw [List.length_map, hf1, Arr.nbytes, h1.2.1 hc.1]
    · exact Nat.le_of_eq List.length_replicate.symm
  · rw [if_neg hc, hfirst (writeElems s arr.elems 0 _) (by
      rw [hrep]
      refine writeElems_at s _ 0 [] _ h1.1 (by simp) ?_
      rw [List.length_replicate, Nat.add_mul]; omega)]
    simp only [Option.map_some]
    apply hend
    by_cases hd : (values.same && values.contig) = true
    · have hi := h' hd
      rw [if_pos hd]
      simp only [Bool.and_eq_true] at hd
      refine memcpy_at s values h2 hd.1 hd.2 _ _ _ ?_ ?_
      · rw [List.length_map, hf1, Arr.nbytes, hi]
      · exact Nat.le_of_eq List.length_replicate.symm
    · rw [if_neg hd]
      refine writeElems_at s _ _ _ _ h2.1 ?_ ?_
      · rw [List.length_map, hf1]
      · exact Nat.le_of_eq List.length_replicate.symm

/-- C100: with an axis, `append` gives the elements of both operands, if the second is contiguous and the
sizes of the first's elements and the result's are the same, or if the second is not copied as a whole. -/
theorem c100_append_axis_partial (s : Nat) (arr values : Arr β) (h1 : arr.Valid s) (h2 : values.Valid s)
    (h : (values.same && arr.contig) = true → values.contig = true ∧ arr.item = s) :
    appendAxis s arr values = some (joined arr values) := by
  have hf1 := flatten_length s _ h1.1
  have hrep : ∀ n : Nat, (List.replicate n (none : Option β)) = [] ++ List.replicate n none := fun _ => rfl
  have hfirst : (if (arr.same && arr.contig) = true then
        memcpy (List.replicate ((arr.elems.length + values.elems.length) * s) none) 0 arr
      else writeElems s arr.elems 0 (List.replicate ((arr.elems.length + values.elems.length) * s) none))
      = some (arr.elems.flatten.map some ++ List.replicate (values.elems.length * s) none) := by
    have e : ∀ (m : Option (List (Option β))),
        m = some ([] ++ arr.elems.flatten.map some ++ (List.replicate ((arr.elems.length
          + values.elems.length) * s) (none : Option β)).drop (arr.elems.length * s)) →
        m = some (arr.elems.flatten.map some ++ List.replicate (values.elems.length * s) none) := by
      intro m hm
      rw [hm, List.drop_replicate, Nat.add_mul, Nat.add_sub_cancel_left]
      rfl
    apply e
    split
    · rename_i hc
      simp only [Bool.and_eq_true] at hc
      rw [hrep]
      refine memcpy_at s arr h1 hc.1 hc.2 [] _ 0 rfl ?_
      rw [List.length_replicate, Nat.add_mul]; omega
    · rw [hrep]
      refine writeElems_at s _ 0 [] _ h1.1 (by simp) ?_
      rw [List.length_replicate, Nat.add_mul]; omega
  have hend : ∀ (m : Option (List (Option β))), m = some (arr.elems.flatten.map some
        ++ values.elems.flatten.map some ++ (List.replicate (values.elems.length * s)
          (none : Option β)).drop (values.elems.length * s)) → m = some (joined arr values) := by
    intro m hm
    rw [hm, List.drop_replicate, Nat.sub_self, joined, List.flatten_append, List.map_append]
    simp
  unfold appendAxis
  simp only [hfirst]
  apply hend
  split
  · rename_i hd
    obtain ⟨hc, hi⟩ := h hd
    simp only [Bool.and_eq_true] at hd
    refine memcpy_at s values h2 hd.1 hc _ _ _ ?_ ?_
    · rw [List.length_map, hf1, Arr.nbytes, hi]
    · exact Nat.le_of_eq List.length_replicate.symm
  · refine writeElems_at s _ _ _ _ h2.1 ?_ ?_
    · rw [List.length_map, hf1]
    · exact Nat.le_of_eq List.length_replicate.symm

/-- C100: whatever the operands are, a result has the size of both; no write goes beyond it. -/
theorem c100_append_size (s : Nat) (arr values : Arr β) (m : List (Option β))
    (h : appendFlat s arr values = some m ∨ appendAxis s arr values = some m) :
    m.length = (arr.elems.length + values.elems.length) * s := by
  rcases h with h | h
  · unfold appendFlat at h
    simp only at h
    split at h
    · cases h
    · rename_i m' off hf
      have hm' : m'.length = (arr.elems.length + values.elems.length) * s := by
        split at hf
        · obtain ⟨x, hx, he⟩ := Option.map_eq_some_iff.1 hf
          cases he
          rw [memcpy_length _ _ _ _ hx, List.length_replicate]
        · obtain ⟨x, hx, he⟩ := Option.map_eq_some_iff.1 hf
          cases he
          rw [writeElems_length _ _ _ _ _ hx, List.length_replicate]
      split at h
      · rw [memcpy_length _ _ _ _ h, hm']
      · rw [writeElems_length _ _ _ _ _ h, hm']
  · unfold appendAxis at h
    simp only at h
    split at h
    · cases h
    · rename_i m' hf
      have hm' : m'.length = (arr.elems.length + values.elems.length) * s := by
        split at hf
        · rw [memcpy_length _ _ _ _ hf, List.length_replicate]
        · rw [writeElems_length _ _ _ _ _ hf, List.length_replicate]
      split at h
      · rw [memcpy_length _ _ _ _ h, hm']
      · rw [writeElems_length _ _ _ _ _ h, hm']

/-- Floats of two bytes, next to each other. -/
def floats : Arr Nat := ⟨[[1, 1], [2, 2]], [1, 1, 2, 2], 2, true, true⟩
/-- Integers of two bytes, which become floats. -/
def ints : Arr Nat := ⟨[[3, 3], [4, 4]], [30, 30, 40, 40], 2, false, true⟩
/-- Integers of one byte, which become floats. -/
def shorts : Arr Nat := ⟨[[3, 3], [4, 4]], [30, 40], 1, false, true⟩
/-- Every other one of three floats. -/
def strided : Arr Nat := ⟨[[5, 5], [6, 6]], [5, 5, 9, 9, 6, 6], 2, true, false⟩

theorem valid_examples : floats.Valid 2 ∧ ints.Valid 2 ∧ shorts.Valid 2 ∧ strided.Valid 2 := by
  refine ⟨?_, ?_, ?_, ?_⟩ <;> unfold Arr.Valid <;> decide

example : appendFlat 2 ints floats = some [some 3, some 3, some 4, some 4, some 1, some 1, some 2, some 2] := by
  decide
example : appendFlat 2 floats floats = some (joined floats floats) := by decide
example : appendAxis 2 floats ints = some (joined floats ints) := by decide

example : appendFlat 1 ⟨[[1], [2]], [], 1, true, true⟩ floats = none := by decide

/-- C100 fails: if the first operand is copied as a whole and the second is not, the second is written
over the first, and elements of the result never get a value; whatever the operands are. -/
theorem c100_append_violation_overwritten (s : Nat) (arr values : Arr β) (h1 : arr.Valid s)
    (h2 : values.Valid s) (hs : 0 < s) (ha : arr.elems ≠ []) (hb : values.elems ≠ [])
    (hc : arr.same = true ∧ arr.contig = true) (hd : (values.same && values.contig) = false) :
    ∃ m, appendFlat s arr values = some m ∧ m.getLast? = some none := by
  have hf1 := flatten_length s _ h1.1
  have hf2 := flatten_length s _ h2.1
  have la : 0 < arr.elems.length * s := Nat.mul_pos (List.length_pos_iff.2 ha) hs
  have lb : 0 < values.elems.length * s := Nat.mul_pos (List.length_pos_iff.2 hb) hs
  have hm := memcpy_at s arr h1 hc.1 hc.2 [] (List.replicate ((arr.elems.length + values.elems.length) * s) none)
    0 rfl (by rw [List.length_replicate, Nat.add_mul]; omega)
  rw [List.nil_append, List.nil_append, List.drop_replicate, Nat.add_mul, Nat.add_sub_cancel_left] at hm
  have hw := writeElems_at s values.elems 0 []
    (arr.elems.flatten.map some ++ List.replicate (values.elems.length * s) none) h2.1 (by simp)
    (by rw [List.length_append, List.length_replicate]; omega)
  rw [List.nil_append] at hw
  refine ⟨_, Eq.trans ?_ hw, ?_⟩
  · unfold appendFlat
    simp only [hc.1, hc.2, Bool.and_self, if_true, Nat.add_mul, hm, Option.map_some, hd]
    rfl
  · rw [List.getLast?_eq_getElem?]
    simp only [List.length_append, List.length_map, List.nil_append, List.length_drop, List.length_replicate,
      hf1, hf2]
    rw [List.getElem?_append_right (by simp only [List.length_map, hf2]; omega), List.getElem?_drop,
      List.getElem?_append_right (by simp only [List.length_map, hf1, hf2]; omega), List.getElem?_replicate,
      if_pos (by simp only [List.length_map, hf1, hf2]; omega)]

example : appendFlat 2 floats ints = some [some 3, some 3, some 4, some 4, none, none, none, none] := by decide

/-- C100 fails: if the elements of the first operand have another size than those of the result, the
second is copied to the wrong place, with and without an axis. -/
theorem c100_append_violation_offset : shorts.Valid 2 ∧ floats.Valid 2 ∧
    appendFlat 2 shorts floats = some [some 3, some 3, some 1, some 1, some 2, some 2, none, none] ∧
    appendAxis 2 shorts floats = some [some 3, some 3, some 1, some 1, some 2, some 2, none, none] ∧
    joined shorts floats = [some 3, some 3, some 4, some 4, some 1, some 1, some 2, some 2] :=
  ⟨valid_examples.2.2.1, valid_examples.1, by decide, by decide, by decide⟩

/-- C100 fails: with an axis, a second operand that is not contiguous is copied as if it were. -/
theorem c100_append_violation_strided : floats.Valid 2 ∧ strided.Valid 2 ∧
    appendAxis 2 floats strided = some [some 1, some 1, some 2, some 2, some 5, some 5, some 9, some 9] ∧
    joined floats strided = [some 1, some 1, some 2, some 2, some 5, some 5, some 6, some 6] :=
  ⟨valid_examples.1, valid_examples.2.2.2, by decide, by decide⟩

end Codon.NpApp
