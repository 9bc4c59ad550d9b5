import Verif.Numpy.ReshapeLemmas
/-!
# Lemmas on `copy` and on the unknown dimension of `reshape`
-/
namespace Codon.Numpy
variable {V : Type}

theorem write_spec (h : Heap V) (b : Nat) (o : Int) (v u : V) (hu : h.get b o = some u) :
    ∃ h', h.write b o v = some h' ∧ h'.next = h.next ∧ h'.get b o = some v ∧ ∀ b' o', ¬ (b' = b ∧ o' = o) → h'.get b' o' = h.get b' o' := by
  refine ⟨{ h with get := fun b' o' => if b' = b ∧ o' = o then some v else h.get b' o' }, by simp only [Heap.write, hu], rfl, by simp, fun b' o' hne => if_neg hne⟩

theorem copyLoop_spec (a x : Arr) (hne : a.blk ≠ x.blk) : ∀ (L : List (List Int)) (h : Heap V), (∀ c ∈ L, ∃ v, a.read h c = some v) →
    (∀ c ∈ L, ∃ v, x.read h c = some v) → (L.map fun c => ptrOff c x.strides).Nodup →
    ∃ h', copyLoop a x L h = some h' ∧ h'.next = h.next ∧ (∀ b', b' ≠ x.blk → h'.get b' = h.get b') ∧
      (∀ o, (∀ c ∈ L, o ≠ x.off + ptrOff c x.strides) → h'.get x.blk o = h.get x.blk o) ∧ ∀ c ∈ L, x.read h' c = a.read h c
  | [], h, _, _, _ => ⟨h, rfl, rfl, fun _ _ => rfl, fun _ _ => rfl, by simp⟩
  | c :: L, h, hr, hw, hnd => by
    rw [List.map_cons, List.nodup_cons] at hnd
    obtain ⟨v, hv⟩ := hr c (by simp)
    obtain ⟨u, hu⟩ := hw c (by simp)
    obtain ⟨h1, e1, e2, e3, e4⟩ := write_spec h x.blk (x.off + ptrOff c x.strides) v u hu
    have hra : ∀ c', a.read h1 c' = a.read h c' := fun c' => e4 _ _ fun hh => hne hh.1
    obtain ⟨h', f1, f2, f3, f4, f5⟩ := copyLoop_spec a x hne L h1 (fun c' hc' => by rw [hra]; exact hr c' (by simp [hc']))
      (fun c' hc' => by
        by_cases heq : x.off + ptrOff c' x.strides = x.off + ptrOff c x.strides
        · exact ⟨v, by simp only [Arr.read]; rw [heq]; exact e3⟩
        · obtain ⟨v', hv'⟩ := hw c' (by simp [hc'])
          exact ⟨v', by simp only [Arr.read]; rw [e4 _ _ fun hh => heq hh.2]; exact hv'⟩) hnd.2
    refine ⟨h', by simp only [copyLoop, hv, e1, f1], by rw [f2, e2], ?_, ?_, ?_⟩
    · intro b' hb'
      rw [f3 b' hb']; funext o
      exact e4 _ _ fun hh => hb' hh.1
    · intro o ho
      rw [f4 o fun c' hc' => ho c' (by simp [hc'])]
      exact e4 _ _ fun hh => ho c (by simp) hh.2
    · intro c' hc'
      rcases List.mem_cons.mp hc' with rfl | hc'
      · rw [hv]
        simp only [Arr.read]
        rw [f4]
        · exact e3
        · intro c'' hc'' heq
          exact hnd.1 (List.mem_map.mpr ⟨c'', hc'', by omega⟩)
      · rw [f5 c' hc', hra]

theorem memcpyLoop_eq (a : Arr) (w : Int) (b : Nat) (n : Int) : ∀ (L : List Int) (h : Heap V),
    memcpyLoop a w b L h = copyLoop ⟨[n], [w], a.blk, a.off⟩ ⟨[n], [w], b, 0⟩ (L.map fun i => [i]) h
  | [], h => rfl
  | i :: L, h => by
    simp only [memcpyLoop, List.map_cons, copyLoop, Arr.read, ptrOff, Arr.flatRead, Int.add_zero, Int.zero_add]
    cases hv : h.get a.blk (a.off + i * w) with
    | none => rfl
    | some v =>
      dsimp only
      cases h.write b (i * w) v with
      | none => rfl
      | some h' => exact memcpyLoop_eq a w b n L h'

theorem new_get (h : Heap V) (w n : Int) (junk : Int → V) (hw : 0 < w) (i : Int) (h0 : 0 ≤ i) (hi : i < n) : ∃ v, (h.new w n junk).get h.next (i * w) = some v := by
  refine ⟨junk (i * w), ?_⟩
  simp only [Heap.new, if_true]
  rw [if_pos]
  exact ⟨Int.mul_nonneg h0 hw.le, Int.mul_lt_mul_of_pos_right hi hw, Int.mul_emod_left i w⟩

theorem new_other (h : Heap V) (w n : Int) (junk : Int → V) (b : Nat) (hb : b ≠ h.next) : (h.new w n junk).get b = h.get b := by
  funext o; simp [Heap.new, hb]

theorem nodup_upto_mul (n w : Int) (hw : 0 < w) : ((upto n).map (· * w)).Nodup := by
  have : (upto n).Nodup := (pairwise_upto n).imp fun hlt => by omega
  refine this.map fun x y hxy => ?_
  exact mul_right_cancel₀ (by omega) hxy

/-- The offsets of a new array with the strides of `ndarray(shape, data, fcontig=f)`. -/
theorem fresh_perm (sh : List Int) (f : Bool) (w : Int) (hn : ∀ n ∈ sh, 0 ≤ n) :
    ((multirange sh).map fun c => ptrOff c (stridesOf sh f w)).Perm ((upto (count sh)).map (· * w)) := by
  have hl : (stridesOf sh f w).length = sh.length := stridesOf_length sh f w
  have e : ((multirange sh).map fun c => ptrOff c (stridesOf sh f w)) = offsets (sh.zip (stridesOf sh f w)) := by
    rw [offsets, List.map_fst_zip (by omega), List.map_snd_zip (by omega)]
  rw [e]
  cases f with
  | false => rw [offsets_fresh_c sh w hn]
  | true =>
    have := foffsets_perm (sh.zip (stridesOf sh true w))
    rw [offsets_fresh_f sh w hn] at this
    exact this.symm

theorem fresh_pos (sh : List Int) (f : Bool) (w : Int) (hn : ∀ n ∈ sh, 0 ≤ n) (c : List Int) (hc : Valid c sh) :
    ∃ i, 0 ≤ i ∧ i < count sh ∧ ptrOff c (stridesOf sh f w) = i * w := by
  have := (fresh_perm sh f w hn).mem_iff.mp (List.mem_map.mpr ⟨c, (mem_multirange _ _).mpr hc, rfl⟩)
  obtain ⟨i, hi, he⟩ := List.mem_map.mp this
  rw [mem_upto] at hi
  exact ⟨i, hi.1, hi.2, he.symm⟩

theorem fresh_c_pos (sh : List Int) (w : Int) (hn : ∀ n ∈ sh, 0 ≤ n) (c : List Int) (hc : Valid c sh) :
    ptrOff c (stridesOf sh false w) = fIndex c.reverse sh.reverse * w := by
  have h1 : ((multirange sh).map fun c => ptrOff c (stridesOf sh false w)) = (multirange sh).map fun c => fIndex c.reverse sh.reverse * w := by
    have e : ((multirange sh).map fun c => ptrOff c (stridesOf sh false w)) = offsets (sh.zip (stridesOf sh false w)) := by
      rw [offsets, List.map_fst_zip (by rw [stridesOf_length]), List.map_snd_zip (by rw [stridesOf_length])]
    rw [e, offsets_fresh_c sh w hn, ← multirange_map_index sh hn, List.map_map]; rfl
  exact List.map_inj_left.mp h1 c ((mem_multirange _ _).mpr hc)

theorem fresh_f_pos (sh : List Int) (w : Int) (hn : ∀ n ∈ sh, 0 ≤ n) (c : List Int) (hc : Valid c sh) :
    ptrOff c (stridesOf sh true w) = fIndex c sh * w := by
  have h1 : ((fnest sh).map fun c => ptrOff c (stridesOf sh true w)) = (fnest sh).map fun c => fIndex c sh * w := by
    have e : ((fnest sh).map fun c => ptrOff c (stridesOf sh true w)) = foffsets (sh.zip (stridesOf sh true w)) := by
      rw [foffsets, List.map_fst_zip (by rw [stridesOf_length]), List.map_snd_zip (by rw [stridesOf_length])]
    rw [e, offsets_fresh_f sh w hn, ← fnest_map_fIndex sh hn, List.map_map]; rfl
  exact List.map_inj_left.mp h1 c (((inOrder_fnest sh).2 c).mpr hc)

/-- The layout that `copy` gives the new array. -/
def copyForder (a : Arr) (w : Int) (order : Order) : Bool :=
  if (order = .C ∧ (a.contig w).1 = true) ∨ (order = .F ∧ (a.contig w).2 = true) then (a.contig w).2 && !(a.contig w).1
  else if order = .F then true else if order = .A ∨ order = .K then (a.contig w).2 else false

theorem copy_spec (a : Arr) (h : Heap V) (w : Int) (junk : Int → V) (order : Order) (hw : 0 < w) (hwf : a.WF h) :
    ∃ h', a.copy h w junk order = some (h', ⟨a.shape, stridesOf a.shape (copyForder a w order) w, h.next, 0⟩) ∧ h'.next = h.next + 1 ∧
      (∀ b, b ≠ h.next → h'.get b = h.get b) ∧
      ∀ c, Valid c a.shape → Arr.read ⟨a.shape, stridesOf a.shape (copyForder a w order) w, h.next, 0⟩ h' c = a.read h c := by
  have hblk : a.blk ≠ h.next := by have := hwf.block; omega
  have hread : ∀ c, a.read (h.new w (count a.shape) junk) c = a.read h c := fun c => by simp only [Arr.read]; rw [new_other h w _ junk a.blk hblk]
  by_cases hfast : (order = .C ∧ (a.contig w).1 = true) ∨ (order = .F ∧ (a.contig w).2 = true)
  · have hfo : copyForder a w order = ((a.contig w).2 && !(a.contig w).1) := by rw [copyForder, if_pos hfast]
    -- where element `c` of `a` and of the copy are
    obtain ⟨g, hg⟩ : ∃ g : List Int → Int, ∀ c, Valid c a.shape → (0 ≤ g c ∧ g c < count a.shape) ∧ ptrOff c a.strides = g c * w ∧
        ptrOff c (stridesOf a.shape (copyForder a w order) w) = g c * w := by
      by_cases hcc : (a.contig w).1 = true
      · refine ⟨fun c => fIndex c.reverse a.shape.reverse, fun c hc => ⟨?_, contig_c a w hwf.len hcc c hc, ?_⟩⟩
        · have := fIndex_bounds c.reverse a.shape.reverse ((valid_reverse _ _).mpr hc)
          rwa [count_reverse] at this
        · rw [hfo, hcc, Bool.not_true, Bool.and_false]; exact fresh_c_pos _ w hwf.nonneg c hc
      · have hfc : (a.contig w).2 = true := by
          rcases hfast with hh | hh
          · exact absurd hh.2 hcc
          · exact hh.2
        refine ⟨fun c => fIndex c a.shape, fun c hc => ⟨fIndex_bounds c a.shape hc, contig_f a w hwf.len hfc c hc, ?_⟩⟩
        rw [hfo, hfc, Bool.not_eq_true _ |>.mp hcc, Bool.not_false, Bool.and_true]; exact fresh_f_pos _ w hwf.nonneg c hc
    have hinv : ∀ i, 0 ≤ i → i < count a.shape → ∃ c, Valid c a.shape ∧ g c = i := by
      intro i h0 hi
      have hp := fresh_perm a.shape (copyForder a w order) w hwf.nonneg
      have : i * w ∈ (multirange a.shape).map fun c => ptrOff c (stridesOf a.shape (copyForder a w order) w) :=
        hp.mem_iff.mpr (List.mem_map.mpr ⟨i, (mem_upto _ _).mpr ⟨h0, hi⟩, rfl⟩)
      obtain ⟨c, hc, he⟩ := List.mem_map.mp this
      have hv := (mem_multirange _ _).mp hc
      refine ⟨c, hv, ?_⟩
      rw [(hg c hv).2.2] at he
      exact mul_right_cancel₀ (by omega) he
    obtain ⟨h', e1, e2, e3, _, e5⟩ := copyLoop_spec ⟨[count a.shape], [w], a.blk, a.off⟩ ⟨[count a.shape], [w], h.next, 0⟩ hblk ((upto (count a.shape)).map fun i => [i])
      (h.new w (count a.shape) junk)
      (by
        intro c hc; obtain ⟨i, hi, rfl⟩ := List.mem_map.mp hc
        rw [mem_upto] at hi
        obtain ⟨c, hv, rfl⟩ := hinv i hi.1 hi.2
        obtain ⟨v, hv'⟩ := hwf.alloc c hv
        rw [← hread c] at hv'
        refine ⟨v, ?_⟩
        simp only [Arr.read, ptrOff, Int.add_zero] at hv' ⊢
        rw [← (hg c hv).2.1]; exact hv')
      (by
        intro c hc; obtain ⟨i, hi, rfl⟩ := List.mem_map.mp hc
        rw [mem_upto] at hi
        simp only [Arr.read, ptrOff, Int.add_zero, Int.zero_add]
        exact new_get h w _ junk hw i hi.1 hi.2)
      (by
        have := nodup_upto_mul (count a.shape) w hw
        rw [List.map_map]
        simpa [Function.comp_def, ptrOff] using this)
    rw [← memcpyLoop_eq] at e1
    refine ⟨h', ?_, e2, fun b hb => by rw [e3 b hb, new_other h w _ junk b hb], ?_⟩
    · have hsh : memcpyLoop a w h.next (upto (count a.shape)) (h.new w (count a.shape) junk) = some h' := e1
      simp only [Arr.copy]
      rw [if_pos hfast, hsh, hfo]; rfl
    · intro c hc
      have := e5 [g c] (List.mem_map.mpr ⟨g c, (mem_upto _ _).mpr (hg c hc).1, rfl⟩)
      rw [← hread c]
      simp only [Arr.read, ptrOff, Int.add_zero, Int.zero_add] at this ⊢
      rw [(hg c hc).2.1, (hg c hc).2.2]; exact this
  · have hfo : copyForder a w order = (if order = .F then true else if order = .A ∨ order = .K then (a.contig w).2 else false) := by rw [copyForder, if_neg hfast]
    obtain ⟨h', e1, e2, e3, _, e5⟩ := copyLoop_spec a ⟨a.shape, stridesOf a.shape (copyForder a w order) w, h.next, 0⟩ hblk (multirange a.shape)
      (h.new w (count a.shape) junk) (fun c hc => by rw [hread]; exact hwf.alloc c ((mem_multirange _ _).mp hc))
      (by
        intro c hc
        obtain ⟨i, h0, hi, he⟩ := fresh_pos a.shape (copyForder a w order) w hwf.nonneg c ((mem_multirange _ _).mp hc)
        simp only [Arr.read, Int.zero_add]
        rw [he]; exact new_get h w _ junk hw i h0 hi)
      ((fresh_perm a.shape (copyForder a w order) w hwf.nonneg).nodup_iff.mpr (nodup_upto_mul _ w hw))
    refine ⟨h', ?_, e2, fun b hb => by rw [e3 b hb, new_other h w _ junk b hb], fun c hc => by rw [e5 c ((mem_multirange _ _).mpr hc), hread]⟩
    simp only [Arr.copy]
    rw [if_neg hfast, ← hfo, e1]; rfl

theorem copy_wf (a : Arr) (h h' : Heap V) (x : Arr) (hwf : a.WF h) (hs : x.shape = a.shape) (hl : x.strides.length = a.shape.length)
    (hb : x.blk < h'.next) (hr : ∀ c, Valid c a.shape → x.read h' c = a.read h c) : x.WF h' :=
  ⟨by rw [hs, hl], by rw [hs]; exact hwf.nonneg, fun c hc => by rw [hs] at hc; rw [hr c hc]; exact hwf.alloc c hc, hb⟩

end Codon.Numpy
