import Verif.NpRed.Model
import Verif.NpLine.Lemmas
import Verif.NpLine.Flat
import Verif.Numpy.LoopRun
import Verif.Numpy.UfuncLemmas
/-!
# In which order the reductions visit the elements
-/
namespace Codon.NpRed
open Codon.Numpy Codon.NpLine
variable {V S O T : Type}

/-- Row-major order is kept: one dimension, or row-major memory, or neither order of memory and no transposition. -/
def Straight (w : Int) (a : Arr) : Prop :=
  a.shape.length = 1 ∨ (a.contig w).1 = true ∨ ((a.contig w).2 = false ∧ a.shouldTranspose = false)

theorem readLine_eq (h : Heap V) (b : Nat) (st : Int) : ∀ (n : Nat) (o : Int), readLine h b st n o = (upto n).mapM fun i => h.get b (o + i * st)
  | 0, o => rfl
  | n + 1, o => by
    have e : upto ((n + 1 : Nat) : Int) = 0 :: (upto n).map (· + 1) := by
      simp only [upto, Int.toNat_natCast, List.range_succ_eq_map, List.map_cons, List.map_map]
      congr 1
    rw [e, List.mapM_cons, mapM_map, readLine, readLine_eq h b st n]
    have e2 : (fun i : Int => h.get b (o + st + i * st)) = fun x => h.get b (o + (x + 1) * st) := by
      funext i; congr 1; ring
    rw [e2]
    simp

theorem mapM_some_map {α β : Type} (f : α → Option β) : ∀ (l : List α) (vs : List β), l.mapM f = some vs → l.map f = vs.map some
  | [], vs, h => by simp at h; subst h; rfl
  | x :: l, vs, h => by
    simp only [List.mapM_cons, Option.bind_eq_bind, Option.bind_eq_some_iff, Option.pure_def, Option.some.injEq] at h
    obtain ⟨v, hv, r, hr, rfl⟩ := h
    simp [hv, mapM_some_map f l r hr]

/-- What `flat` does, for the elements it visits. -/
theorem flat_spec (R : Redux V S O) (h : Heap V) (b : Nat) (off st : Int) (n : Nat) (cs : List (List Int)) (rd : List Int → Option V)
    (he : (upto n).map (fun i => h.get b (off + i * st)) = cs.map rd) :
    flat R h b off st n = match R.loop with
      | some f => do
        let l ← need (cs.mapM rd)
        let s ← f R.start l false
        return (s, n)
      | none => scan R (cs.map rd) R.start 0 := by
  have e : readLine h b st n off = cs.mapM rd := by
    rw [readLine_eq]
    have key : ∀ {α : Type} (l : List α) (f : α → Option V), l.mapM f = (l.map f).mapM id := fun l f => by rw [mapM_map]; rfl
    rw [key, he, ← key]
  unfold flat
  rw [e, he]
  cases R.loop <;> rfl

section
variable (w : Int) (a : Arr) (h : Heap V)

theorem map_contig_c (hwf : a.shape.length = a.strides.length) (hn : ∀ n ∈ a.shape, 0 ≤ n) (hc : (a.contig w).1 = true) :
    (upto (count a.shape)).map (a.flatRead h w) = (multirange a.shape).map (a.read h) := by
  rw [← multirange_map_index _ hn, List.map_map]
  apply List.map_congr_left
  intro c hc'
  rw [mem_multirange] at hc'
  simp only [Arr.flatRead, Arr.read, contig_c a w hwf hc c hc', Function.comp]

theorem map_contig_f (hwf : a.shape.length = a.strides.length) (hn : ∀ n ∈ a.shape, 0 ≤ n) (hc : (a.contig w).2 = true) :
    (upto (count a.shape)).map (a.flatRead h w) = (fnest a.shape).map (a.read h) := by
  rw [← fnest_map_fIndex _ hn, List.map_map]
  apply List.map_congr_left
  intro c hc'
  rw [(inOrder_fnest _).2] at hc'
  simp only [Arr.flatRead, Arr.read, contig_f a w hwf hc c hc', Function.comp]

theorem transpose_read (hwf : a.shape.length = a.strides.length) (c : List Int) (hc : c ∈ multirange a.shape.reverse) : a.transpose.read h c = a.read h c.reverse := by
  rw [mem_multirange] at hc
  have hl : c.length = a.shape.length := by have := Valid.length hc; simpa using this
  simp only [Arr.transpose, Arr.read]
  congr 2
  rw [← ptrOff_reverse c.reverse a.strides (by simp [hl, hwf])]
  simp

theorem perm_transpose (s : List Int) : ((multirange s.reverse).map List.reverse).Perm (multirange s) := by
  refine (List.perm_ext_iff_of_nodup ?_ (nodup_multirange s)).mpr fun c => ?_
  · exact (nodup_multirange _).map List.reverse_injective
  · rw [List.mem_map, mem_multirange]
    constructor
    · rintro ⟨d, hd, rfl⟩
      rw [mem_multirange] at hd
      have := (valid_reverse d.reverse s).mp (by simpa using hd)
      exact this
    · intro hc
      exact ⟨c.reverse, by rw [mem_multirange, valid_reverse]; exact hc, by simp⟩

theorem count_one (n : Int) : count [n] = n := by simp [count]

theorem count_nonneg' {s : List Int} (hn : ∀ n ∈ s, 0 ≤ n) : 0 ≤ count s := by
  induction s with
  | nil => simp [count]
  | cons x s ih =>
    rw [count_cons]
    exact Int.mul_nonneg (hn x (by simp)) (ih fun n hm => hn n (by simp [hm]))

/-- The lines along axis `k`, one after the other. -/
def alongAxis (s : List Int) (k : Nat) : List (List (List Int)) := (multirange (s.eraseIdx k)).map fun idx => (upto (s.getD k 0)).map fun i => idx.insertIdx k i

theorem erase_length {s : List Int} {k : Nat} (hk : k < s.length) {idx : List Int} (hv : Valid idx (s.eraseIdx k)) : idx.length + 1 = s.length := by
  have := Valid.length hv
  rw [List.length_eraseIdx_of_lt hk] at this
  omega

theorem mem_upto (n i : Int) : i ∈ upto n ↔ 0 ≤ i ∧ i < n := by
  simp only [upto, List.mem_map, List.mem_range]
  constructor
  · rintro ⟨m, hm, rfl⟩
    exact ⟨Int.natCast_nonneg m, by show (m : Int) < n; omega⟩
  · intro hi
    exact ⟨i.toNat, by omega, by show ((i.toNat : Nat) : Int) = i; omega⟩

theorem nodup_upto (n : Int) : (upto n).Nodup := List.Nodup.map (fun _ _ h => Int.ofNat.inj h) List.nodup_range

theorem perm_alongAxis (s : List Int) (k : Nat) (hk : k < s.length) : (alongAxis s k).flatten.Perm (multirange s) := by
  have he : (alongAxis s k).flatten = (multirange (s.eraseIdx k)).flatMap fun idx => (upto (s.getD k 0)).map fun i => idx.insertIdx k i := by
    simp [alongAxis, List.flatMap]
  rw [he]
  refine (List.perm_ext_iff_of_nodup ?_ (nodup_multirange s)).mpr fun c => ?_
  · rw [List.nodup_flatMap]
    refine ⟨fun idx hidx => ?_, ?_⟩
    · rw [mem_multirange] at hidx
      have hl := erase_length hk hidx
      exact List.Nodup.map_on (fun i _ j _ hij => (insert_inj k idx idx i j (by omega) (by omega) hij).2) (nodup_upto _)
    · refine List.Pairwise.imp_of_mem ?_ (nodup_multirange (s.eraseIdx k))
      intro x y hx hy hne c hc1 hc2
      rw [mem_multirange] at hx hy
      obtain ⟨i, _, rfl⟩ := List.mem_map.mp hc1
      obtain ⟨j, _, he⟩ := List.mem_map.mp hc2
      have hlx := erase_length hk hx
      have hly := erase_length hk hy
      exact hne (insert_inj k x y i j (by omega) (by omega) he.symm).1
  · rw [List.mem_flatMap, mem_multirange]
    constructor
    · rintro ⟨idx, hidx, hc⟩
      rw [mem_multirange] at hidx
      obtain ⟨i, hi, rfl⟩ := List.mem_map.mp hc
      rw [mem_upto] at hi
      exact valid_insert k s idx i hk hidx hi.1 hi.2
    · intro hc
      obtain ⟨h1, h2, h3, h4⟩ := valid_erase k s c hk hc
      refine ⟨c.eraseIdx k, by rw [mem_multirange]; exact h1, List.mem_map.mpr ⟨c.getD k 0, by rw [mem_upto]; exact ⟨h3, h4⟩, h2.symm⟩⟩

/-- The lines handed to `loop`. -/
def runChunks (f : S → List V → Bool → Except Fail S) (rd : List Int → Option V) : List (List (List Int)) → S → Except Fail S
  | [], s => .ok s
  | cs :: r, s => do
    let l ← need (cs.mapM rd)
    let s ← f s l true
    runChunks f rd r s

theorem chunks_eq (f : S → List V → Bool → Except Fail S) (k : Nat) (hl : a.shape.length = a.strides.length) (hk : k < a.shape.length) (hn : ∀ n ∈ a.shape, 0 ≤ n) :
    ∀ (idxs : List (List Int)) (s : S), (∀ idx ∈ idxs, Valid idx (a.shape.eraseIdx k)) →
    chunks f h a k idxs s = runChunks f (a.read h) (idxs.map fun idx => (upto (a.shape.getD k 0)).map fun i => idx.insertIdx k i) s
  | [], _, _ => rfl
  | idx :: r, s, hv => by
    have e : readLine h a.blk (a.strides.getD k 0) (a.shape.getD k 0).toNat (a.off + ptrOff (idx.insertIdx k 0) a.strides) =
        ((upto (a.shape.getD k 0)).map fun i => idx.insertIdx k i).mapM (a.read h) := by
      have h0 : 0 ≤ a.shape.getD k 0 := by
        rw [List.getD_eq_getElem?_getD, List.getElem?_eq_getElem hk]
        exact hn _ (List.getElem_mem hk)
      rw [readLine_eq, mapM_map, Int.toNat_of_nonneg h0]
      congr 1
      funext i
      simp only [Arr.read]
      have := erase_length hk (hv idx (by simp))
      rw [ptrOff_insert k a.strides idx i (by omega) (by omega), Int.add_assoc]
    rw [chunks, List.map_cons, runChunks, e]
    congr 1
    funext l
    congr 1
    funext s'
    exact chunks_eq f k hl hk hn r s' fun i hi => hv i (by simp [hi])

theorem loopAxis_lt : ∀ (l : List Int) (j : Nat) (k : Option Nat) (m n : Nat), j + l.length = n → (∀ i, k = some i → i < n) → ∀ i, loopAxis j l k m = some i → i < n
  | [], j, k, m, n, _, hk, i, hi => hk i hi
  | s :: r, j, k, m, n, hn, hk, i, hi => by
    rw [loopAxis] at hi
    simp only [List.length_cons] at hn
    by_cases hc : s ≠ 0 ∧ s.natAbs < m
    · rw [if_pos hc] at hi
      exact loopAxis_lt r (j + 1) _ _ n (by omega) (fun i' h' => by injection h' with h'; omega) i hi
    · rw [if_neg hc] at hi
      exact loopAxis_lt r (j + 1) _ _ n (by omega) hk i hi

theorem contig_nil (b : Nat) (o : Int) : (Arr.contig ⟨[], [], b, o⟩ w).1 = true := by simp [Arr.contig, cContigLoop]

/-- Without `loop` the elements are accepted one by one. -/
theorem plain_none (R : Redux V S O) (hR : R.loop = none) (hwf : a.WF h) :
    ∃ cs : List (List Int), cs.Perm (multirange a.shape) ∧ (Straight w a → cs = multirange a.shape) ∧ plain R w a h = scan R (cs.map (a.read h)) R.start 0 := by
  unfold plain
  by_cases h1 : a.shape.length = 1
  · rw [if_pos h1]
    refine ⟨multirange a.shape, List.Perm.refl _, fun _ => rfl, ?_⟩
    rw [flat_spec R h a.blk a.off _ _ (multirange a.shape) (a.read h), hR]
    obtain ⟨n, hs⟩ := List.length_eq_one_iff.mp h1
    obtain ⟨st, hst⟩ := List.length_eq_one_iff.mp (hwf.len ▸ h1)
    have hn : 0 ≤ n := hwf.nonneg n (by simp [hs])
    rw [hs, count_one, Int.toNat_of_nonneg hn, hst]
    simp [multirange, Arr.read, hst, ptrOff, List.map_flatMap]
    induction upto n with
    | nil => rfl
    | cons x l ih => simp [ih]
  · rw [if_neg h1]
    by_cases hc : (a.contig w).1 = true
    · rw [if_pos (by simp [hc])]
      refine ⟨multirange a.shape, List.Perm.refl _, fun _ => rfl, ?_⟩
      rw [flat_spec R h a.blk a.off _ _ (multirange a.shape) (a.read h), hR]
      rw [Int.toNat_of_nonneg (count_nonneg' hwf.nonneg)]
      exact map_contig_c w a h hwf.len hwf.nonneg hc
    · by_cases hf : (a.contig w).2 = true
      · rw [if_pos (by simp [hf])]
        refine ⟨fnest a.shape, fnest_perm _, fun hst => ?_, ?_⟩
        · rcases hst with hst | hst | hst
          · exact absurd hst h1
          · exact absurd hst hc
          · rw [hst.1] at hf; cases hf
        rw [flat_spec R h a.blk a.off _ _ (fnest a.shape) (a.read h), hR]
        rw [Int.toNat_of_nonneg (count_nonneg' hwf.nonneg)]
        exact map_contig_f w a h hwf.len hwf.nonneg hf
      · rw [if_neg (by simp [hc, hf]), hR]
        by_cases ht : a.shouldTranspose = true
        · refine ⟨(multirange a.shape.reverse).map List.reverse, perm_transpose _, fun hst => ?_, ?_⟩
          · rcases hst with hst | hst | hst
            · exact absurd hst h1
            · exact absurd hst hc
            · rw [hst.2] at ht; cases ht
          · simp only [ht, if_true]
            congr 1
            rw [List.map_map]
            exact List.map_congr_left fun c hm => transpose_read a h hwf.len c hm
        · refine ⟨multirange a.shape, List.Perm.refl _, fun _ => rfl, ?_⟩
          simp only [ht]
          rfl

/-- With `loop` the elements are handed over all at once or line by line. -/
theorem plain_loop (R : Redux V S O) (f : S → List V → Bool → Except Fail S) (hR : R.loop = some f) (hwf : a.WF h) :
    (∃ cs : List (List Int), cs.Perm (multirange a.shape) ∧ ∃ n, plain R w a h = (do
        let l ← need (cs.mapM (a.read h))
        let s ← f R.start l false
        return (s, n))) ∨
    ∃ css : List (List (List Int)), css.flatten.Perm (multirange a.shape) ∧ (css.flatten ≠ [] → ∀ cs ∈ css, cs ≠ []) ∧ ∃ n, plain R w a h = (do
        let s ← runChunks f (a.read h) css R.start
        return (s, n)) := by
  unfold plain
  by_cases h1 : a.shape.length = 1
  · rw [if_pos h1]
    refine Or.inl ⟨multirange a.shape, List.Perm.refl _, (count a.shape).toNat, ?_⟩
    rw [flat_spec R h a.blk a.off _ _ (multirange a.shape) (a.read h), hR]
    obtain ⟨n, hs⟩ := List.length_eq_one_iff.mp h1
    obtain ⟨st, hst⟩ := List.length_eq_one_iff.mp (hwf.len ▸ h1)
    have hn : 0 ≤ n := hwf.nonneg n (by simp [hs])
    rw [hs, count_one, Int.toNat_of_nonneg hn, hst]
    simp [multirange, Arr.read, hst, ptrOff, List.map_flatMap]
    induction upto n with
    | nil => rfl
    | cons x l ih => simp [ih]
  · rw [if_neg h1]
    by_cases hc : (a.contig w).1 = true
    · rw [if_pos (by simp [hc])]
      refine Or.inl ⟨multirange a.shape, List.Perm.refl _, (count a.shape).toNat, ?_⟩
      rw [flat_spec R h a.blk a.off _ _ (multirange a.shape) (a.read h), hR]
      rw [Int.toNat_of_nonneg (count_nonneg' hwf.nonneg)]
      exact map_contig_c w a h hwf.len hwf.nonneg hc
    · by_cases hf : (a.contig w).2 = true
      · rw [if_pos (by simp [hf])]
        refine Or.inl ⟨fnest a.shape, fnest_perm _, (count a.shape).toNat, ?_⟩
        rw [flat_spec R h a.blk a.off _ _ (fnest a.shape) (a.read h), hR]
        rw [Int.toNat_of_nonneg (count_nonneg' hwf.nonneg)]
        exact map_contig_f w a h hwf.len hwf.nonneg hf
      · rw [if_neg (by simp [hc, hf]), hR]
        have hpos : 0 < a.shape.length := by
          rcases Nat.eq_zero_or_pos a.shape.length with h0 | h0
          · exfalso
            obtain ⟨sh, st, b, o⟩ := a
            simp only at h0
            have e1 : sh = [] := List.length_eq_zero_iff.mp h0
            have e2 : st = [] := List.length_eq_zero_iff.mp (by rw [← hwf.len]; exact h0)
            subst e1 e2
            exact hc (contig_nil w b o)
          · exact h0
        generalize hk : (loopAxis 0 a.strides none 0x7FFFFFFFFFFFFFFF).getD (a.shape.length - 1) = k
        have hlt : k < a.shape.length := by
          cases hla : loopAxis 0 a.strides none 0x7FFFFFFFFFFFFFFF with
          | none => rw [hla] at hk; simp only [Option.getD_none] at hk; omega
          | some i =>
            rw [hla] at hk
            simp only [Option.getD_some] at hk
            have := loopAxis_lt a.strides 0 none _ a.strides.length (by omega) (fun _ hh => by cases hh) i hla
            have := hwf.len
            omega
        refine Or.inr ⟨alongAxis a.shape k, perm_alongAxis _ k hlt, fun hne cs hcs he => ?_, (a.shape.getD k 0 * count (a.shape.eraseIdx k)).toNat, ?_⟩
        · subst he
          obtain ⟨idx, _, he⟩ := List.mem_map.mp hcs
          have hu : upto (a.shape.getD k 0) = [] := List.map_eq_nil_iff.mp he
          apply hne
          rw [List.flatten_eq_nil_iff]
          intro l hl
          obtain ⟨idx, _, rfl⟩ := List.mem_map.mp hl
          rw [hu]; rfl
        · simp only [alongAxis]
          rw [chunks_eq a h f k hwf.len hlt hwf.nonneg _ _ fun idx hi => (mem_multirange _ _).mp hi]

/-- With a mask. -/
theorem masked_spec (R : Redux V S O) (m : Arr) (g : Heap Bool) (hwf : a.WF h) (hm : m.WF g) (hs : m.shape = a.shape) :
    ∃ cs : List (List Int), cs.Perm (multirange a.shape) ∧ masked R w a h m g = scanWhere R (cs.map fun c => (m.read g c, a.read h c)) R.start 0 := by
  unfold masked
  by_cases hc : contigMatch w a m = true
  · rw [if_pos hc]
    simp only [contigMatch, hs, decide_true, Bool.true_and, Bool.or_eq_true, Bool.and_eq_true] at hc
    have zipmap : ∀ {α β γ : Type} (l : List α) (f : α → β) (g : α → γ), (l.map fun x => (f x, g x)) = (l.map f).zip (l.map g) := by
      intro α β γ l f g
      induction l with
      | nil => rfl
      | cons x l ih => simp [ih]
    rcases hc with hc | hc
    · refine ⟨multirange a.shape, List.Perm.refl _, ?_⟩
      have e1 := map_contig_c w a h hwf.len hwf.nonneg hc.1
      have e2 := map_contig_c 1 m g hm.len hm.nonneg hc.2
      rw [hs] at e2
      rw [zipmap, e1, e2, ← zipmap]
    · refine ⟨fnest a.shape, fnest_perm _, ?_⟩
      have e1 := map_contig_f w a h hwf.len hwf.nonneg hc.1
      have e2 := map_contig_f 1 m g hm.len hm.nonneg hc.2
      rw [hs] at e2
      rw [zipmap, e1, e2, ← zipmap]
  · rw [if_neg hc]
    by_cases ht : shouldTranspose2 a m = true
    · refine ⟨(multirange a.shape.reverse).map List.reverse, perm_transpose _, ?_⟩
      simp only [ht, if_true]
      congr 1
      rw [List.map_map]
      refine List.map_congr_left fun c hmem => ?_
      simp only [Function.comp]
      rw [transpose_read a h hwf.len c hmem, transpose_read m g hm.len c (by rw [hs]; exact hmem)]
    · refine ⟨multirange a.shape, List.Perm.refl _, ?_⟩
      simp only [ht]
      rfl

end

end Codon.NpRed
