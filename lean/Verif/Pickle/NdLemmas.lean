import Verif.Pickle.NdModel
import Verif.Pickle.Comb
import Verif.Numpy.CopyLemmas
/-!
# Pickling arrays
-/
namespace Codon.Pickle
open Codon.Numpy
variable (pad : Nat → Nat) {V : Type}

/-- The reloaded array has the same shape and elements that are equal in the sense of `R`, in new memory. -/
structure Reloaded (R : V → V → Prop) (h : Heap V) (a : Arr) (h' : Heap V) (r : Heap V × Arr) : Prop where
  shape : r.2.shape = a.shape
  wf : r.2.WF r.1
  elems : ∀ c, Valid c a.shape → ∃ u v, a.read h c = some u ∧ r.2.read r.1 c = some v ∧ R u v
  fresh : r.2.blk = h'.next
  kept : Kept h' r.1

/-- `__pickle__` of the type writes the bytes that lie in memory. -/
def Raw (P : Pick V) (I : Img V) : Prop := P.pickle = write pad I

theorem shape_works : ∀ (l : List Int), (∀ n ∈ l, 0 ≤ n ∧ n < 2 ^ 63) → ∀ pos, ∃ bs, Writes (writeShape pad l) pos bs ∧ Reads (readShape pad l.length) bs (· = l)
  | [], _, pos => ⟨[], writes_nil pos, reads_pure _ rfl⟩
  | n :: l, hl, pos => by
    obtain ⟨a, ha, ha'⟩ := (cell_works pad 64 8 (by decide) (by decide)).trip (BitVec.ofInt 64 n) trivial pos
    obtain ⟨b, hb, hb'⟩ := shape_works l (fun y hy => hl y (by simp [hy])) (pos + a.length)
    refine ⟨a ++ b, writes_bind ha hb, ?_⟩
    refine reads_bind (g := fun x s => Out.bind (readShape pad l.length s) fun p => some (.ok (x.toInt :: p.1, p.2))) ha' fun y hy => reads_map hb' fun ys hys => ?_
    have := hl n (by simp)
    rw [hys, hy, BitVec.toInt_ofInt, Int.bmod_eq_of_le (by omega) (by omega)]

theorem fnest_at (l : List Int) (hl : ∀ n ∈ l, 0 ≤ n) (c : List Int) (hv : Valid c l) : (fnest l)[(fIndex c l).toNat]? = some c := by
  obtain ⟨b1, b2⟩ := fIndex_bounds c l hv
  obtain ⟨c', h1, h2, h3, h4⟩ := fnest_getElem? l hl (fIndex c l).toNat (by omega)
  have h5 := indexToFCoords_fIndex c l hv
  rw [show (((fIndex c l).toNat : Nat) : Int) = fIndex c l by omega, h5] at h4
  rw [h1, Option.some.inj h4]

theorem multirange_at (l : List Int) (hl : ∀ n ∈ l, 0 ≤ n) (c : List Int) (hv : Valid c l) : (multirange l)[(fIndex c.reverse l.reverse).toNat]? = some c := by
  rw [multirange_eq, List.getElem?_map, fnest_at l.reverse (by simpa using hl) c.reverse ((valid_reverse _ _).mpr hv)]
  simp

theorem forall2_get {R : V → V → Prop} : ∀ {us vs : List V}, List.Forall₂ R us vs → ∀ (i : Nat) (u : V), us[i]? = some u → ∃ v, vs[i]? = some v ∧ R u v
  | _, _, .nil, i, u, hu => by simp at hu
  | _, _, .cons h t, 0, u, hu => by
    simp only [List.getElem?_cons_zero, Option.some.injEq] at hu ⊢
    exact ⟨_, rfl, hu ▸ h⟩
  | _, _, .cons h t, i + 1, u, hu => by
    simp only [List.getElem?_cons_succ] at hu ⊢
    exact forall2_get t i u hu

/-- The elements in the order of the layout of the new array. -/
def order (f : Bool) (shape : List Int) : List (List Int) := if f then fnest shape else multirange shape

theorem order_at (f : Bool) (l : List Int) (w : Int) (hl : ∀ n ∈ l, 0 ≤ n) (c : List Int) (hv : Valid c l) :
    ∃ i : Nat, ptrOff c (stridesOf l f w) = i * w ∧ (order f l)[i]? = some c := by
  cases f with
  | true =>
    obtain ⟨b1, b2⟩ := fIndex_bounds c l hv
    refine ⟨(fIndex c l).toNat, ?_, fnest_at l hl c hv⟩
    rw [fresh_f_pos l w hl c hv, show (((fIndex c l).toNat : Nat) : Int) = fIndex c l by omega]
  | false =>
    obtain ⟨b1, b2⟩ := fIndex_bounds c.reverse l.reverse ((valid_reverse _ _).mpr hv)
    refine ⟨(fIndex c.reverse l.reverse).toNat, ?_, multirange_at l hl c hv⟩
    rw [fresh_c_pos l w hl c hv, show (((fIndex c.reverse l.reverse).toNat : Nat) : Int) = fIndex c.reverse l.reverse by omega]

theorem reloaded_of {R : V → V → Prop} (w : Int) (hw : 0 < w) (h h' : Heap V) (a : Arr) (hwf : a.WF h) (f : Bool) (us vs : List V) (hu : (order f a.shape).mapM (a.read h) = some us)
    (hR : List.Forall₂ R us vs) : Reloaded R h a h' (h'.alloc w vs, ⟨a.shape, stridesOf a.shape f w, h'.next, 0⟩) := by
  have hel : ∀ c, Valid c a.shape → ∃ u v, a.read h c = some u ∧ (⟨a.shape, stridesOf a.shape f w, h'.next, 0⟩ : Arr).read (h'.alloc w vs) c = some v ∧ R u v := by
    intro c hc
    obtain ⟨i, h1, h2⟩ := order_at f a.shape w hwf.nonneg c hc
    obtain ⟨u, hu1⟩ := hwf.alloc c hc
    have h3 := mapM_getElem? (a.read h) _ _ hu i c h2
    rw [hu1] at h3
    obtain ⟨v, hv1, hv2⟩ := forall2_get hR i u h3.symm
    refine ⟨u, v, hu1, ?_, hv2⟩
    have e : (i : Int) * w / w = i := Int.mul_ediv_cancel _ (by omega)
    simp only [Arr.read, Heap.alloc, if_true, Int.zero_add, h1, Int.mul_emod_left, and_true, e, Int.toNat_natCast]
    rw [if_pos (Int.mul_nonneg (by omega) (by omega)), hv1]
  refine ⟨rfl, ⟨by simp [stridesOf_length], hwf.nonneg, fun c hc => ?_, by simp [Heap.alloc]⟩, hel, rfl, fun b hb => ?_⟩
  · obtain ⟨u, v, _, h2, _⟩ := hel c hc
    exact ⟨v, h2⟩
  · funext o
    simp only [Heap.alloc]
    rw [if_neg (by omega)]

theorem raw_all {P : Pick V} {I : Img V} (hI : I.Good) (hr : Raw pad P I) : ∀ (vs : List V) (pos : Nat), Writes (pickleAll P vs) pos (cells pad I pos (vs.map some))
  | [], pos => writes_nil pos
  | v :: vs, pos => by
    have h1 : Writes (P.pickle v) pos (I.put (pad pos) v) := by rw [hr]; exact writes_write pad I v pos
    have h2 := raw_all hI hr vs (pos + (I.put (pad pos) v).length)
    have := writes_bind h1 h2
    rw [hI.size] at this
    exact this

theorem ofBit (f : Bool) : (decide (BitVec.ofNat 64 (if f then 1 else 0) ≠ 0#64)) = f := by cases f <;> decide

theorem arr_works {P : Pick V} {ok : V → Prop} {R : V → V → Prop} (hP : Works P ok R) (w : Nat) (hw : 0 < w) (h h' : Heap V) (a : Arr) (hwf : a.WF h)
    (hd : ∀ n ∈ a.shape, n < 2 ^ 63) (hok : ∀ c, Valid c a.shape → ∀ v, a.read h c = some v → ok v)
    (hc : match P.image with
      | some I => w = I.size ∧ ((a.contig w).1 = true ∨ (a.contig w).2 = true ∨ Raw pad P I)
      | none => (a.contig w).1 = true ∨ (a.contig w).2 = false)
    (pos : Nat) : ∃ bs, Writes (pickleArr pad w P h a) pos bs ∧ Reads (unpickleArr pad w P a.shape.length h') bs (Reloaded R h a h') := by
  obtain ⟨sb, sW, sR⟩ := shape_works pad a.shape (fun n hn => ⟨hwf.nonneg n hn, hd n hn⟩) (pos + 8)
  have hcount : 0 ≤ count a.shape := count_nonneg _ hwf.nonneg
  have hf : ∃ us, (order ((a.contig w).2 && !(a.contig w).1) a.shape).mapM (a.read h) = some us ∧ us.length = (count a.shape).toNat := by
    have hmem : ∀ c ∈ order ((a.contig w).2 && !(a.contig w).1) a.shape, Valid c a.shape := by
      intro c hc
      unfold order at hc
      split at hc
      · exact ((inOrder_fnest _).2 c).mp hc
      · exact (mem_multirange _ _).mp hc
    obtain ⟨us, h1, h2⟩ := mapM_some (a.read h) _ fun c hc => hwf.alloc c (hmem c hc)
    refine ⟨us, h1, ?_⟩
    rw [h2]
    unfold order
    split
    · exact length_fnest _ hwf.nonneg
    · exact length_multirange _ hwf.nonneg
  obtain ⟨us, hus, hlen⟩ := hf
  have hoks : ∀ u ∈ us, ok u := by
    intro u hu
    obtain ⟨i, hi⟩ := List.mem_iff_getElem?.mp hu
    have hl := mapM_length _ _ _ hus
    have hlt : i < (order ((a.contig w).2 && !(a.contig w).1) a.shape).length := by
      rw [← hl]; exact (List.getElem?_eq_some_iff.mp hi).1
    have h3 := mapM_getElem? (a.read h) _ _ hus i _ (List.getElem?_eq_getElem hlt)
    rw [hi] at h3
    refine hok _ ?_ u h3
    have hm := List.getElem_mem hlt
    generalize (order ((a.contig w).2 && !(a.contig w).1) a.shape)[i] = c at hm
    unfold order at hm
    split at hm
    · exact ((inOrder_fnest _).2 c).mp hm
    · exact (mem_multirange _ _).mp hm
  have data : ∃ db, Writes (fun j => match P.image with
        | some I => if (a.contig w).2 || (a.contig w).1 then Out.bind (ofOpt (a.memcpy h w (count a.shape))) fun vs => writeRaw (cells pad I j.data.length (vs.map some)) j else writeElems P h a j
        | none => writeElems P h a j) (pos + 8 + sb.length) db ∧ Reads (readData P (count a.shape).toNat) db (List.Forall₂ R us) := by
    rcases hi : P.image with _ | I
    · rw [hi] at hc
      have ho : (order ((a.contig w).2 && !(a.contig w).1) a.shape) = multirange a.shape := by
        unfold order
        rcases hc with hc | hc <;> rw [hc] <;> simp
      rw [ho] at hus
      obtain ⟨b, hb, hb'⟩ := all_works hP us hoks (pos + 8 + sb.length)
      refine ⟨b, ?_, ?_⟩
      · have e : (fun j => writeElems P h a j) = pickleAll P us := by
          funext j
          rw [writeElems, hus]; rfl
        exact e ▸ hb
      · rw [← hlen]
        have e : readData P us.length = unpickleAll P us.length := by
          funext s; unfold readData; rw [hi]
        rw [e]; exact hb'
    · rw [hi] at hc
      obtain ⟨hwI, hc⟩ := hc
      obtain ⟨hg, hR⟩ := hP.img I hi
      refine ⟨cells pad I (pos + 8 + sb.length) (us.map some), ?_, ?_⟩
      · by_cases hcon : ((a.contig w).2 || (a.contig w).1) = true
        · have e : a.memcpy h w (count a.shape) = some us := by
            rw [← hus]
            unfold order
            by_cases h1 : (a.contig w).1 = true
            · rw [h1]
              simp only [Bool.not_true, Bool.and_false, Bool.false_eq_true, if_false]
              exact memcpy_c a h w hwf h1
            · have h2 : (a.contig w).2 = true := by
                rcases Bool.or_eq_true_iff.mp hcon with h | h
                · exact h
                · exact absurd h h1
              have h1' : (a.contig w).1 = false := by simpa using h1
              rw [h1', h2]
              exact memcpy_f a h w hwf h2
          simp only [if_pos hcon, e]
          exact writes_pos (f := fun o j => writeRaw (cells pad I o (us.map some)) j) (writes_raw _ _)
        · have h1 : (a.contig w).1 = false := by
            cases h : (a.contig w).1 <;> simp_all
          have h2 : (a.contig w).2 = false := by
            cases h : (a.contig w).2 <;> simp_all
          have hraw : Raw pad P I := by
            rcases hc with h | h | h
            · rw [h1] at h; cases h
            · rw [h2] at h; cases h
            · exact h
          have ho : (order ((a.contig w).2 && !(a.contig w).1) a.shape) = multirange a.shape := by
            unfold order; rw [h2]; simp
          rw [ho] at hus
          simp only [if_neg hcon]
          have e : (fun j => writeElems P h a j) = pickleAll P us := by
            funext j
            rw [writeElems, hus]; rfl
          exact e ▸ raw_all pad hg hraw us _
      · have e : readData P (count a.shape).toNat = fun s => Out.bind (readRaw (us.length * I.size) s) fun p => some (.ok (ofCells I us.length p.1, p.2)) := by
          funext s; unfold readData; rw [hi, ← hlen]
        rw [e]
        refine reads_map (g := ofCells I us.length) (reads_raw _ ?_) fun m hm => ?_
        · rw [length_cells pad I hg, List.length_map]
        · rw [hm, ofCells_some pad I hg]
          exact forall2_self hR us
  obtain ⟨db, dW, dR⟩ := data
  have W := writes_bind (writes_nat pad (if (a.contig w).2 && !(a.contig w).1 then 1 else 0) pos) (writes_bind (a := sb) (b := db) (f := writeShape pad a.shape) (pos := pos + _) sW dW)
  refine ⟨_, W, ?_⟩
  refine reads_bind (g := fun f s => Out.bind (readShape pad a.shape.length s) fun p => if count p.1 < 0 then none else
      Out.bind (readData P (count p.1).toNat p.2) fun q => some (.ok ((h'.alloc w q.1, (⟨p.1, stridesOf p.1 (f ≠ 0#64) w, h'.next, 0⟩ : Arr)), q.2)))
    (reads_read (cellImg 64 8) (cell_good 64 8 (by decide) (by decide)) _ _) fun f hf => ?_
  refine reads_bind (g := fun shape s => if count shape < 0 then none else
      Out.bind (readData P (count shape).toNat s) fun q => some (.ok ((h'.alloc w q.1, (⟨shape, stridesOf shape (f ≠ 0#64) w, h'.next, 0⟩ : Arr)), q.2)))
    sR fun shape hs => ?_
  subst hs
  have e : (fun s => if count a.shape < 0 then none else
      Out.bind (readData P (count a.shape).toNat s) fun q => some (.ok ((h'.alloc w q.1, (⟨a.shape, stridesOf a.shape (f ≠ 0#64) w, h'.next, 0⟩ : Arr)), q.2))) =
      fun s => Out.bind (readData P (count a.shape).toNat s) fun q => some (.ok ((h'.alloc w q.1, (⟨a.shape, stridesOf a.shape (f ≠ 0#64) w, h'.next, 0⟩ : Arr)), q.2)) := by
    funext s; rw [if_neg (by omega)]
  rw [e]
  refine reads_map (g := fun vs => (h'.alloc w vs, (⟨a.shape, stridesOf a.shape (f ≠ 0#64) w, h'.next, 0⟩ : Arr))) dR fun vs hvs => ?_
  rw [hf, ofBit]
  exact reloaded_of w (by omega) h h' a hwf _ us vs hus hvs

end Codon.Pickle
