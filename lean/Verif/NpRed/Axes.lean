import Verif.NpRed.Weave
import Verif.Numpy.CopyLemmas
/-!
# Reductions over some of the axes
-/
namespace Codon.NpRed
open Codon.Numpy Codon.NpLine
variable {V S O T : Type}

theorem fill_ok (R : Redux V S O) (w : Int) (h : Heap V) (bound sb out : List Int) (b : Nat) (off : Int) (wh : Option (Arr × Heap Bool)) (wsub wout : List Int) (ans : Arr)
    (val : List Int → O) : ∀ (idxs : List (List Int)) (ho : Heap O),
    (∀ idx ∈ idxs, reduceAll R w ⟨bound, sb, b, off + ptrOff idx out⟩ h false (wh.map fun (m, g) => (⟨bound, wsub, m.blk, m.off + ptrOff idx wout⟩, g)) = .ok (val idx)) →
    (∀ idx ∈ idxs, ∃ u, ho.get ans.blk (ans.off + ptrOff idx ans.strides) = some u) → (idxs.map ans.addr).Nodup →
    ∃ ho', fill R w h bound sb out b off wh wsub wout ans idxs ho = .ok ho' ∧ ho'.next = ho.next ∧ (∀ idx ∈ idxs, ho'.get ans.blk (ans.off + ptrOff idx ans.strides) = some (val idx)) ∧
      ∀ p : Ptr, (∀ idx ∈ idxs, ans.addr idx ≠ p) → ho'.get p.1 p.2 = ho.get p.1 p.2
  | [], ho, _, _, _ => ⟨ho, rfl, rfl, by simp, fun _ _ => rfl⟩
  | idx :: r, ho, hv, ha, hnd => by
    rw [List.map_cons, List.nodup_cons] at hnd
    obtain ⟨u, hu⟩ := ha idx (by simp)
    obtain ⟨h1, w1, w2, w3, w4⟩ := write_spec ho ans.blk (ans.off + ptrOff idx ans.strides) (val idx) u hu
    have hne : ∀ i ∈ r, ¬ (ans.blk = ans.blk ∧ ans.off + ptrOff i ans.strides = ans.off + ptrOff idx ans.strides) := fun i hi he =>
      hnd.1 (List.mem_map.mpr ⟨i, hi, Prod.ext rfl he.2⟩)
    obtain ⟨ho', e1, e2, e3, e4⟩ := fill_ok R w h bound sb out b off wh wsub wout ans val r h1 (fun i hi => hv i (by simp [hi])) (fun i hi => by
        rw [w4 _ _ (hne i hi)]; exact ha i (by simp [hi])) hnd.2
    refine ⟨ho', ?_, by rw [e2, w2], fun i hi => ?_, fun p hp => ?_⟩
    · rw [fill, hv idx (by simp)]
      show (need (ho.write ans.blk (ans.off + ptrOff idx ans.strides) (val idx)) >>= fun ho => fill R w h bound sb out b off wh wsub wout ans r ho) = _
      rw [w1]
      exact e1
    · rcases List.mem_cons.mp hi with rfl | hi
      · rw [e4 (ans.blk, ans.off + ptrOff i ans.strides) fun i' hi' he => hne i' hi' ⟨rfl, congrArg Prod.snd he⟩]
        exact w3
      · exact e3 i hi
    · rw [e4 p fun i hi => hp i (by simp [hi])]
      exact w4 _ _ fun he => hp idx (by simp) (Prod.ext he.1.symm he.2.symm)

theorem stepAll_ok (G : Gradual V O) (k : Nat) (h : Heap V) (x y : Arr) (cur : List Int → O) : ∀ (cs : List (List Int)) (ho : Heap O),
    (∀ c ∈ cs, ∃ v, y.read h c = some v) → (∀ c ∈ cs, x.read ho c = some (cur c)) → (cs.map x.addr).Nodup →
    ∃ ho', stepAll G k h (cs.map fun c => [x.addr c, y.addr c]) ho = .ok ho' ∧ ho'.next = ho.next ∧ (∀ c ∈ cs, ∀ v, y.read h c = some v → x.read ho' c = some (G.step (cur c) v k)) ∧
      ∀ p : Ptr, (∀ c ∈ cs, x.addr c ≠ p) → ho'.get p.1 p.2 = ho.get p.1 p.2
  | [], ho, _, _, _ => ⟨ho, rfl, rfl, by simp, fun _ _ => rfl⟩
  | c :: r, ho, hv, ha, hnd => by
    rw [List.map_cons, List.nodup_cons] at hnd
    obtain ⟨v, hv0⟩ := hv c (by simp)
    have hc := ha c (by simp)
    obtain ⟨h1, w1, w2, w3, w4⟩ := write_spec ho (x.addr c).1 (x.addr c).2 (G.step (cur c) v k) (cur c) hc
    have hne : ∀ i ∈ r, ¬ ((x.addr i).1 = (x.addr c).1 ∧ (x.addr i).2 = (x.addr c).2) := fun i hi he =>
      hnd.1 (List.mem_map.mpr ⟨i, hi, Prod.ext he.1 he.2⟩)
    obtain ⟨ho', e1, e2, e3, e4⟩ := stepAll_ok G k h x y cur r h1 (fun i hi => hv i (by simp [hi])) (fun i hi => by
        have : x.read h1 i = x.read ho i := w4 _ _ (hne i hi)
        rw [this]; exact ha i (by simp [hi])) hnd.2
    refine ⟨ho', ?_, by rw [e2, w2], fun i hi u hu => ?_, fun p hp => ?_⟩
    · rw [List.map_cons, stepAll]
      have a1 : h.get (y.addr c).1 (y.addr c).2 = some v := hv0
      have a2 : ho.get (x.addr c).1 (x.addr c).2 = some (cur c) := hc
      rw [a1, a2]
      show (need (ho.write (x.addr c).1 (x.addr c).2 (G.step (cur c) v k)) >>= fun ho => stepAll G k h _ ho) = _
      rw [w1]
      exact e1
    · rcases List.mem_cons.mp hi with rfl | hi
      · have : x.read ho' i = x.read h1 i := e4 (x.addr i) fun i' hi' he => hne i' hi' ⟨congrArg Prod.fst he, congrArg Prod.snd he⟩
        rw [this]
        rw [hv0] at hu
        rw [← Option.some.inj hu]
        exact w3
      · exact e3 i hi u hu
    · rw [e4 p fun i hi => hp i (by simp [hi])]
      exact w4 _ _ fun he => hp c (by simp) (Prod.ext he.1.symm he.2.symm)

/-- One `_loop` over two arrays of the same shape. -/
theorem loop_none (x y : Arr) (wx wy : Int) (next : Nat) (sh : List Int) (hx : x.shape = sh) (hy : y.shape = sh) (hxl : x.shape.length = x.strides.length)
    (hyl : y.shape.length = y.strides.length) (hn : ∀ n ∈ sh, 0 ≤ n) :
    ∃ cs : List (List Int), cs.Perm (multirange sh) ∧ ∃ r, loop ⟨x, wx⟩ [⟨y, wy⟩] .none true none next = .ok (cs.map fun c => [x.addr c, y.addr c], r) := by
  have hf : List.Forall₂ (fun (x : Opd) st => st.length = sh.length ∧ ∀ c, Valid c sh → ptrOff c st = ptrOff (proj x.arr.shape c) x.arr.strides) [⟨x, wx⟩, ⟨y, wy⟩] [x.strides, y.strides] := by
    refine List.Forall₂.cons ⟨by rw [← hxl, hx], fun c hc => ?_⟩ (List.Forall₂.cons ⟨by rw [← hyl, hy], fun c hc => ?_⟩ List.Forall₂.nil)
    · show ptrOff c x.strides = ptrOff (proj x.shape c) x.strides
      rw [hx, proj_self sh c hc]
    · show ptrOff c y.strides = ptrOff (proj y.shape c) y.strides
      rw [hy, proj_self sh c hc]
  obtain ⟨cs, res, e1, e2, e3⟩ := loop_spec ⟨x, wx⟩ [⟨y, wy⟩] .none true none next sh (fun _ hh => by cases hh) (fun z hz => by
      simp only [List.mem_cons, List.not_mem_nil, or_false] at hz
      rcases hz with rfl | rfl
      · exact hxl
      · exact hyl) hn (fun _ => hx.symm) (fun _ => ⟨[x.strides, y.strides], by simp [broadcastArgs, hx], hf⟩) (by
      have hm := (maxDim_mem ⟨x, wx⟩ [⟨y, wy⟩]).1
      simp only [List.mem_cons, List.not_mem_nil, or_false] at hm
      rcases hm with hm | hm
      · rw [hm]; exact congrArg List.length hx
      · rw [hm]; exact congrArg List.length hy)
  refine ⟨cs, e2, res, ?_⟩
  simp only [Fresh] at e3
  rw [e1, e3]
  congr 2
  apply List.map_congr_left
  intro c hc
  have hv := (mem_multirange _ _).mp (e2.mem_iff.mp hc)
  simp only [visit, Option.toList, List.map_nil, List.nil_append, List.map_cons]
  rw [hx, hy, proj_self sh c hv]

theorem rounds_ok (G : Gradual V O) (w wo : Int) (h : Heap V) (x : Arr) (sh st : List Int) (b : Nat) (off : Int) (hx : x.shape = sh) (hxl : x.shape.length = x.strides.length)
    (hsl : sh.length = st.length) (hn : ∀ n ∈ sh, 0 ≤ n) (hinj : ∀ c c', Valid c sh → Valid c' sh → x.addr c = x.addr c' → c = c') :
    ∀ (os : List Int) (k : Nat) (ho : Heap O) (cur : List Int → O), (∀ c, Valid c sh → x.read ho c = some (cur c)) →
    (∀ c, Valid c sh → ∀ o ∈ os, ∃ v, h.get b (off + o + ptrOff c st) = some v) →
    ∃ ho', rounds G w wo h x sh st b off os k ho = .ok ho' ∧ ho'.next = ho.next ∧
      (∀ c, Valid c sh → ∀ l, (os.mapM fun o => h.get b (off + o + ptrOff c st)) = some l → x.read ho' c = some (stepList G l k (cur c))) ∧
      ∀ p : Ptr, (∀ c, Valid c sh → x.addr c ≠ p) → ho'.get p.1 p.2 = ho.get p.1 p.2
  | [], k, ho, cur, hc, _ => ⟨ho, rfl, rfl, fun c hv l hl => by simp at hl; subst hl; exact hc c hv, fun _ _ => rfl⟩
  | o :: os, k, ho, cur, hc, hr => by
    obtain ⟨cs, hp, r, hl⟩ := loop_none x ⟨sh, st, b, off + o⟩ wo w ho.next sh hx rfl hxl hsl hn
    have hval : ∀ c, c ∈ cs ↔ Valid c sh := fun c => by rw [hp.mem_iff, mem_multirange]
    have hnd : (cs.map x.addr).Nodup := by
      refine List.Nodup.map_on (fun c h1 c' h2 he => hinj c c' ((hval c).mp h1) ((hval c').mp h2) he) (hp.nodup_iff.mpr (nodup_multirange sh))
    obtain ⟨h1, s1, s2, s3, s4⟩ := stepAll_ok G k h x ⟨sh, st, b, off + o⟩ cur cs ho (fun c hm => hr c ((hval c).mp hm) o (by simp)) (fun c hm => hc c ((hval c).mp hm)) hnd
    let cur' : List Int → O := fun c => match h.get b (off + o + ptrOff c st) with | some v => G.step (cur c) v k | none => cur c
    have hcur : ∀ c, Valid c sh → x.read h1 c = some (cur' c) := fun c hv => by
      obtain ⟨v, hv'⟩ := hr c hv o (by simp)
      rw [s3 c ((hval c).mpr hv) v hv']
      simp only [cur', hv']
    obtain ⟨ho', e1, e2, e3, e4⟩ := rounds_ok G w wo h x sh st b off hx hxl hsl hn hinj os (k + 1) h1 cur' hcur fun c hv o' ho' => hr c hv o' (by simp [ho'])
    refine ⟨ho', ?_, by rw [e2, s2], fun c hv l hl => ?_, fun p hp => ?_⟩
    · rw [rounds, hl]
      simp only []
      rw [s1]
      exact e1
    · simp only [List.mapM_cons, Option.bind_eq_bind, Option.bind_eq_some_iff, Option.pure_def, Option.some.injEq] at hl
      obtain ⟨v, hv', l', hl', rfl⟩ := hl
      rw [e3 c hv l' hl', stepList]
      simp only [cur', hv']
    · rw [e4 p hp]
      exact s4 p fun c hm => hp c ((hval c).mp hm)

theorem new_get (ho : Heap O) (wo : Int) (hw : 0 < wo) (sh st : List Int) (init : Int → O) (hn : ∀ n ∈ sh, 0 ≤ n) (hp : Packed sh wo st) (c : List Int) (hc : Valid c sh) :
    ∃ i, Arr.read ⟨sh, st, ho.next, 0⟩ (ho.new wo (count sh) init) c = some (init i) := by
  obtain ⟨v, hv⟩ := (new_wf ho sh st wo init hw hn hp).alloc c hc
  refine ⟨0 + ptrOff c st, ?_⟩
  simp only [Arr.read, Heap.new, if_true] at hv ⊢
  split
  · rfl
  · next hneg => rw [if_neg hneg] at hv; cases hv

theorem stay_one : ∀ (l : List Int) (k : Nat), k < l.length → stay (maskOf [k] l.length) l = l.eraseIdx k ∧ gone (maskOf [k] l.length) l = [l.getD k 0]
  | [], _, h => by simp at h
  | x :: l, 0, _ => by
    have e : maskOf [0] (l.length + 1) = false :: List.replicate l.length true := by
      simp only [maskOf, List.range_succ_eq_map, List.map_cons, List.map_map]
      congr 1
      apply List.ext_getElem (by simp)
      intro i h1 h2
      simp
    have hall : ∀ l : List Int, stay (List.replicate l.length true) l = l ∧ gone (List.replicate l.length true) l = [] := by
      intro l
      induction l with
      | nil => exact ⟨rfl, rfl⟩
      | cons y l ih =>
        rw [List.length_cons, List.replicate_succ, stay_true, gone_true, ih.1, ih.2]
        exact ⟨rfl, rfl⟩
    rw [List.length_cons, e, stay_false, gone_false, (hall l).1, (hall l).2]
    exact ⟨rfl, rfl⟩
  | x :: l, k + 1, h => by
    have e : maskOf [k + 1] (l.length + 1) = true :: maskOf [k] l.length := by
      simp only [maskOf, List.range_succ_eq_map, List.map_cons, List.map_map]
      congr 1
      apply List.map_congr_left
      intro i _
      simp
    obtain ⟨h1, h2⟩ := stay_one l k (by simpa using h)
    rw [List.length_cons, e, stay_true, gone_true, h1, h2]
    exact ⟨rfl, by simp⟩

/-- `_reduce_gradual` is one pass over the new array for every part. -/
theorem gradual_eq (G : Gradual V O) (w wo : Int) (a : Arr) (h : Heap V) (hwf : a.WF h) (ax : List Nat) (hax : ∀ k ∈ ax, k < a.shape.length) (ho : Heap O) (junk : Int → O) :
    ∃ ts : List (List Int), ts.Perm (multirange (gone (maskOf ax a.shape.length) a.shape)) ∧
      gradual G w wo a h ax ho junk = (do
        let ho' ← rounds G w wo h ⟨stay (maskOf ax a.shape.length) a.shape, stridesOf (stay (maskOf ax a.shape.length) a.shape) a.shouldTranspose wo, ho.next, 0⟩
          (stay (maskOf ax a.shape.length) a.shape) (stay (maskOf ax a.shape.length) a.strides) a.blk a.off (ts.map fun t => ptrOff t (gone (maskOf ax a.shape.length) a.strides)) 0
          (ho.new wo (count (stay (maskOf ax a.shape.length) a.shape)) (match G.start with | some v => fun _ => v | none => junk))
        return (ho', ⟨stay (maskOf ax a.shape.length) a.shape, stridesOf (stay (maskOf ax a.shape.length) a.shape) a.shouldTranspose wo, ho.next, 0⟩)) := by
  have main : ∀ ax : List Nat, ∃ ts : List (List Int), ts.Perm (multirange (gone (maskOf ax a.shape.length) a.shape)) ∧
      (multirange (if a.shouldTranspose then (gone (maskOf ax a.shape.length) a.shape).reverse else gone (maskOf ax a.shape.length) a.shape)).map
        (fun t => ptrOff t (if a.shouldTranspose then (gone (maskOf ax a.shape.length) a.strides).reverse else gone (maskOf ax a.shape.length) a.strides)) =
      ts.map fun t => ptrOff t (gone (maskOf ax a.shape.length) a.strides) := by
    intro ax
    by_cases ht : a.shouldTranspose = true
    · refine ⟨(multirange (gone (maskOf ax a.shape.length) a.shape).reverse).map List.reverse, perm_transpose _, ?_⟩
      rw [if_pos ht, if_pos ht, List.map_map]
      apply List.map_congr_left
      intro t hm
      have hl := Valid.length ((mem_multirange _ _).mp hm)
      rw [List.length_reverse] at hl
      have := ptrOff_reverse t.reverse (gone (maskOf ax a.shape.length) a.strides) (by
        rw [List.length_reverse, hl]; exact (stay_lengths _ _ _ hwf.len).2)
      rw [List.reverse_reverse] at this
      exact this
    · exact ⟨_, List.Perm.refl _, by rw [if_neg ht, if_neg ht]⟩
  by_cases hone : ∃ k, ax = [k]
  · obtain ⟨k, rfl⟩ := hone
    have hk := hax k (by simp)
    obtain ⟨e1, e2⟩ := stay_one a.shape k hk
    obtain ⟨e3, e4⟩ := stay_one a.strides k (by rw [← hwf.len]; exact hk)
    rw [← hwf.len] at e3 e4
    refine ⟨multirange (gone (maskOf [k] a.shape.length) a.shape), List.Perm.refl _, ?_⟩
    have eo : ((upto (a.shape.getD k 0)).map (· * a.strides.getD k 0)) =
        (multirange (gone (maskOf [k] a.shape.length) a.shape)).map fun t => ptrOff t (gone (maskOf [k] a.shape.length) a.strides) := by
      rw [e2, e4]
      simp only [multirange, List.map_cons, List.map_nil]
      induction upto (a.shape.getD k 0) with
      | nil => rfl
      | cons i l ih => simp only [List.map_cons, List.flatMap_cons, List.cons_append, List.nil_append, ptrOff, Int.add_zero, ih]
    rw [← eo, e1, e3]
    unfold gradual
    cases G.start <;> rfl
  · obtain ⟨ts, hp, he⟩ := main ax
    refine ⟨ts, hp, ?_⟩
    rw [← he]
    unfold gradual
    match ax, hone with
    | [], _ => cases G.start <;> rfl
    | [k], hone => exact absurd ⟨k, rfl⟩ hone
    | _ :: _ :: _, _ => cases G.start <;> rfl

end Codon.NpRed
