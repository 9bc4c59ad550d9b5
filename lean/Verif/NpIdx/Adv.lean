import Verif.NpIdx.Mask
/-! # Index arrays: the loops -/
namespace Codon.NpIdx
open Codon.Numpy Codon.NpLine Codon.SliceSpec
variable {U V : Type}

/-- `i` are the coordinates `c`, negative ones counted from the end. -/
def Norm : List Int → List Int → List Int → Prop
  | [], [], [] => True
  | n :: sh, k :: c, j :: i => (j = rel n k ∧ 0 ≤ j ∧ j < n) ∧ Norm sh c i
  | _, _, _ => False

theorem Norm.sel : ∀ (sh c i : List Int), Norm sh c i → Sel (c.map .int) sh [] i ∧ Proper (c.map .int) sh ∧ used (c.map .int) = sh.length ∧ resShape (c.map .int) sh = [] ∧
    Idx.num .ellipsis (c.map .int) = 0 ∧ Valid i sh
  | [], [], [], _ => ⟨⟨trivial, rfl⟩, trivial, rfl, rfl, rfl, trivial⟩
  | n :: sh, k :: c, j :: i, h => by
    obtain ⟨h1, h2, h3, h4, h5, h6⟩ := Norm.sel sh c i h.2
    have hk := h.1
    refine ⟨⟨hk, h1⟩, ⟨?_, h2⟩, by simp [used, h3], h4, ?_, ⟨hk.2, h6⟩⟩
    · simp only [rel] at hk
      split at hk <;> omega
    · simpa [Idx.num] using h5
  | [], _ :: _, _, h => by simp [Norm] at h
  | [], [], _ :: _, h => by simp [Norm] at h
  | _ :: _, [], _, h => by simp [Norm] at h
  | _ :: _, _ :: _, [], h => by simp [Norm] at h

theorem norm_self : ∀ (sh c : List Int), Valid c sh → Norm sh c c
  | [], [], _ => trivial
  | n :: sh, x :: c, h => ⟨⟨by simp only [rel]; rw [if_neg (by have := h.1; omega)], h.1⟩, norm_self sh c h.2⟩
  | [], _ :: _, h => by simp [Valid] at h
  | _ :: _, [], h => by simp [Valid] at h

theorem view_ints (h : Heap V) (a : Arr) (ha : a.WF h) (c i : List Int) (hn : Norm a.shape c i) : ∃ s, a.view (c.map .int) = .ok s ∧ s.shape = [] ∧ (s.blk, s.off) = a.addr i := by
  obtain ⟨h1, h2, h3, h4, h5, _⟩ := Norm.sel _ _ _ hn
  obtain ⟨s, e1, _, e3, e4, _⟩ := c63_index h a ha (c.map .int) (by omega) (by omega) h2
  refine ⟨s, e1, by rw [e3, h4], ?_⟩
  rw [← (e4 [] i h1).2.2]
  simp [Arr.addr, ptrOff]

theorem write_write (h h1 : Heap V) (b : Nat) (o : Int) (v : V) (hw : h.write b o v = some h1) : h1.write b o v = some h1 := by
  unfold Heap.write at hw
  cases hg : h.get b o with
  | none => rw [hg] at hw; cases hw
  | some u =>
    rw [hg] at hw
    simp only [Option.some.injEq] at hw
    subst hw
    unfold Heap.write
    simp only [and_self, if_true, Option.some.injEq]
    congr 1
    funext b' o'
    by_cases hc : b' = b ∧ o' = o
    · simp [hc]
    · simp [hc]

theorem setBasic_ints (w : Int) (h : Heap V) (a : Arr) (ha : a.WF h) (c i : List Int) (hn : Norm a.shape c i) (v : V) (h1 : Heap V) :
    setBasic (U := U) w a (c.map .int) (.num v) h1 = (do let h2 ← h1.write (a.addr i).1 (a.addr i).2 v; some (h2, none)) := by
  obtain ⟨s, e1, e2, e3⟩ := view_ints h a ha c i hn
  unfold setBasic
  simp only [e1]
  unfold setNum assignOne
  simp only [e2, if_true]
  rw [← e3]
  dsimp only
  cases hw : h1.write s.blk s.off v with
  | none => rfl
  | some h2 =>
    simp only [Option.bind_eq_bind, Option.bind_some]
    rw [write_write h1 h2 _ _ v hw]
    rfl

theorem getElem_ints (h : Heap V) (a : Arr) (ha : a.WF h) (c i : List Int) (hn : Norm a.shape c i) (h1 : Heap V) : getElem a c h1 = (h1.get (a.addr i).1 (a.addr i).2).map .ok := by
  obtain ⟨s, e1, e2, e3⟩ := view_ints h a ha c i hn
  unfold getElem
  simp only [e1]
  rw [← e3]

theorem advLoop_store (g : Heap Int) (axs : List Ax) (step : List Int → List Int → Heap V → Option (Heap V × Option Err)) {ι : Type} (F : ι → List Int × List (Int × Int))
    (t : ι → Ptr) (val : ι → Heap V → Option V) :
    ∀ (L : List ι), (∀ x ∈ L, ∃ d s, stepIdx g axs (F x).1 (F x).2 = some (d, s) ∧ ∀ h, step d s h = (do let v ← val x h; let h2 ← h.write (t x).1 (t x).2 v; some (h2, none))) → ∀ h,
    advLoop g axs step (L.map F) h = (storeAll (L.map fun x => (t x, val x)) h).map fun h => (h, none) := by
  intro L
  induction L with
  | nil => intro _ h; rfl
  | cons x L ih =>
    intro hL h
    obtain ⟨d, s, e1, e2⟩ := hL x (by simp)
    simp only [List.map_cons, advLoop, storeAll, e1, Option.bind_eq_bind, Option.bind_some, e2]
    cases hv : val x h with
    | none => rfl
    | some v =>
      simp only [Option.bind_some]
      cases hw : h.write (t x).1 (t x).2 v with
      | none => rfl
      | some h2 =>
        simp only [Option.bind_some]
        exact ih (fun y hy => hL y (by simp [hy])) h2

/-! ### The order of the loops -/

theorem multirange_append : ∀ x y : List Int, multirange (x ++ y) = (multirange x).flatMap fun b => (multirange y).map fun c => b ++ c
  | [], y => by simp [multirange]
  | n :: x, y => by
    simp only [List.cons_append, multirange, multirange_append x y, List.flatMap_assoc, List.map_flatMap, List.flatMap_map, List.map_map]
    rfl

/-- The positions of the slices belonging to `sc`. -/
def slPos : List Slice.Adj → List Int → List (Int × Int)
  | t :: ts, k :: sc => (k, t.start + k * t.step) :: slPos ts sc
  | _, _ => []

theorem iter_eq : ∀ ts : List Slice.Adj, (∀ t ∈ ts, (⟨t.start, t.stop, t.step⟩ : Slice.Range).len = t.length) → iterNonArrays ts = (multirange (ts.map (·.length))).map (slPos ts)
  | [], _ => rfl
  | t :: ts, h => by
    rw [iterNonArrays, iter_eq ts fun x hx => h x (by simp [hx]), h t (by simp), List.map_cons, multirange, List.map_flatMap]
    simp only [List.map_map]
    rfl

theorem advOrder_eq (bs : List Int) (ts : List Slice.Adj) (h : ∀ t ∈ ts, (⟨t.start, t.stop, t.step⟩ : Slice.Range).len = t.length) :
    advOrder bs ts = (multirange (bs ++ ts.map (·.length))).map fun c => (c.take bs.length, slPos ts (c.drop bs.length)) := by
  rw [advOrder, multirange_append, List.map_flatMap, iter_eq ts h]
  rw [List.flatMap_congr]
  intro bc hbc
  have hl : bc.length = bs.length := Valid.length ((mem_multirange _ _).mp hbc)
  rw [List.map_map, List.map_map]
  refine List.map_congr_left fun sc _ => ?_
  simp only [Function.comp]
  rw [← hl, List.take_left, List.drop_left]

theorem adjust_range (n : Int) (hn : 0 ≤ n) (b e k : Option Int) (t : Slice.Adj) (h : Slice.adjust n b e k = some t) : (⟨t.start, t.stop, t.step⟩ : Slice.Range).len = t.length := by
  obtain ⟨n', rfl⟩ := Int.eq_ofNat_of_zero_le hn
  have h1 := Slice.c24_stop_agrees_with_length n' b e k t h
  have h2 := adjust_length n' hn b e k t h
  have hs : t.step ≠ 0 := by
    obtain ⟨_, _, h3⟩ := Slice.c24_adjust_selects_python_positions n' b e k t h
    intro h0
    have : Slice.adjust n' b e k = none := by
      unfold Slice.adjust
      simp only [← h3, h0, if_true]
    rw [this] at h; cases h
  rw [Slice.iter_eq_prog _ hs] at h1
  simp only [Option.some.injEq] at h1
  have h3 := congrArg List.length h1
  have hp : ∀ (s k : Int) (m : Nat), (Slice.prog s k m).length = m := by intro s k m; simp [Slice.prog]
  rw [hp, List.length_map] at h3
  have h4 : 0 ≤ (⟨t.start, t.stop, t.step⟩ : Slice.Range).len := by
    unfold Slice.Range.len
    dsimp only
    split
    · next hh => have := Int.tdiv_nonneg (a := t.stop - 1 - t.start) (b := t.step) (by omega) (by omega); omega
    · split
      · next hh => have := Int.tdiv_nonneg (a := t.start - 1 - t.stop) (b := -t.step) (by omega) (by omega); omega
      · omega
  rw [h2]
  simp only [Int.toNat_natCast]
  omega

/-! ### The coordinates -/

def Ax.toA : Ax → AIdx
  | .slice b e k => .slice b e k
  | .arr m => .arr m

theorem readIndex_eq (g : Heap Int) (bc : List Int) (m : Arr) : readIndex g bc m = m.read g (proj m.shape bc) := rfl

/-- `adjust_indices` of all slices, and what the loops make of them. -/
theorem adjusted_spec (g : Heap Int) (bs : List Int) : ∀ (axs : List Ax) (sh : List Int), axs.length = sh.length → (∀ n ∈ sh, 0 ≤ n) → AProper g bs (axs.map Ax.toA) sh →
    ∃ ts, adjusted axs sh = .ok ts ∧ ts.map (·.length) = sliceDims (axs.map Ax.toA) sh ∧ (∀ t ∈ ts, (⟨t.start, t.stop, t.step⟩ : Slice.Range).len = t.length) ∧ (∀ t ∈ ts, 0 ≤ t.length) ∧
      ∀ bc, Valid bc bs → ∃ ia, (arraysOf axs).mapM (readIndex g bc) = some ia ∧
        ∀ sc, Valid sc (ts.map (·.length)) → ∃ i, Norm sh (srcIdx axs ia ((slPos ts sc).map (·.2))) i ∧ ASel g (axs.map Ax.toA) sh bc sc i ∧ (slPos ts sc).map (·.1) = sc
  | [], [], _, _, _ => ⟨[], rfl, rfl, by simp, by simp, fun bc _ => ⟨[], rfl, fun sc hsc => by
      match sc, hsc with
      | [], _ => exact ⟨[], trivial, ⟨trivial, rfl⟩, rfl⟩⟩⟩
  | .arr m :: axs, n :: sh, hl, hn, hp => by
    obtain ⟨ts, e1, e2, e3, e4, e5⟩ := adjusted_spec g bs axs sh (by simpa using hl) (fun x hx => hn x (by simp [hx])) hp.2
    refine ⟨ts, by rw [adjusted]; exact e1, e2, e3, e4, fun bc hbc => ?_⟩
    obtain ⟨k, k1, k2, k3⟩ := hp.1 bc hbc
    obtain ⟨ia, i1, i2⟩ := e5 bc hbc
    refine ⟨k :: ia, by rw [arraysOf, List.mapM_cons, readIndex_eq, k1, i1]; rfl, fun sc hsc => ?_⟩
    obtain ⟨i, n1, n2, n3⟩ := i2 sc hsc
    have hr : 0 ≤ rel n k ∧ rel n k < n := by simp only [rel]; split <;> omega
    exact ⟨rel n k :: i, ⟨⟨rfl, hr⟩, n1⟩, ⟨⟨k, k1, rfl, hr⟩, n2⟩, n3⟩
  | .slice b e k :: axs, n :: sh, hl, hn, hp => by
    obtain ⟨ts, e1, e2, e3, e4, e5⟩ := adjusted_spec g bs axs sh (by simpa using hl) (fun x hx => hn x (by simp [hx])) hp.2
    have hn0 := hn n (by simp)
    obtain ⟨t, ht⟩ : ∃ t, Slice.adjust n b e k = some t := by
      cases ha : Slice.adjust n b e k with
      | some t => exact ⟨t, rfl⟩
      | none =>
        obtain ⟨n', rfl⟩ := Int.eq_ofNat_of_zero_le hn0
        exact absurd ((Slice.c24_zero_step_rejected n' b e k).mp ha) hp.1
    obtain ⟨a1, a2, a3⟩ := adjust_axis n hn0 b e k t ht
    refine ⟨t :: ts, ?_, ?_, ?_, ?_, fun bc hbc => ?_⟩
    · simp only [adjusted, List.headD_cons, ht, List.tail_cons, e1]
    · simp only [List.map_cons, Ax.toA, sliceDims, List.headD_cons, List.tail_cons, e2, adjust_length n hn0 b e k t ht]
    · intro x hx
      rcases List.mem_cons.mp hx with rfl | hx
      · exact adjust_range n hn0 b e k x ht
      · exact e3 x hx
    · intro x hx
      rcases List.mem_cons.mp hx with rfl | hx
      · exact a1
      · exact e4 x hx
    · obtain ⟨ia, i1, i2⟩ := e5 bc hbc
      refine ⟨ia, by rw [arraysOf]; exact i1, fun sc hsc => ?_⟩
      match sc, hsc with
      | q :: sc, hsc =>
        obtain ⟨i, n1, n2, n3⟩ := i2 sc hsc.2
        have hq := hsc.1
        have hr := a3 q hq.1 hq.2
        refine ⟨(t.start + q * t.step) :: i, ⟨⟨?_, hr⟩, n1⟩, ⟨⟨hq.1, hr.1, (a2 q _ hq.1 hr.1).mpr ⟨hq.2, rfl⟩⟩, n2⟩, ?_⟩
        · simp only [slPos, List.map_cons, List.headD_cons, rel]; rw [if_neg (by omega)]
        · simp only [slPos, List.map_cons, n3]
  | [], _ :: _, hl, _, _ => by simp at hl
  | _ :: _, [], hl, _, _ => by simp at hl

end Codon.NpIdx
