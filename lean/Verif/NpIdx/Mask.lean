import Verif.NpIdx.Basic
/-! # Masks -/
namespace Codon.NpIdx
open Codon.Numpy Codon.NpLine
variable {U V : Type}

/-- Storing one value after the other. -/
def storeAll : List (Ptr × (Heap V → Option V)) → Heap V → Option (Heap V)
  | [], h => some h
  | (p, f) :: r, h => do
    let v ← f h
    let h ← h.write p.1 p.2 v
    storeAll r h

theorem storeAll_spec : ∀ (l : List (Ptr × (Heap V → Option V))) (h : Heap V), (∀ x ∈ l, ∃ u, h.get x.1.1 x.1.2 = some u) →
    (∀ (j : Nat) (x : Ptr × (Heap V → Option V)), l[j]? = some x → ∃ v, ∀ h1 : Heap V, (∀ q : Ptr, (∀ i < j, ∀ y : Ptr × (Heap V → Option V), l[i]? = some y → y.1 ≠ q) → h1.get q.1 q.2 = h.get q.1 q.2) → x.2 h1 = some v) →
    ∃ h', storeAll l h = some h' ∧ h'.next = h.next ∧ (∀ (j : Nat) (x : Ptr × (Heap V → Option V)), l[j]? = some x → (∀ (i : Nat) (y : Ptr × (Heap V → Option V)), j < i → l[i]? = some y → y.1 ≠ x.1) → h'.get x.1.1 x.1.2 = x.2 h) ∧
      ∀ q : Ptr, (∀ x ∈ l, x.1 ≠ q) → h'.get q.1 q.2 = h.get q.1 q.2 := by
  intro l
  induction l with
  | nil => intro h _ _; exact ⟨h, rfl, rfl, by simp, fun _ _ => rfl⟩
  | cons x l ih =>
    intro h hd hv
    obtain ⟨p, f⟩ := x
    obtain ⟨u, hu⟩ := hd (p, f) (by simp)
    obtain ⟨v, hfv⟩ := hv 0 (p, f) rfl
    have hf := hfv h fun _ _ => rfl
    dsimp only at hf hu
    obtain ⟨h1, hw⟩ := write_some v hu
    obtain ⟨w1, w2⟩ := write_get hw
    have keep : ∀ q : Ptr, p ≠ q → h1.get q.1 q.2 = h.get q.1 q.2 := fun q hq => by rw [w2, if_neg fun hh => hq (Prod.ext hh.1.symm hh.2.symm)]
    have conv : ∀ (j : Nat) (h2 : Heap V), (∀ q : Ptr, (∀ i < j, ∀ y : Ptr × (Heap V → Option V), l[i]? = some y → y.1 ≠ q) → h2.get q.1 q.2 = h1.get q.1 q.2) →
        ∀ q : Ptr, (∀ i < j + 1, ∀ y : Ptr × (Heap V → Option V), ((p, f) :: l)[i]? = some y → y.1 ≠ q) → h2.get q.1 q.2 = h.get q.1 q.2 := fun j h2 hh q hq => by
      rw [hh q fun i hi y hy => hq (i + 1) (by omega) y (by simpa using hy), keep q (hq 0 (by omega) (p, f) rfl)]
    obtain ⟨h', e1, e2, e3, e4⟩ := ih h1 (fun y hy => by
        rw [w2]
        by_cases c : y.1.1 = p.1 ∧ y.1.2 = p.2
        · exact ⟨v, if_pos c⟩
        · rw [if_neg c]; exact hd y (by simp [hy]))
      (fun j y hy => by
        obtain ⟨v', hv'⟩ := hv (j + 1) y (by simpa using hy)
        exact ⟨v', fun h2 hh => hv' h2 (conv j h2 hh)⟩)
    refine ⟨h', by simp [storeAll, hf, hw, e1], by rw [e2, w1], fun j y hy hlast => ?_, fun q hq => ?_⟩
    · cases j with
      | zero =>
        simp only [List.getElem?_cons_zero, Option.some.injEq] at hy
        subst hy
        dsimp only
        have : h'.get p.1 p.2 = h1.get p.1 p.2 := e4 p fun z hz => by
          obtain ⟨i, hi⟩ := List.getElem?_of_mem hz
          exact hlast (i + 1) z (by omega) (by simpa using hi)
        rw [this, w2, if_pos ⟨rfl, rfl⟩, hf]
      | succ j =>
        rw [e3 j y (by simpa using hy) fun i z hi hz => hlast (i + 1) z (by omega) (by simpa using hz)]
        obtain ⟨v', hv'⟩ := hv (j + 1) y hy
        rw [hv' h fun _ _ => rfl, hv' h1 (conv j h1 fun _ _ => rfl)]
    · rw [e4 q fun y hy => hq y (by simp [hy]), keep q (hq (p, f) (by simp))]

/-- The places of array and mask, coordinate by coordinate. -/
theorem maskPtrs_eq (a m : Arr) (w : Int) (hs : a.shape = m.shape) (ha : a.shape.length = a.strides.length) (hm : m.shape.length = m.strides.length) (hn : ∀ n ∈ a.shape, 0 ≤ n) :
    maskPtrs a m w = (multirange a.shape).map fun c => (a.addr c, m.addr c) := by
  unfold maskPtrs
  by_cases hc : ((a.contig w).1 && (m.contig 1).1) = true
  · rw [if_pos hc]
    rw [Bool.and_eq_true] at hc
    have : (⟨a.shape, m.strides, m.blk, m.off⟩ : Arr) = m := by rw [hs]
    rw [this, flatPtrs_eq _ w false a rfl hn (flat_of _ w false a rfl ha (by simpa using hc.1)),
      flatPtrs_eq _ 1 false m hs.symm hn (flat_of _ 1 false m hs.symm (by rw [hs]; exact hm) (by simpa using hc.2)), List.zip_map']
    rfl
  · rw [if_neg hc, coordPtrs, List.zip_map']
    rfl

def isTrue (g : Heap Bool) (m : Arr) (c : List Int) : Bool := m.read g c == some true

theorem cLess_antisymm : ∀ c d : List Int, cLess c d → cLess d c → False
  | [], _ => by simp [cLess]
  | _ :: _, [] => by simp [cLess]
  | x :: c, y :: d => by
    intro h1 h2
    simp only [cLess] at h1 h2
    rcases h1 with h1 | ⟨e, h1⟩ <;> rcases h2 with h2 | ⟨e', h2⟩
    · omega
    · omega
    · omega
    · exact cLess_antisymm c d h1 h2

theorem chosen_eq (g : Heap Bool) (m : Arr) (cs : List (List Int)) (hc : Chosen g m cs) : cs = (multirange m.shape).filter (isTrue g m) := by
  have p2 : ((multirange m.shape).filter (isTrue g m)).Pairwise cLess := (pairwise_multirange _).filter _
  have nd : ∀ l : List (List Int), l.Pairwise cLess → l.Nodup := fun l hl => hl.imp fun {x y} hxy he => by subst he; exact cLess_irrefl_list x hxy
  have hp : cs.Perm ((multirange m.shape).filter (isTrue g m)) := (List.perm_ext_iff_of_nodup (nd _ hc.1) (nd _ p2)).mpr fun c => by
    rw [hc.2 c, List.mem_filter, mem_multirange]; simp [isTrue]
  exact hp.eq_of_pairwise (fun x y _ _ h1 h2 => (cLess_antisymm x y h1 h2).elim) hc.1 p2

theorem chosen_filter (g : Heap Bool) (m : Arr) : Chosen g m ((multirange m.shape).filter (isTrue g m)) :=
  ⟨(pairwise_multirange _).filter _, fun c => by rw [List.mem_filter, mem_multirange]; simp [isTrue]⟩

theorem mapM_true (g : Heap Bool) (m : Arr) : ∀ l : List (List Int), (∀ c ∈ l, ∃ b, m.read g c = some b) →
    ((l.map m.addr).mapM fun p => g.get p.1 p.2) = some (l.map (isTrue g m)) := by
  intro l
  induction l with
  | nil => intro _; rfl
  | cons c l ih =>
    intro hl
    obtain ⟨b, hb⟩ := hl c (by simp)
    have : g.get (m.addr c).1 (m.addr c).2 = some b := hb
    rw [List.map_cons, List.mapM_cons, this, ih fun c hc => hl c (by simp [hc])]
    simp only [Option.bind_eq_bind, Option.bind_some, List.map_cons, isTrue, hb]
    cases b <;> rfl

theorem numTrue_eq (g : Heap Bool) (m : Arr) (hm : m.WF g) : numTrue g m = some ((multirange m.shape).filter (isTrue g m)).length := by
  have key : ∀ f, ((((ord f m.shape).map m.addr).mapM fun p => g.get p.1 p.2) >>= fun l => (pure (l.filter id).length : Option Nat)) = some ((multirange m.shape).filter (isTrue g m)).length := by
    intro f
    rw [mapM_true g m _ fun c hc => hm.alloc c ((mem_ord _ _ _).mp hc)]
    simp only [Option.bind_eq_bind, Option.bind_some, Option.pure_def, Option.some.injEq, List.filter_map, List.length_map]
    have hp : (ord f m.shape).Perm (multirange m.shape) := (List.perm_ext_iff_of_nodup (nodup_ord f _) (nodup_multirange _)).mpr fun c => by rw [mem_ord, mem_multirange]
    exact (hp.filter _).length_eq
  unfold numTrue
  by_cases hc : ((m.contig 1).1 || (m.contig 1).2) = true
  · rw [if_pos hc]
    obtain ⟨f, hf⟩ : ∃ f : Bool, (if f then (m.contig 1).2 else (m.contig 1).1) = true := by
      rcases Bool.or_eq_true _ _ ▸ hc with hc | hc
      · exact ⟨false, by simpa using hc⟩
      · exact ⟨true, by simpa using hc⟩
    rw [flatPtrs_eq _ 1 f m rfl hm.nonneg (flat_of _ 1 f m rfl hm.len hf)]
    exact key f
  · rw [if_neg hc, coordPtrs_eq]
    exact key false

theorem maskLoop_eq (g : Heap Bool) (a m : Arr) (tgt : Nat → Ptr → Ptr) (val : Nat → Ptr → Heap V → Option V) : ∀ (l : List (List Int)) (k : Nat) (h : Heap V), (∀ c ∈ l, ∃ b, m.read g c = some b) →
    maskLoop g (fun k p h => do
      let v ← val k p h
      h.write (tgt k p).1 (tgt k p).2 v) (l.map fun c => (a.addr c, m.addr c)) k h =
    storeAll (((l.filter (isTrue g m)).zipIdx k).map fun x => (tgt x.2 (a.addr x.1), val x.2 (a.addr x.1))) h := by
  intro l
  induction l with
  | nil => intro k h _; rfl
  | cons c l ih =>
    intro k h hl
    obtain ⟨b, hb⟩ := hl c (by simp)
    have hb' : g.get (m.addr c).1 (m.addr c).2 = some b := hb
    have ih' := fun k h => ih k h fun c hc => hl c (by simp [hc])
    cases b with
    | false =>
      have : isTrue g m c = false := by simp [isTrue, hb]
      simp only [List.map_cons, maskLoop, hb', Option.bind_eq_bind, Option.bind_some, Bool.false_eq_true, if_false, List.filter_cons, this]
      exact ih' k h
    | true =>
      have : isTrue g m c = true := by simp [isTrue, hb]
      simp only [List.map_cons, maskLoop, hb', Option.bind_eq_bind, Option.bind_some, if_true, List.filter_cons, this, List.zipIdx_cons, storeAll]
      cases hv : val k (a.addr c) h with
      | none => rfl
      | some v =>
        simp only [Option.bind_some]
        cases hw : h.write (tgt k (a.addr c)).1 (tgt k (a.addr c)).2 v with
        | none => rfl
        | some h1 => simp only [Option.bind_some]; exact ih' (k + 1) h1

theorem zipIdx_getElem {α β : Type} (l : List α) (f : α × Nat → β) (j : Nat) (x : β) (hx : ((l.zipIdx 0).map f)[j]? = some x) : ∃ c, l[j]? = some c ∧ x = f (c, j) := by
  rw [List.getElem?_map, List.getElem?_zipIdx] at hx
  cases hc : l[j]? with
  | none => rw [hc] at hx; simp at hx
  | some c =>
    rw [hc] at hx
    simp only [Option.map_some, Nat.zero_add, Option.some.injEq] at hx
    exact ⟨c, rfl, hx.symm⟩

theorem zipIdx_getElem' {α β : Type} (l : List α) (f : α × Nat → β) (j : Nat) (c : α) (hc : l[j]? = some c) : ((l.zipIdx 0).map f)[j]? = some (f (c, j)) := by
  rw [List.getElem?_map, List.getElem?_zipIdx, hc]; simp

/-- Storing at the chosen coordinates. -/
theorem maskStore (g : Heap Bool) (a m : Arr) (w : Int) (h : Heap V) (hs : a.shape = m.shape) (ha : a.WF h) (hm : m.WF g) (hrep : a.NoRepeat) (val : Nat → Heap V → Option V)
    (cs : List (List Int)) (hcs : Chosen g m cs)
    (hv : ∀ j, j < cs.length → ∃ v, ∀ h1 : Heap V, (∀ q : Ptr, (∀ i < j, ∀ c, cs[i]? = some c → a.addr c ≠ q) → h1.get q.1 q.2 = h.get q.1 q.2) → val j h1 = some v) :
    ∃ h', maskLoop g (fun k p h => do
      let v ← val k h
      h.write p.1 p.2 v) (maskPtrs a m w) 0 h = some h' ∧ AssignedAt h a cs (fun k => val k h) h' := by
  rw [maskPtrs_eq a m w hs ha.len hm.len ha.nonneg]
  rw [maskLoop_eq g a m (fun _ p => p) (fun k _ => val k) _ 0 h fun c hc => hm.alloc c (by rw [← hs]; exact (mem_multirange _ _).mp hc)]
  have hcs' := chosen_eq g m cs hcs
  rw [hs, ← hcs']
  have hval : ∀ c ∈ cs, Valid c a.shape := fun c hc => by rw [hs]; exact ((hcs.2 c).mp hc).1
  obtain ⟨h', e1, e2, e3, e4⟩ := storeAll_spec ((cs.zipIdx 0).map fun x => (a.addr x.1, val x.2)) h
    (fun x hx => by
      obtain ⟨j, hj⟩ := List.getElem?_of_mem hx
      obtain ⟨c, hc, rfl⟩ := zipIdx_getElem cs _ j x hj
      exact ha.alloc c (hval c (List.mem_of_getElem? hc)))
    (fun j x hx => by
      obtain ⟨c, hc, rfl⟩ := zipIdx_getElem cs _ j x hx
      obtain ⟨v, hv'⟩ := hv j (List.getElem?_eq_some_iff.mp hc).1
      exact ⟨v, fun h1 hh => hv' h1 fun q hq => hh q fun i hi y hy => by
        obtain ⟨d, hd, rfl⟩ := zipIdx_getElem cs _ i y hy
        exact hq i hi d hd⟩)
  refine ⟨h', e1, e2, fun k c hc => ?_, fun p hp => e4 p fun x hx => ?_⟩
  · have := e3 k _ (zipIdx_getElem' cs _ k c hc) (fun i y hi hy => by
      obtain ⟨d, hd, rfl⟩ := zipIdx_getElem cs _ i y hy
      intro he
      have hcd : d = c := hrep d c (hval d (List.mem_of_getElem? hd)) (hval c (List.mem_of_getElem? hc)) he
      have nd : cs.Nodup := hcs.1.imp fun {x y} hxy he => by subst he; exact cLess_irrefl_list x hxy
      obtain ⟨l1, e1⟩ := List.getElem?_eq_some_iff.mp hc
      obtain ⟨l2, e2⟩ := List.getElem?_eq_some_iff.mp hd
      have := (nd.getElem_inj_iff (hi := l1) (hj := l2)).mp (by rw [e1, e2, hcd])
      omega)
    exact this
  · obtain ⟨j, hj⟩ := List.getElem?_of_mem hx
    obtain ⟨c, hc, rfl⟩ := zipIdx_getElem cs _ j x hj
    exact hp c (List.mem_of_getElem? hc)

/-- The array made from the chosen elements. -/
theorem maskGet (w : Int) (hw : 0 < w) (g : Heap Bool) (a m : Arr) (junk : Int → V) (h : Heap V) (hs : a.shape = m.shape) (ha : a.WF h) (hm : m.WF g) (cs : List (List Int)) (hcs : Chosen g m cs) :
    ∃ h' r, getMask w a g m junk h = some (.ok (h', r)) ∧ NewArray h [(cs.length : Int)] (fun c => cs[(c.headD 0).toNat]?.bind (a.read h)) h' r := by
  have hcs' := chosen_eq g m cs hcs
  have hval : ∀ c ∈ cs, Valid c a.shape := fun c hc => by rw [hs]; exact ((hcs.2 c).mp hc).1
  unfold getMask
  rw [if_neg (by simpa using hs), numTrue_eq g m hm, ← hcs']
  simp only [Option.bind_eq_bind, Option.bind_some]
  rw [maskPtrs_eq a m w hs ha.len hm.len ha.nonneg]
  have ml := maskLoop_eq (V := V) g a m (fun k _ => (h.next, (0 : Int) + (k : Int) * w)) (fun _ p h => h.get p.1 p.2) (multirange a.shape) 0 (h.new w cs.length junk)
    fun c hc => hm.alloc c (by rw [← hs]; exact (mem_multirange _ _).mp hc)
  simp only [Option.bind_eq_bind] at ml
  rw [ml, hs, ← hcs']
  have old : ∀ c ∈ cs, (h.new w (cs.length : Int) junk).get (a.addr c).1 (a.addr c).2 = a.read h c := fun c hc => by
    rw [new_other _ _ _ _ _ (by have := ha.block; simp only [Arr.addr]; omega)]; rfl
  obtain ⟨h', e1, e2, e3, e4⟩ := storeAll_spec ((cs.zipIdx 0).map fun x => ((h.next, (0 : Int) + (x.2 : Int) * w), fun h : Heap V => h.get (a.addr x.1).1 (a.addr x.1).2)) (h.new w cs.length junk)
    (fun x hx => by
      obtain ⟨j, hj⟩ := List.getElem?_of_mem hx
      obtain ⟨c, hc, rfl⟩ := zipIdx_getElem cs _ j x hj
      have := (List.getElem?_eq_some_iff.mp hc).1
      dsimp only
      rw [Int.zero_add]
      exact new_get h w cs.length junk hw j (by omega) (by omega))
    (fun j x hx => by
      obtain ⟨c, hc, rfl⟩ := zipIdx_getElem cs _ j x hx
      obtain ⟨v, hv⟩ := ha.alloc c (hval c (List.mem_of_getElem? hc))
      refine ⟨v, fun h1 hh => ?_⟩
      dsimp only
      rw [hh (a.addr c) fun i _ y hy => by
        obtain ⟨d, hd, rfl⟩ := zipIdx_getElem cs _ i y hy
        intro he
        have := ha.block
        have h1 := congrArg Prod.fst he
        simp only [Arr.addr] at h1
        omega]
      rw [old c (List.mem_of_getElem? hc), hv])
  refine ⟨h', ⟨[(cs.length : Int)], stridesOf [(cs.length : Int)] false w, h.next, 0⟩, by rw [e1]; rfl, ?_⟩
  have hst : stridesOf [(cs.length : Int)] false w = [w] := by simp [stridesOf, stridesLoop]
  have hadr : ∀ j : Int, (⟨[(cs.length : Int)], stridesOf [(cs.length : Int)] false w, h.next, 0⟩ : Arr).addr [j] = (h.next, 0 + j * w) := fun j => by
    rw [hst]; simp [Arr.addr, ptrOff]
  have rd : ∀ (j : Nat) (c : List Int), cs[j]? = some c → (⟨[(cs.length : Int)], stridesOf [(cs.length : Int)] false w, h.next, 0⟩ : Arr).read h' [(j : Int)] = a.read h c := fun j c hc => by
    have := e3 j _ (zipIdx_getElem' cs _ j c hc) (fun i y hi hy => by
      obtain ⟨d, hd, rfl⟩ := zipIdx_getElem cs _ i y hy
      intro he
      have h2 := congrArg Prod.snd he
      simp only [Int.zero_add] at h2
      have := Int.eq_of_mul_eq_mul_right hw.ne' h2
      omega)
    dsimp only at this
    rw [old c (List.mem_of_getElem? hc)] at this
    rw [← this, Arr.read, hst]
    simp [ptrOff]
  have one : ∀ c, Valid c [(cs.length : Int)] → ∃ j : Nat, c = [(j : Int)] ∧ j < cs.length := fun c hc => by
    match c, hc with
    | [j], hc =>
      simp only [Valid] at hc
      exact ⟨j.toNat, by rw [Int.toNat_of_nonneg hc.1.1], by omega⟩
  refine ⟨rfl, ⟨by simp [hst], by simp, fun c hc => ?_, by rw [e2]; simp [Heap.new]⟩, rfl, fun b hb => ?_, fun c c' hc hc' he => ?_, fun c hc => ?_⟩
  · obtain ⟨j, rfl, hj⟩ := one c hc
    have hj' := List.getElem?_eq_getElem hj
    rw [rd j _ hj']
    exact ha.alloc _ (hval _ (List.getElem_mem hj))
  · funext o
    have := e4 (b, o) fun x hx => by
      obtain ⟨j, hj⟩ := List.getElem?_of_mem hx
      obtain ⟨c, hc, rfl⟩ := zipIdx_getElem cs _ j x hj
      intro he
      have := congrArg Prod.fst he
      dsimp only at this
      omega
    rw [this, new_other _ _ _ _ _ (by omega)]
  · obtain ⟨j, rfl, hj⟩ := one c hc
    obtain ⟨j', rfl, hj'⟩ := one c' hc'
    rw [hadr, hadr] at he
    have h2 := congrArg Prod.snd he
    simp only [Int.zero_add] at h2
    rw [Int.eq_of_mul_eq_mul_right hw.ne' h2]
  · obtain ⟨j, rfl, hj⟩ := one c hc
    have hj' := List.getElem?_eq_getElem hj
    rw [rd j _ hj']
    simp [hj']

end Codon.NpIdx
