import Verif.Numpy.VecLemmas
import Verif.Numpy.ReshapeLemmas
/-!
# The vectorised loops on whole arrays
-/
namespace Codon.Numpy
variable {V : Type}

/-! ### Rows -/

theorem valid_insert : ∀ (k : Nat) (s idx : List Int) (x : Int), k < s.length → Valid idx (s.eraseIdx k) → 0 ≤ x → x < s.getD k 0 → Valid (idx.insertIdx k x) s
  | 0, n :: s, idx, x, _, hv, h1, h2 => by
    simp only [List.eraseIdx_cons_zero] at hv
    simp only [List.getD_cons_zero] at h2
    rw [List.insertIdx_zero]
    exact ⟨⟨h1, h2⟩, hv⟩
  | k + 1, n :: s, y :: idx, x, hk, hv, h1, h2 => by
    simp only [List.eraseIdx_cons_succ, Valid] at hv
    rw [List.insertIdx_succ_cons]
    exact ⟨hv.1, valid_insert k s idx x (by simpa using hk) hv.2 h1 (by simpa using h2)⟩
  | k + 1, n :: s, [], x, hk, hv, _, _ => by
    simp only [List.eraseIdx_cons_succ, Valid] at hv

theorem ptrOff_insert : ∀ (k : Nat) (st idx : List Int) (x : Int), st.length = idx.length + 1 → k < st.length →
    ptrOff (idx.insertIdx k x) st = ptrOff (idx.insertIdx k 0) st + x * st.getD k 0
  | 0, s :: st, idx, x, _, _ => by simp only [List.insertIdx_zero, ptrOff, List.getD_cons_zero]; ring
  | k + 1, s :: st, y :: idx, x, hl, hk => by
    simp only [List.insertIdx_succ_cons, ptrOff, List.getD_cons_succ]
    rw [ptrOff_insert k st idx x (by simpa using hl) (by simpa using hk)]; ring
  | k + 1, s :: st, [], x, hl, hk => by simp at hl hk; simp [hl] at hk

theorem valid_erase : ∀ (k : Nat) (s c : List Int), k < s.length → Valid c s → Valid (c.eraseIdx k) (s.eraseIdx k) ∧ c = (c.eraseIdx k).insertIdx k (c.getD k 0) ∧
    0 ≤ c.getD k 0 ∧ c.getD k 0 < s.getD k 0
  | 0, n :: s, x :: c, _, hv => ⟨hv.2, by simp, hv.1.1, hv.1.2⟩
  | k + 1, n :: s, x :: c, hk, hv => by
    obtain ⟨h1, h2, h3, h4⟩ := valid_erase k s c (by simpa using hk) hv.2
    refine ⟨⟨hv.1, h1⟩, ?_, h3, h4⟩
    simp only [List.eraseIdx_cons_succ, List.insertIdx_succ_cons, List.getD_cons_succ]
    rw [← h2]

theorem insert_inj : ∀ (k : Nat) (i j : List Int) (x y : Int), k ≤ i.length → k ≤ j.length → i.insertIdx k x = j.insertIdx k y → i = j ∧ x = y
  | 0, i, j, x, y, _, _, h => by
    simp only [List.insertIdx_zero, List.cons.injEq] at h
    exact ⟨h.2, h.1⟩
  | k + 1, u :: i, v :: j, x, y, h1, h2, h => by
    simp only [List.insertIdx_succ_cons, List.cons.injEq] at h
    obtain ⟨e1, e2⟩ := insert_inj k i j x y (by simpa using h1) (by simpa using h2) h.2
    exact ⟨by rw [h.1, e1], e2⟩

/-- Row after row. -/
theorem rows_ok {ι : Type} {P : ι → Prop} {tg : ι → Ptr} {val : ι → V} {h0 : Heap V} (f : List Int → Heap V → Option (Heap V)) (ρ : List Int → Nat → ι) (n : Nat) :
    ∀ (idxs : List (List Int)) (cs : List ι) (h : Heap V), idxs.Nodup → (∀ c ∈ cs, P c) → (∀ idx ∈ idxs, ∀ j < n, P (ρ idx j) ∧ ρ idx j ∉ cs) →
    (∀ idx ∈ idxs, ∀ idx' ∈ idxs, ∀ i < n, ∀ j < n, ρ idx i = ρ idx' j → idx = idx') →
    (∀ idx ∈ idxs, ∀ (cs : List ι) (h : Heap V), (∀ c ∈ cs, P c) → (∀ j < n, ρ idx j ∉ cs) → Done tg val h0 h cs →
      ∃ h', f idx h = some h' ∧ Done tg val h0 h' (cs ++ (List.range n).map (ρ idx))) →
    Done tg val h0 h cs → ∃ h', rows f idxs h = some h' ∧ Done tg val h0 h' (cs ++ idxs.flatMap fun idx => (List.range n).map (ρ idx))
  | [], cs, h, _, _, _, _, _, hd => ⟨h, rfl, by simpa using hd⟩
  | idx :: r, cs, h, hnd, hP, hm, hinj, hf, hd => by
    obtain ⟨h1, e1, e2⟩ := hf idx (by simp) cs h hP (fun j hj => (hm idx (by simp) j hj).2) hd
    rw [List.nodup_cons] at hnd
    obtain ⟨h', f1, f2⟩ := rows_ok f ρ n r (cs ++ (List.range n).map (ρ idx)) h1 hnd.2 (fun c hc => by
        rcases List.mem_append.mp hc with hc | hc
        · exact hP c hc
        · obtain ⟨j, hj, rfl⟩ := List.mem_map.mp hc
          exact (hm idx (by simp) j (List.mem_range.mp hj)).1) (fun i hi j hj => ⟨(hm i (by simp [hi]) j hj).1, fun hc => by
        rcases List.mem_append.mp hc with hc | hc
        · exact (hm i (by simp [hi]) j hj).2 hc
        · obtain ⟨j', hj', he⟩ := List.mem_map.mp hc
          have := hinj idx (by simp) i (by simp [hi]) j' (List.mem_range.mp hj') j hj he
          exact hnd.1 (by rw [this]; exact hi)⟩)
        (fun i hi i' hi' => hinj i (by simp [hi]) i' (by simp [hi'])) (fun i hi => hf i (by simp [hi])) e2
    refine ⟨h', by rw [rows, e1]; exact f1, ?_⟩
    rw [List.flatMap_cons, ← List.append_assoc]
    exact f2

theorem done_updated (a : Arr) (val : List Int → V) (elem : List Int → Option V) (h0 h : Heap V) (cs : List (List Int)) (hP : ∀ c ∈ cs, Valid c a.shape)
    (hall : ∀ c, Valid c a.shape → c ∈ cs) (he : ∀ c, Valid c a.shape → elem c = some (val c)) (hd : Done a.addr val h0 h cs) : Updated h0 a elem h :=
  ⟨hd.1, fun c hc => by rw [he c hc]; exact hd.2.1 c (hall c hc), fun p hp => hd.2.2 p fun c hc => hp c (hP c hc)⟩

/-- What the loops need to know about a target of shape `s` and operands seen in that shape. -/
structure Target (h0 : Heap V) (s : List Int) (o : Arr) : Prop where
  shape : o.shape = s
  wf : o.WF h0
  inj : ∀ c c', Valid c s → Valid c' s → o.addr c = o.addr c' → c = c'

structure Operand (h0 : Heap V) (s : List Int) (o b : Arr) (a : List Int → V) : Prop where
  shape : b.shape = s
  len : s.length = b.strides.length
  get : ∀ c, Valid c s → b.read h0 c = some (a c)
  sep : ∀ c c', Valid c s → Valid c' s → o.addr c = b.addr c' → c = c'

section
variable {h0 : Heap V} {s : List Int} {o b : Arr} {a : List Int → V}

theorem addr_insert (b : Arr) (k : Nat) (idx : List Int) (x : Int) (hl : b.strides.length = idx.length + 1) (hk : k < b.strides.length) :
    b.addr (idx.insertIdx k x) = ((b.ptr (idx.insertIdx k 0)).1, (b.ptr (idx.insertIdx k 0)).2 + x * b.strides.getD k 0) := by
  simp only [Arr.addr, Arr.ptr]
  rw [ptrOff_insert k _ _ x hl hk]
  ring_nf

theorem row_row (ho : Target h0 s o) (k : Nat) (hk : k < s.length) (idx : List Int) (hv : Valid idx (s.eraseIdx k)) :
    Row (fun c => Valid c s) o.addr (fun i => idx.insertIdx k (i : Int)) (s.getD k 0).toNat (o.ptr (idx.insertIdx k 0)) (o.strides.getD k 0) := by
  have hl : idx.length + 1 = s.length := by
    have := Valid.length hv
    rw [List.length_eraseIdx, if_pos hk] at this; omega
  have hol := ho.wf.len
  rw [ho.shape] at hol
  exact ⟨fun i hi => valid_insert k s idx i hk hv (by omega) (by omega), fun i hi => addr_insert o k idx i (by omega) (by omega)⟩

theorem row_src (hb : Operand h0 s o b a) (k : Nat) (hk : k < s.length) (idx : List Int) (hv : Valid idx (s.eraseIdx k)) :
    Src (fun c => Valid c s) o.addr h0 (fun i => idx.insertIdx k (i : Int)) (s.getD k 0).toNat (b.ptr (idx.insertIdx k 0)) (b.strides.getD k 0) a := by
  have hl : idx.length + 1 = s.length := by
    have := Valid.length hv
    rw [List.length_eraseIdx, if_pos hk] at this; omega
  have hbl := hb.len
  have hval : ∀ i < (s.getD k 0).toNat, Valid (idx.insertIdx k (i : Int)) s := fun i hi => valid_insert k s idx i hk hv (by omega) (by omega)
  refine ⟨fun i hi => ?_, fun c hc i hi he => ?_⟩
  · have := hb.get _ (hval i hi)
    have e := addr_insert b k idx i (by omega) (by omega)
    rw [← this]
    show _ = h0.get (b.addr (idx.insertIdx k (i : Int))).1 (b.addr (idx.insertIdx k (i : Int))).2
    rw [e]
  · refine hb.sep c _ hc (hval i hi) ?_
    rw [he, addr_insert b k idx i (by omega) (by omega)]

theorem ins_inj (k : Nat) (idx : List Int) (hk : k ≤ idx.length) (n : Nat) : ∀ i < n, ∀ j < n, idx.insertIdx k (i : Int) = idx.insertIdx k (j : Int) → i = j :=
  fun i _ j _ h => by have := (insert_inj k idx idx i j hk hk h).2; omega

/-- The rows along axis `k` are the whole array. -/
theorem rows_all (s : List Int) (k : Nat) (hk : k < s.length) : ∀ c, c ∈ ([] ++ (multirange (s.eraseIdx k)).flatMap fun idx => (List.range (s.getD k 0).toNat).map fun i => idx.insertIdx k (i : Int)) ↔
    Valid c s := by
  intro c
  rw [List.nil_append, List.mem_flatMap]
  constructor
  · rintro ⟨idx, hi, hc⟩
    obtain ⟨i, hi', rfl⟩ := List.mem_map.mp hc
    have hi' := List.mem_range.mp hi'
    exact valid_insert k s idx i hk ((mem_multirange _ _).mp hi) (by omega) (by omega)
  · intro hc
    obtain ⟨h1, h2, h3, h4⟩ := valid_erase k s c hk hc
    refine ⟨c.eraseIdx k, (mem_multirange _ _).mpr h1, List.mem_map.mpr ⟨(c.getD k 0).toNat, List.mem_range.mpr (by omega), ?_⟩⟩
    rw [show (((c.getD k 0).toNat : Nat) : Int) = c.getD k 0 by omega, ← h2]

/-- The elements of `b` lie in the memory in row-major (`f = false`) or column-major order. -/
def Flat (s : List Int) (w : Int) (f : Bool) (b : Arr) : Prop := ∀ c, Valid c s → ptrOff c b.strides = (if f then fIndex c s else fIndex c.reverse s.reverse) * w

theorem flat_of (s : List Int) (w : Int) (f : Bool) (b : Arr) (hb : b.shape = s) (hl : s.length = b.strides.length) (hc : (if f then (b.contig w).2 else (b.contig w).1) = true) : Flat s w f b := by
  intro c hv
  cases f with
  | false => rw [contig_c b w (by rw [hb]; exact hl) (by simpa using hc) c (by rw [hb]; exact hv), hb]; rfl
  | true => rw [contig_f b w (by rw [hb]; exact hl) (by simpa using hc) c (by rw [hb]; exact hv), hb]; rfl

/-- All elements of contiguous arrays, in the order in which they lie in memory. -/
theorem flat_row (s : List Int) (w : Int) (f : Bool) (hs : ∀ n ∈ s, 0 ≤ n) : ∃ ρ : Nat → List Int, (∀ i < (count s).toNat, Valid (ρ i) s) ∧
    (∀ i < (count s).toNat, ∀ j < (count s).toNat, ρ i = ρ j → i = j) ∧ (∀ c, c ∈ [] ++ (List.range (count s).toNat).map ρ ↔ Valid c s) ∧
    ∀ b : Arr, Flat s w f b → ∀ i < (count s).toNat, b.addr (ρ i) = (b.blk, b.off + i * w) := by
  have hcn := count_nonneg s hs
  cases f with
  | false =>
    have hlen : (multirange s).length = (count s).toNat := by
      have := congrArg List.length (multirange_map_index s hs)
      rw [List.length_map] at this
      rw [this, upto]; simp
    refine ⟨fun i => (multirange s).getD i [], ?_, ?_, ?_, ?_⟩
    · intro i hi
      obtain ⟨c, h1, h2, _⟩ := multirange_getElem? s hs i (by omega)
      simp only [List.getD_eq_getElem?_getD, h1, Option.getD_some]; exact h2
    · intro i hi j hj he
      obtain ⟨c, h1, _, h3, _⟩ := multirange_getElem? s hs i (by omega)
      obtain ⟨d, g1, _, g3, _⟩ := multirange_getElem? s hs j (by omega)
      simp only [List.getD_eq_getElem?_getD, h1, g1, Option.getD_some] at he
      rw [he] at h3; rw [h3] at g3; omega
    · intro c
      rw [List.nil_append, ← mem_multirange, show (List.range (count s).toNat).map (fun i => (multirange s).getD i []) = multirange s by
        apply List.ext_getElem (by simp [hlen])
        intro i h1 h2
        simp [List.getElem?_eq_getElem h2]]
    · intro b hb i hi
      obtain ⟨c, h1, h2, h3, _⟩ := multirange_getElem? s hs i (by omega)
      simp only [List.getD_eq_getElem?_getD, h1, Option.getD_some, Arr.addr]
      rw [hb c h2, if_neg (by simp), h3]
  | true =>
    have hlen : (fnest s).length = (count s).toNat := by
      have := congrArg List.length (fnest_map_fIndex s hs)
      rw [List.length_map] at this
      rw [this, upto]; simp
    refine ⟨fun i => (fnest s).getD i [], ?_, ?_, ?_, ?_⟩
    · intro i hi
      obtain ⟨c, h1, h2, _⟩ := fnest_getElem? s hs i (by omega)
      simp only [List.getD_eq_getElem?_getD, h1, Option.getD_some]; exact h2
    · intro i hi j hj he
      obtain ⟨c, h1, _, h3, _⟩ := fnest_getElem? s hs i (by omega)
      obtain ⟨d, g1, _, g3, _⟩ := fnest_getElem? s hs j (by omega)
      simp only [List.getD_eq_getElem?_getD, h1, g1, Option.getD_some] at he
      rw [he] at h3; rw [h3] at g3; omega
    · intro c
      rw [List.nil_append, ← (inOrder_fnest s).2, show (List.range (count s).toNat).map (fun i => (fnest s).getD i []) = fnest s by
        apply List.ext_getElem (by simp [hlen])
        intro i h1 h2
        simp [List.getElem?_eq_getElem h2]]
    · intro b hb i hi
      obtain ⟨c, h1, h2, h3, _⟩ := fnest_getElem? s hs i (by omega)
      simp only [List.getD_eq_getElem?_getD, h1, Option.getD_some, Arr.addr]
      rw [hb c h2, if_pos rfl, h3]

theorem pickAxis_lt : ∀ (ns ss : List Int) (i : Nat) (best : Option (Nat × Int)), (∀ k st, best = some (k, st) → k < i) → ∀ k st, pickAxis ns ss i best = some (k, st) → k < i + ns.length
  | [], _, i, best, hb, k, st, h => by rw [pickAxis.eq_def] at h; dsimp only at h; have := hb k st h; simp; exact this
  | _ :: _, [], i, best, hb, k, st, h => by rw [pickAxis.eq_def] at h; dsimp only at h; have := hb k st h; simp; omega
  | n :: ns, s :: ss, i, best, hb, k, st, h => by
    rw [pickAxis.eq_def] at h
    dsimp only at h
    have := pickAxis_lt ns ss (i + 1) _ (by
      intro k' st' he
      split at he
      · cases hbb : best with
        | none => rw [hbb] at he; simp only [Option.some.injEq, Prod.mk.injEq] at he; omega
        | some p =>
          rw [hbb] at he
          obtain ⟨k0, s0⟩ := p
          have := hb k0 s0 hbb
          dsimp only at he
          split at he <;> simp only [Option.some.injEq, Prod.mk.injEq] at he <;> omega
      · have := hb k' st' he; omega) k st h
    rw [List.length_cons]; omega

theorem loopAxis_lt (sh st : List Int) (h : 0 < sh.length) : loopAxis sh st < sh.length := by
  unfold loopAxis
  split
  · exact h
  · next k s he =>
    have := pickAxis_lt sh st 0 none (by simp) k s he
    omega

theorem zero_ptr (b : Arr) (h1 : b.strides.length = 1) : b.ptr (([] : List Int).insertIdx 0 0) = (b.blk, b.off) ∧ b.strides.getD 0 0 = b.strides.headD 0 := by
  match hb : b.strides, h1 with
  | [x], _ => simp [Arr.ptr, hb, ptrOff]

/-- Along one axis, row after row. -/
theorem unary_rows (ho : Target h0 s o) (hb : Operand h0 s o b a) (L : Nat) (w : Int) (op : V → V) (k : Nat) (hk : k < s.length) :
    ∃ h', rows (fun idx => unaryLoop L w op (b.ptr (idx.insertIdx k 0)) (b.strides.getD k 0) (o.ptr (idx.insertIdx k 0)) (o.strides.getD k 0) (s.getD k 0).toNat)
      (multirange (s.eraseIdx k)) h0 = some h' ∧ Updated h0 o (fun c => (b.read h0 c).map op) h' := by
  have hlen : ∀ idx ∈ multirange (s.eraseIdx k), k ≤ idx.length := fun idx hi => by
    have := Valid.length ((mem_multirange _ _).mp hi)
    rw [List.length_eraseIdx, if_pos hk] at this; omega
  obtain ⟨h', e1, e2⟩ := rows_ok (P := fun c => Valid c s) (tg := o.addr) (val := fun c => op (a c)) (h0 := h0) _ (fun idx i => idx.insertIdx k (i : Int)) (s.getD k 0).toNat
    (multirange (s.eraseIdx k)) [] h0 (nodup_multirange _) (by simp)
    (fun idx hi j hj => ⟨valid_insert k s idx j hk ((mem_multirange _ _).mp hi) (by omega) (by omega), by simp⟩)
    (fun idx hi idx' hi' i _ j _ he => (insert_inj k idx idx' i j (hlen idx hi) (hlen idx' hi') he).1)
    (fun idx hi cs h hcs hnd hd => unaryLoop_ok ho.inj (fun c hc => ho.wf.alloc c (by rw [ho.shape]; exact hc)) (row_src hb k hk idx ((mem_multirange _ _).mp hi)) hcs hnd
      (ins_inj k idx (hlen idx hi) _) (row_row ho k hk idx ((mem_multirange _ _).mp hi)) (fun _ => rfl) L w h hd) (done_nil _ _ _)
  refine ⟨h', e1, done_updated o _ _ h0 h' _ (fun c hc => by rw [ho.shape]; exact (rows_all s k hk c).mp hc) (fun c hc => (rows_all s k hk c).mpr (by rw [← ho.shape]; exact hc))
    (fun c hc => by rw [hb.get c (by rw [← ho.shape]; exact hc)]; rfl) e2⟩

theorem unary_flat (ho : Target h0 s o) (hb : Operand h0 s o b a) (L : Nat) (w w' : Int) (op : V → V) (f : Bool)
    (h1 : Flat s w f o) (h2 : Flat s w f b) :
    ∃ h', unaryLoop L w' op (b.blk, b.off) w (o.blk, o.off) w (count s).toNat h0 = some h' ∧ Updated h0 o (fun c => (b.read h0 c).map op) h' := by
  have hs : ∀ n ∈ s, 0 ≤ n := by have := ho.wf.nonneg; rwa [ho.shape] at this
  obtain ⟨ρ, r1, r2, r3, r4⟩ := flat_row s w f hs
  have hro := r4 o h1
  have hrb := r4 b h2
  obtain ⟨h', e1, e2⟩ := unaryLoop_ok (P := fun c => Valid c s) (tg := o.addr) (val := fun c => op (a c)) (h0 := h0) (ρ := ρ) (n := (count s).toNat) (cs := []) (a := a) (op := op)
    (p := (b.blk, b.off)) (s := w) (q := (o.blk, o.off)) (t := w)
    ho.inj (fun c hc => ho.wf.alloc c (by rw [ho.shape]; exact hc))
    ⟨fun i hi => by have := hb.get _ (r1 i hi); rw [← this]; show _ = h0.get (b.addr (ρ i)).1 (b.addr (ρ i)).2; rw [hrb i hi],
      fun c hc i hi he => hb.sep c _ hc (r1 i hi) (by rw [he, hrb i hi])⟩ (by simp) (by simp) r2 ⟨r1, hro⟩ (fun _ => rfl) L w' h0 (done_nil _ _ _)
  exact ⟨h', e1, done_updated o _ _ h0 h' _ (fun c hc => by rw [ho.shape]; exact (r3 c).mp hc) (fun c hc => (r3 c).mpr (by rw [← ho.shape]; exact hc))
    (fun c hc => by rw [hb.get c (by rw [← ho.shape]; exact hc)]; rfl) e2⟩

theorem operand_of (v0 : V) (hx : b.WF h0) (hsh : b.shape = s) (hsep : ∀ c c', Valid c s → Valid c' s → o.addr c = b.addr c' → c = c') : ∃ a, Operand h0 s o b a := by
  have hex : ∀ c : List Int, ∃ v : V, Valid c s → b.read h0 c = some v := by
    intro c
    by_cases hc : Valid c s
    · obtain ⟨v, hv⟩ := hx.alloc c (by rw [hsh]; exact hc)
      exact ⟨v, fun _ => hv⟩
    · exact ⟨v0, fun hh => absurd hh hc⟩
  choose a ha using hex
  exact ⟨a, hsh, by rw [← hsh]; exact hx.len, ha, hsep⟩

theorem contigMatch_cases (x y : Opd) (h : contigMatch x y = true) : x.arr.shape = y.arr.shape ∧
    ∃ f : Bool, (if f then (x.arr.contig x.w).2 else (x.arr.contig x.w).1) = true ∧ (if f then (y.arr.contig y.w).2 else (y.arr.contig y.w).1) = true := by
  simp only [contigMatch, Bool.and_eq_true, Bool.or_eq_true, decide_eq_true_eq] at h
  refine ⟨h.1, ?_⟩
  rcases h.2 with h | h
  · exact ⟨false, by simpa using h⟩
  · exact ⟨true, by simpa using h⟩

/-- The vectorised loop on arrays of the same shape. -/
theorem applyUnary_ok (v0 : V) (L : Nat) (op : V → V) (x out : Opd) (h : Heap V) (hsh : x.arr.shape = out.arr.shape) (hne : out.arr.shape.length ≠ 0) (hw : x.w = out.w) (hx : x.arr.WF h)
    (ho : out.arr.WF h) (hself : ∀ c c', Valid c out.arr.shape → Valid c' out.arr.shape → out.arr.addr c = out.arr.addr c' → c = c')
    (hover : ∀ c c', Valid c out.arr.shape → Valid c' out.arr.shape → out.arr.addr c = x.arr.addr c' → c = c') :
    ∃ h', applyUnary L op x out h = some (.ok h') ∧ Updated h out.arr (fun c => (x.arr.read h c).map op) h' := by
  have T : Target h out.arr.shape out.arr := ⟨rfl, ho, hself⟩
  obtain ⟨a, B⟩ := operand_of v0 hx hsh hover
  have hxl := B.len
  have hol := ho.len
  unfold applyUnary
  rw [if_neg (by rw [hsh]; omega)]
  split
  · next h1 =>
    obtain ⟨h', e1, e2⟩ := unary_rows T B L x.w op 0 (by omega)
    refine ⟨h', ?_, e2⟩
    match hs : out.arr.shape, h1 with
    | [n], _ =>
      rw [hs] at e1 hxl hol
      obtain ⟨z1, z2⟩ := zero_ptr x.arr (by simpa using hxl.symm)
      obtain ⟨z3, z4⟩ := zero_ptr out.arr (by simpa using hol.symm)
      simp only [List.eraseIdx_cons_zero, multirange, rows, z1, z2, z3, z4, List.getD_cons_zero] at e1
      rw [show count [n] = n by simp [count]]
      cases hu : unaryLoop L x.w op (x.arr.blk, x.arr.off) (x.arr.strides.headD 0) (out.arr.blk, out.arr.off) (out.arr.strides.headD 0) n.toNat h with
      | none => rw [hu] at e1; cases e1
      | some h2 => rw [hu] at e1; rw [Option.some.inj e1]; rfl
  · split
    · next hc =>
      obtain ⟨_, f, f1, f2⟩ := contigMatch_cases x out hc
      rw [hw] at f1
      obtain ⟨h', e1, e2⟩ := unary_flat T B L out.w x.w op f (flat_of _ _ _ _ rfl hol f2) (flat_of _ _ _ _ hsh hxl f1)
      exact ⟨h', by rw [e1]; rfl, e2⟩
    · obtain ⟨h', e1, e2⟩ := unary_rows T B L x.w op (loopAxis x.arr.shape x.arr.strides) (by rw [← hsh]; exact loopAxis_lt _ _ (by rw [hsh]; omega))
      refine ⟨h', ?_, e2⟩
      dsimp only
      rw [hsh] at e1 ⊢
      rw [e1]; rfl

/-! ### Two operands -/

variable {b2 : Arr} {a2 : List Int → V}

theorem binary_rows (ho : Target h0 s o) (hb : Operand h0 s o b a) (hb2 : Operand h0 s o b2 a2) (L : Nat) (w : Int) (op : V → V → V) (k : Nat) (hk : k < s.length) (hpos : 0 < s.getD k 0)
    (hbug : b.strides.getD k 0 = 0 → b2.strides.getD k 0 = w → o.strides.getD k 0 = w → b.strides.getD k 0 ≠ w → (s.getD k 0).toNat < 2 * L ∨ L = 0) :
    ∃ h', rows (fun idx => binaryLoop L w op (b.ptr (idx.insertIdx k 0)) (b.strides.getD k 0) (b2.ptr (idx.insertIdx k 0)) (b2.strides.getD k 0) (o.ptr (idx.insertIdx k 0))
      (o.strides.getD k 0) (s.getD k 0).toNat)
      (multirange (s.eraseIdx k)) h0 = some h' ∧ Updated h0 o (fun c => (b.read h0 c).bind fun u => (b2.read h0 c).map (op u)) h' := by
  have hlen : ∀ idx ∈ multirange (s.eraseIdx k), k ≤ idx.length := fun idx hi => by
    have := Valid.length ((mem_multirange _ _).mp hi)
    rw [List.length_eraseIdx, if_pos hk] at this; omega
  obtain ⟨h', e1, e2⟩ := rows_ok (P := fun c => Valid c s) (tg := o.addr) (val := fun c => op (a c) (a2 c)) (h0 := h0) _ (fun idx i => idx.insertIdx k (i : Int)) (s.getD k 0).toNat
    (multirange (s.eraseIdx k)) [] h0 (nodup_multirange _) (by simp)
    (fun idx hi j hj => ⟨valid_insert k s idx j hk ((mem_multirange _ _).mp hi) (by omega) (by omega), by simp⟩)
    (fun idx hi idx' hi' i _ j _ he => (insert_inj k idx idx' i j (hlen idx hi) (hlen idx' hi') he).1)
    (fun idx hi cs h hcs hnd hd => binaryLoop_ok ho.inj (fun c hc => ho.wf.alloc c (by rw [ho.shape]; exact hc)) (row_src hb k hk idx ((mem_multirange _ _).mp hi))
      (row_src hb2 k hk idx ((mem_multirange _ _).mp hi)) hcs hnd
      (ins_inj k idx (hlen idx hi) _) (row_row ho k hk idx ((mem_multirange _ _).mp hi)) (fun _ => rfl) L w (by omega) hbug h hd) (done_nil _ _ _)
  refine ⟨h', e1, done_updated o _ _ h0 h' _ (fun c hc => by rw [ho.shape]; exact (rows_all s k hk c).mp hc) (fun c hc => (rows_all s k hk c).mpr (by rw [← ho.shape]; exact hc))
    (fun c hc => by rw [hb.get c (by rw [← ho.shape]; exact hc), hb2.get c (by rw [← ho.shape]; exact hc)]; rfl) e2⟩

theorem binary_flat (ho : Target h0 s o) (hb : Operand h0 s o b a) (hb2 : Operand h0 s o b2 a2) (L : Nat) (w : Int) (op : V → V → V) (f : Bool) (hpos : 0 < count s)
    (h1 : Flat s w f o) (h2 : Flat s w f b) (h3 : Flat s w f b2) :
    ∃ h', binaryLoop L w op (b.blk, b.off) w (b2.blk, b2.off) w (o.blk, o.off) w (count s).toNat h0 = some h' ∧
      Updated h0 o (fun c => (b.read h0 c).bind fun u => (b2.read h0 c).map (op u)) h' := by
  have hs : ∀ n ∈ s, 0 ≤ n := by have := ho.wf.nonneg; rwa [ho.shape] at this
  obtain ⟨ρ, r1, r2, r3, r4⟩ := flat_row s w f hs
  have hro := r4 o h1
  have hrb := r4 b h2
  have hrb2 := r4 b2 h3
  obtain ⟨h', e1, e2⟩ := binaryLoop_ok (P := fun c => Valid c s) (tg := o.addr) (val := fun c => op (a c) (a2 c)) (h0 := h0) (ρ := ρ) (n := (count s).toNat) (cs := []) (a := a) (b := a2) (op := op)
    (p1 := (b.blk, b.off)) (s1 := w) (p2 := (b2.blk, b2.off)) (s2 := w) (q := (o.blk, o.off)) (t := w)
    ho.inj (fun c hc => ho.wf.alloc c (by rw [ho.shape]; exact hc))
    ⟨fun i hi => by have := hb.get _ (r1 i hi); rw [← this]; show _ = h0.get (b.addr (ρ i)).1 (b.addr (ρ i)).2; rw [hrb i hi],
      fun c hc i hi he => hb.sep c _ hc (r1 i hi) (by rw [he, hrb i hi])⟩
    ⟨fun i hi => by have := hb2.get _ (r1 i hi); rw [← this]; show _ = h0.get (b2.addr (ρ i)).1 (b2.addr (ρ i)).2; rw [hrb2 i hi],
      fun c hc i hi he => hb2.sep c _ hc (r1 i hi) (by rw [he, hrb2 i hi])⟩ (by simp) (by simp) r2 ⟨r1, hro⟩ (fun _ => rfl) L w (by omega)
    (fun _ _ _ hne => absurd rfl hne) h0 (done_nil _ _ _)
  exact ⟨h', e1, done_updated o _ _ h0 h' _ (fun c hc => by rw [ho.shape]; exact (r3 c).mp hc) (fun c hc => (r3 c).mpr (by rw [← ho.shape]; exact hc))
    (fun c hc => by rw [hb.get c (by rw [← ho.shape]; exact hc), hb2.get c (by rw [← ho.shape]; exact hc)]; rfl) e2⟩

/-- `x` seen in the shape `s`. -/
theorem broadcast_operand (x : Arr) (hx : x.WF h0) (ha : Aligned x.shape s) (v0 : V) (hsep : ∀ c c', Valid c s → Valid c' s → o.addr c = x.addr (proj x.shape c') → c = c') :
    ∃ st, broadcastStrides true x s = .ok st ∧ (∃ a, Operand h0 s o ⟨s, st, x.blk, x.off⟩ a) ∧ (∀ c, Valid c s → Arr.read ⟨s, st, x.blk, x.off⟩ h0 c = x.read h0 (proj x.shape c)) ∧
      (x.shape = s → st = x.strides) := by
  obtain ⟨st, e1, e2, e3⟩ := broadcastStrides_ok true x s hx.len ha
  have hr : ∀ c, Valid c s → Arr.addr ⟨s, st, x.blk, x.off⟩ c = x.addr (proj x.shape c) := fun c hc => by simp only [Arr.addr, e3 c hc]
  have hrd : ∀ c, Valid c s → Arr.read ⟨s, st, x.blk, x.off⟩ h0 c = x.read h0 (proj x.shape c) := fun c hc => by simp only [Arr.read, e3 c hc]
  refine ⟨st, e1, ?_, hrd, fun hs => ?_⟩
  · have hex : ∀ c : List Int, ∃ v : V, Valid c s → x.read h0 (proj x.shape c) = some v := by
      intro c
      by_cases hc : Valid c s
      · obtain ⟨v, hv⟩ := hx.alloc _ (valid_proj _ _ _ ha hc)
        exact ⟨v, fun _ => hv⟩
      · exact ⟨v0, fun hh => absurd hh hc⟩
    choose a haa using hex
    exact ⟨a, rfl, e2.symm, fun c hc => by rw [hrd c hc]; exact haa c hc, fun c c' hc hc' he => hsep c c' hc hc' (by rw [he, hr c' hc'])⟩
  · subst hs
    have hl := hx.len
    have key : ∀ (as ss : List Int), as.length = ss.length → substrides true as as ss = .ok ss := by
      intro as
      induction as with
      | nil => intro ss h; cases ss with
        | nil => rfl
        | cons y ys => simp at h
      | cons a as ih =>
        intro ss h
        cases ss with
        | nil => simp at h
        | cons y ys => rw [substrides, if_pos rfl, ih ys (by simpa using h)]; rfl
    rw [broadcastStrides, if_neg (by omega), Nat.sub_self, List.drop_zero, key _ _ hl] at e1
    have := Except.ok.inj e1
    simpa using this.symm

/-- The vectorised loop on two operands. -/
theorem applyBinary_ok (v0 : V) (L : Nat) (op : V → V → V) (x y out : Opd) (h : Heap V) (hpos : ∀ n ∈ out.arr.shape, 0 < n) (hne : out.arr.shape.length ≠ 0)
    (hxy : ¬ (x.arr.shape.length = 0 ∧ y.arr.shape.length = 0)) (hwx : x.w = out.w) (hwy : y.w = out.w) (hx : x.arr.WF h) (hy : y.arr.WF h) (ho : out.arr.WF h)
    (hax : Aligned x.arr.shape out.arr.shape) (hay : Aligned y.arr.shape out.arr.shape)
    (h1x : out.arr.shape.length = 1 → x.arr.shape = [] ∨ x.arr.shape = out.arr.shape) (h1y : out.arr.shape.length = 1 → y.arr.shape = [] ∨ y.arr.shape = out.arr.shape)
    (hbug : (∀ n ∈ out.arr.shape, n < 2 * L) ∨ L = 0 ∨ (x.arr.shape = out.arr.shape ∧ ∀ st ∈ x.arr.strides, st ≠ 0))
    (hself : ∀ c c', Valid c out.arr.shape → Valid c' out.arr.shape → out.arr.addr c = out.arr.addr c' → c = c')
    (hovx : ∀ c c', Valid c out.arr.shape → Valid c' out.arr.shape → out.arr.addr c = x.arr.addr (proj x.arr.shape c') → c = c')
    (hovy : ∀ c c', Valid c out.arr.shape → Valid c' out.arr.shape → out.arr.addr c = y.arr.addr (proj y.arr.shape c') → c = c') :
    ∃ h', applyBinary L op x y out h = some (.ok h') ∧
      Updated h out.arr (fun c => (x.arr.read h (proj x.arr.shape c)).bind fun u => (y.arr.read h (proj y.arr.shape c)).map (op u)) h' := by
  have T : Target h out.arr.shape out.arr := ⟨rfl, ho, hself⟩
  obtain ⟨st1, e1, ⟨a1, B1⟩, r1, q1⟩ := broadcast_operand x.arr hx hax v0 hovx
  obtain ⟨st2, e2, ⟨a2, B2⟩, r2, q2⟩ := broadcast_operand y.arr hy hay v0 hovy
  have hol := ho.len
  have hfin : ∀ h', Updated h out.arr (fun c => (Arr.read ⟨out.arr.shape, st1, x.arr.blk, x.arr.off⟩ h c).bind fun u => (Arr.read ⟨out.arr.shape, st2, y.arr.blk, y.arr.off⟩ h c).map (op u)) h' →
      Updated h out.arr (fun c => (x.arr.read h (proj x.arr.shape c)).bind fun u => (y.arr.read h (proj y.arr.shape c)).map (op u)) h' := by
    rintro h' ⟨u1, u2, u3⟩
    refine ⟨u1, fun c hc => ?_, u3⟩
    rw [u2 c hc]
    dsimp only
    rw [r1 c hc, r2 c hc]
  have hstep : ∀ k, k < out.arr.shape.length → ∃ h', rows (fun idx => binaryLoop L out.w op (Arr.ptr ⟨out.arr.shape, st1, x.arr.blk, x.arr.off⟩ (idx.insertIdx k 0)) (st1.getD k 0)
      (Arr.ptr ⟨out.arr.shape, st2, y.arr.blk, y.arr.off⟩ (idx.insertIdx k 0)) (st2.getD k 0) (out.arr.ptr (idx.insertIdx k 0)) (out.arr.strides.getD k 0) (out.arr.shape.getD k 0).toNat)
      (multirange (out.arr.shape.eraseIdx k)) h = some h' ∧
      Updated h out.arr (fun c => (x.arr.read h (proj x.arr.shape c)).bind fun u => (y.arr.read h (proj y.arr.shape c)).map (op u)) h' := by
    intro k hk
    have hm : out.arr.shape.getD k 0 ∈ out.arr.shape := by
      rw [List.getD_eq_getElem?_getD, List.getElem?_eq_getElem hk, Option.getD_some]; exact List.getElem_mem hk
    obtain ⟨h', f1, f2⟩ := binary_rows T B1 B2 L out.w op k hk (hpos _ hm) (by
      intro g1 _ _ _
      rcases hbug with hb | hb | ⟨hb1, hb2⟩
      · have := hb _ hm
        have := hpos _ hm
        left; omega
      · right; exact hb
      · exfalso
        dsimp only at g1
        rw [q1 hb1] at g1
        have hk' : k < x.arr.strides.length := by rw [← hx.len, hb1]; exact hk
        rw [List.getD_eq_getElem?_getD, List.getElem?_eq_getElem hk', Option.getD_some] at g1
        exact hb2 _ (List.getElem_mem hk') g1)
    exact ⟨h', f1, hfin h' f2⟩
  unfold applyBinary
  rw [if_neg (by have := hax.1; have := hay.1; omega)]
  split
  · next h1 =>
    obtain ⟨h', f1, f2⟩ := hstep 0 (by omega)
    refine ⟨h', ?_, f2⟩
    have hst : ∀ (z : Opd) (st : List Int), z.arr.WF h → broadcastStrides true z.arr out.arr.shape = .ok st → (z.arr.shape = out.arr.shape → st = z.arr.strides) →
        (z.arr.shape = [] ∨ z.arr.shape = out.arr.shape) → st.length = 1 → (if z.arr.shape.length = 0 then 0 else z.arr.strides.headD 0) = st.headD 0 := by
      intro z st hz e q hc hl
      rcases hc with hc | hc
      · rw [if_pos (by simp [hc])]
        have hzl := hz.len
        rw [hc] at hzl
        have : z.arr.strides = [] := by simpa using hzl.symm
        match ho : out.arr.shape, h1 with
        | [n], _ =>
          rw [broadcastStrides, hc, this, ho] at e
          have := Except.ok.inj e
          rw [← this]; rfl
      · rw [if_neg (by rw [hc]; omega), q hc]
    have hl1 : st1.length = 1 := by have := B1.len; dsimp only at this; omega
    have hl2 : st2.length = 1 := by have := B2.len; dsimp only at this; omega
    rw [hst x st1 hx e1 q1 (h1x h1) hl1, hst y st2 hy e2 q2 (h1y h1) hl2]
    obtain ⟨z1, z2⟩ := zero_ptr ⟨out.arr.shape, st1, x.arr.blk, x.arr.off⟩ hl1
    obtain ⟨z3, z4⟩ := zero_ptr ⟨out.arr.shape, st2, y.arr.blk, y.arr.off⟩ hl2
    obtain ⟨z5, z6⟩ := zero_ptr out.arr (by omega)
    dsimp only at z2 z4
    match hs : out.arr.shape, h1 with
    | [n], _ =>
      rw [hs] at f1 z1 z3
      simp only [List.eraseIdx_cons_zero, multirange, rows, z1, z2, z3, z4, z5, z6, List.getD_cons_zero] at f1
      rw [show count [n] = n by simp [count]]
      cases hu : binaryLoop L out.w op (x.arr.blk, x.arr.off) (st1.headD 0) (y.arr.blk, y.arr.off) (st2.headD 0) (out.arr.blk, out.arr.off) (out.arr.strides.headD 0) n.toNat h with
      | none => rw [hu] at f1; cases f1
      | some h2 => rw [hu] at f1; rw [Option.some.inj f1]; rfl
  · rw [e1, e2]
    dsimp only
    split
    · next hc =>
      rw [Bool.and_eq_true] at hc
      obtain ⟨_, f, g1, g2⟩ := contigMatch_cases _ _ hc.1
      obtain ⟨_, f', g3, g4⟩ := contigMatch_cases _ _ hc.2
      dsimp only at g1 g3
      rw [hwx] at g1
      rw [hwy] at g3
      have F1 := flat_of _ _ _ _ rfl B1.len g1
      have F2 := flat_of _ _ _ _ rfl hol g2
      have F3 := flat_of _ _ _ _ rfl B2.len g3
      have F4 := flat_of _ _ _ _ rfl hol g4
      have F5 : Flat out.arr.shape out.w f ⟨out.arr.shape, st2, y.arr.blk, y.arr.off⟩ := fun c hc => by rw [F3 c hc, ← F4 c hc, F2 c hc]
      obtain ⟨h', f1, f2⟩ := binary_flat T B1 B2 L out.w op f (count_pos _ hpos) F2 F1 F5
      exact ⟨h', by rw [f1]; rfl, hfin h' f2⟩
    · obtain ⟨h', f1, f2⟩ := hstep (loopAxis out.arr.shape st1) (loopAxis_lt _ _ (by omega))
      exact ⟨h', by rw [f1]; rfl, f2⟩

end

end Codon.Numpy
