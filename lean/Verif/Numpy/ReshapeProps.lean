import Verif.Numpy.FixLemmas
/-!
# C62: copying and reshaping keep the elements

Full statement: `copy` gives a new array with the same shape and elements; `reshape` gives an array of the requested shape (one dimension may be left to be found) with the
same elements in the order asked for, sharing the memory when the layout permits, and raises `ValueError` exactly when no unique shape fits or the order is `'K'`.
It fails for `reshape((…), order=…)` with a tuple, which drops the order (`c62_violation_tuple`), and for `reshape(order='K')` without dimensions (`c62_violation_k`);
everything else is proved.
-/
namespace Codon.Numpy
variable {V : Type}

/-- `copy`: a new array in new memory with the same elements. -/
theorem c62_copy (h : Heap V) (a : Arr) (w : Int) (junk : Int → V) (order : Order) (hw : 0 < w) (hwf : a.WF h) :
    ∃ h' x, a.copy h w junk order = some (h', x) ∧ x.WF h' ∧ x.shape = a.shape ∧ h.next ≤ x.blk ∧ Kept h h' ∧ ∀ c, Valid c a.shape → x.read h' c = a.read h c := by
  obtain ⟨h', e1, e2, e3, e4⟩ := copy_spec a h w junk order hw hwf
  exact ⟨h', _, e1, copy_wf a h h' _ hwf rfl (by simp [stridesOf_length]) (by rw [e2]; simp) e4, rfl, le_refl _, fun b hb => e3 b (by omega), e4⟩

/-- `copy('C')` and `copy('F')` are laid out as asked. -/
theorem c62_copy_layout (h : Heap V) (a : Arr) (w : Int) (junk : Int → V) (order : Order) (hw : 0 < w) (hwf : a.WF h) (h' : Heap V) (x : Arr)
    (he : a.copy h w junk order = some (h', x)) :
    (order = .C → ∀ c, Valid c a.shape → ptrOff c x.strides = coordsToIndex c a.shape * w) ∧
    (order = .F → ∀ c, Valid c a.shape → ptrOff c x.strides = coordsToFIndex c a.shape * w) := by
  obtain ⟨h'', e1, _, _, _⟩ := copy_spec a h w junk order hw hwf
  rw [e1, Option.some.injEq, Prod.mk.injEq] at he
  obtain ⟨_, rfl⟩ := he
  constructor
  · rintro rfl c hc
    rw [coordsToIndex_eq _ _ (Valid.length hc)]
    have : copyForder a w .C = false := by
      simp only [copyForder, true_and, reduceCtorEq, false_and, or_false, if_false, or_self]
      split
      · next hcc => simp [hcc]
      · rfl
    simp only [this]
    exact fresh_c_pos _ w hwf.nonneg c hc
  · rintro rfl c hc
    rw [coordsToFIndex_eq]
    by_cases hb : (a.contig w).2 = true ∧ (a.contig w).1 = true
    · have : copyForder a w .F = false := by simp [copyForder, hb.1, hb.2]
      simp only [this]
      rw [fresh_c_pos _ w hwf.nonneg c hc]
      have e1 := contig_c a w hwf.len hb.2 c hc
      have e2 := contig_f a w hwf.len hb.1 c hc
      rw [← e1, ← e2]
    · have : copyForder a w .F = true := by
        simp only [copyForder, true_and, reduceCtorEq, false_and, false_or, if_true]
        split
        · next hf => 
          have : (a.contig w).1 = false := by
            rw [← Bool.not_eq_true]; exact fun hc => hb ⟨hf, hc⟩
          simp [hf, this]
        · rfl
      simp only [this]
      exact fresh_f_pos _ w hwf.nonneg c hc

/-! ### Reshaping -/

/-- Row-major or column-major order. -/
def ordLess (f : Bool) : List Int → List Int → Prop := if f then fLess else cLess

/-- `b` in heap `h'` is `a` with shape `s`, the elements listed in the order `less`: a view of the same memory, or new. -/
def Reshaped (less : List Int → List Int → Prop) (h : Heap V) (a : Arr) (h' : Heap V) (b : Arr) (s : List Int) : Prop :=
  b.shape = s ∧ b.WF h' ∧ Kept h h' ∧ (∃ vs, Elems less h a vs ∧ Elems less h' b vs) ∧ ((h' = h ∧ SameView less a b) ∨ h.next ≤ b.blk)

theorem elems_ords (f : Bool) (h : Heap V) (a : Arr) (hl : a.shape.length = a.strides.length) (vs : List V)
    (hv : (ords f (a.shape.zip a.strides)).mapM (fun o => h.get a.blk (a.off + o)) = some vs) : Elems (ordLess f) h a vs := by
  cases f with
  | false => exact elems_offsets h a hl vs hv
  | true => exact elems_foffsets h a hl vs hv

theorem ords_perm (f : Bool) (l : List (Int × Int)) : (ords f l).Perm (offsets l) := by
  cases f with
  | false => exact .refl _
  | true => exact foffsets_perm l

theorem ords_mem (f : Bool) (l : List (Int × Int)) (o : Int) : o ∈ ords f l ↔ o ∈ offsets l := (ords_perm f l).mem_iff

theorem ords_some (f : Bool) (h : Heap V) (a : Arr) (hwf : a.WF h) : ∃ vs, (ords f (a.shape.zip a.strides)).mapM (fun o => h.get a.blk (a.off + o)) = some vs := by
  obtain ⟨vs, hv, _⟩ := mapM_some (fun o => h.get a.blk (a.off + o)) (ords f (a.shape.zip a.strides)) fun o ho => wf_offsets h a hwf o ((ords_mem f _ o).mp ho)
  exact ⟨vs, hv⟩

theorem elems_some (f : Bool) (h : Heap V) (a : Arr) (hwf : a.WF h) : ∃ vs, Elems (ordLess f) h a vs := by
  obtain ⟨vs, hv⟩ := ords_some f h a hwf
  exact ⟨vs, elems_ords f h a hwf.len vs hv⟩

/-- Equal offsets: a view. -/
theorem reshaped_view (f : Bool) (h : Heap V) (a : Arr) (hwf : a.WF h) (s st : List Int) (hl : s.length = st.length) (hn : ∀ n ∈ s, 0 ≤ n)
    (ho : ords f (s.zip st) = ords f (a.shape.zip a.strides)) :
    Reshaped (ordLess f) h a h ⟨s, st, a.blk, a.off⟩ s ∧ SameView (ordLess f) a ⟨s, st, a.blk, a.off⟩ := by
  have hsame : SameView (ordLess f) a ⟨s, st, a.blk, a.off⟩ := by
    refine ⟨rfl, fun {V} h' hwf' => ?_⟩
    obtain ⟨vs, hv⟩ := ords_some f h' a hwf'
    exact ⟨vs, elems_ords f h' a hwf'.len vs hv, elems_ords f h' _ hl vs (by dsimp only; rw [ho]; exact hv)⟩
  refine ⟨⟨rfl, ?_, fun _ _ => rfl, hsame.2 h hwf, Or.inl ⟨rfl, hsame⟩⟩, hsame⟩
  refine wf_of_offsets h _ hl hn hwf.block fun o hm => ?_
  dsimp only at hm ⊢
  have := (ords_mem f _ o).mpr hm
  rw [ho] at this
  exact wf_offsets h a hwf o ((ords_mem f _ o).mp this)

theorem cContig_zero : ∀ (l : List (Int × Int)) (sd : Int) (f : Bool), (0 : Int) ∈ l.map (·.1) → cContigLoop l sd f = none
  | [], _, _, h => by simp at h
  | (d, s) :: r, sd, f, h => by
    rw [cContigLoop]
    by_cases hd : d = 0
    · rw [if_pos hd]
    · rw [if_neg hd]
      have : (0 : Int) ∈ r.map (·.1) := by
        rw [List.map_cons, List.mem_cons] at h
        rcases h with h | h
        · exact absurd h.symm hd
        · exact h
      split <;> exact cContig_zero r _ _ this

theorem contig_zero (a : Arr) (w : Int) (hl : a.shape.length = a.strides.length) (h : (0 : Int) ∈ a.shape) : a.contig w = (true, true) := by
  rw [Arr.contig, cContig_zero]
  rw [List.map_reverse, List.mem_reverse, List.map_fst_zip (by omega)]; exact h

theorem fContig_ones : ∀ (l : List (Int × Int)) (sd : Int), (∀ p ∈ l, p.1 = 1) → fContigLoop l sd = true
  | [], _, _ => rfl
  | (d, s) :: r, sd, h => by
    have : d = 1 := h (d, s) (by simp)
    rw [fContigLoop, if_neg (by simp [this])]
    exact fContig_ones r sd fun p hp => h p (by simp [hp])

theorem contig_ones (a : Arr) (w : Int) (h : ∀ p ∈ a.shape.zip a.strides, p.1 = 1) : (a.contig w).2 = true := by
  rw [Arr.contig]
  cases cContigLoop (a.shape.zip a.strides).reverse w true with
  | none => rfl
  | some c => exact fContig_ones _ w h

/-- `_attempt_reshape_nocopy`: no undefined behaviour, and the strides it finds give the same elements. -/
theorem attempt_spec (a : Arr) (w : Int) (f : Bool) (s : List Int) (hl : a.shape.length = a.strides.length) (hn : ∀ n ∈ a.shape, 0 ≤ n) (hs : ∀ n ∈ s, 0 ≤ n)
    (hc : count s = count a.shape) (hnc : (if f then (a.contig w).2 else (a.contig w).1) = false) :
    ∃ r, attempt a w s f = some r ∧ ∀ st, r = some st → s.length = st.length ∧ ords f (s.zip st) = ords f (a.shape.zip a.strides) := by
  have hz : (0 : Int) ∉ a.shape := by
    intro h0
    rw [contig_zero a w hl h0] at hnc
    cases f <;> simp at hnc
  have hpos : ∀ n ∈ a.shape, 0 < n := fun n hm => lt_of_le_of_ne (hn n hm) fun he => hz (he ▸ hm)
  have hcp : 0 < count s := by rw [hc]; exact count_pos _ hpos
  have hspos : ∀ n ∈ s, 0 < n := fun n hm => lt_of_le_of_ne (hs n hm) fun he => by
    have := count_zero_of_mem s (he ▸ hm); omega
  have hfilt : ords f ((a.shape.zip a.strides).filter fun p => decide (p.1 ≠ 1)) = ords f (a.shape.zip a.strides) := by
    cases f with
    | false => exact offsets_filter _
    | true => simp only [ords, if_true, foffsets_eq, ← List.filter_reverse]; exact offsets_filter _
  obtain ⟨r, h1, h2⟩ := attemptLoop_spec w f s.length s ((a.shape.zip a.strides).filter fun p => decide (p.1 ≠ 1)) [] none [] [] (le_refl _) hspos
    (by
      intro p hp
      rw [List.mem_filter] at hp
      exact ⟨hpos _ (List.of_mem_zip (a := p.1) (b := p.2) hp.1).1, by simpa using hp.2⟩)
    (by rw [count_filter, List.map_fst_zip (by omega), hc])
    (by
      intro hf
      refine Or.inr fun he => ?_
      rw [List.filter_eq_nil_iff] at he
      have := contig_ones a w fun p hp => by simpa using he p hp
      rw [hf, if_pos rfl, this] at hnc
      simp at hnc)
    rfl rfl
  refine ⟨r, h1, fun st hst => ?_⟩
  have := h2 st hst
  rw [List.nil_append, List.nil_append, hfilt] at this
  exact ⟨this.1.symm, this.2⟩

theorem reshape_main (f : Bool) (order : Order) (h : Heap V) (a : Arr) (w : Int) (junk : Int → V) (hw : 0 < w) (hwf : a.WF h) (req s : List Int)
    (hk : order ≠ .K) (hf : (if order = .A then (a.contig w).2 && !(a.contig w).1 else decide (order = .F)) = f) (hr : Requests (count a.shape) req s) :
    ∃ h' b, a.reshape h w junk req order = some (.ok h' b) ∧ Reshaped (ordLess f) h a h' b s ∧
      ((if f then (a.contig w).2 else (a.contig w).1) = true → h' = h ∧ SameView (ordLess f) a b) := by
  have hfix := (fix_spec _ (count_nonneg _ hwf.nonneg) req s).mpr hr
  have hsn := hr.nonneg
  have hsc := hr.count
  by_cases h0 : req = []
  · subst h0
    have hs0 : s = [] := by
      have := hr.2.1.1
      rwa [List.forall₂_nil_left_iff] at this
    subst hs0
    rw [count_nil] at hsc
    have hp : ∀ n ∈ a.shape, 0 < n := fun n hm => lt_of_le_of_ne (hwf.nonneg n hm) fun he => by
      have := count_zero_of_mem a.shape (he ▸ hm); omega
    have h1 := ones_of_count a.shape hp hsc.symm
    obtain ⟨v1, v2⟩ := reshaped_view f h a hwf [] [] rfl (by simp) (by
      rw [ords_ones f (a.shape.zip a.strides) fun p hp => h1 _ (List.of_mem_zip (a := p.1) (b := p.2) hp).1, ords_ones f _ (by simp)])
    exact ⟨h, _, by simp [Arr.reshape, ← hsc], v1, fun _ => ⟨rfl, v2⟩⟩
  · simp only [Arr.reshape]
    rw [if_neg h0, if_neg hk, hf]
    by_cases hsh : req = a.shape
    · rw [if_pos hsh]
      have hss : s = a.shape := by
        have := fits_self (count a.shape) a.shape hwf.nonneg rfl
        rw [hsh] at hr
        exact (hr.2.2 _ this.2.1).symm
      obtain ⟨v1, v2⟩ := reshaped_view f h a hwf a.shape a.strides hwf.len hwf.nonneg rfl
      exact ⟨h, a, rfl, hss ▸ v1, fun _ => ⟨rfl, v2⟩⟩
    · rw [if_neg hsh, hfix]
      dsimp only
      have hls : ∀ f, (stridesOf s f w).length = s.length := fun f => stridesOf_length s f w
      cases hc : (if f then (a.contig w).2 else (a.contig w).1) with
      | true =>
        have hcond : ¬ ((f = false ∧ (a.contig w).1 = false) ∨ (f = true ∧ (a.contig w).2 = false)) := by
          cases f <;> simp at hc <;> simp [hc]
        rw [if_neg hcond]
        obtain ⟨v1, v2⟩ := reshaped_view f h a hwf s (stridesOf s f w) (hls f).symm hsn (by
          cases f with
          | false =>
            simp only [ords, Bool.false_eq_true, if_false] at hc ⊢
            rw [offsets_fresh_c s w hsn, offsets_contig_c a w hwf.len hwf.nonneg hc, hsc]
          | true =>
            simp only [ords, if_true] at hc ⊢
            rw [offsets_fresh_f s w hsn, offsets_contig_f a w hwf.len hwf.nonneg hc, hsc])
        exact ⟨h, _, rfl, v1, fun _ => ⟨rfl, v2⟩⟩
      | false =>
        have hcond : (f = false ∧ (a.contig w).1 = false) ∨ (f = true ∧ (a.contig w).2 = false) := by
          cases f <;> simp at hc <;> simp [hc]
        rw [if_pos hcond]
        obtain ⟨r, ha, hst⟩ := attempt_spec a w f s hwf.len hwf.nonneg hsn hsc hc
        rw [ha]
        cases r with
        | some st =>
          obtain ⟨g1, g2⟩ := hst st rfl
          obtain ⟨v1, v2⟩ := reshaped_view f h a hwf s st g1 hsn g2
          exact ⟨h, _, rfl, v1, by simp⟩
        | none =>
          dsimp only
          obtain ⟨h', e1, e2, e3, e4⟩ := copy_spec a h w junk (if f then .F else .C) hw hwf
          have hcf : copyForder a w (if f then .F else .C) = f := by
            cases f <;> simp at hc <;> simp [copyForder, hc]
          rw [hcf] at e1 e4
          rw [e1]
          have hxwf := copy_wf a h h' ⟨a.shape, stridesOf a.shape f w, h.next, 0⟩ hwf rfl (stridesOf_length _ _ _) (by rw [e2]; simp) e4
          obtain ⟨v1, _⟩ := reshaped_view f h' ⟨a.shape, stridesOf a.shape f w, h.next, 0⟩ hxwf s (stridesOf s f w) (hls f).symm hsn (by
            dsimp only
            cases f with
            | false =>
              simp only [ords, Bool.false_eq_true, if_false]
              rw [offsets_fresh_c s w hsn, offsets_fresh_c _ w hwf.nonneg, hsc]
            | true =>
              simp only [ords, if_true]
              rw [offsets_fresh_f s w hsn, offsets_fresh_f _ w hwf.nonneg, hsc])
          obtain ⟨vs, hv1, hv2⟩ := v1.2.2.2.1
          obtain ⟨cs, hcs, hm⟩ := hv1
          refine ⟨h', _, rfl, ⟨rfl, v1.2.1, fun b hb => e3 b (by omega), ⟨vs, ⟨cs, hcs, ?_⟩, hv2⟩, Or.inr (le_refl _)⟩, by simp⟩
          rw [← hm]
          exact mapM_congr _ _ _ fun c hcm => (e4 c ((hcs.2 c).mp hcm)).symm

/-- `reshape(…)` in row-major order; without a copy if the array is contiguous. -/
theorem c62_reshape_c (h : Heap V) (a : Arr) (w : Int) (junk : Int → V) (hw : 0 < w) (hwf : a.WF h) (req s : List Int) (hr : Requests (count a.shape) req s) :
    ∃ h' b, a.reshape h w junk req .C = some (.ok h' b) ∧ Reshaped cLess h a h' b s ∧ ((a.contig w).1 = true → h' = h ∧ SameView cLess a b) :=
  reshape_main false .C h a w junk hw hwf req s (by simp) (by simp) hr

/-- `reshape(…, order='F')` in column-major order. -/
theorem c62_reshape_f (h : Heap V) (a : Arr) (w : Int) (junk : Int → V) (hw : 0 < w) (hwf : a.WF h) (req s : List Int) (hr : Requests (count a.shape) req s) :
    ∃ h' b, a.reshape h w junk req .F = some (.ok h' b) ∧ Reshaped fLess h a h' b s ∧ ((a.contig w).2 = true → h' = h ∧ SameView fLess a b) :=
  reshape_main true .F h a w junk hw hwf req s (by simp) (by simp) hr

/-- `reshape(…, order='A')`: one of the two, column-major only for an array that lies so in memory. -/
theorem c62_reshape_a (h : Heap V) (a : Arr) (w : Int) (junk : Int → V) (hw : 0 < w) (hwf : a.WF h) (req s : List Int) (hr : Requests (count a.shape) req s) :
    ∃ h' b, a.reshape h w junk req .A = some (.ok h' b) ∧
      (if (a.contig w).2 = true ∧ (a.contig w).1 = false then Reshaped fLess h a h' b s else Reshaped cLess h a h' b s) := by
  obtain ⟨h', b, h1, h2, _⟩ := reshape_main _ .A h a w junk hw hwf req s (by simp) rfl hr
  refine ⟨h', b, h1, ?_⟩
  by_cases hc : (a.contig w).2 = true ∧ (a.contig w).1 = false
  · rw [if_pos hc]; simpa [ordLess, hc.1, hc.2] using h2
  · rw [if_neg hc]
    have : ((a.contig w).2 && !(a.contig w).1) = false := by
      rw [← Bool.not_eq_true]; intro hh; simp at hh; exact hc hh
    simpa [ordLess, this] using h2

/-- `ValueError` exactly when no unique shape fits. -/
theorem c62_reshape_error (h : Heap V) (a : Arr) (w : Int) (junk : Int → V) (order : Order) (hwf : a.WF h) (req : List Int)
    (hr : ¬ ∃ s, Requests (count a.shape) req s) : a.reshape h w junk req order = some .valueError := by
  have hfix : fixUnknown (count a.shape) req = none := by
    cases hf : fixUnknown (count a.shape) req with
    | none => rfl
    | some s => exact absurd ⟨s, (fix_spec _ (count_nonneg _ hwf.nonneg) req s).mp hf⟩ hr
  simp only [Arr.reshape]
  by_cases h0 : req = []
  · subst h0
    have : count a.shape ≠ 1 := by
      intro hc; simp [fixUnknown, hc] at hfix
    simp [this]
  · rw [if_neg h0]
    split
    · rfl
    · have : req ≠ a.shape := fun he => hr ⟨a.shape, by rw [he]; exact fits_self _ _ hwf.nonneg rfl⟩
      rw [if_neg this, hfix]

/-- The order `'K'` is refused. -/
theorem c62_reshape_k_partial (h : Heap V) (a : Arr) (w : Int) (junk : Int → V) (req : List Int) (hne : req ≠ []) :
    a.reshape h w junk req .K = some .valueError := by
  simp [Arr.reshape, hne]

/-- Reshaping back gives the array again. -/
theorem c62_round_trip (h : Heap V) (a : Arr) (w : Int) (junk : Int → V) (hw : 0 < w) (hwf : a.WF h) (req s : List Int) (hr : Requests (count a.shape) req s) :
    ∃ h' b h'' c, a.reshape h w junk req .C = some (.ok h' b) ∧ b.reshape h' w junk a.shape .C = some (.ok h'' c) ∧ c.shape = a.shape ∧
      ∀ i, Valid i a.shape → c.read h'' i = a.read h i := by
  obtain ⟨h', b, h1, ⟨b1, b2, b3, ⟨vs, hv, hv'⟩, _⟩, _⟩ := c62_reshape_c h a w junk hw hwf req s hr
  have hcb : count b.shape = count a.shape := by rw [b1]; exact hr.count
  obtain ⟨h'', c, h2, ⟨c1, c2, c3, ⟨us, hu, hu'⟩, _⟩, _⟩ := c62_reshape_c h' b w junk hw b2 a.shape a.shape (hcb ▸ fits_self _ _ hwf.nonneg rfl)
  refine ⟨h', b, h'', c, h1, h2, c1, ?_⟩
  have huniq : ∀ (l : List Int) (cs : List (List Int)), InOrder cLess l cs → cs = multirange l := by
    intro l cs hcs
    have hirr : ∀ x y : List Int, cLess x y → cLess y x → False := by
      intro x
      induction x with
      | nil => intro y h1; simp [cLess] at h1
      | cons p x ih =>
        intro y h1 h2
        cases y with
        | nil => simp [cLess] at h1
        | cons q y =>
          simp only [cLess] at h1 h2
          rcases h1 with h1 | h1 <;> rcases h2 with h2 | h2
          · omega
          · omega
          · omega
          · exact ih y h1.2 h2.2
    have hir : ∀ x : List Int, ¬ cLess x x := fun x hx => hirr x x hx hx
    have hnd : ∀ l : List (List Int), l.Pairwise cLess → l.Nodup := fun l hl => hl.imp fun {x y} (hxy : cLess x y) (he : x = y) => hir x (by rw [← he] at hxy; exact hxy)
    have hperm : cs.Perm (multirange l) := (List.perm_ext_iff_of_nodup (hnd _ hcs.1) (hnd _ (pairwise_multirange l))).mpr fun x => by rw [hcs.2, mem_multirange]
    exact hperm.eq_of_pairwise (fun x y _ _ h1 h2 => (hirr x y h1 h2).elim) hcs.1 (pairwise_multirange l)
  obtain ⟨cs1, o1, m1⟩ := hv
  obtain ⟨cs2, o2, m2⟩ := hv'
  obtain ⟨cs3, o3, m3⟩ := hu
  obtain ⟨cs4, o4, m4⟩ := hu'
  rw [huniq _ _ o1] at m1
  rw [huniq _ _ o2] at m2
  rw [huniq _ _ o3, m2, Option.some.injEq] at m3
  rw [huniq _ _ o4, c1, ← m3] at m4
  intro i hi
  obtain ⟨k, hk⟩ := List.getElem?_of_mem ((mem_multirange a.shape i).mpr hi)
  rw [mapM_getElem? _ _ _ m4 k i hk, mapM_getElem? _ _ _ m1 k i hk]

/-! ### Examples and violations -/

/-- A heap in which every cell of block 0 holds its offset. -/
def oneHeap : Heap Int := ⟨fun b o => if b = 0 then some o else none, 1⟩

example : Requests 12 [3, -1] [3, 4] := (fix_spec 12 (by decide) [3, -1] [3, 4]).mp rfl
example : ¬ ∃ s, Requests 0 [0, -1] s := by rintro ⟨s, hs⟩; have := (fix_spec 0 (by decide) [0, -1] s).mpr hs; simp [fixUnknown, knownLoop] at this

/-- Every second column of a 2 × 4 array: the groups of dimensions can be split without a copy. -/
example : (Arr.reshape ⟨[4, 2], [8, 2], 0, 0⟩ oneHeap 1 (fun _ => 0) [2, 2, -1] .C).map (fun r => match r with | .ok _ b => some b | _ => none) =
    some (some ⟨[2, 2, 2], [16, 8, 2], 0, 0⟩) := by decide +kernel

/-- A transposed 2 × 3 array: needs a copy. -/
example : (Arr.reshape ⟨[3, 2], [1, 3], 0, 0⟩ oneHeap 1 (fun _ => 0) [6] .C).map (fun r => match r with | .ok h b => some (b, b.flatRead h 1 1) | _ => none) =
    some (some (⟨[6], [1], 1, 0⟩, some 3)) := by decide +kernel

/-- With a tuple the order is dropped: the elements 0, 3, 1, 4, 2, 5 in column-major order become 0, 2, 4, 1, 3, 5. -/
theorem c62_violation_tuple : Arr.WF ⟨[2, 3], [3, 1], 0, 0⟩ oneHeap ∧ Elems fLess oneHeap ⟨[2, 3], [3, 1], 0, 0⟩ [0, 3, 1, 4, 2, 5] ∧
    ∃ b, Arr.reshapeTuple ⟨[2, 3], [3, 1], 0, 0⟩ oneHeap 1 (fun _ => 0) [3, 2] .F = some (.ok oneHeap b) ∧ Elems fLess oneHeap b [0, 2, 4, 1, 3, 5] := by
  refine ⟨⟨rfl, by decide, fun c _ => ⟨_, rfl⟩, by decide⟩, ⟨_, inOrder_fnest _, rfl⟩, ⟨[3, 2], [2, 1], 0, 0⟩, rfl, ⟨_, inOrder_fnest _, rfl⟩⟩

/-- Without dimensions the order `'K'` is accepted. -/
theorem c62_violation_k : ∃ b, Arr.reshape ⟨[1], [1], 0, 0⟩ oneHeap 1 (fun _ => 0) [] .K = some (.ok oneHeap b) := ⟨_, rfl⟩

end Codon.Numpy
