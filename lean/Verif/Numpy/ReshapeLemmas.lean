import Verif.Numpy.ReshapeModel
import Verif.Numpy.Lemmas
/-!
# Lemmas on `copy` and `reshape`
-/
namespace Codon.Numpy
variable {V : Type}

/-! ### Offsets in row-major order -/

theorem offsets_nil : offsets [] = [0] := rfl

theorem offsets_one (s : Int) (l : List (Int × Int)) : offsets ((1, s) :: l) = offsets l := by
  rw [offsets_cons]
  have : upto 1 = [0] := by decide
  simp [this]

theorem offsets_append : ∀ (l l' : List (Int × Int)), offsets (l ++ l') = (offsets l).flatMap fun x => (offsets l').map fun y => x + y
  | [], l' => by simp [offsets_nil]
  | (d, s) :: l, l' => by
    rw [List.cons_append, offsets_cons, offsets_cons, offsets_append l l']
    simp only [List.map_flatMap, List.flatMap_assoc, List.flatMap_map, List.map_map]
    congr 1; funext i; congr 1; funext x; congr 1; funext y
    simp only [Function.comp]; ring

theorem offsets_filter : ∀ l : List (Int × Int), offsets (l.filter fun p => decide (p.1 ≠ 1)) = offsets l
  | [] => rfl
  | (d, s) :: l => by
    by_cases h : d = 1
    · subst h
      rw [List.filter_cons_of_neg (by simp), offsets_one, offsets_filter l]
    · rw [List.filter_cons_of_pos (by simpa using h), offsets_cons, offsets_cons, offsets_filter l]

theorem count_filter : ∀ l : List (Int × Int), count ((l.filter fun p => decide (p.1 ≠ 1)).map (·.1)) = count (l.map (·.1))
  | [] => rfl
  | (d, s) :: l => by
    by_cases h : d = 1
    · subst h
      rw [List.filter_cons_of_neg (by simp), List.map_cons, count_cons, count_filter l]; ring
    · rw [List.filter_cons_of_pos (by simpa using h), List.map_cons, List.map_cons, count_cons, count_cons, count_filter l]

theorem offsets_ones : ∀ (l : List (Int × Int)), (∀ p ∈ l, p.1 = 1) → offsets l = [0]
  | [], _ => rfl
  | (d, s) :: l, h => by
    have : d = 1 := h (d, s) (by simp)
    subst this
    rw [offsets_one, offsets_ones l fun p hp => h p (by simp [hp])]

/-- Strides that make a group of dimensions one progression of step `s`. -/
def Prog (s : Int) : List (Int × Int) → Prop
  | [] => True
  | (_, st) :: r => st = count (r.map (·.1)) * s ∧ Prog s r

theorem prog_offsets (s : Int) : ∀ l : List (Int × Int), (∀ p ∈ l, 0 ≤ p.1) → Prog s l → offsets l = (upto (count (l.map (·.1)))).map (· * s)
  | [], _, _ => by simp [offsets_nil, count_nil, show upto 1 = [0] from by decide]
  | (d, st) :: r, hn, h => by
    have hr : ∀ p ∈ r, 0 ≤ p.1 := fun p hp => hn p (by simp [hp])
    rw [offsets_cons, prog_offsets s r hr h.2, List.map_cons, count_cons]
    have hd : 0 ≤ d := hn (d, st) (by simp)
    have hc : 0 ≤ count (r.map (·.1)) := count_nonneg _ (by
      intro n hn'; obtain ⟨p, hp, rfl⟩ := List.mem_map.mp hn'; exact hr p hp)
    obtain ⟨d', rfl⟩ := Int.eq_ofNat_of_zero_le hd
    obtain ⟨c', hc'⟩ := Int.eq_ofNat_of_zero_le hc
    rw [hc', h.1, hc']
    have := congrArg (List.map (· * s)) (upto_mul c' d')
    rw [List.map_flatMap] at this
    rw [show ((d' : Int) * (c' : Int)) = ((c' * d' : Nat) : Int) by push_cast; ring, ← this]
    congr 1; funext i
    simp only [List.map_map]
    congr 1; funext j
    simp only [Function.comp]; ring

theorem prog_append (s : Int) : ∀ (l l' : List (Int × Int)), Prog s (l ++ l') ↔ Prog (count (l'.map (·.1)) * s) l ∧ Prog s l'
  | [], l' => by simp [Prog]
  | (d, st) :: l, l' => by
    simp only [List.cons_append, Prog, List.map_append, count_append]
    rw [prog_append s l l', and_assoc]
    constructor
    · rintro ⟨h1, h2, h3⟩; exact ⟨by rw [h1]; ring, h2, h3⟩
    · rintro ⟨h1, h2, h3⟩; exact ⟨by rw [h1]; ring, h2, h3⟩

/-- Strides computed by `stridesLoop` on the reversed dimensions. -/
theorem prog_strides : ∀ (ds : List Int) (s : Int), Prog s ((ds.reverse.zip (stridesLoop ds s).reverse))
  | [], s => trivial
  | d :: ds, s => by
    have hl : ∀ (ds : List Int) (s : Int), (stridesLoop ds s).length = ds.length := by
      intro ds; induction ds with
      | nil => intro s; rfl
      | cons d ds ih => intro s; simp [stridesLoop, ih]
    simp only [stridesLoop, List.reverse_cons]
    rw [List.zip_append (by simp [hl]), prog_append]
    refine ⟨?_, ?_⟩
    · have := prog_strides ds (s * d)
      simpa [count_cons, count_nil, mul_comm] using this
    · simp [Prog, count_nil]

theorem stridesLoop_length : ∀ (ds : List Int) (s : Int), (stridesLoop ds s).length = ds.length
  | [], s => rfl
  | d :: ds, s => by simp [stridesLoop, stridesLoop_length ds]

theorem stridesOf_length (ds : List Int) (f : Bool) (w : Int) : (stridesOf ds f w).length = ds.length := by
  cases f <;> simp [stridesOf, stridesLoop_length]

theorem prog_stridesOf_c (ds : List Int) (w : Int) : Prog w (ds.zip (stridesOf ds false w)) := by
  have := prog_strides ds.reverse w
  simpa [stridesOf] using this

theorem prog_stridesOf_f (ds : List Int) (w : Int) : Prog w (ds.zip (stridesOf ds true w)).reverse := by
  have := prog_strides ds w
  rw [zip_reverse _ _ (by rw [stridesLoop_length])] at this
  simpa [stridesOf] using this

/-! ### Offsets in column-major order -/

/-- The offsets in column-major order. -/
def foffsets (l : List (Int × Int)) : List Int := (fnest (l.map (·.1))).map fun c => ptrOff c (l.map (·.2))

theorem foffsets_eq (l : List (Int × Int)) : foffsets l = offsets l.reverse := by
  simp only [foffsets, offsets, fnest_eq, List.map_map, List.map_reverse]
  apply List.map_congr_left
  intro c hc
  rw [mem_multirange] at hc
  simp only [Function.comp]
  have hl := Valid.length hc
  have := ptrOff_reverse c (l.map (·.2)).reverse (by simpa using hl)
  rw [List.reverse_reverse] at this
  exact this

/-! ### Elements through offsets -/

theorem elems_offsets (h : Heap V) (a : Arr) (hl : a.shape.length = a.strides.length) (vs : List V)
    (hv : (offsets (a.shape.zip a.strides)).mapM (fun o => h.get a.blk (a.off + o)) = some vs) : Elems cLess h a vs := by
  refine ⟨_, inOrder_multirange _, ?_⟩
  rw [offsets, mapM_map, List.map_fst_zip (by omega), List.map_snd_zip (by omega)] at hv
  exact hv

theorem elems_foffsets (h : Heap V) (a : Arr) (hl : a.shape.length = a.strides.length) (vs : List V)
    (hv : (foffsets (a.shape.zip a.strides)).mapM (fun o => h.get a.blk (a.off + o)) = some vs) : Elems fLess h a vs := by
  refine ⟨_, inOrder_fnest _, ?_⟩
  rw [foffsets, mapM_map, List.map_fst_zip (by omega), List.map_snd_zip (by omega)] at hv
  exact hv

theorem wf_offsets (h : Heap V) (a : Arr) (hwf : a.WF h) : ∀ o ∈ offsets (a.shape.zip a.strides), ∃ v, h.get a.blk (a.off + o) = some v := by
  intro o ho
  rw [offsets, List.map_fst_zip (by rw [hwf.len]), List.map_snd_zip (by rw [hwf.len])] at ho
  obtain ⟨c, hc, rfl⟩ := List.mem_map.mp ho
  exact hwf.alloc c ((mem_multirange _ _).mp hc)

theorem wf_of_offsets (h : Heap V) (a : Arr) (hl : a.shape.length = a.strides.length) (hn : ∀ n ∈ a.shape, 0 ≤ n) (hb : a.blk < h.next)
    (ho : ∀ o ∈ offsets (a.shape.zip a.strides), ∃ v, h.get a.blk (a.off + o) = some v) : a.WF h := by
  refine ⟨hl, hn, fun c hc => ?_, hb⟩
  rw [offsets, List.map_fst_zip (by omega), List.map_snd_zip (by omega)] at ho
  exact ho _ (List.mem_map.mpr ⟨c, (mem_multirange _ _).mpr hc, rfl⟩)

theorem foffsets_perm (l : List (Int × Int)) : (foffsets l).Perm (offsets l) := by
  rw [foffsets_eq]; exact offsets_perm l.reverse_perm

theorem offsets_contig_c (a : Arr) (w : Int) (hl : a.shape.length = a.strides.length) (hn : ∀ n ∈ a.shape, 0 ≤ n) (hc : (a.contig w).1 = true) :
    offsets (a.shape.zip a.strides) = (upto (count a.shape)).map (· * w) := by
  rw [offsets, List.map_fst_zip (by omega), List.map_snd_zip (by omega), ← multirange_map_index _ hn, List.map_map]
  apply List.map_congr_left
  intro c hv
  exact contig_c a w hl hc c ((mem_multirange _ _).mp hv)

theorem offsets_contig_f (a : Arr) (w : Int) (hl : a.shape.length = a.strides.length) (hn : ∀ n ∈ a.shape, 0 ≤ n) (hc : (a.contig w).2 = true) :
    foffsets (a.shape.zip a.strides) = (upto (count a.shape)).map (· * w) := by
  rw [foffsets, List.map_fst_zip (by omega), List.map_snd_zip (by omega), ← fnest_map_fIndex _ hn, List.map_map]
  apply List.map_congr_left
  intro c hv
  exact contig_f a w hl hc c (((inOrder_fnest _).2 _).mp hv)

theorem zip_nonneg (sh st : List Int) (hn : ∀ n ∈ sh, 0 ≤ n) : ∀ p ∈ sh.zip st, 0 ≤ p.1 := by
  intro p hp
  exact hn _ (List.of_mem_zip (a := p.1) (b := p.2) hp).1

theorem offsets_fresh_c (sh : List Int) (w : Int) (hn : ∀ n ∈ sh, 0 ≤ n) : offsets (sh.zip (stridesOf sh false w)) = (upto (count sh)).map (· * w) := by
  rw [prog_offsets w _ (zip_nonneg _ _ hn) (prog_stridesOf_c sh w), List.map_fst_zip (by rw [stridesOf_length])]

theorem offsets_fresh_f (sh : List Int) (w : Int) (hn : ∀ n ∈ sh, 0 ≤ n) : foffsets (sh.zip (stridesOf sh true w)) = (upto (count sh)).map (· * w) := by
  rw [foffsets_eq, prog_offsets w _ (fun p hp => zip_nonneg _ _ hn p (List.mem_reverse.mp hp)) (prog_stridesOf_f sh w), List.map_reverse, count_reverse,
    List.map_fst_zip (by rw [stridesOf_length])]

/-! ### The grouping loop -/

theorem count_pos (l : List Int) (h : ∀ n ∈ l, 0 < n) : 0 < count l := by
  induction l with
  | nil => decide
  | cons n ns ih => rw [count_cons]; exact mul_pos (h n (by simp)) (ih fun m hm => h m (by simp [hm]))

theorem grow_spec : ∀ (np op : Int) (gn : List Int) (go : List (Int × Int)) (rn : List Int) (ro : List (Int × Int)), 0 < np → 0 < op → (∀ n ∈ rn, 0 < n) →
    (∀ p ∈ ro, 0 < p.1) → np * count rn = op * count (ro.map (·.1)) →
    ∃ gn' go' rn' ro', grow np op gn go rn ro = some (gn ++ gn', go ++ go', rn', ro') ∧ rn = gn' ++ rn' ∧ ro = go' ++ ro' ∧
      np * count gn' = op * count (go'.map (·.1)) ∧ count rn' = count (ro'.map (·.1)) := by
  intro np op gn go rn ro
  induction hk : rn.length + ro.length using Nat.strongRecOn generalizing np op gn go rn ro with
  | ind k ih =>
    intro hnp hop hrn hro heq
    by_cases h : np = op
    · refine ⟨[], [], rn, ro, ?_, rfl, rfl, by simp [h, count_nil], ?_⟩
      · rw [grow.eq_def, if_pos h]; simp
      · rw [h] at heq; exact mul_left_cancel₀ (by omega) heq
    · have hcn := count_pos rn hrn
      have hco := count_pos (ro.map (·.1)) (by intro n hn; obtain ⟨p, hp, rfl⟩ := List.mem_map.mp hn; exact hro p hp)
      by_cases hlt : np < op
      · cases rn with
        | nil => rw [count_nil] at heq; nlinarith
        | cons d rn =>
          have hd := hrn d (by simp)
          obtain ⟨gn', go', rn', ro', h1, h2, h3, h4, h5⟩ := ih (rn.length + ro.length) (by simp at hk; omega) (np * d) op (gn ++ [d]) go rn ro rfl
            (mul_pos hnp hd) hop (fun n hn => hrn n (by simp [hn])) hro (by rw [← heq, count_cons]; ring)
          refine ⟨d :: gn', go', rn', ro', ?_, by rw [h2]; rfl, h3, by rw [← h4, count_cons]; ring, h5⟩
          rw [grow.eq_def, if_neg h, if_pos hlt]
          simp only [h1]; simp
      · cases ro with
        | nil =>
          simp only [List.map_nil, count_nil] at heq
          have : op < np := by omega
          nlinarith
        | cons p ro =>
          have hd := hro p (by simp)
          obtain ⟨gn', go', rn', ro', h1, h2, h3, h4, h5⟩ := ih (rn.length + ro.length) (by simp at hk; omega) np (op * p.1) gn (go ++ [p]) rn ro rfl
            hnp (mul_pos hop hd) hrn (fun q hq => hro q (by simp [hq])) (by rw [heq, List.map_cons, count_cons]; ring)
          refine ⟨gn', p :: go', rn', ro', ?_, h2, by rw [h3]; rfl, by rw [h4, List.map_cons, count_cons]; ring, h5⟩
          rw [grow.eq_def, if_neg h, if_neg hlt]
          simp only [h1]; simp

/-- Row-major check of the old strides: the group is one progression with the last stride as step. -/
theorem chain_prog_c : ∀ (l : List (Int × Int)) (p : Int × Int), chainOk false l = true → l.getLast? = some p → Prog p.2 l
  | [], p, _, h => by simp at h
  | [x], p, _, h => by
    simp at h; subst h
    simp [Prog, count_nil]
  | x :: y :: r, p, hc, h => by
    simp only [chainOk, Bool.false_eq_true, if_false, Bool.and_eq_true, decide_eq_true_eq] at hc
    have hp := chain_prog_c (y :: r) p hc.2 (by simpa using h)
    refine ⟨?_, hp⟩
    rw [hc.1, hp.1, List.map_cons, count_cons]; ring

/-- Column-major check: the reversed group is one progression with the first stride as step. -/
theorem chain_prog_f : ∀ (l : List (Int × Int)) (p : Int × Int), chainOk true l = true → l.head? = some p → Prog p.2 l.reverse := by
  have gen : ∀ (l : List (Int × Int)) (x : Int × Int), chainOk true (x :: l) = true → Prog (x.1 * x.2) l.reverse := by
    intro l
    induction l with
    | nil => intro x _; trivial
    | cons y r ih =>
      intro x hc
      simp only [chainOk, if_true, Bool.and_eq_true, decide_eq_true_eq] at hc
      rw [List.reverse_cons, prog_append]
      refine ⟨?_, ?_⟩
      · have := ih y hc.2
        simpa [count_cons, count_nil, hc.1] using this
      · simp [Prog, count_nil, hc.1]
  intro l p hc hp
  cases l with
  | nil => simp at hp
  | cons x r =>
    simp only [List.head?_cons, Option.some.injEq] at hp; subst hp
    rw [List.reverse_cons, prog_append]
    exact ⟨by have := gen r x hc; simpa [count_cons, count_nil] using this, by simp [Prog, count_nil]⟩

theorem finishStrides_some (w : Int) (f : Bool) (acc : List Int) (last : Option Int) (rn : List Int) (h : f = true → last ≠ none) :
    ∃ x, finishStrides w f acc last rn = some (acc ++ rn.map fun _ => x) := by
  cases f with
  | false => exact ⟨_, rfl⟩
  | true =>
    cases hl : last with
    | none => exact absurd hl (h rfl)
    | some d => exact ⟨_, rfl⟩

theorem zip_const (x : Int) : ∀ (rn : List Int), (∀ n ∈ rn, n = 1) → ∀ p ∈ rn.zip (rn.map fun _ => x), p.1 = 1 := by
  intro rn h p hp
  exact h _ (List.of_mem_zip (a := p.1) (b := p.2) hp).1

theorem ones_of_count : ∀ (l : List Int), (∀ n ∈ l, 0 < n) → count l = 1 → ∀ n ∈ l, n = 1
  | [], _, _, n, hn => by simp at hn
  | d :: l, hp, hc, n, hn => by
    rw [count_cons] at hc
    have hd := hp d (by simp)
    have hl := count_pos l fun m hm => hp m (by simp [hm])
    have h1 : d = 1 := by nlinarith
    have h2 : count l = 1 := by subst h1; omega
    rcases List.mem_cons.mp hn with rfl | hn
    · exact h1
    · exact ones_of_count l (fun m hm => hp m (by simp [hm])) h2 n hn

/-- The offsets in the order that is asked for. -/
def ords (f : Bool) (l : List (Int × Int)) : List Int := if f then foffsets l else offsets l

/-- Two lists of dimensions with the same offsets in both halves have the same offsets. -/
theorem ords_append (f : Bool) (a b c d : List (Int × Int)) (h1 : ords f a = ords f c) (h2 : ords f b = ords f d) : ords f (a ++ b) = ords f (c ++ d) := by
  cases f with
  | false =>
    simp only [ords, Bool.false_eq_true, if_false] at *
    rw [offsets_append, offsets_append, h1, h2]
  | true =>
    simp only [ords, if_true, foffsets_eq, List.reverse_append] at *
    rw [offsets_append, offsets_append, h1, h2]

theorem ords_ones (f : Bool) (l : List (Int × Int)) (h : ∀ p ∈ l, p.1 = 1) : ords f l = [0] := by
  cases f with
  | false => exact offsets_ones l h
  | true => simp only [ords, if_true, foffsets_eq]; exact offsets_ones _ fun p hp => h p (List.mem_reverse.mp hp)

/-- The strides of a group give the group the offsets of the old one. -/
theorem group_ords (f : Bool) (gn : List Int) (go : List (Int × Int)) (st : List Int) (hgn : ∀ n ∈ gn, 0 < n) (hgo : ∀ p ∈ go, 0 < p.1)
    (hc : count gn = count (go.map (·.1))) (hok : chainOk f go = true) (hst : groupStrides f gn go = some st) :
    st.length = gn.length ∧ ords f (gn.zip st) = ords f go := by
  cases f with
  | false =>
    simp only [groupStrides, Bool.false_eq_true, if_false, Option.map_eq_some_iff] at hst
    obtain ⟨p, hp, rfl⟩ := hst
    have h1 := chain_prog_c go p hok hp
    have h2 := prog_strides gn.reverse p.2
    rw [List.reverse_reverse] at h2
    refine ⟨by simp [stridesLoop_length], ?_⟩
    simp only [ords, Bool.false_eq_true, if_false]
    rw [prog_offsets _ _ (fun q hq => (hgo q hq).le) h1, prog_offsets _ _ (zip_nonneg _ _ fun n hn => (hgn n hn).le) h2,
      List.map_fst_zip (by simp [stridesLoop_length]), hc]
  | true =>
    simp only [groupStrides, if_true, Option.map_eq_some_iff] at hst
    obtain ⟨p, hp, rfl⟩ := hst
    have h1 := chain_prog_f go p hok hp
    have h2 := prog_strides gn p.2
    rw [zip_reverse _ _ (by rw [stridesLoop_length])] at h2
    refine ⟨by simp [stridesLoop_length], ?_⟩
    simp only [ords, if_true, foffsets_eq]
    rw [prog_offsets _ _ (fun q hq => (hgo q (List.mem_reverse.mp hq)).le) h1,
      prog_offsets _ _ (fun q hq => zip_nonneg _ _ (fun n hn => (hgn n hn).le) q (List.mem_reverse.mp hq)) h2,
      List.map_reverse, List.map_reverse, count_reverse, count_reverse, List.map_fst_zip (by simp [stridesLoop_length]), hc]

theorem attemptLoop_spec (w : Int) (f : Bool) : ∀ (fuel : Nat) (rn : List Int) (ro : List (Int × Int)) (acc : List Int) (last : Option Int)
    (dn : List Int) (dol : List (Int × Int)), rn.length ≤ fuel → (∀ n ∈ rn, 0 < n) → (∀ p ∈ ro, 0 < p.1 ∧ p.1 ≠ 1) → count rn = count (ro.map (·.1)) →
    (f = true → last ≠ none ∨ ro ≠ []) → dn.length = acc.length → ords f (dn.zip acc) = ords f dol →
    ∃ r, attemptLoop w f fuel rn ro acc last = some r ∧
      ∀ st, r = some st → st.length = (dn ++ rn).length ∧ ords f ((dn ++ rn).zip st) = ords f (dol ++ ro) := by
  have finish : ∀ (rn : List Int) (acc : List Int) (last : Option Int) (dn : List Int) (dol : List (Int × Int)), (∀ n ∈ rn, n = 1) → (f = true → last ≠ none) →
      dn.length = acc.length → ords f (dn.zip acc) = ords f dol →
      ∃ r, (finishStrides w f acc last rn).map some = some r ∧ ∀ st, r = some st → st.length = (dn ++ rn).length ∧ ords f ((dn ++ rn).zip st) = ords f (dol ++ []) := by
    intro rn acc last dn dol h1 hl hd ho
    obtain ⟨x, hx⟩ := finishStrides_some w f acc last rn hl
    refine ⟨some _, by rw [hx]; rfl, ?_⟩
    rintro st hst
    simp only [Option.some.injEq] at hst; subst hst
    refine ⟨by simp [hd], ?_⟩
    rw [List.zip_append hd]
    apply ords_append f _ _ _ _ ho
    rw [ords_ones f _ (zip_const x rn h1), ords_ones f [] (by simp)]
  intro fuel
  induction fuel with
  | zero =>
    intro rn ro acc last dn dol hf hrn hro hc hl hd ho
    have : rn = [] := List.length_eq_zero_iff.mp (by omega)
    subst this
    have hro0 : ro = [] := by
      cases ro with
      | nil => rfl
      | cons p ro =>
        have := ones_of_count _ (by intro n hn; obtain ⟨q, hq, rfl⟩ := List.mem_map.mp hn; exact (hro q hq).1) hc.symm p.1 (by simp)
        exact absurd this (hro p (by simp)).2
    subst hro0
    obtain ⟨r, h1, h2⟩ := finish [] acc last dn dol (by simp) (fun h => (hl h).resolve_right (by simp)) hd ho
    exact ⟨r, by simpa [attemptLoop] using h1, h2⟩
  | succ fuel ih =>
    intro rn ro acc last dn dol hf hrn hro hc hl hd ho
    cases rn with
    | nil =>
      have hro0 : ro = [] := by
        cases ro with
        | nil => rfl
        | cons p ro =>
          have := ones_of_count _ (by intro n hn; obtain ⟨q, hq, rfl⟩ := List.mem_map.mp hn; exact (hro q hq).1) hc.symm p.1 (by simp)
          exact absurd this (hro p (by simp)).2
      subst hro0
      obtain ⟨r, h1, h2⟩ := finish [] acc last dn dol (by simp) (fun h => (hl h).resolve_right (by simp)) hd ho
      exact ⟨r, by simpa [attemptLoop] using h1, h2⟩
    | cons n rn =>
      cases ro with
      | nil =>
        obtain ⟨r, h1, h2⟩ := finish (n :: rn) acc last dn dol (ones_of_count _ hrn hc) (fun h => (hl h).resolve_right (by simp)) hd ho
        exact ⟨r, by simpa [attemptLoop] using h1, h2⟩
      | cons o ro =>
        have hn := hrn n (by simp)
        have ho' := hro o (by simp)
        simp only [List.map_cons, count_cons] at hc
        obtain ⟨gn', go', rn', ro', h1, h2, h3, h4, h5⟩ := grow_spec n o.1 [n] [o] rn ro hn ho'.1 (fun m hm => hrn m (by simp [hm]))
          (fun p hp => (hro p (by simp [hp])).1) hc
        simp only [attemptLoop, h1]
        by_cases hok : chainOk f ([o] ++ go') = true
        · have hgs : ∃ st, groupStrides f ([n] ++ gn') ([o] ++ go') = some st := by
            cases f with
            | false =>
              have : ([o] ++ go').getLast? ≠ none := by simp
              obtain ⟨p, hp⟩ := Option.ne_none_iff_exists'.mp this
              exact ⟨_, by simp only [groupStrides, Bool.false_eq_true, if_false, hp, Option.map_some]; rfl⟩
            | true => exact ⟨_, rfl⟩
          obtain ⟨st, hst⟩ := hgs
          obtain ⟨g1, g2⟩ := group_ords f _ _ st (by
              intro m hm; rcases List.mem_append.mp hm with hm | hm
              · simp at hm; omega
              · exact hrn m (by rw [h2]; simp [hm]))
            (by
              intro p hp; rcases List.mem_append.mp hp with hp | hp
              · simp at hp; subst hp; exact ho'.1
              · exact (hro p (by rw [h3]; simp [hp])).1)
            (by simpa [count_cons] using h4) hok hst
          rw [if_pos hok]
          simp only [hst]
          obtain ⟨r, e1, e2⟩ := ih rn' ro' (acc ++ st) ([n] ++ gn').getLast? (dn ++ ([n] ++ gn')) (dol ++ ([o] ++ go'))
            (by rw [h2] at hf; simp at hf; omega) (fun m hm => hrn m (by rw [h2]; simp [hm])) (fun p hp => hro p (by rw [h3]; simp [hp])) h5
            (fun _ => Or.inl (by simp)) (by simp [hd]; simpa using g1.symm) (by rw [List.zip_append hd]; exact ords_append f _ _ _ _ ho g2)
          refine ⟨r, e1, ?_⟩
          intro st' hst'
          have := e2 st' hst'
          rw [h2, h3]
          simpa [List.append_assoc] using this
        · rw [if_neg hok]
          exact ⟨none, rfl, by simp⟩

end Codon.Numpy
