import Verif.NpLine.Flat
import Verif.NpSort.Props
import Verif.NpSel.Props
import Verif.Numpy.FlatProps
/-!
# C78: sorting and partitioning an array works on each line along the axis, and on nothing else

Not covered (hence `_partial`): the kind `quick` for the numbers that the compiled library sorts (a parameter in `c78_line_by_line`), and the stable kind for integers, which is the radix sort of C77
(same parameter).
-/
namespace Codon.NpLine
open Codon.Numpy Codon.NpSort
variable {V : Type} {lt : V → V → Bool}

/-- The names of the kinds of sort. -/
def kinds : List (Option String) := [none, some "quicksort", some "quick", some "mergesort", some "merge", some "stable", some "heapsort", some "heap"]

/-- What a kind of sort promises: the elements in order, and stability for the kinds with a name that says so. -/
def Promise (lt : V → V → Bool) (kind : Option String) (l l' : List V) : Prop :=
  SortedOf lt l l' ∧ (kind ∈ [some "mergesort", some "merge", some "stable"] → StableSortOf lt l l')

/-- Whatever the function that sorts one line, `ndarray.sort` applies it to each line along the axis of an array whose elements lie at different places, and changes nothing else. -/
theorem c78_line_by_line (quick stable heap : List V → Option (List V)) (h : Heap V) (a : Arr) (hwf : a.WF h) (hd : Distinct a) (axis : Int)
    (hax : -(a.shape.length : Int) ≤ axis ∧ axis < a.shape.length) (kind : Option String) (w : Int) (s : List V → Option (List V)) (hk : ofKind quick stable heap kind = some s)
    (P : List V → List V → Prop) (hs : ∀ l : List V, l.length = (a.shape.getD (axisPos axis a.shape.length) 0).toNat → ∃ l', s l = some l' ∧ l'.length = l.length ∧ P l l') :
    ∃ h', sortIn quick stable heap a axis kind false w h = some (.ok h') ∧ EachLine h a (axisPos axis a.shape.length) P h' ∧ a.WF h' := by
  unfold sortIn
  rw [hk]
  exact dispatch_spec hwf hd axis false w hax (by simp) s P hs

theorem ofKind_promise (ho : SWO lt) {kind : Option String} (hk : kind ∈ kinds) : ∃ s, ofKind (quicksort lt) (timsort lt) (heapsort lt) kind = some s ∧
    ∀ l : List V, l.length < 2 ^ 63 → ∃ l', s l = some l' ∧ l'.length = l.length ∧ Promise lt kind l l' := by
  have q : ∀ l : List V, ∃ l', quicksort lt l = some l' ∧ l'.length = l.length ∧ SortedOf lt l l' := fun l => by
    obtain ⟨l', e1, e2, e3⟩ := quicksort_spec ho l
    exact ⟨l', e1, e2.length_eq, e2, e3⟩
  have hp : ∀ l : List V, ∃ l', heapsort lt l = some l' ∧ l'.length = l.length ∧ SortedOf lt l l' := fun l => by
    obtain ⟨l', e1, e2, e3⟩ := heapsort_spec ho l
    exact ⟨l', e1, e2.length_eq, e2, e3⟩
  have t : ∀ l : List V, l.length < 2 ^ 63 → ∃ l', timsort lt l = some l' ∧ l'.length = l.length ∧ SortedOf lt l l' ∧ StableSortOf lt l l' := fun l hl => by
    obtain ⟨l', e1, e2⟩ := timsort_stable ho l hl
    exact ⟨l', e1, e2.perm.length_eq, ⟨e2.perm, e2.sorted⟩, e2⟩
  simp only [kinds, List.mem_cons, List.not_mem_nil, or_false] at hk
  rcases hk with rfl | rfl | rfl | rfl | rfl | rfl | rfl | rfl
  · exact ⟨_, rfl, fun l _ => by obtain ⟨l', e1, e2, e3⟩ := q l; exact ⟨l', e1, e2, e3, by simp⟩⟩
  · exact ⟨_, rfl, fun l _ => by obtain ⟨l', e1, e2, e3⟩ := q l; exact ⟨l', e1, e2, e3, by simp⟩⟩
  · exact ⟨_, rfl, fun l _ => by obtain ⟨l', e1, e2, e3⟩ := q l; exact ⟨l', e1, e2, e3, by simp⟩⟩
  · exact ⟨_, rfl, fun l hl => by obtain ⟨l', e1, e2, e3, e4⟩ := t l hl; exact ⟨l', e1, e2, e3, fun _ => e4⟩⟩
  · exact ⟨_, rfl, fun l hl => by obtain ⟨l', e1, e2, e3, e4⟩ := t l hl; exact ⟨l', e1, e2, e3, fun _ => e4⟩⟩
  · exact ⟨_, rfl, fun l hl => by obtain ⟨l', e1, e2, e3, e4⟩ := t l hl; exact ⟨l', e1, e2, e3, fun _ => e4⟩⟩
  · exact ⟨_, rfl, fun l _ => by obtain ⟨l', e1, e2, e3⟩ := hp l; exact ⟨l', e1, e2, e3, by simp⟩⟩
  · exact ⟨_, rfl, fun l _ => by obtain ⟨l', e1, e2, e3⟩ := hp l; exact ⟨l', e1, e2, e3, by simp⟩⟩

/-- `a.sort(axis, kind)`: each line along the axis is sorted in place, whatever the strides; nothing else is changed. -/
theorem c78_sort_inplace_partial (ho : SWO lt) (h : Heap V) (a : Arr) (hwf : a.WF h) (hd : Distinct a) (axis : Int) (hax : -(a.shape.length : Int) ≤ axis ∧ axis < a.shape.length)
    (kind : Option String) (hk : kind ∈ kinds) (w : Int) (hbig : a.shape.getD (axisPos axis a.shape.length) 0 < 2 ^ 63) :
    ∃ h', sortIn (quicksort lt) (timsort lt) (heapsort lt) a axis kind false w h = some (.ok h') ∧ EachLine h a (axisPos axis a.shape.length) (Promise lt kind) h' ∧ a.WF h' := by
  obtain ⟨s, s1, s2⟩ := ofKind_promise ho hk
  exact c78_line_by_line _ _ _ h a hwf hd axis hax kind w s s1 _ fun l hl => s2 l (by omega)

/-- `np.sort(a, axis, kind)`: a new array whose lines along the axis are those of `a`, sorted; all that was there before is unchanged. -/
theorem c78_sort_partial (ho : SWO lt) (h : Heap V) (a : Arr) (hwf : a.WF h) (axis : Int) (hax : -(a.shape.length : Int) ≤ axis ∧ axis < a.shape.length)
    (kind : Option String) (hk : kind ∈ kinds) (w : Int) (hw : 0 < w) (junk : Int → V) (hbig : a.shape.getD (axisPos axis a.shape.length) 0 < 2 ^ 63) :
    ∃ h' b, sort (quicksort lt) (timsort lt) (heapsort lt) a axis kind w junk h = some (.ok (h', b)) ∧ b.shape = a.shape ∧ b.WF h' ∧ b.blk = h.next ∧ Kept h h' ∧
      ∀ idx, Valid idx (a.shape.eraseIdx (axisPos axis a.shape.length)) → ∃ l l', Line h a (axisPos axis a.shape.length) idx l ∧ Line h' b (axisPos axis a.shape.length) idx l' ∧ Promise lt kind l l' := by
  obtain ⟨h1, c1, c2, c3, c4⟩ := copy_spec a h w junk .C hw hwf
  obtain ⟨s, s1, s2⟩ := ofKind_promise ho hk
  generalize hf : copyForder a w .C = f at c1 c4
  have hbwf : Arr.WF ⟨a.shape, stridesOf a.shape f w, h.next, 0⟩ h1 := copy_wf a h h1 _ hwf rfl (stridesOf_length _ _ _) (by rw [c2]; simp) c4
  obtain ⟨h2, d1, d2, d3⟩ := dispatch_spec hbwf (copy_distinct a h w hw hwf f _ _) axis (a.shape.length == 1) w hax (by
    intro h1
    have h1 : a.shape.length = 1 := by simpa using h1
    obtain ⟨n, hn⟩ := List.length_eq_one_iff.1 h1
    have h0 : axisPos axis a.shape.length = 0 := by unfold axisPos; split <;> omega
    rw [h0]
    show (stridesOf a.shape f w).getD 0 0 = w
    rw [hn, stridesOf_one]; rfl) s (Promise lt kind) fun l hl => s2 l (by
      have : l.length = (a.shape.getD (axisPos axis a.shape.length) 0).toNat := hl
      omega)
  refine ⟨h2, ⟨a.shape, stridesOf a.shape f w, h.next, 0⟩, ?_, rfl, d3, rfl, ?_, ?_⟩
  · simp only [sort, c1, Option.bind_eq_bind, Option.bind_some, sortIn, s1, d1]
    rfl
  · intro b hb
    funext o
    rw [← c3 b (by omega)]
    exact d2.2.2 (b, o) fun c _ he => by
      have : h.next = b := congrArg Prod.fst he
      omega
  · intro idx hv
    obtain ⟨l, l', e1, e2, e3⟩ := d2.2.1 idx hv
    refine ⟨l, l', ⟨e1.1, fun i hi => ?_⟩, e2, e3⟩
    have hk : axisPos axis a.shape.length < a.shape.length := by unfold axisPos; split <;> omega
    rw [← e1.2 i hi, c4 _ (line_valid hk hv hi)]

/-- `np.sort(a, axis=None, kind)`: a new one-dimensional array with the elements of `a`, taken in row-major order, sorted. -/
theorem c78_sort_none_partial (ho : SWO lt) (h : Heap V) (a : Arr) (hwf : a.WF h) (kind : Option String) (hk : kind ∈ kinds) (w : Int) (hw : 0 < w) (junk : Int → V) (hbig : count a.shape < 2 ^ 63) :
    ∃ h' b, sortFlat (quicksort lt) (timsort lt) (heapsort lt) a kind w junk h = some (.ok (h', b)) ∧ b.shape = [count a.shape] ∧ b.WF h' ∧ Kept h h' ∧
      ∃ l l', Elems cLess h a l ∧ Elems cLess h' b l' ∧ Promise lt kind l l' := by
  obtain ⟨h1, x, f1, vs, f2, f3, f4, f5, f6⟩ := c61_flatten_c h a w hw hwf
  have hx1 : x.shape.length = 1 := by rw [f4]; rfl
  have hap : axisPos (-1) x.shape.length = 0 := by rw [hx1]; rfl
  obtain ⟨h2, b, e1, e2, e3, _, e5, e6⟩ := c78_sort_partial ho h1 x f5 (-1) (by rw [hx1]; omega) kind hk w hw junk (by rw [hap, f4]; exact hbig)
  rw [hap] at e6
  obtain ⟨l, l', g1, g2, g3⟩ := e6 [] (by rw [f4]; trivial)
  have : l = vs := g1.unique (elems_line f4 f3)
  subst this
  refine ⟨h2, b, by simp [sortFlat, f1, e1], by rw [e2, f4], e3, fun i hi => ?_, l, l', f2, line_elems (by rw [e2, f4]) g2, g3⟩
  have hn : h.next ≤ h1.next := by
    simp only [Arr.flatten, reduceCtorEq, if_false] at f1
    obtain ⟨vs', _, hv⟩ := Option.map_eq_some_iff.1 f1
    have : h1 = h.alloc w vs' := (congrArg Prod.fst hv).symm
    rw [this]; simp [Heap.alloc]
  rw [e5 i (by omega), f6 i hi]

/-- Wrong axes and kinds raise exceptions, and nothing is undefined. -/
theorem c78_errors (quick stable heap : List V → Option (List V)) (h : Heap V) (a : Arr) (axis : Int) (kind : Option String) (force : Bool) (w : Int) :
    (kind ∉ kinds → sortIn quick stable heap a axis kind force w h = some (.error .value)) ∧
    (kind ∈ kinds → (axis < -(a.shape.length : Int) ∨ axis ≥ a.shape.length) → sortIn quick stable heap a axis kind force w h = some (.error .axis)) := by
  constructor
  · intro hk
    have : ofKind quick stable heap kind = none := by
      simp only [kinds, List.mem_cons, List.not_mem_nil, or_false, not_or] at hk
      obtain ⟨h0, h1, h2, h3, h4, h5, h6, h7⟩ := hk
      cases kind with
      | none => exact absurd rfl h0
      | some s =>
        simp only [Option.some.injEq] at h1 h2 h3 h4 h5 h6 h7
        simp [ofKind, h1, h2, h3, h4, h5, h6, h7]
    simp [sortIn, this]
  · intro hk hax
    have hs : ∃ s, ofKind quick stable heap kind = some s := by
      simp only [kinds, List.mem_cons, List.not_mem_nil, or_false] at hk
      rcases hk with rfl | rfl | rfl | rfl | rfl | rfl | rfl | rfl <;> exact ⟨_, rfl⟩
    obtain ⟨s, hs⟩ := hs
    have : normAxis axis a.shape.length = .error .axis := by unfold normAxis; rw [if_pos hax]
    simp [sortIn, hs, dispatch, this]

/-- `np.partition(a, kth, axis)`: a new array; each line along the axis is that of `a` partitioned at the positions asked for.  `order` is `kth.sort()`. -/
theorem c78_partition_partial (ho : SWO lt) (inexact : Bool) (h : Heap V) (a : Arr) (hwf : a.WF h) (axis : Int) (hax : -(a.shape.length : Int) ≤ axis ∧ axis < a.shape.length)
    (kth : List Int) (order : List Int → List Int) (hord : ∀ l, (order l).Perm l ∧ (order l).Pairwise (· ≤ ·)) (w : Int) (hw : 0 < w) (junk : Int → V)
    (hr : ∀ k ∈ kth, ∃ p, NpSel.PyPos (a.shape.getD (axisPos axis a.shape.length) 0).toNat k p) :
    ∃ h' b, partition (fun n => (NpSel.fixKth n kth).map order) (fun ks l => NpSel.partitionLoop lt inexact ks l []) a axis w junk h = some (.ok (h', b)) ∧ b.shape = a.shape ∧ b.WF h' ∧
      b.blk = h.next ∧ Kept h h' ∧
      ∀ idx, Valid idx (a.shape.eraseIdx (axisPos axis a.shape.length)) → ∃ l l', Line h a (axisPos axis a.shape.length) idx l ∧ Line h' b (axisPos axis a.shape.length) idx l' ∧ l'.Perm l ∧
        ∀ k ∈ kth, ∃ p, NpSel.PyPos l.length k p ∧ NpSel.SplitAt lt l' p := by
  obtain ⟨h1, c1, c2, c3, c4⟩ := copy_spec a h w junk .C hw hwf
  generalize hf : copyForder a w .C = f at c1 c4
  have hbwf : Arr.WF ⟨a.shape, stridesOf a.shape f w, h.next, 0⟩ h1 := copy_wf a h h1 _ hwf rfl (stridesOf_length _ _ _) (by rw [c2]; simp) c4
  have hk : axisPos axis a.shape.length < a.shape.length := by unfold axisPos; split <;> omega
  obtain ⟨ks, hks⟩ : ∃ ks, NpSel.fixKth (a.shape.getD (axisPos axis a.shape.length) 0).toNat kth = some ks := by
    cases he : NpSel.fixKth (a.shape.getD (axisPos axis a.shape.length) 0).toNat kth with
    | some ks => exact ⟨ks, rfl⟩
    | none =>
      obtain ⟨k, k1, k2⟩ := (NpSel.c76_positions _ kth).1.1 he
      exact absurd (hr k k1) k2
  obtain ⟨h2, d1, d2, d3⟩ := dispatch_spec hbwf (copy_distinct a h w hw hwf f _ _) axis (a.shape.length == 1) w hax (by
    intro h1
    have h1 : a.shape.length = 1 := by simpa using h1
    obtain ⟨n, hn⟩ := List.length_eq_one_iff.1 h1
    have h0 : axisPos axis a.shape.length = 0 := by unfold axisPos; split <;> omega
    rw [h0]
    show (stridesOf a.shape f w).getD 0 0 = w
    rw [hn, stridesOf_one]; rfl) (fun l => NpSel.partitionLoop lt inexact (order ks) l []) (fun l l' => l'.Perm l ∧ ∀ k ∈ kth, ∃ p, NpSel.PyPos l.length k p ∧ NpSel.SplitAt lt l' p) fun l hl => by
      have hl : l.length = (a.shape.getD (axisPos axis a.shape.length) 0).toNat := hl
      obtain ⟨l', g1, g2, g3⟩ := NpSel.c76_partition_partial ho inexact l kth ks (order ks) (by rw [hl]; exact hks) (hord ks).1 (hord ks).2
      refine ⟨l', g1, g2.length_eq, g2, fun k hk => ?_⟩
      obtain ⟨p, p1, p2, _⟩ := g3 k hk
      exact ⟨p, p1, p2⟩
  have hn : normAxis axis a.shape.length = .ok (axisPos axis a.shape.length : Nat) := by
    unfold normAxis axisPos
    rw [if_neg (by omega)]
    split <;> (congr 1; omega)
  refine ⟨h2, ⟨a.shape, stridesOf a.shape f w, h.next, 0⟩, ?_, rfl, d3, rfl, ?_, ?_⟩
  · simp only [partition, c1, Option.bind_eq_bind, Option.bind_some, hn, Int.toNat_natCast, hks, Option.map_some, d1]
    rfl
  · intro b hb
    funext o
    rw [← c3 b (by omega)]
    exact d2.2.2 (b, o) fun c _ he => by
      have : h.next = b := congrArg Prod.fst he
      omega
  · intro idx hv
    obtain ⟨l, l', e1, e2, e3⟩ := d2.2.1 idx hv
    refine ⟨l, l', ⟨e1.1, fun i hi => ?_⟩, e2, e3⟩
    rw [← e1.2 i hi, c4 _ (line_valid hk hv hi)]

/-- The sort of indices into a line by `f`; the value `d` stands for elements outside the line, which no index among those given refers to. -/
def argBy (f : (Nat → Nat → Bool) → List Nat → Option (List Nat)) (lt : V → V → Bool) (vs : List V) (is : List Nat) : Option (List Nat) :=
  match vs with
  | [] => f (fun _ _ => false) is
  | d :: r => f (fun i j => lt ((d :: r).getD i d) ((d :: r).getD j d)) is

/-- What a kind of sort of indices promises. -/
def ArgPromise (lt : V → V → Bool) (kind : Option String) (l : List V) (r : List Nat) : Prop :=
  ArgSortedOf lt l r ∧ (kind ∈ [some "mergesort", some "merge", some "stable"] → StableArgSortedOf lt l r)

theorem argBy_sorted (ho : SWO lt) (f : (Nat → Nat → Bool) → List Nat → Option (List Nat)) (hf : ∀ (o : Nat → Nat → Bool), SWO o → ∀ l, ∃ l', f o l = some l' ∧ l'.Perm l ∧ l'.Pairwise fun x y => o y x = false)
    (l : List V) : ∃ r, argBy f lt l (List.range l.length) = some r ∧ r.length = l.length ∧ ArgSortedOf lt l r := by
  cases l with
  | nil =>
    obtain ⟨r, e1, e2, e3⟩ := hf (fun _ _ => false) ⟨fun _ => by simp, fun _ _ => rfl⟩ (List.range 0)
    exact ⟨r, e1, by simpa using e2.length_eq, e2, e3.imp fun _ x y hx => by simp at hx⟩
  | cons d t =>
    obtain ⟨r, e1, e2, e3⟩ := hf _ (ho.key fun i => (d :: t).getD i d) (List.range (d :: t).length)
    refine ⟨r, e1, by simpa using e2.length_eq, e2, e3.imp fun {i j} h x y hx hy => ?_⟩
    simpa [List.getD_eq_getElem?_getD, hx, hy] using h

theorem argBy_stable (ho : SWO lt) (l : List V) (hl : l.length < 2 ^ 63) : ∃ r, argBy timsort lt l (List.range l.length) = some r ∧ r.length = l.length ∧ ArgSortedOf lt l r ∧ StableArgSortedOf lt l r := by
  cases l with
  | nil =>
    refine ⟨[], (by show timsort (fun _ _ : Nat => false) ([] : List Nat) = some []; decide +kernel), rfl, ⟨by simp, by simp⟩, ⟨by simp, by simp⟩⟩
  | cons d t =>
    obtain ⟨r, e1, e2, e3⟩ := c77_argsort_partial ho (d :: t).length (fun i => (d :: t).getD i d) hl
    refine ⟨r, e1, by simpa using e2.length_eq, ⟨e2, e3.imp fun {i j} h x y hx hy => ?_⟩, e2, e3.imp fun {i j} h x y hx hy => ?_⟩
    · have := h.1; simpa [List.getD_eq_getElem?_getD, hx, hy] using this
    · simpa [List.getD_eq_getElem?_getD, hx, hy] using h

theorem ofKind_argPromise (ho : SWO lt) {kind : Option String} (hk : kind ∈ kinds) : ∃ s, ofKind (argBy quicksort lt) (argBy timsort lt) (argBy heapsort lt) kind = some s ∧
    ∀ l : List V, l.length < 2 ^ 63 → ∃ r, s l (List.range l.length) = some r ∧ r.length = l.length ∧ ArgPromise lt kind l r := by
  have q := argBy_sorted ho quicksort fun o h l => quicksort_spec h l
  have hp := argBy_sorted ho heapsort fun o h l => heapsort_spec h l
  simp only [kinds, List.mem_cons, List.not_mem_nil, or_false] at hk
  rcases hk with rfl | rfl | rfl | rfl | rfl | rfl | rfl | rfl
  · exact ⟨_, rfl, fun l _ => by obtain ⟨l', e1, e2, e3⟩ := q l; exact ⟨l', e1, e2, e3, by simp⟩⟩
  · exact ⟨_, rfl, fun l _ => by obtain ⟨l', e1, e2, e3⟩ := q l; exact ⟨l', e1, e2, e3, by simp⟩⟩
  · exact ⟨_, rfl, fun l _ => by obtain ⟨l', e1, e2, e3⟩ := q l; exact ⟨l', e1, e2, e3, by simp⟩⟩
  · exact ⟨_, rfl, fun l hl => by obtain ⟨l', e1, e2, e3, e4⟩ := argBy_stable ho l hl; exact ⟨l', e1, e2, e3, fun _ => e4⟩⟩
  · exact ⟨_, rfl, fun l hl => by obtain ⟨l', e1, e2, e3, e4⟩ := argBy_stable ho l hl; exact ⟨l', e1, e2, e3, fun _ => e4⟩⟩
  · exact ⟨_, rfl, fun l hl => by obtain ⟨l', e1, e2, e3, e4⟩ := argBy_stable ho l hl; exact ⟨l', e1, e2, e3, fun _ => e4⟩⟩
  · exact ⟨_, rfl, fun l _ => by obtain ⟨l', e1, e2, e3⟩ := hp l; exact ⟨l', e1, e2, e3, by simp⟩⟩
  · exact ⟨_, rfl, fun l _ => by obtain ⟨l', e1, e2, e3⟩ := hp l; exact ⟨l', e1, e2, e3, by simp⟩⟩

/-- `np.argsort(a, axis, kind)`: a new array of indices of the same shape; each of its lines along the axis sorts that of `a`.  The memory of `a` is unchanged, although its elements are written back. -/
theorem c78_argsort_partial (ho : SWO lt) (h : Heap V) (g : Heap Nat) (a : Arr) (hwf : a.WF h) (axis : Int) (hax : -(a.shape.length : Int) ≤ axis ∧ axis < a.shape.length)
    (kind : Option String) (hk : kind ∈ kinds) (w wi : Int) (hwi : 0 < wi) (junk : Int → Nat) (hbig : a.shape.getD (axisPos axis a.shape.length) 0 < 2 ^ 63) :
    ∃ g' b, argsort (argBy quicksort lt) (argBy timsort lt) (argBy heapsort lt) a axis kind w wi junk h g = some (.ok (h, g', b)) ∧ b.shape = a.shape ∧ b.WF g' ∧ b.blk = g.next ∧ Kept g g' ∧
      ∀ idx, Valid idx (a.shape.eraseIdx (axisPos axis a.shape.length)) → ∃ l r, Line h a (axisPos axis a.shape.length) idx l ∧ Line g' b (axisPos axis a.shape.length) idx r ∧ ArgPromise lt kind l r := by
  obtain ⟨s, s1, s2⟩ := ofKind_argPromise ho hk
  have hkp : axisPos axis a.shape.length < a.shape.length := by unfold axisPos; split <;> omega
  have hbwf : Arr.WF ⟨a.shape, stridesOf a.shape false wi, g.next, 0⟩ (g.new wi (count a.shape) junk) := by
    refine ⟨(stridesOf_length a.shape false wi).symm, hwf.nonneg, fun c hc => ?_, by simp [Heap.new]⟩
    obtain ⟨i, h0, hi, he⟩ := fresh_pos a.shape false wi hwf.nonneg c hc
    simp only [Arr.read, Int.zero_add]
    rw [he]
    exact new_get g wi _ junk hwi i h0 hi
  obtain ⟨g', e1, e2, e3, e4, e5⟩ := asortLines_spec (a := a) (b := ⟨a.shape, stridesOf a.shape false wi, g.next, 0⟩) rfl hkp (copy_distinct a h wi hwi hwf false _ _) w wi s (ArgPromise lt kind)
    (fun l hl => s2 l (by omega)) (multirange (a.shape.eraseIdx (axisPos axis a.shape.length))) h _ hwf hbwf (nodup_multirange _) fun idx hi => (mem_multirange _ _).1 hi
  have hn : normAxis axis a.shape.length = .ok (axisPos axis a.shape.length : Nat) := by
    unfold normAxis axisPos
    rw [if_neg (by omega)]
    split <;> (congr 1; omega)
  refine ⟨g', ⟨a.shape, stridesOf a.shape false wi, g.next, 0⟩, ?_, rfl, e3, rfl, ?_, fun idx hv => e4 idx ((mem_multirange _ _).2 hv)⟩
  · simp only [argsort, s1, hn, Int.toNat_natCast, e1, Option.map_some]
  · intro b hb
    funext o
    rw [e5 (b, o) fun idx _ i _ he => by
      have : g.next = b := congrArg Prod.fst he
      omega]
    rw [new_other g wi _ junk b (by omega)]

/-- The memory of a 2 × 3 array of bytes. -/
def sixHeap : Heap Nat := ⟨fun b o => if b = 0 then ([5, 1, 4, 2, 9, 0][o.toNat]?) else none, 1⟩

/-- The transposed array, sorted along its second axis: the lines are `5, 2`, `1, 9` and `4, 0`. -/
example : ((sortIn (quicksort fun x y => decide (x < y)) (timsort fun x y => decide (x < y)) (heapsort fun x y => decide (x < y)) ⟨[3, 2], [1, 3], 0, 0⟩ (-1) (some "stable") false 1 sixHeap).map
    fun r => match r with | .ok h => (List.range 6).map fun i => h.get 0 i | .error _ => []) = some [some 2, some 1, some 0, some 5, some 9, some 4] := by decide +kernel

example : ((argsort (argBy quicksort fun x y => decide (x < y)) (argBy timsort fun x y => decide (x < y)) (argBy heapsort fun x y => decide (x < y)) ⟨[2, 3], [3, 1], 0, 0⟩ 1 none 1 8 (fun _ => 7) sixHeap
    ⟨fun _ _ => none, 0⟩).map fun r => match r with | .ok (_, g, b) => (List.range 6).map fun i => g.get b.blk (8 * i) | .error _ => []) =
    some [some 1, some 2, some 0, some 2, some 0, some 1] := by decide +kernel

end Codon.NpLine
