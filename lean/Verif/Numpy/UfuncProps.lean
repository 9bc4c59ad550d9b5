import Verif.Numpy.CallLemmas
import Verif.Numpy.LoopProps
/-!
# C65: universal functions

Full statement: `f(x)` gives a new array of the shape of `x` with `f` of every element, and `f(x, y)` one of the broadcast shape with `f` of the two elements that stand at every
place; shapes that do not broadcast are a `ValueError`.  With `where=` only the elements for which the mask holds are computed.  With `out=` the values are stored in that array, if
operands and mask can be stretched to its shape; elements for which the mask does not hold keep their values; otherwise `ValueError`.  All this whatever the layout of the arrays
and whether the function has a vectorised loop in the runtime.

Proved as stated for functions of one operand giving a new array, and for functions without a vectorised loop with an `out=` that shares no memory with operands and mask at other
places.  Vectorised loops are proved right for operands that need no stretching, and for two operands also when they do if the result is short or the second operand is
stretched (`VecSafe`).  They fail otherwise: a first operand that is a number is used only for the first rounds (`c65_violation_scalar_first`), an operand with one element is read
beyond its end (`c65_violation_one_element`), and an operand of one row fills only the first row of `out` (`c65_violation_out_rows`).  The second operand is not checked against
`out` (`c65_violation_second_unchecked`), and for numbers `where` is ignored (`c65_violation_where_number`).
-/
namespace Codon.Numpy
variable {V : Type}

theorem on_new (wh : Where) (tr : V → Bool) (h : Heap V) (w n : Int) (junk : Int → V) (s c : List Int) (hwh : wh.Fits h s) : wh.on tr (h.new w n junk) c = wh.on tr h c := by
  cases wh with
  | const b => rfl
  | mask m => simp only [Where.on]; rw [new_read h w junk m.arr hwh.1]

theorem fits_new (wh : Where) (h : Heap V) (w n : Int) (junk : Int → V) (s : List Int) (hwh : wh.Fits h s) : wh.Fits (h.new w n junk) s := by
  cases wh with
  | const b => trivial
  | mask m => exact ⟨wf_new h w junk m.arr hwh.1 n, hwh.2⟩

theorem apart_new (wh : Where) (h : Heap V) (s st : List Int) (hwh : wh.Fits h s) : wh.Apart ⟨s, st, h.next, 0⟩ := by
  cases wh with
  | const b => trivial
  | mask m => exact fun c c' _ _ he => absurd he (new_apart h s st m.arr hwh.1 c _)

theorem on_some (wh : Where) (tr : V → Bool) (h : Heap V) (s c : List Int) (hwh : wh.Fits h s) (hc : Valid c s) : ∃ b, wh.on tr h c = some b := by
  cases wh with
  | const b => exact ⟨b, rfl⟩
  | mask m =>
    obtain ⟨v, hv⟩ := hwh.1.alloc _ (valid_proj _ _ _ ((stretches_iff _ _).mp hwh.2) hc)
    exact ⟨tr v, by simp only [Where.on]; rw [hv]; rfl⟩

/-- `f(x, where=wh)`: a new array; where the mask does not hold its elements are some values. -/
theorem c65_unary (L : Nat) (vec : Bool) (op : V → V) (tr : V → Bool) (x : Opd) (wh : Where) (w0 : Int) (junk : Int → V) (h : Heap V) (hw : 0 < w0) (hx : x.arr.WF h)
    (hne : x.arr.shape ≠ []) (hwh : wh.Fits h x.arr.shape) (hvec : vec = true → w0 = x.w) :
    ∃ h' r, ∃ u : List Int → V, unaryCall L vec op tr x none wh w0 junk h = some (.ok (.arr h' r)) ∧
      NewArray h x.arr.shape (fun c => (wh.on tr h c).bind fun b => if b then (x.arr.read h c).map op else some (u c)) h' r.arr := by
  have hl : x.arr.shape.length ≠ 0 := fun hh => hne (List.length_eq_zero_iff.mp hh)
  have hp := packed_like x.arr x.w w0 hw hx.len hx.nonneg
  generalize hst : likeStrides x.arr x.w w0 = st at hp
  have ho := new_wf h x.arr.shape st w0 junk hw hx.nonneg hp
  obtain ⟨h', f1, f2⟩ := unaryInto_ok L vec op tr x ⟨⟨x.arr.shape, st, h.next, 0⟩, w0⟩ wh (h.new w0 (count x.arr.shape) junk) (junk 0) (wf_new h w0 junk x.arr hx _) ho hl
    ((stretches_iff _ _).mpr (aligned_refl _)) (new_inj h _ st w0 hp) (fun c c' _ _ he => absurd he (new_apart h _ st x.arr hx c _)) (fits_new wh h w0 _ junk _ hwh)
    (apart_new wh h _ st hwh) (fun hv _ => ⟨rfl, (hvec hv).symm⟩)
  have hex : ∀ c : List Int, ∃ v : V, Valid c x.arr.shape → Arr.read ⟨x.arr.shape, st, h.next, 0⟩ (h.new w0 (count x.arr.shape) junk) c = some v := by
    intro c
    by_cases hc : Valid c x.arr.shape
    · obtain ⟨v, hv⟩ := ho.alloc c hc
      exact ⟨v, fun _ => hv⟩
    · exact ⟨junk 0, fun hh => absurd hh hc⟩
  choose u hu using hex
  refine ⟨h', ⟨⟨x.arr.shape, st, h.next, 0⟩, w0⟩, u, ?_, updated_new h _ st w0 junk hx.nonneg hp _ h' (updated_congr _ _ _ _ _ f2 fun c hc => ?_) fun c hc => ?_⟩
  · rw [unaryCall, if_neg hl, hst]; exact f1
  · simp only [unaryElem, on_new wh tr h w0 _ junk _ c hwh, new_read h w0 junk x.arr hx]
    rw [hu c hc, proj_self _ _ hc]
  · obtain ⟨b, hb⟩ := on_some wh tr h _ c hwh hc
    obtain ⟨v, hv⟩ := hx.alloc c hc
    rw [hb, hv]
    cases b <;> simp

/-- `f(x)` of a number. -/
theorem c65_unary_number (L : Nat) (vec : Bool) (op : V → V) (tr : V → Bool) (x : Opd) (wh : Where) (w0 : Int) (junk : Int → V) (h : Heap V) (hx : x.arr.WF h) (hsh : x.arr.shape = []) :
    ∃ v, x.arr.read h [] = some v ∧ unaryCall L vec op tr x none wh w0 junk h = some (.ok (.val (op v))) := by
  obtain ⟨v, hv⟩ := hx.alloc [] (by rw [hsh]; trivial)
  refine ⟨v, hv, ?_⟩
  have hst : x.arr.strides = [] := by have := hx.len; rw [hsh] at this; exact List.length_eq_zero_iff.mp this.symm
  rw [Arr.read, hst] at hv
  rw [unaryCall, if_pos (by rw [hsh]; rfl)]
  simp only [ptrOff, Int.add_zero] at hv
  rw [hv]

/-- `f(x, out=o, where=wh)` stores the values in `o`. -/
theorem c65_unary_out_partial (L : Nat) (vec : Bool) (op : V → V) (tr : V → Bool) (x o : Opd) (wh : Where) (w0 : Int) (junk : Int → V) (h : Heap V) (hx : x.arr.WF h) (ho : o.arr.WF h)
    (hne : x.arr.shape ≠ []) (hs : Stretches x.arr.shape o.arr.shape) (hwh : wh.Fits h o.arr.shape) (hself : o.arr.NoRepeat) (hap : o.arr.Apart x.arr) (hwo : wh.Apart o.arr)
    (hvec : vec = true → wh = .const true → x.arr.shape = o.arr.shape ∧ x.w = o.w) :
    ∃ h', unaryCall L vec op tr x (some o) wh w0 junk h = some (.ok (.arr h' o)) ∧ Updated h o.arr (unaryElem op tr x.arr o.arr wh h) h' := by
  have hl : x.arr.shape.length ≠ 0 := fun hh => hne (List.length_eq_zero_iff.mp hh)
  have hle := ((stretches_iff _ _).mp hs).1
  rcases broadcast2_spec x.arr.shape o.arr.shape with ⟨s, e1, e2⟩ | ⟨_, e2⟩
  · have := broadcasts_unique _ _ _ e2 hs
    subst this
    obtain ⟨h', f1, f2⟩ := unaryInto_ok L vec op tr x o wh h (junk 0) hx ho (by omega) hs hself hap hwh hwo hvec
    refine ⟨h', ?_, f2⟩
    rw [unaryCall, if_neg hl]
    rw [e1]
    dsimp only
    rw [if_neg (by simp), if_neg (by simp)]
    exact f1
  · exact absurd hs (e2 _)

/-- An operand that cannot be stretched to the shape of `out` is an error, and so is such a mask. -/
theorem c65_unary_out_error (L : Nat) (vec : Bool) (op : V → V) (tr : V → Bool) (x o : Opd) (wh : Where) (w0 : Int) (junk : Int → V) (h : Heap V) (hne : x.arr.shape ≠ [])
    (hbad : ¬ Stretches x.arr.shape o.arr.shape ∨ ∃ m : Opd, wh = .mask m ∧ m.arr.WF h ∧ ¬ Stretches m.arr.shape o.arr.shape) :
    ∃ e, unaryCall L vec op tr x (some o) wh w0 junk h = some (.error e) := by
  have hl : x.arr.shape.length ≠ 0 := fun hh => hne (List.length_eq_zero_iff.mp hh)
  rw [unaryCall, if_neg hl]
  rcases broadcast2_spec x.arr.shape o.arr.shape with ⟨s, e1, e2⟩ | ⟨e1, e2⟩
  · rw [e1]
    dsimp only
    by_cases h1 : s.length ≠ o.arr.shape.length
    · rw [if_pos h1]; exact ⟨_, rfl⟩
    · rw [if_neg h1]
      by_cases h2 : s ≠ o.arr.shape
      · rw [if_pos h2]; exact ⟨_, rfl⟩
      · rw [if_neg h2]
        have hs : s = o.arr.shape := by simpa using h2
        rcases hbad with hb | ⟨m, rfl, m1, m2⟩
        · exact absurd (by rw [hs] at e2; exact e2) hb
        · obtain ⟨e, he⟩ := loop_first_error o [x, m] h.next m (by simp) m1.len (fun hh => m2 ((stretches_iff _ _).mpr hh))
          exact ⟨e, by simp only [unaryInto, inplaceLoop, he]; rfl⟩
  · rw [e1]; exact ⟨_, rfl⟩

/-- A number with `out=` (and no mask) is stored everywhere. -/
theorem c65_unary_number_out (L : Nat) (vec : Bool) (op : V → V) (tr : V → Bool) (x o : Opd) (wh : Where) (w0 : Int) (junk : Int → V) (h : Heap V) (hx : x.arr.WF h) (ho : o.arr.WF h)
    (hsh : x.arr.shape = []) (hself : o.arr.NoRepeat) :
    ∃ h', unaryCall L vec op tr x (some o) wh w0 junk h = some (.ok (.arr h' o)) ∧ Updated h o.arr (fun _ => (x.arr.read h []).map op) h' := by
  obtain ⟨v, hv⟩ := hx.alloc [] (by rw [hsh]; trivial)
  have hst : x.arr.strides = [] := by have := hx.len; rw [hsh] at this; exact List.length_eq_zero_iff.mp this.symm
  obtain ⟨h', f1, f2⟩ := c64_inplace_unary h (fun _ => op v) o ho hself
  refine ⟨h', ?_, updated_congr _ _ _ _ _ f2 fun c hc => ?_⟩
  · rw [Arr.read, hst] at hv
    simp only [ptrOff, Int.add_zero] at hv
    rw [unaryCall, if_pos (by rw [hsh]; rfl), hv]
    dsimp only
    rw [f1]; rfl
  · obtain ⟨u, hu⟩ := ho.alloc c hc
    rw [hu, hv]; rfl

/-- `f(x, y, where=wh)`: a new array of the broadcast shape. -/
theorem c65_binary_partial (L : Nat) (vec : Bool) (op : V → V → V) (tr : V → Bool) (x y : Opd) (wh : Where) (w0 : Int) (junk : Int → V) (h : Heap V) (hw : 0 < w0)
    (hx : x.arr.WF h) (hy : y.arr.WF h) (s : List Int) (hs : Broadcasts [x.arr.shape, y.arr.shape] s) (hne : s ≠ []) (hwh : wh.Fits h s)
    (hvec : vec = true → wh = .const true → VecSafe L x y s w0) :
    ∃ h' r, ∃ u : List Int → V, binaryCall L vec op tr x y none wh w0 junk h = some (.ok (.arr h' r)) ∧
      NewArray h s (fun c => (wh.on tr h c).bind fun b => if b then (x.arr.read h (proj x.arr.shape c)).bind fun p => (y.arr.read h (proj y.arr.shape c)).map (op p) else some (u c)) h' r.arr := by
  have hax := broadcasts_aligned _ _ hs x.arr.shape (by simp)
  have hay := broadcasts_aligned _ _ hs y.arr.shape (by simp)
  have hl : ¬ (x.arr.shape.length = 0 ∧ y.arr.shape.length = 0) := by
    rintro ⟨h1, h2⟩
    obtain ⟨sh, hsh, e⟩ := hs.2.1
    simp only [List.mem_cons, List.not_mem_nil, or_false] at hsh
    refine hne (List.length_eq_zero_iff.mp ?_)
    rcases hsh with rfl | rfl <;> omega
  have hnn : ∀ n ∈ s, 0 ≤ n := broadcasts_nonneg _ _ hs fun sh hsh => by
    simp only [List.mem_cons, List.not_mem_nil, or_false] at hsh
    rcases hsh with rfl | rfl
    · exact hx.nonneg
    · exact hy.nonneg
  rcases broadcast2_spec x.arr.shape y.arr.shape with ⟨s', e1, e2⟩ | ⟨_, e2⟩
  · have := broadcasts_unique _ _ _ e2 hs
    subst this
    have hp := packed_stridesOf s' (if y.arr.shape.length ≤ x.arr.shape.length then x.arr.shouldTranspose else y.arr.shouldTranspose) w0 hw hnn
    generalize hst : stridesOf s' (if y.arr.shape.length ≤ x.arr.shape.length then x.arr.shouldTranspose else y.arr.shouldTranspose) w0 = st at hp
    have ho := new_wf h s' st w0 junk hw hnn hp
    obtain ⟨h', f1, f2⟩ := binaryInto_ok L vec op tr x y ⟨⟨s', st, h.next, 0⟩, w0⟩ wh (h.new w0 (count s') junk) (junk 0) (wf_new h w0 junk x.arr hx _) (wf_new h w0 junk y.arr hy _) ho
      (fun _ => hl) ((stretches_iff _ _).mpr hax) ((stretches_iff _ _).mpr hay) (new_inj h _ st w0 hp) (fun c c' _ _ he => absurd he (new_apart h _ st x.arr hx c _))
      (fun c c' _ _ he => absurd he (new_apart h _ st y.arr hy c _)) (fits_new wh h w0 _ junk _ hwh) (apart_new wh h _ st hwh) hvec
    have hex : ∀ c : List Int, ∃ v : V, Valid c s' → Arr.read ⟨s', st, h.next, 0⟩ (h.new w0 (count s') junk) c = some v := by
      intro c
      by_cases hc : Valid c s'
      · obtain ⟨v, hv⟩ := ho.alloc c hc
        exact ⟨v, fun _ => hv⟩
      · exact ⟨junk 0, fun hh => absurd hh hc⟩
    choose u hu using hex
    refine ⟨h', ⟨⟨s', st, h.next, 0⟩, w0⟩, u, ?_, updated_new h _ st w0 junk hnn hp _ h' (updated_congr _ _ _ _ _ f2 fun c hc => ?_) fun c hc => ?_⟩
    · rw [binaryCall]
      dsimp only
      rw [if_neg hl, e1]
      dsimp only
      rw [hst]; exact f1
    · simp only [binaryElem, on_new wh tr h w0 _ junk _ c hwh, new_read h w0 junk x.arr hx, new_read h w0 junk y.arr hy]
      rw [hu c hc]
    · obtain ⟨b, hb⟩ := on_some wh tr h _ c hwh hc
      obtain ⟨p, hp'⟩ := hx.alloc _ (valid_proj _ _ _ hax hc)
      obtain ⟨q, hq⟩ := hy.alloc _ (valid_proj _ _ _ hay hc)
      rw [hb, hp', hq]
      cases b <;> simp
  · exact absurd hs (e2 _)

/-- `f(x, y)` of two numbers. -/
theorem c65_binary_numbers (L : Nat) (vec : Bool) (op : V → V → V) (tr : V → Bool) (x y : Opd) (wh : Where) (w0 : Int) (junk : Int → V) (h : Heap V) (hx : x.arr.WF h) (hy : y.arr.WF h)
    (hsx : x.arr.shape = []) (hsy : y.arr.shape = []) :
    ∃ u v, x.arr.read h [] = some u ∧ y.arr.read h [] = some v ∧ binaryCall L vec op tr x y none wh w0 junk h = some (.ok (.val (op u v))) := by
  obtain ⟨u, hu⟩ := hx.alloc [] (by rw [hsx]; trivial)
  obtain ⟨v, hv⟩ := hy.alloc [] (by rw [hsy]; trivial)
  refine ⟨u, v, hu, hv, ?_⟩
  have h1 : x.arr.strides = [] := by have := hx.len; rw [hsx] at this; exact List.length_eq_zero_iff.mp this.symm
  have h2 : y.arr.strides = [] := by have := hy.len; rw [hsy] at this; exact List.length_eq_zero_iff.mp this.symm
  rw [Arr.read, h1] at hu
  rw [Arr.read, h2] at hv
  simp only [ptrOff, Int.add_zero] at hu hv
  rw [binaryCall]
  dsimp only
  rw [if_pos (by rw [hsx, hsy]; exact ⟨rfl, rfl⟩), hu, hv]

/-- Shapes that do not broadcast are a `ValueError`. -/
theorem c65_binary_error (L : Nat) (vec : Bool) (op : V → V → V) (tr : V → Bool) (x y : Opd) (wh : Where) (w0 : Int) (junk : Int → V) (h : Heap V)
    (hs : ∀ s, ¬ Broadcasts [x.arr.shape, y.arr.shape] s) : binaryCall L vec op tr x y none wh w0 junk h = some (.error .value) := by
  have hl : ¬ (x.arr.shape.length = 0 ∧ y.arr.shape.length = 0) := by
    rintro ⟨h1, h2⟩
    refine hs [] (broadcasts_same _ _ (by simp) fun a ha => ?_)
    simp only [List.mem_cons, List.not_mem_nil, or_false] at ha
    rcases ha with rfl | rfl
    · exact List.length_eq_zero_iff.mp h1
    · exact List.length_eq_zero_iff.mp h2
  rcases broadcast2_spec x.arr.shape y.arr.shape with ⟨s, _, e2⟩ | ⟨e1, _⟩
  · exact absurd e2 (hs s)
  · rw [binaryCall]
    dsimp only
    rw [if_neg hl, e1]

/-- `f(x, y, out=o, where=wh)` stores the values in `o`. -/
theorem c65_binary_out_partial (L : Nat) (vec : Bool) (op : V → V → V) (tr : V → Bool) (x y o : Opd) (wh : Where) (w0 : Int) (junk : Int → V) (h : Heap V) (hx : x.arr.WF h) (hy : y.arr.WF h)
    (ho : o.arr.WF h) (hsx : Stretches x.arr.shape o.arr.shape) (hsy : Stretches y.arr.shape o.arr.shape) (hwh : wh.Fits h o.arr.shape) (hself : o.arr.NoRepeat)
    (hapx : o.arr.Apart x.arr) (hapy : o.arr.Apart y.arr) (hwo : wh.Apart o.arr)
    (hvec : vec = true → ¬ (x.arr.shape = [] ∧ y.arr.shape = []) ∧ (wh = .const true → VecSafe L x y o.arr.shape o.w)) :
    ∃ h', binaryCall L vec op tr x y (some o) wh w0 junk h = some (.ok (.arr h' o)) ∧ Updated h o.arr (binaryElem op tr x.arr y.arr o.arr wh h) h' := by
  rcases broadcast2_spec x.arr.shape o.arr.shape with ⟨s, e1, e2⟩ | ⟨_, e2⟩
  · have := broadcasts_unique _ _ _ e2 hsx
    subst this
    obtain ⟨h', f1, f2⟩ := binaryInto_ok L vec op tr x y o wh h (junk 0) hx hy ho (fun hv hh => (hvec hv).1 ⟨List.length_eq_zero_iff.mp hh.1, List.length_eq_zero_iff.mp hh.2⟩)
      hsx hsy hself hapx hapy hwh hwo fun hv => (hvec hv).2
    refine ⟨h', ?_, f2⟩
    rw [binaryCall]
    rw [e1]
    dsimp only
    rw [if_neg (by simp), if_neg (by simp)]
    exact f1
  · exact absurd hsx (e2 _)

/-- A first operand or a mask that cannot be stretched to the shape of `out` is an error; with a mask so is the second operand. -/
theorem c65_binary_out_error_partial (L : Nat) (vec : Bool) (op : V → V → V) (tr : V → Bool) (x y o : Opd) (wh : Where) (w0 : Int) (junk : Int → V) (h : Heap V) (hy : y.arr.WF h)
    (hbad : ¬ Stretches x.arr.shape o.arr.shape ∨ ∃ m : Opd, wh = .mask m ∧ m.arr.WF h ∧ (¬ Stretches m.arr.shape o.arr.shape ∨ ¬ Stretches y.arr.shape o.arr.shape)) :
    ∃ e, binaryCall L vec op tr x y (some o) wh w0 junk h = some (.error e) := by
  rw [binaryCall]
  rcases broadcast2_spec x.arr.shape o.arr.shape with ⟨s, e1, e2⟩ | ⟨e1, e2⟩
  · rw [e1]
    dsimp only
    by_cases h1 : s.length ≠ o.arr.shape.length
    · rw [if_pos h1]; exact ⟨_, rfl⟩
    · rw [if_neg h1]
      by_cases h2 : s ≠ o.arr.shape
      · rw [if_pos h2]; exact ⟨_, rfl⟩
      · rw [if_neg h2]
        have hs : s = o.arr.shape := by simpa using h2
        rcases hbad with hb | ⟨m, rfl, m1, m2⟩
        · exact absurd (by rw [hs] at e2; exact e2) hb
        · have : ∃ e, loop o [x, y, m] .first true none h.next = .error e := by
            rcases m2 with m2 | m2
            · exact loop_first_error o [x, y, m] h.next m (by simp) m1.len (fun hh => m2 ((stretches_iff _ _).mpr hh))
            · exact loop_first_error o [x, y, m] h.next y (by simp) hy.len (fun hh => m2 ((stretches_iff _ _).mpr hh))
          obtain ⟨e, he⟩ := this
          exact ⟨e, by simp only [binaryInto, inplaceLoop, he]; rfl⟩
  · rw [e1]; exact ⟨_, rfl⟩

/-! ### Examples and violations -/

/-- Blocks with the offset as value (negative block numbers do not occur); block `n` has `8 * 4` bytes. -/
def rampHeap : Heap Int := ⟨fun b o => if 0 ≤ o ∧ o < 32 then some (b * 100 + o) else none, 4⟩

/-- The elements of an answer, at the places given. -/
def Ans.elems : Option (Except Err (Ans Int)) → List (List Int) → Option (List (Option Int))
  | some (.ok (.arr h a)), cs => some (cs.map (a.arr.read h))
  | _, _ => none

/-- An array of shape (2, 2) and a transposed one. -/
example : Ans.elems (binaryCall 2 true (· + ·) (fun _ => true) ⟨⟨[2, 2], [16, 8], 0, 0⟩, 8⟩ ⟨⟨[2, 2], [8, 16], 1, 0⟩, 8⟩ none (.const true) 8 (fun _ => 0) rampHeap)
    [[0, 0], [0, 1], [1, 0], [1, 1]] = some [some 100, some 124, some 124, some 148] := by decide +kernel

/-- A mask: the second row is left as it is. -/
example : Ans.elems (unaryCall 2 true (· + 1) (· ≠ 200) ⟨⟨[2, 2], [16, 8], 0, 0⟩, 8⟩ (some ⟨⟨[2, 2], [16, 8], 1, 0⟩, 8⟩) (.mask ⟨⟨[2, 1], [-8, 8], 2, 8⟩, 8⟩) 8 (fun _ => 0) rampHeap)
    [[0, 0], [0, 1], [1, 0], [1, 1]] = some [some 1, some 9, some 116, some 124] := by decide +kernel

example : VecSafe 2 ⟨⟨[2, 2], [16, 8], 0, 0⟩, 8⟩ ⟨⟨[2], [8], 1, 0⟩, 8⟩ [2, 2] 8 :=
  ⟨by decide, rfl, rfl, by simp, by simp, Or.inr ⟨rfl, by decide⟩⟩

/-- `hypot(number, array)` with a function that adds: beginning with the second round the number is replaced by earlier results. -/
theorem c65_violation_scalar_first : Broadcasts [[], [4]] [4] ∧
    Ans.elems (binaryCall 2 true (· + ·) (fun _ => true) ⟨⟨[], [], 1, 0⟩, 8⟩ ⟨⟨[4], [8], 0, 0⟩, 8⟩ none (.const true) 8 (fun _ => 0) rampHeap) [[0], [1], [2], [3]] =
      some [some 100, some 108, some 116, some 132] :=
  ⟨aligned_fits [] [4] ⟨by simp, by simp⟩, by decide +kernel⟩

/-- `hypot` of arrays of shapes (1,) and (3,) reads the first one beyond its end. -/
theorem c65_violation_one_element : Broadcasts [[1], [3]] [3] ∧ Arr.WF ⟨[1], [8], 0, 24⟩ rampHeap ∧ Arr.WF ⟨[3], [8], 1, 0⟩ rampHeap ∧
    (binaryCall 2 true (· + ·) (fun _ => true) ⟨⟨[1], [8], 0, 24⟩, 8⟩ ⟨⟨[3], [8], 1, 0⟩, 8⟩ none (.const true) 8 (fun _ => 0) rampHeap).isNone = true := by
  refine ⟨aligned_fits [1] [3] ⟨by simp, by simp⟩, ⟨rfl, by simp, fun c hc => ?_, by decide⟩, ⟨rfl, by simp, fun c hc => ?_, by decide⟩, by decide +kernel⟩
  · match c, hc with
    | [i], hc =>
      obtain ⟨⟨h1, h2⟩, _⟩ : (0 ≤ i ∧ i < 1) ∧ _ := hc
      refine ⟨_, if_pos ?_⟩
      simp only [ptrOff]; omega
  · match c, hc with
    | [i], hc =>
      obtain ⟨⟨h1, h2⟩, _⟩ : (0 ≤ i ∧ i < 3) ∧ _ := hc
      refine ⟨_, if_pos ?_⟩
      simp only [ptrOff]; omega

/-- `sin(x, out=o)` with `x` of shape (1, 2) and `o` of shape (2, 2): the second row keeps its values. -/
theorem c65_violation_out_rows : Stretches [1, 2] [2, 2] ∧
    Ans.elems (unaryCall 2 true (· + 1) (fun _ => true) ⟨⟨[1, 2], [16, 8], 0, 0⟩, 8⟩ (some ⟨⟨[2, 2], [16, 8], 1, 0⟩, 8⟩) (.const true) 8 (fun _ => 0) rampHeap)
      [[0, 0], [0, 1], [1, 0], [1, 1]] = some [some 1, some 9, some 116, some 124] :=
  ⟨aligned_fits [1, 2] [2, 2] ⟨by simp, by simp⟩, by decide +kernel⟩

/-- `add(x, y, out=o)` with `y` of shape (3,) and `x`, `o` of shape (2,) takes the first element of `y` throughout instead of raising `ValueError`. -/
theorem c65_violation_second_unchecked : ¬ Stretches [3] [2] ∧
    Ans.elems (binaryCall 2 false (· + ·) (fun _ => true) ⟨⟨[2], [8], 0, 0⟩, 8⟩ ⟨⟨[3], [8], 1, 0⟩, 8⟩ (some ⟨⟨[2], [8], 2, 0⟩, 8⟩) (.const true) 8 (fun _ => 0) rampHeap) [[0], [1]] =
      some [some 100, some 108] := by
  refine ⟨fun h => ?_, by decide +kernel⟩
  have := ((h.2.2 0 (by simp)).1 [3] (by simp))
  simp [dimAt] at this

/-- `sin(1.0, out=o, where=False)` stores the value nevertheless. -/
theorem c65_violation_where_number :
    Ans.elems (unaryCall 2 false (· + 1) (fun _ => true) ⟨⟨[], [], 0, 0⟩, 8⟩ (some ⟨⟨[2], [8], 1, 0⟩, 8⟩) (.const false) 8 (fun _ => 0) rampHeap) [[0], [1]] = some [some 1, some 1] := by
  decide +kernel

end Codon.Numpy
