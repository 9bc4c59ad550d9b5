import Verif.NpRed.Law
/-!
# The elements that belong to one element of the result
-/
namespace Codon.NpRed
open Codon.Numpy Codon.NpLine
variable {V S O T : Type}

/-- Coordinates put together from those along the axes that stay and those along the others. -/
def weave : List Bool → List Int → List Int → List Int
  | true :: m, i :: idx, t => i :: weave m idx t
  | false :: m, idx, j :: t => j :: weave m idx t
  | _, _, _ => []

theorem stay_true (m : List Bool) (x : Int) (l : List Int) : stay (true :: m) (x :: l) = x :: stay m l := by simp [stay]
theorem stay_false (m : List Bool) (x : Int) (l : List Int) : stay (false :: m) (x :: l) = stay m l := by simp [stay]
theorem gone_true (m : List Bool) (x : Int) (l : List Int) : gone (true :: m) (x :: l) = gone m l := by simp [gone]
theorem gone_false (m : List Bool) (x : Int) (l : List Int) : gone (false :: m) (x :: l) = x :: gone m l := by simp [gone]

theorem weave_valid : ∀ (m : List Bool) (s idx t : List Int), m.length = s.length → Valid idx (stay m s) → Valid t (gone m s) →
    Valid (weave m idx t) s ∧ stay m (weave m idx t) = idx ∧ gone m (weave m idx t) = t
  | [], [], idx, t, _, hi, ht => by
    have e1 : idx = [] := List.length_eq_zero_iff.mp (by simpa [stay] using Valid.length hi)
    have e2 : t = [] := List.length_eq_zero_iff.mp (by simpa [gone] using Valid.length ht)
    subst e1 e2
    exact ⟨trivial, rfl, rfl⟩
  | true :: m, n :: s, idx, t, hl, hi, ht => by
    rw [stay_true] at hi
    rw [gone_true] at ht
    cases idx with
    | nil => exact absurd hi id
    | cons i idx =>
      obtain ⟨h1, h2, h3⟩ := weave_valid m s idx t (by simpa using hl) hi.2 ht
      simp only [weave, stay_true, gone_true, h2, h3]
      exact ⟨⟨hi.1, h1⟩, trivial, trivial⟩
  | false :: m, n :: s, idx, t, hl, hi, ht => by
    rw [stay_false] at hi
    rw [gone_false] at ht
    cases t with
    | nil => exact absurd ht id
    | cons j t =>
      obtain ⟨h1, h2, h3⟩ := weave_valid m s idx t (by simpa using hl) hi ht.2
      have e : weave (false :: m) idx (j :: t) = j :: weave m idx t := by cases idx <;> rfl
      rw [e, stay_false, gone_false, h2, h3]
      exact ⟨⟨ht.1, h1⟩, rfl, rfl⟩
  | [], _ :: _, _, _, hl, _, _ => by simp at hl
  | _ :: _, [], _, _, hl, _, _ => by simp at hl

theorem weave_parts : ∀ (m : List Bool) (s c : List Int), m.length = s.length → Valid c s → Valid (stay m c) (stay m s) ∧ Valid (gone m c) (gone m s) ∧ weave m (stay m c) (gone m c) = c
  | [], [], [], _, _ => ⟨trivial, trivial, rfl⟩
  | true :: m, n :: s, x :: c, hl, hc => by
    obtain ⟨h1, h2, h3⟩ := weave_parts m s c (by simpa using hl) hc.2
    simp only [stay_true, gone_true, weave, h3]
    exact ⟨⟨hc.1, h1⟩, h2, trivial⟩
  | false :: m, n :: s, x :: c, hl, hc => by
    obtain ⟨h1, h2, h3⟩ := weave_parts m s c (by simpa using hl) hc.2
    have e : weave (false :: m) (stay m c) (x :: gone m c) = x :: weave m (stay m c) (gone m c) := by cases stay m c <;> rfl
    rw [stay_false, stay_false, gone_false, gone_false, e, h3]
    exact ⟨h1, ⟨hc.1, h2⟩, rfl⟩
  | [], [], _ :: _, _, hc => absurd hc id
  | [], _ :: _, _, hl, _ => by simp at hl
  | _ :: _, [], _, hl, _ => by simp at hl
  | _ :: _, _ :: _, [], _, hc => absurd hc id

theorem weave_off : ∀ (m : List Bool) (st idx t : List Int), m.length = st.length → idx.length = (stay m st).length → t.length = (gone m st).length →
    ptrOff (weave m idx t) st = ptrOff idx (stay m st) + ptrOff t (gone m st)
  | [], [], idx, t, _, hi, ht => by
    have e1 : idx = [] := List.length_eq_zero_iff.mp (by simpa [stay] using hi)
    have e2 : t = [] := List.length_eq_zero_iff.mp (by simpa [gone] using ht)
    subst e1 e2
    rfl
  | true :: m, n :: s, idx, t, hl, hi, ht => by
    rw [stay_true] at hi ⊢
    rw [gone_true] at ht ⊢
    cases idx with
    | nil => simp at hi
    | cons i idx =>
      simp only [weave, ptrOff]
      rw [weave_off m s idx t (by simpa using hl) (by simpa using hi) ht]
      ring
  | false :: m, n :: s, idx, t, hl, hi, ht => by
    rw [stay_false] at hi ⊢
    rw [gone_false] at ht ⊢
    cases t with
    | nil => simp at ht
    | cons j t =>
      have e : weave (false :: m) idx (j :: t) = j :: weave m idx t := by cases idx <;> rfl
      rw [e]
      simp only [ptrOff]
      rw [weave_off m s idx t (by simpa using hl) hi (by simpa using ht)]
      ring
  | [], _ :: _, _, _, hl, _, _ => by simp at hl
  | _ :: _, [], _, _, hl, _, _ => by simp at hl

theorem weave_less : ∀ (m : List Bool) (s idx t t' : List Int), m.length = s.length → Valid idx (stay m s) → Valid t (gone m s) → Valid t' (gone m s) → cLess t t' →
    cLess (weave m idx t) (weave m idx t')
  | [], [], idx, t, t', _, _, ht, _, hlt => by
    have e2 : t = [] := List.length_eq_zero_iff.mp (by simpa [gone] using Valid.length ht)
    subst e2
    exact absurd hlt id
  | true :: m, n :: s, idx, t, t', hl, hi, ht, ht', hlt => by
    rw [stay_true] at hi
    rw [gone_true] at ht ht'
    cases idx with
    | nil => exact absurd hi id
    | cons i idx => exact Or.inr ⟨rfl, weave_less m s idx t t' (by simpa using hl) hi.2 ht ht' hlt⟩
  | false :: m, n :: s, idx, t, t', hl, hi, ht, ht', hlt => by
    rw [stay_false] at hi
    rw [gone_false] at ht ht'
    cases t with
    | nil => exact absurd ht id
    | cons j t =>
      cases t' with
      | nil => exact absurd ht' id
      | cons j' t' =>
        have e : ∀ (j : Int) (t : List Int), weave (false :: m) idx (j :: t) = j :: weave m idx t := fun j t => by cases idx <;> rfl
        rw [e, e]
        rcases hlt with h | ⟨h, h'⟩
        · exact Or.inl h
        · exact Or.inr ⟨h, weave_less m s idx t t' (by simpa using hl) hi ht.2 ht'.2 h'⟩
  | [], _ :: _, _, _, _, hl, _, _, _, _ => by simp at hl
  | _ :: _, [], _, _, _, hl, _, _, _, _ => by simp at hl

theorem maskOf_length (ax : List Nat) (n : Nat) : (maskOf ax n).length = n := by simp [maskOf]

theorem outPart_eq (ax : List Nat) (c : List Int) : outPart ax c = stay (maskOf ax c.length) c := by
  have e : (maskOf ax c.length).zip c = (List.range c.length).map fun i => (!ax.contains i, c.getD i 0) := by
    apply List.ext_getElem (by simp [maskOf])
    intro i h1 h2
    simp only [List.length_map, List.length_range] at h2
    simp [maskOf, List.getElem?_eq_getElem h2]
  rw [outPart, stay, e, List.filter_map, List.map_map]
  congr 1
  apply List.filter_congr
  intro i _
  simp [Function.comp]

theorem stay_lengths : ∀ (m : List Bool) (l l' : List Int), l.length = l'.length → (stay m l).length = (stay m l').length ∧ (gone m l).length = (gone m l').length
  | [], _, _, _ => by simp [stay, gone]
  | _ :: _, [], [], _ => by simp
  | true :: m, x :: l, y :: l', h => by
    obtain ⟨h1, h2⟩ := stay_lengths m l l' (by simpa using h)
    simp [stay_true, gone_true, h1, h2]
  | false :: m, x :: l, y :: l', h => by
    obtain ⟨h1, h2⟩ := stay_lengths m l l' (by simpa using h)
    simp [stay_false, gone_false, h1, h2]
  | _ :: _, [], _ :: _, h => by simp at h
  | _ :: _, _ :: _, [], h => by simp at h

theorem stay_mem (m : List Bool) (l : List Int) (x : Int) (hx : x ∈ stay m l) : x ∈ l := by
  obtain ⟨p, hp, rfl⟩ := List.mem_map.mp hx
  exact (List.of_mem_zip (List.mem_filter.mp hp).1).2

theorem gone_mem (m : List Bool) (l : List Int) (x : Int) (hx : x ∈ gone m l) : x ∈ l := by
  obtain ⟨p, hp, rfl⟩ := List.mem_map.mp hx
  exact (List.of_mem_zip (List.mem_filter.mp hp).1).2

/-- The part of `a` that belongs to the element `idx` of the result. -/
def sub (a : Arr) (mask : List Bool) (idx : List Int) : Arr := ⟨gone mask a.shape, gone mask a.strides, a.blk, a.off + ptrOff idx (stay mask a.strides)⟩

section
variable (a : Arr) (h : Heap V) (mask : List Bool) (hwf : a.WF h) (hmask : mask.length = a.shape.length)
include hwf hmask

theorem sub_read (idx t : List Int) (hi : Valid idx (stay mask a.shape)) (ht : Valid t (gone mask a.shape)) : (sub a mask idx).read h t = a.read h (weave mask idx t) := by
  obtain ⟨l1, l2⟩ := stay_lengths mask a.shape a.strides hwf.len
  simp only [sub, Arr.read]
  rw [weave_off mask a.strides idx t (by rw [hmask, hwf.len]) (by rw [Valid.length hi]; exact l1) (by rw [Valid.length ht]; exact l2)]
  congr 1
  ring

theorem sub_wf (idx : List Int) (hi : Valid idx (stay mask a.shape)) : (sub a mask idx).WF h :=
  ⟨(stay_lengths mask a.shape a.strides hwf.len).2, fun n hn => hwf.nonneg n (gone_mem _ _ _ hn), fun t ht => by
    rw [sub_read a h mask hwf hmask idx t hi ht]
    exact hwf.alloc _ (weave_valid mask a.shape idx t hmask hi ht).1, hwf.block⟩

omit hwf in
/-- The coordinates that belong to `idx`, in row-major order. -/
theorem weave_coords (idx : List Int) (hi : Valid idx (stay mask a.shape)) :
    ((multirange (gone mask a.shape)).map (weave mask idx)).Pairwise cLess ∧
      ∀ c, c ∈ (multirange (gone mask a.shape)).map (weave mask idx) ↔ Valid c a.shape ∧ stay mask c = idx := by
  refine ⟨?_, fun c => ?_⟩
  · rw [List.pairwise_map]
    refine List.Pairwise.imp_of_mem ?_ (pairwise_multirange _)
    intro t t' h1 h2 hlt
    rw [mem_multirange] at h1 h2
    exact weave_less mask a.shape idx t t' hmask hi h1 h2 hlt
  · rw [List.mem_map]
    constructor
    · rintro ⟨t, ht, rfl⟩
      rw [mem_multirange] at ht
      obtain ⟨h1, h2, _⟩ := weave_valid mask a.shape idx t hmask hi ht
      exact ⟨h1, h2⟩
    · rintro ⟨hc, rfl⟩
      obtain ⟨_, h2, h3⟩ := weave_parts mask a.shape c hmask hc
      exact ⟨gone mask c, by rw [mem_multirange]; exact h2, h3⟩

end

/-- The elements of the part are the group. -/
theorem sub_group (a : Arr) (h : Heap V) (ax : List Nat) (hwf : a.WF h) (wh : Option (Arr × Heap Bool)) (hm : MaskOk a wh) (idx : List Int)
    (hi : Valid idx (outPart ax a.shape)) :
    ∃ vs, Elements (sub a (maskOf ax a.shape.length) idx) h (wh.map fun (m, g) => (sub m (maskOf ax a.shape.length) idx, g)) vs ∧ Group h a wh ax idx vs := by
  rw [outPart_eq] at hi
  have hml := maskOf_length ax a.shape.length
  generalize hmk : maskOf ax a.shape.length = mask at hi hml ⊢
  obtain ⟨hp, hmem⟩ := weave_coords a mask hml idx hi
  have hstay : ∀ c, Valid c a.shape → outPart ax c = stay mask c := fun c hc => by rw [outPart_eq, Valid.length hc, hmk]
  cases wh with
  | none =>
    obtain ⟨vs, hvs⟩ := mapM_of_wf a h hwf ((multirange (gone mask a.shape)).map (weave mask idx)) fun c hc => ((hmem c).mp hc).1
    refine ⟨vs, ?_, (multirange (gone mask a.shape)).map (weave mask idx), hp, fun c => ?_, hvs⟩
    · simp only [Elements, Option.map_none]
      rw [mapM_map] at hvs
      rw [← hvs]
      exact mapM_congr _ _ _ fun t ht => sub_read a h mask hwf hml idx t hi ((mem_multirange _ _).mp ht)
    · rw [hmem]
      constructor
      · rintro ⟨h1, h2⟩
        exact ⟨h1, by rw [hstay c h1]; exact h2, fun m g hh => by cases hh⟩
      · rintro ⟨h1, h2, _⟩
        exact ⟨h1, by rw [← hstay c h1]; exact h2⟩
  | some mg =>
    obtain ⟨m, g⟩ := mg
    obtain ⟨hmw, hms⟩ := hm m g rfl
    have hml' : mask.length = m.shape.length := by rw [hms]; exact hml
    have hread : ∀ t ∈ multirange (gone mask a.shape), (sub m mask idx).read g t = m.read g (weave mask idx t) := fun t ht =>
      sub_read m g mask hmw hml' idx t (by rw [hms]; exact hi) (by rw [hms]; exact (mem_multirange _ _).mp ht)
    obtain ⟨vs, hvs⟩ := mapM_of_wf a h hwf (((multirange (gone mask a.shape)).map (weave mask idx)).filter fun c => m.read g c == some true) fun c hc =>
      ((hmem c).mp (List.mem_filter.mp hc).1).1
    refine ⟨vs, ?_, ((multirange (gone mask a.shape)).map (weave mask idx)).filter fun c => m.read g c == some true, hp.filter _, fun c => ?_, hvs⟩
    · simp only [Elements, Option.map_some]
      rw [List.filter_map, mapM_map] at hvs
      rw [← hvs]
      have e : ((multirange (sub a mask idx).shape).filter fun c => (sub m mask idx).read g c == some true) =
          (multirange (gone mask a.shape)).filter ((fun c => m.read g c == some true) ∘ weave mask idx) := by
        apply List.filter_congr
        intro t ht
        show ((sub m mask idx).read g t == some true) = _
        rw [hread t ht]; rfl
      rw [e]
      exact mapM_congr _ _ _ fun t ht => sub_read a h mask hwf hml idx t hi ((mem_multirange _ _).mp (List.mem_filter.mp ht).1)
    · rw [List.mem_filter, hmem]
      constructor
      · rintro ⟨⟨h1, h2⟩, h3⟩
        refine ⟨h1, by rw [hstay c h1]; exact h2, fun m' g' hh => ?_⟩
        injection hh with hh
        injection hh with e1 e2
        subst e1 e2
        simpa using h3
      · rintro ⟨h1, h2, h3⟩
        exact ⟨⟨h1, by rw [← hstay c h1]; exact h2⟩, by simp [h3 m g rfl]⟩

/-- Groups are determined. -/
theorem group_unique {h : Heap V} {a : Arr} {wh : Option (Arr × Heap Bool)} {ax : List Nat} {idx : List Int} {vs vs' : List V} (h1 : Group h a wh ax idx vs) (h2 : Group h a wh ax idx vs') : vs = vs' := by
  obtain ⟨cs, p1, m1, e1⟩ := h1
  obtain ⟨cs', p2, m2, e2⟩ := h2
  have hnd : ∀ l : List (List Int), l.Pairwise cLess → l.Nodup := fun l hl => hl.imp fun {x y} (hxy : cLess x y) (he : x = y) => cLess_irrefl_list x (by rw [← he] at hxy; exact hxy)
  have hperm : cs.Perm cs' := (List.perm_ext_iff_of_nodup (hnd _ p1) (hnd _ p2)).mpr fun c => by rw [m1, m2]
  have : cs = cs' := hperm.eq_of_pairwise (fun x y _ _ h1 h2 => (cLess_asymm x y h1 h2).elim) p1 p2
  subst this
  rw [e1] at e2
  exact Option.some.inj e2

end Codon.NpRed
