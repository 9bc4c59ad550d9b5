import Verif.SortedList.Spec
import Verif.Bisect.Props
/-! # Lemmas for `SortedList` -/
namespace Codon.SortedList
open Codon.Bisect
variable {T : Type}

theorem pos_mid {A B : List T} {x : T} : ListM.Spec.pos (A ++ x :: B).length (A.length : Int) = some A.length := by
  unfold ListM.Spec.pos
  have h : (A ++ x :: B).length = A.length + B.length + 1 := by simp; omega
  rw [h]
  simp only
  split
  · omega
  · rw [if_pos (by omega)]
    simp

theorem item_mid (A B : List T) (x : T) : item (A ++ x :: B) (A.length : Int) = .ok x := by
  unfold item
  rw [pos_mid]
  simp

theorem setItem_mid (A B : List T) (x y : T) : setItem (A ++ x :: B) (A.length : Int) y = .ok (A ++ y :: B) := by
  unfold setItem
  rw [pos_mid]
  simp

theorem delItem_mid (A B : List T) (x : T) : delItem (A ++ x :: B) (A.length : Int) = .ok (A ++ B) := by
  unfold delItem
  rw [pos_mid]
  simp [List.eraseIdx_append_of_length_le]

theorem insertAt_mid (A B : List T) (x y : T) :
    insertAt (A ++ x :: B) ((A.length : Int) + 1) y = A ++ x :: y :: B := by
  have := insertAt_nat (a := A ++ x :: B) (r := A.length + 1) (by simp) y
  push_cast at this
  rw [this]
  have h1 : (A ++ x :: B).take (A.length + 1) = A ++ [x] := by
    rw [List.take_append, List.take_of_length_le (by omega)]
    simp
  have h2 : (A ++ x :: B).drop (A.length + 1) = B := by
    rw [List.drop_append, List.drop_of_length_le (by omega)]
    simp
  rw [h1, h2]
  simp

theorem item_last {l : List T} {m : T} (h : l.getLast? = some m) : item l (-1) = .ok m := by
  have hl : l ≠ [] := by rintro rfl; simp at h
  have hp : 0 < l.length := List.length_pos_iff.mpr hl
  unfold item ListM.Spec.pos
  rw [if_pos (by omega), if_pos (by omega)]
  rw [List.getLast?_eq_getElem?] at h
  have : (-1 + (l.length : Int)).toNat = l.length - 1 := by omega
  simp only [this, h]

/-- The maxima are the last elements of the lists (in particular no list is empty). -/
structure Inv (lt : T → T → Bool) (s : SL T) : Prop where
  load : 1 ≤ s.load
  maxes : s.maxes.map some = s.lists.map List.getLast?
  sorted : Sorted lt s.lists.flatten
  len : s.len = s.lists.flatten.length
  upper : ∀ l ∈ s.lists, (l.length : Int) ≤ s.load * 2
  lower : 1 < s.lists.length → ∀ l ∈ s.lists, s.load / 2 < (l.length : Int)

/-- Splitting the maxima as the lists. -/
theorem maxes_split {M : List T} {A B : List (List T)} {l : List T}
    (h : M.map some = (A ++ l :: B).map List.getLast?) :
    ∃ MA m MB, M = MA ++ m :: MB ∧ MA.map some = A.map List.getLast? ∧ l.getLast? = some m ∧
      MB.map some = B.map List.getLast? ∧ MA.length = A.length := by
  rw [List.map_append, List.map_cons, List.map_eq_append_iff] at h
  obtain ⟨MA, M2, rfl, h1, h2⟩ := h
  rw [List.map_eq_cons_iff] at h2
  obtain ⟨m, MB, rfl, h3, h4⟩ := h2
  exact ⟨MA, m, MB, rfl, h1, h3.symm, h4, by simpa using congrArg List.length h1⟩

theorem split_at {α : Type} {L : List α} {i : Nat} {x : α} (h : L[i]? = some x) :
    ∃ A B, L = A ++ x :: B ∧ A.length = i := by
  obtain ⟨h1, h2⟩ := List.getElem?_eq_some_iff.mp h
  refine ⟨L.take i, L.drop (i + 1), ?_, by simp; omega⟩
  rw [← h2, ← List.drop_eq_getElem_cons h1, List.take_append_drop]

/-- The list at `pos` may be too long; `_expand` puts that right and keeps the contents. -/
theorem expand_ok {s : SL T} {A B : List (List T)} {l : List T} (hl : s.lists = A ++ l :: B) (hload : 1 ≤ s.load)
    (hm : s.maxes.map some = s.lists.map List.getLast?) (hlen : (l.length : Int) ≤ s.load * 3) :
    ∃ L M, expand s A.length = .ok { s with lists := L, maxes := M } ∧ L.flatten = s.lists.flatten ∧
      M.map some = L.map List.getLast? ∧
      (L = A ++ l :: B ∧ (l.length : Int) ≤ s.load * 2 ∨
        ∃ l1 l2, L = A ++ l1 :: l2 :: B ∧ (l1.length : Int) = s.load ∧ s.load < l2.length ∧
          (l2.length : Int) ≤ s.load * 2) := by
  obtain ⟨n, load, lists, maxes⟩ := s
  simp only at *
  subst hl
  obtain ⟨MA, m, MB, rfl, h1, h2, h3, h4⟩ := maxes_split hm
  unfold expand
  simp only [item_mid, Out.bind_ok]
  by_cases hc : (l.length : Int) > load * 2
  · rw [if_pos hc]
    have hs : sliceStart l load = load.toNat := by
      unfold sliceStart
      rw [if_neg (by omega)]
      omega
    rw [hs]
    have hk : load.toNat < l.length := by omega
    have hlast1 : (l.take load.toNat).getLast? = some (l[load.toNat - 1]'(by omega)) := by
      rw [List.getLast?_eq_getElem?, List.length_take, Nat.min_eq_left (by omega), List.getElem?_take,
        if_pos (by omega), List.getElem?_eq_getElem]
    have hlast2 : (l.drop load.toNat).getLast? = some m := by
      rw [List.getLast?_drop, if_neg (by omega), h2]
    rw [item_last hlast1, item_last hlast2]
    simp only [Out.bind_ok, Out.pure_eq, setItem_mid, ← h4]
    rw [h4, setItem_mid, ← h4]
    simp only [Out.bind_ok]
    refine ⟨_, _, rfl, ?_, ?_, .inr ⟨l.take load.toNat, l.drop load.toNat, ?_, ?_, ?_, ?_⟩⟩
    · rw [h4, insertAt_mid]
      simp only [List.flatten_append, List.flatten_cons]
      rw [← List.append_assoc (l.take _), List.take_append_drop]
    · rw [insertAt_mid, h4, insertAt_mid]
      simp [h1, h3, hlast1, hlast2]
    · rw [h4, insertAt_mid]
    all_goals simp only [List.length_take, List.length_drop]; omega
  · rw [if_neg hc]
    exact ⟨_, _, rfl, rfl, hm, .inl ⟨rfl, by omega⟩⟩

theorem sorted_append {lt : T → T → Bool} {A B : List T} :
    Sorted lt (A ++ B) ↔ Sorted lt A ∧ Sorted lt B ∧ ∀ a ∈ A, ∀ b ∈ B, lt b a = false := by
  unfold Sorted
  rw [List.pairwise_append]

/-- The maximum of a sorted list. -/
theorem le_last {lt : T → T → Bool} (ho : SWO lt) {l : List T} {m : T} (hs : Sorted lt l) (h : l.getLast? = some m) :
    ∀ v ∈ l, lt m v = false := by
  intro v hv
  obtain ⟨l', rfl⟩ := List.getLast?_eq_some_iff.mp h
  rcases List.mem_append.mp hv with hv | hv
  · exact (sorted_append.mp hs).2.2 v hv m (by simp)
  · simp only [List.mem_singleton] at hv
    subst hv
    exact ho.irrefl _

theorem last_mem {l : List T} {m : T} (h : l.getLast? = some m) : m ∈ l := by
  obtain ⟨l', rfl⟩ := List.getLast?_eq_some_iff.mp h
  simp

/-- The maxima form a sorted list. -/
theorem maxes_sorted {lt : T → T → Bool} {M : List T} {L : List (List T)} (h : M.map some = L.map List.getLast?)
    (hs : Sorted lt L.flatten) : Sorted lt M := by
  induction M generalizing L with
  | nil => exact List.Pairwise.nil
  | cons m M ih =>
    cases L with
    | nil => cases h
    | cons l L =>
      simp only [List.map_cons, List.cons.injEq] at h
      rw [List.flatten_cons, sorted_append] at hs
      refine List.Pairwise.cons (fun b hb => ?_) (ih h.2 hs.2.1)
      have : some b ∈ L.map List.getLast? := by rw [← h.2]; exact List.mem_map_of_mem hb
      obtain ⟨l', h1, h2⟩ := List.mem_map.mp this
      exact hs.2.2 m (last_mem h.1.symm) b (List.mem_flatten.mpr ⟨l', h1, last_mem h2⟩)

theorem nonempty {M : List T} {L : List (List T)} (h : M.map some = L.map List.getLast?) : ∀ l ∈ L, l ≠ [] := by
  rintro l hl rfl
  have : (none : Option T) ∈ L.map List.getLast? := List.mem_map.mpr ⟨[], hl, rfl⟩
  rw [← h] at this
  simp at this

/-- Putting a value behind those not greater keeps a sequence sorted. -/
theorem sorted_added {lt : T → T → Bool} (ho : SWO lt) {x : T} {xs ys : List T} (hs : Sorted lt xs)
    (h : Added lt x xs ys) : Sorted lt ys := by
  obtain ⟨b, c, rfl, rfl, h1, h2⟩ := h
  obtain ⟨h3, h4, h5⟩ := sorted_append.mp hs
  refine sorted_append.mpr ⟨h3, List.Pairwise.cons (fun v hv => ho.asymm (h2 v hv)) h4, fun a ha v hv => ?_⟩
  rcases List.mem_cons.mp hv with rfl | hv
  · exact h1 a ha
  · exact h5 a ha v hv

/-- What putting a value into the right list does. -/
theorem place_ok {lt : T → T → Bool} (ho : SWO lt) {s : SL T} (h : Inv lt s) (hne : s.maxes ≠ []) (x : T) :
    ∃ A l l' B M, s.lists = A ++ l :: B ∧ l'.length = l.length + 1 ∧
      place lt s x = .ok ({ s with lists := A ++ l' :: B, maxes := M }, (A.length : Int)) ∧
      M.map some = (A ++ l' :: B).map List.getLast? ∧ Added lt x s.lists.flatten (A ++ l' :: B).flatten := by
  have hlen : s.maxes.length = s.lists.length := by simpa using congrArg List.length h.maxes
  obtain ⟨r, e1, -, e2, e3, e4⟩ := c28_bisect_right_splits lt s.maxes x 0 none (Nat.le_refl _)
    (fun i j v w _ hij _ hv hw hwx => ho.negTrans hwx (sorted_get (maxes_sorted h.maxes h.sorted) hij hv hw))
  simp only [Option.getD_none, Bool.not_eq_true', Bool.not_eq_false', Option.map_none, Nat.cast_zero,
    Nat.zero_le, true_implies] at e1 e2 e3 e4
  unfold place
  rw [e1]
  simp only [Out.bind_ok]
  by_cases hr : r = s.maxes.length
  · rw [if_pos (by omega)]
    have hpos : 0 < s.lists.length := by rw [← hlen]; exact List.length_pos_iff.mpr hne
    obtain ⟨A, B, h1, h2⟩ := split_at (L := s.lists) (i := s.lists.length - 1) (x := s.lists[s.lists.length - 1])
      (List.getElem?_eq_getElem (by omega))
    generalize s.lists[s.lists.length - 1] = l at h1
    have hB : B = [] := by
      have := congrArg List.length h1
      simp only [List.length_append, List.length_cons] at this
      exact List.length_eq_zero_iff.mp (by omega)
    subst hB
    have hm := h.maxes
    rw [h1] at hm
    obtain ⟨MA, m, MB, hM, g1, g2, g3, g4⟩ := maxes_split hm
    have hMB : MB = [] := by simpa using g3
    subst hMB
    have hidx : (r : Int) - 1 = A.length := by omega
    have hmax : ∀ v ∈ s.lists.flatten, lt x v = false := by
      intro v hv
      obtain ⟨k, hk, hv⟩ := List.mem_flatten.mp hv
      obtain ⟨i, hi, rfl⟩ := List.getElem_of_mem hk
      have hi' : i < s.maxes.length := by omega
      have := congrArg (fun z => z[i]?) h.maxes
      simp only [List.getElem?_map, List.getElem?_eq_getElem hi, List.getElem?_eq_getElem hi', Option.map_some,
        Option.some.injEq] at this
      have h5 : lt x s.maxes[i] = false := e3 i _ (by omega) (List.getElem?_eq_getElem hi')
      have hsl : Sorted lt s.lists[i] := List.Pairwise.sublist (List.sublist_flatten_of_mem hk) h.sorted
      exact ho.negTrans h5 (le_last ho hsl this.symm v hv)
    refine ⟨A, l, l ++ [x], [], MA ++ [x], h1, by simp, ?_, ?_, ?_⟩
    · rw [hidx, h1, item_mid]
      simp only [Out.bind_ok, setItem_mid, hM, ← g4]
      rw [g4, setItem_mid]
      rfl
    · simp [g1]
    · refine ⟨s.lists.flatten, [], by simp, ?_, hmax, by simp⟩
      rw [h1]
      simp
  · rw [if_neg (by omega)]
    have hrl : r < s.lists.length := by omega
    obtain ⟨A, B, h1, h2⟩ := split_at (L := s.lists) (i := r) (x := s.lists[r]) (List.getElem?_eq_getElem (by omega))
    generalize s.lists[r] = l at h1
    have hm := h.maxes
    rw [h1] at hm
    obtain ⟨MA, m, MB, hM, g1, g2, g3, g4⟩ := maxes_split hm
    have hs := h.sorted
    rw [h1, List.flatten_append, List.flatten_cons, sorted_append, sorted_append] at hs
    obtain ⟨s1, ⟨s2, s3, s4⟩, s5⟩ := hs
    obtain ⟨b, c, i1, i2, i3, i4, i5⟩ := c28_insort_right lt ho l x s2
    have hxm : lt x m = true := e4 r m (Nat.le_refl _) (by omega) (by rw [hM]; simp [g4, h2])
    have hc : c ≠ [] := by
      rintro rfl
      simp only [List.append_nil] at i1
      subst i1
      have := i4 m (last_mem g2)
      rw [this] at hxm
      cases hxm
    refine ⟨A, l, b ++ x :: c, B, s.maxes, h1, by rw [i1]; simp; omega, ?_, ?_, ?_⟩
    · rw [← h2, h1, item_mid]
      simp only [Out.bind_ok, i2, setItem_mid]
      rfl
    · rw [hM]
      have : (b ++ x :: c).getLast? = some m := by
        rw [i1] at g2
        rw [List.getLast?_append] at g2 ⊢
        rw [List.getLast?_cons]
        obtain ⟨y, hy⟩ : ∃ y, c.getLast? = some y := by
          cases hcc : c.getLast? with
          | none => exact absurd (List.getLast?_eq_none_iff.mp hcc) hc
          | some y => exact ⟨y, rfl⟩
        rw [hy] at g2 ⊢
        simpa using g2
      simp [g1, g3, this]
    · refine ⟨A.flatten ++ b, c ++ B.flatten, ?_, by simp, ?_, ?_⟩
      · rw [h1]
        simp [i1]
      · intro v hv
        rcases List.mem_append.mp hv with hv | hv
        · obtain ⟨k, hk, hv⟩ := List.mem_flatten.mp hv
          obtain ⟨i, hi, rfl⟩ := List.getElem_of_mem hk
          have hi' : i < MA.length := by omega
          have := congrArg (fun z => z[i]?) g1
          simp only [List.getElem?_map, List.getElem?_eq_getElem hi, List.getElem?_eq_getElem hi', Option.map_some,
            Option.some.injEq] at this
          have h5 : lt x MA[i] = false := e3 i _ (by omega) (by rw [hM, List.getElem?_append_left hi',
            List.getElem?_eq_getElem hi'])
          have hsl : Sorted lt A[i] := List.Pairwise.sublist (List.sublist_flatten_of_mem hk) s1
          exact ho.negTrans h5 (le_last ho hsl this.symm v hv)
        · exact i4 v hv
      · intro v hv
        rcases List.mem_append.mp hv with hv | hv
        · exact i5 v hv
        · exact ho.lt_of_lt_of_le hxm (s4 m (last_mem g2) v hv)

theorem add_ok {lt : T → T → Bool} (ho : SWO lt) {s : SL T} (h : Inv lt s) (x : T) :
    ∃ s', add lt s x = .ok s' ∧ Inv lt s' ∧ Added lt x s.lists.flatten s'.lists.flatten ∧ s'.load = s.load := by
  unfold add
  by_cases hne : s.maxes = []
  · rw [if_neg (by simp [hne])]
    have hl : s.lists = [] := by
      have := h.maxes
      rw [hne] at this
      simpa using this.symm
    have hlen := h.len
    rw [hl] at hlen
    have hload := h.load
    refine ⟨_, rfl, ⟨h.load, by simp [hne, hl], by simp [hl, Sorted], by simp [hl, hlen], ?_, ?_⟩, ?_, rfl⟩
    · simp only [hl, List.nil_append, List.mem_singleton]
      rintro l rfl
      simp
      omega
    · simp [hl]
    · exact ⟨[], [], by simp [hl], by simp [hl], by simp, by simp⟩
  · rw [if_pos hne]
    obtain ⟨A, l, l', B, M, h1, h2, h3, h4, h5⟩ := place_ok ho h hne x
    rw [h3]
    simp only [Out.bind_ok]
    have hup : (l.length : Int) ≤ s.load * 2 := h.upper l (by rw [h1]; simp)
    have hload := h.load
    obtain ⟨L, M', e1, e2, e3, e4⟩ := expand_ok (s := { s with lists := A ++ l' :: B, maxes := M }) (A := A) (B := B)
      (l := l') rfl h.load h4 (by simp only; omega)
    rw [e1]
    simp only at e2 e3 e4
    have hsize : s.lists.flatten.length + 1 = L.flatten.length := by
      obtain ⟨b, c, h6, h7, _⟩ := h5
      rw [e2, h6, h7]
      simp
      omega
    refine ⟨_, rfl, ⟨h.load, e3, ?_, ?_, ?_, ?_⟩, by simp only [e2]; exact h5, rfl⟩
    · simp only [e2]
      exact sorted_added ho h.sorted h5
    · simp only
      rw [← hsize, h.len]
      push_cast
      rfl
    · intro k hk
      simp only at hk
      have hold : ∀ k ∈ A ++ B, (k.length : Int) ≤ s.load * 2 := by
        intro k hk
        apply h.upper
        rw [h1]
        simp only [List.mem_append, List.mem_cons] at *
        tauto
      rcases e4 with ⟨e4, e5⟩ | ⟨l1, l2, e4, e5, e6, e7⟩
      · rw [e4] at hk
        simp only [List.mem_append, List.mem_cons] at hk hold
        rcases hk with hk | rfl | hk
        · exact hold k (.inl hk)
        · exact e5
        · exact hold k (.inr hk)
      · rw [e4] at hk
        simp only [List.mem_append, List.mem_cons] at hk hold
        rcases hk with hk | rfl | rfl | hk
        · exact hold k (.inl hk)
        · show (k.length : Int) ≤ s.load * 2
          omega
        · exact e7
        · exact hold k (.inr hk)
    · intro hlen k hk
      simp only at hk hlen
      have hold : ∀ k ∈ A ++ B, s.load / 2 < (k.length : Int) := by
        intro k hk
        apply h.lower
        · rw [h1]
          simp only [List.length_append, List.length_cons]
          have := List.length_pos_of_mem hk
          rw [List.length_append] at this
          omega
        · rw [h1]
          simp only [List.mem_append, List.mem_cons] at *
          tauto
      rcases e4 with ⟨e4, e5⟩ | ⟨l1, l2, e4, e5, e6, e7⟩
      · rw [e4] at hk hlen
        have hl := h.lower (by rw [h1]; simpa using hlen) l (by rw [h1]; simp)
        simp only [List.mem_append, List.mem_cons] at hk hold
        rcases hk with hk | rfl | hk
        · exact hold k (.inl hk)
        · simp only
          omega
        · exact hold k (.inr hk)
      · rw [e4] at hk
        simp only [List.mem_append, List.mem_cons] at hk hold
        rcases hk with hk | rfl | rfl | hk
        · exact hold k (.inl hk)
        · show s.load / 2 < (k.length : Int)
          omega
        · show s.load / 2 < (k.length : Int)
          omega
        · exact hold k (.inr hk)

/-- Joining two neighbours.  One of them may be empty, and its maximum is not used. -/
theorem join_ok {s : SL T} {A B : List (List T)} {l1 l2 : List T} {m1 m2 : T} {MA MB : List T}
    (hl : s.lists = A ++ l1 :: l2 :: B) (hM : s.maxes = MA ++ m1 :: m2 :: MB) (hload : 1 ≤ s.load)
    (hA : MA.map some = A.map List.getLast?) (hB : MB.map some = B.map List.getLast?) (hne : l1 ++ l2 ≠ [])
    (hlen : (l1.length : Int) + l2.length ≤ s.load * 3) :
    ∃ L M, join s ((A.length : Int) + 1) = .ok { s with lists := L, maxes := M } ∧ L.flatten = s.lists.flatten ∧
      M.map some = L.map List.getLast? ∧
      (L = A ++ (l1 ++ l2) :: B ∧ ((l1 ++ l2).length : Int) ≤ s.load * 2 ∨
        ∃ k1 k2, L = A ++ k1 :: k2 :: B ∧ (k1.length : Int) = s.load ∧ s.load < k2.length ∧
          (k2.length : Int) ≤ s.load * 2) := by
  obtain ⟨n, load, lists, maxes⟩ := s
  simp only at *
  subst hl hM
  have hAl : MA.length = A.length := by simpa using congrArg List.length hA
  obtain ⟨m, hm⟩ : ∃ m, (l1 ++ l2).getLast? = some m := by
    cases hcc : (l1 ++ l2).getLast? with
    | none => exact absurd (List.getLast?_eq_none_iff.mp hcc) hne
    | some y => exact ⟨y, rfl⟩
  have i2 : item (A ++ l1 :: l2 :: B) ((A.length : Int) + 1) = .ok l2 := by
    have := item_mid (A ++ [l1]) B l2
    simpa using this
  have d1 : delItem (A ++ (l1 ++ l2) :: l2 :: B) ((A.length : Int) + 1) = .ok (A ++ (l1 ++ l2) :: B) := by
    have := delItem_mid (A ++ [l1 ++ l2]) B l2
    simpa using this
  have d2 : delItem (MA ++ m :: m2 :: MB) ((A.length : Int) + 1) = .ok (MA ++ m :: MB) := by
    have := delItem_mid (MA ++ [m]) MB m2
    rw [← hAl]
    simpa using this
  have s2 : setItem (MA ++ m1 :: m2 :: MB) (A.length : Int) m = .ok (MA ++ m :: m2 :: MB) := by
    rw [← hAl]
    exact setItem_mid _ _ _ _
  obtain ⟨L, M', e1, e2, e3, e4⟩ := expand_ok
    (s := (⟨n, load, A ++ (l1 ++ l2) :: B, MA ++ m :: MB⟩ : SL T)) (A := A) (B := B)
      (l := l1 ++ l2) rfl hload (by simp [hA, hB, hm]) (by simp; omega)
  refine ⟨L, M', ?_, by simpa using e2, e3, e4⟩
  unfold join
  simp only [Int.add_sub_cancel, item_mid, Out.bind_ok, i2, setItem_mid, item_last hm, s2, d1, d2, e1]

theorem sizes_ok {load : Int} {A B L : List (List T)} {l : List T} (hload : 1 ≤ load)
    (hup : ∀ k ∈ A ++ B, (k.length : Int) ≤ load * 2) (hlo : ∀ k ∈ A ++ B, load / 2 < (k.length : Int))
    (hl : load / 2 < (l.length : Int))
    (h : L = A ++ l :: B ∧ (l.length : Int) ≤ load * 2 ∨
        ∃ k1 k2, L = A ++ k1 :: k2 :: B ∧ (k1.length : Int) = load ∧ load < k2.length ∧
          (k2.length : Int) ≤ load * 2) :
    (∀ k ∈ L, (k.length : Int) ≤ load * 2) ∧ ∀ k ∈ L, load / 2 < (k.length : Int) := by
  simp only [List.mem_append] at hup hlo
  rcases h with ⟨rfl, h1⟩ | ⟨k1, k2, rfl, h1, h2, h3⟩
  · simp only [List.mem_append, List.mem_cons]
    constructor
    · rintro k (h | rfl | h)
      · exact hup k (.inl h)
      · exact h1
      · exact hup k (.inr h)
    · rintro k (h | rfl | h)
      · exact hlo k (.inl h)
      · exact hl
      · exact hlo k (.inr h)
  · simp only [List.mem_append, List.mem_cons]
    constructor
    · rintro k (h | rfl | rfl | h)
      · exact hup k (.inl h)
      · omega
      · omega
      · exact hup k (.inr h)
    · rintro k (h | rfl | rfl | h)
      · exact hlo k (.inl h)
      · omega
      · omega
      · exact hlo k (.inr h)

theorem flatten_erase {A B : List (List T)} {l : List T} {i : Nat} (hi : i < l.length) :
    (A ++ l.eraseIdx i :: B).flatten = (A ++ l :: B).flatten.eraseIdx (A.flatten.length + i) := by
  simp only [List.flatten_append, List.flatten_cons]
  rw [List.eraseIdx_append_of_length_le (by omega), Nat.add_sub_cancel_left, List.eraseIdx_append_of_lt_length hi]

theorem pos_lt {n : Nat} {i : Int} {p : Nat} (h : ListM.Spec.pos n i = some p) : p < n := by
  unfold ListM.Spec.pos at h
  simp only at h
  generalize (if i < 0 then i + (n : Int) else i) = j at h
  split at h
  · cases h
    omega
  · cases h

theorem delete_ok {lt : T → T → Bool} {s : SL T} (h : Inv lt s) {A B : List (List T)} {l : List T}
    (hl : s.lists = A ++ l :: B) {idx : Int} {i : Nat} (hi : ListM.Spec.pos l.length idx = some i) :
    ∃ s', delete s A.length idx = .ok s' ∧ Inv lt s' ∧
      s'.lists.flatten = s.lists.flatten.eraseIdx (A.flatten.length + i) ∧ s'.load = s.load := by
  have hil := pos_lt hi
  obtain ⟨n, load, lists, maxes⟩ := s
  obtain ⟨hload, hmx, hso, hle, hup, hlo⟩ := h
  simp only at *
  subst hl
  obtain ⟨MA, m, MB, rfl, h1, h2, h3, h4⟩ := maxes_split hmx
  have hfl := flatten_erase (A := A) (B := B) hil
  have hel : (l.eraseIdx i).length = l.length - 1 := List.length_eraseIdx_of_lt hil
  have hd : delItem l idx = .ok (l.eraseIdx i) := by
    unfold delItem
    rw [hi]
  have hbound : A.flatten.length + i < (A ++ l :: B).flatten.length := by
    simp
    omega
  have hsorted : Sorted lt ((A ++ l :: B).flatten.eraseIdx (A.flatten.length + i)) :=
    List.Pairwise.sublist (List.eraseIdx_sublist _ _) hso
  have hsize : n - 1 = (((A ++ l :: B).flatten.eraseIdx (A.flatten.length + i)).length : Int) := by
    rw [List.length_eraseIdx_of_lt hbound, hle]
    omega
  generalize hX : (A ++ l :: B).flatten.eraseIdx (A.flatten.length + i) = X at *
  generalize hl' : l.eraseIdx i = l' at *
  unfold delete
  simp only [item_mid, Out.bind_ok, hd, setItem_mid]
  have keep : ∀ y, l'.getLast? = some y → ((1 < (A ++ l :: B).length) → load / 2 < (l'.length : Int)) →
      ∃ s', ((do
        let x ← item l' (-1)
        let y ← setItem (MA ++ m :: MB) (A.length : Int) x
        return (⟨n - 1, load, A ++ l' :: B, y⟩ : SL T) : R (SL T)) = .ok s') ∧ Inv lt s' ∧ s'.lists.flatten = X ∧
        s'.load = load := by
    intro y hy hlow
    rw [item_last hy]
    simp only [Out.bind_ok, ← h4]
    rw [setItem_mid]
    refine ⟨_, rfl, ⟨hload, by simp [h1, h3, hy], by simp only [hfl]; exact hsorted, by simp only [hfl]; exact hsize,
      ?_, ?_⟩, hfl, rfl⟩
    · intro k hk
      simp only [List.mem_append, List.mem_cons] at hk hup
      rcases hk with hk | rfl | hk
      · exact hup k (.inl hk)
      · have := hup l (.inr (.inl rfl))
        simp only
        omega
      · exact hup k (.inr (.inr hk))
    · intro hlen k hk
      simp only at hlen hk
      have hlen' : 1 < (A ++ l :: B).length := by simpa using hlen
      have hlo' := hlo hlen'
      simp only [List.mem_append, List.mem_cons] at hk hlo'
      rcases hk with hk | rfl | hk
      · exact hlo' k (.inl hk)
      · exact hlow hlen'
      · exact hlo' k (.inr (.inr hk))
  have hne : ∀ k : List T, k ≠ [] → ∃ y, k.getLast? = some y := by
    intro k hk
    cases hcc : k.getLast? with
    | none => exact absurd (List.getLast?_eq_none_iff.mp hcc) hk
    | some y => exact ⟨y, rfl⟩
  by_cases c1 : (l'.length : Int) > load / 2
  · rw [if_pos c1]
    obtain ⟨y, hy⟩ := hne l' (by rintro rfl; simp at c1; omega)
    exact keep y hy (fun _ => c1)
  · rw [if_neg c1]
    by_cases c2 : (A ++ l' :: B).length > 1
    · rw [if_pos c2]
      have hlo' := hlo (by simpa using c2)
      -- joining
      have fin : ∀ (A' B' : List (List T)) (l1 l2 : List T) (L : List (List T)) (M : List T),
          A' ++ l1 :: l2 :: B' = A ++ l' :: B → (∀ k ∈ A' ++ B', k ∈ A ++ l :: B) →
          load / 2 < ((l1 ++ l2).length : Int) → L.flatten = (A' ++ l1 :: l2 :: B').flatten →
          M.map some = L.map List.getLast? →
          (L = A' ++ (l1 ++ l2) :: B' ∧ ((l1 ++ l2).length : Int) ≤ load * 2 ∨
            ∃ k1 k2, L = A' ++ k1 :: k2 :: B' ∧ (k1.length : Int) = load ∧ load < k2.length ∧
              (k2.length : Int) ≤ load * 2) →
          Inv lt (⟨n - 1, load, L, M⟩ : SL T) ∧ L.flatten = X := by
        intro A' B' l1 l2 L M q1 q2 q3 q4 q5 q6
        have q7 : L.flatten = X := by rw [q4, q1, hfl]
        obtain ⟨z1, z2⟩ := sizes_ok hload (fun k hk => hup k (q2 k hk)) (fun k hk => hlo' k (q2 k hk)) q3 q6
        exact ⟨⟨hload, q5, by simp only [q7]; exact hsorted, by simp only [q7]; exact hsize, z1, fun _ => z2⟩, q7⟩
      have hB2 : load / 2 ≤ load := by omega
      by_cases c3 : A.length = 0
      · rw [if_pos c3]
        have hA : A = [] := List.length_eq_zero_iff.mp c3
        subst hA
        cases B with
        | nil => simp at c2
        | cons l2 B =>
          obtain ⟨m2, MB', g1, g2⟩ : ∃ m2 MB', MB = m2 :: MB' ∧ MB'.map some = B.map List.getLast? := by
            cases MB with
            | nil => cases h3
            | cons m2 MB' =>
              simp only [List.map_cons, List.cons.injEq] at h3
              exact ⟨m2, MB', rfl, h3.2⟩
          have hMA : MA = [] := by simpa using h1
          subst hMA g1
          have u1 := hup l2 (by simp)
          have u2 := hlo' l2 (by simp)
          obtain ⟨L, M, e1, e2, e3, e4⟩ := join_ok (s := (⟨n - 1, load, [] ++ l' :: l2 :: B, [] ++ m :: m2 :: MB'⟩ : SL T))
            (A := []) (B := B) (l1 := l') (l2 := l2) (MA := []) (MB := MB') rfl rfl hload rfl g2
            (by intro hz; have := congrArg List.length hz; rw [List.length_append, List.length_nil] at this; omega) (by simp only; omega)
          simp only [List.length_nil, Nat.cast_zero, Int.zero_add] at e1
          obtain ⟨f1, f2⟩ := fin [] B l' l2 L M rfl (by simp; tauto) (by simp; omega) e2 e3 e4
          exact ⟨_, e1, f1, f2, rfl⟩
      · rw [if_neg c3]
        obtain ⟨A', l1, rfl⟩ : ∃ A' l1, A = A' ++ [l1] := by
          rcases List.eq_nil_or_concat A with rfl | ⟨A', l1, rfl⟩
          · simp at c3
          · exact ⟨A', l1, by simp⟩
        obtain ⟨MA', m1, g1, g2⟩ : ∃ MA' m1, MA = MA' ++ [m1] ∧ MA'.map some = A'.map List.getLast? := by
          rw [List.map_append, List.map_eq_append_iff] at h1
          obtain ⟨x1, x2, rfl, y1, y2⟩ := h1
          rw [List.map_cons, List.map_eq_cons_iff] at y2
          obtain ⟨m1, x3, rfl, y3, y4⟩ := y2
          have : x3 = [] := by simpa using y4
          subst this
          exact ⟨x1, m1, rfl, y1⟩
        subst g1
        have u1 := hup l1 (by simp)
        have u2 := hlo' l1 (by simp)
        have hApp : ∀ (Y : List (List T)), (A' ++ [l1]) ++ l' :: Y = A' ++ l1 :: l' :: Y := by simp
        obtain ⟨L, M, e1, e2, e3, e4⟩ := join_ok
          (s := (⟨n - 1, load, (A' ++ [l1]) ++ l' :: B, (MA' ++ [m1]) ++ m :: MB⟩ : SL T))
          (A := A') (B := B) (l1 := l1) (l2 := l') (m1 := m1) (m2 := m) (MA := MA') (MB := MB) (by simp) (by simp) hload g2 h3
          (by intro hz; have := congrArg List.length hz; rw [List.length_append, List.length_nil] at this; omega) (by simp only; omega)
        have hcast : (((A' ++ [l1]).length : Nat) : Int) = (A'.length : Int) + 1 := by simp
        rw [hcast]
        obtain ⟨f1, f2⟩ := fin A' B l1 l' L M (by simp) (by simp; tauto) (by simp; omega)
          (by rw [e2]; simp) e3 e4
        exact ⟨_, e1, f1, f2, rfl⟩
    · rw [if_neg c2]
      have hlen1 : A.length = 0 ∧ B.length = 0 := by
        simp only [List.length_append, List.length_cons] at c2
        omega
      by_cases c4 : l'.length ≠ 0
      · rw [if_pos c4]
        obtain ⟨y, hy⟩ := hne l' (by rintro rfl; simp at c4)
        exact keep y hy (fun hq => by simp only [List.length_append, List.length_cons] at hq; omega)
      · rw [if_neg c4]
        have hA : A = [] := List.length_eq_zero_iff.mp hlen1.1
        have hB : B = [] := List.length_eq_zero_iff.mp hlen1.2
        have hMA : MA = [] := by rw [hA] at h1; simpa using h1
        have hMB : MB = [] := by rw [hB] at h3; simpa using h3
        have hl0 : l' = [] := by simpa using c4
        subst hA hB hMA hMB
        subst hl0
        have d1 := delItem_mid (T := List T) [] [] []
        have d2 := delItem_mid (T := T) [] [] m
        simp only [List.nil_append] at d1 d2
        simp only [List.nil_append, List.append_nil, List.flatten_cons, List.flatten_nil] at hfl
        simp only [List.nil_append, d1, d2, Out.bind_ok]
        refine ⟨_, rfl, ⟨hload, rfl, ?_, ?_, by simp, by simp⟩, ?_, rfl⟩
        · simp [Sorted]
        · simp only
          rw [hsize, ← hfl]
          simp
        · simpa using hfl

theorem delete_fails {s : SL T} {pos : Nat} {idx : Int} (h : Fails s (.delete pos idx)) :
    delete s pos idx = .exc .indexError := by
  unfold Fails at h
  unfold delete
  cases hl : s.lists[pos]? with
  | none =>
    have : item s.lists (pos : Int) = .exc .indexError := by
      have := List.getElem?_eq_none_iff.mp hl
      have hp : ListM.Spec.pos s.lists.length (pos : Int) = none := by
        unfold ListM.Spec.pos
        simp only
        rw [if_neg (by split <;> omega)]
      unfold item
      rw [hp]
    rw [this]
    rfl
  | some l =>
    obtain ⟨A, B, h1, h2⟩ := split_at hl
    simp only [hl] at h
    rw [h1, ← h2, item_mid]
    simp only [Out.bind_ok]
    have : delItem l idx = .exc .indexError := by
      unfold delItem
      rw [h]
    rw [this]
    rfl

end Codon.SortedList
