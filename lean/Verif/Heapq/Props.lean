import Verif.Heapq.Lemmas

/-! # Property theorems for `heapq` (C27) -/

namespace Codon.Heapq

section
variable {T : Type} {lt : T → T → Bool}

/-- The heap invariant: no element is less than the one at its parent position. -/
def IsHeap (lt : T → T → Bool) (h : List T) : Prop :=
  ∀ i v, h[i]? = some v → ∀ w, (h[2 * i + 1]? = some w ∨ h[2 * i + 2]? = some w) → lt w v = false

theorem isHeap_iff {h : List T} : IsHeap lt h ↔ HeapFrom lt 0 h := by
  constructor
  · intro hh c v w hc _ hv hw
    refine hh ((c - 1) / 2) w hw v ?_
    rcases Nat.mod_two_eq_zero_or_one c with h0 | h1
    · right; rwa [show 2 * ((c - 1) / 2) + 2 = c by omega]
    · left; rwa [show 2 * ((c - 1) / 2) + 1 = c by omega]
  · intro hh i v hv w hw
    rcases hw with hw | hw
    · exact hh (2 * i + 1) w v (by omega) (by omega) hw (by rwa [show (2 * i + 1 - 1) / 2 = i by omega])
    · exact hh (2 * i + 2) w v (by omega) (by omega) hw (by rwa [show (2 * i + 2 - 1) / 2 = i by omega])

/-- `heapify` is defined on every list and makes it a heap of the same elements. -/
theorem c27_heapify (ho : SWO lt) (h : List T) :
    ∃ h', heapify lt h = some h' ∧ h'.Perm h ∧ IsHeap lt h' := by
  obtain ⟨h', e1, e2, e3⟩ := heapifyFrom_spec ho (h.length / 2) h (by omega) (by
    intro c v w hc hs hv _
    have := (List.getElem?_eq_some_iff.mp hv).1
    omega)
  exact ⟨h', e1, e2, isHeap_iff.mpr e3⟩

/-- `heappush` adds the element and keeps the heap invariant. -/
theorem c27_heappush (ho : SWO lt) (h : List T) (x : T) (hh : IsHeap lt h) :
    ∃ h', heappush lt h x = some h' ∧ h'.Perm (x :: h) ∧ IsHeap lt h' := by
  rw [isHeap_iff] at hh
  have hdesc : ∀ n c, c ≤ n → Desc 0 c := by
    intro n
    induction n with
    | zero => intro c hc; have : c = 0 := by omega
              subst this; exact .refl
    | succ n ih =>
      intro c hc
      rcases Nat.eq_zero_or_pos c with rfl | hp
      · exact .refl
      · exact .child (ih ((c - 1) / 2) (by omega)) hp rfl
  obtain ⟨h', e1, e2, e3⟩ := siftdown_spec ho 0 x (h ++ [x]) h.length (by simp) (hdesc _ _ (Nat.le_refl _))
    (by simp) (by
      intro c v w hc hs hne hv hw
      have hcl := (List.getElem?_eq_some_iff.mp hv).1
      simp only [List.length_append, List.length_singleton] at hcl
      rw [List.getElem?_append_left (by omega)] at hv hw
      exact hh c v w hc hs hv hw)
    (by
      intro _ c v w hc hcp hv _
      have hcl := (List.getElem?_eq_some_iff.mp hv).1
      simp only [List.length_append, List.length_singleton] at hcl
      omega)
  exact ⟨h', e1, e2.trans (List.perm_append_comm), isHeap_iff.mpr e3⟩

/-- `heappop` of a non-empty heap returns a least element and leaves a heap of the others. -/
theorem c27_heappop (ho : SWO lt) (h : List T) (hne : h ≠ []) (hh : IsHeap lt h) :
    ∃ x h', heappop lt h = some (x, h') ∧ h.Perm (x :: h') ∧ IsHeap lt h' ∧ ∀ y ∈ h, lt y x = false := by
  rw [isHeap_iff] at hh
  obtain ⟨init, last, rfl⟩ : ∃ init last, h = init ++ [last] :=
    ⟨h.dropLast, h.getLast hne, (List.dropLast_concat_getLast hne).symm⟩
  unfold heappop
  simp only [List.getLast?_append, List.getLast?_singleton, Option.some_or, Option.bind_eq_bind,
    Option.bind_some, List.dropLast_concat]
  cases init with
  | nil =>
    simp only [ne_eq, not_true_eq_false, if_false]
    refine ⟨last, [], rfl, List.Perm.refl _, isHeap_iff.mpr (by intro c v w _ _ hv; simp at hv), ?_⟩
    intro y hy
    simp at hy
    subst hy
    exact ho.irrefl _
  | cons top t =>
    simp only [ne_eq, reduceCtorEq, not_false_eq_true, if_true, List.getElem?_cons_zero, Option.bind_some]
    rw [put_some (by simp)]
    simp only [Option.bind_some, List.set_cons_zero]
    have h1 : HeapFrom lt 1 (last :: t) := by
      intro c v w hc hs hv hw
      have hcl := (List.getElem?_eq_some_iff.mp hv).1
      have e1 : ((top :: t) ++ [last])[c]? = some v := by
        rw [List.getElem?_append_left (by simpa using hcl)]
        cases c with
        | zero => omega
        | succ c => simpa using hv
      have e2 : ((top :: t) ++ [last])[(c - 1) / 2]? = some w := by
        have hcl2 := (List.getElem?_eq_some_iff.mp hw).1
        rw [List.getElem?_append_left (by simpa using hcl2)]
        obtain ⟨k, hk⟩ : ∃ k, (c - 1) / 2 = k + 1 := ⟨(c - 1) / 2 - 1, by omega⟩
        rw [hk] at hw ⊢
        simpa using hw
      exact hh c v w hc (by omega) e1 e2
    obtain ⟨h', e1, e2, e3⟩ := siftup_spec ho (last :: t) 0 (by simp) h1
    rw [e1]
    refine ⟨top, h', rfl, ?_, isHeap_iff.mpr e3, root_least ho hh (by simp)⟩
    have : ((top :: t) ++ [last]).Perm (top :: (last :: t)) := by
      rw [List.cons_append]
      exact (List.perm_append_comm).cons top
    exact this.trans (e2.symm.cons top)

/-- `heappop` of an empty heap is an error. -/
theorem c27_heappop_empty : heappop lt ([] : List T) = none := rfl

/-- `heapreplace` returns a least element and replaces it by the new one. -/
theorem c27_heapreplace (ho : SWO lt) (h : List T) (x : T) (hne : h ≠ []) (hh : IsHeap lt h) :
    ∃ r h', heapreplace lt h x = some (r, h') ∧ (r :: h').Perm (x :: h) ∧ IsHeap lt h' ∧
      r ∈ h ∧ ∀ y ∈ h, lt y r = false := by
  rw [isHeap_iff] at hh
  cases h with
  | nil => exact absurd rfl hne
  | cons top t =>
    obtain ⟨h', e1, e2, e3⟩ := siftup_spec ho (x :: t) 0 (by simp) (heapFrom_one_of_set hh x)
    refine ⟨top, h', ?_, ?_, isHeap_iff.mpr e3, List.mem_cons_self, root_least ho hh (by simp)⟩
    · unfold heapreplace
      simp only [List.getElem?_cons_zero, Option.bind_eq_bind, Option.bind_some]
      rw [put_some (by simp)]
      simp only [Option.bind_some, List.set_cons_zero, e1]
      rfl
    · exact (e2.cons top).trans (List.Perm.swap x top t)

/-- `heappushpop` returns a least element of the heap and the new element together and keeps the
others. -/
theorem c27_heappushpop (ho : SWO lt) (h : List T) (x : T) (hh : IsHeap lt h) :
    ∃ r h', heappushpop lt h x = some (r, h') ∧ (r :: h').Perm (x :: h) ∧ IsHeap lt h' ∧
      ∀ y ∈ x :: h, lt y r = false := by
  have hh' := isHeap_iff.mp hh
  cases h with
  | nil =>
    refine ⟨x, [], rfl, List.Perm.refl _, hh, ?_⟩
    intro y hy
    simp at hy; subst hy; exact ho.irrefl _
  | cons top t =>
    have hroot := root_least ho hh' (top := top) (by simp)
    unfold heappushpop
    simp only [List.getElem?_cons_zero]
    by_cases hl : lt top x = true
    · rw [if_pos hl, put_some (by simp)]
      obtain ⟨h', e1, e2, e3⟩ := siftup_spec ho (x :: t) 0 (by simp) (heapFrom_one_of_set hh' x)
      simp only [Option.bind_eq_bind, Option.bind_some, List.set_cons_zero, e1]
      refine ⟨top, h', rfl, (e2.cons top).trans (List.Perm.swap x top t), isHeap_iff.mpr e3, ?_⟩
      intro y hy
      rcases List.mem_cons.mp hy with rfl | hy
      · exact ho.asymm hl
      · exact hroot y hy
    · rw [if_neg hl]
      refine ⟨x, top :: t, rfl, List.Perm.refl _, hh, ?_⟩
      intro y hy
      rcases List.mem_cons.mp hy with rfl | hy
      · exact ho.irrefl _
      · exact ho.negTrans (hroot y hy) (by simpa using hl)

/-- Popping `n` times. -/
def popN (lt : T → T → Bool) : Nat → List T → Option (List T × List T)
  | 0, h => some ([], h)
  | n + 1, h => do
    let (x, h) ← heappop lt h
    let (xs, h) ← popN lt n h
    return (x :: xs, h)

/-- Heap sort: `heapify` and popping everything gives the elements in ascending order. -/
theorem c27_heapsort (ho : SWO lt) (h : List T) :
    ∃ h' xs, heapify lt h = some h' ∧ popN lt h.length h' = some (xs, []) ∧ xs.Perm h ∧ Sorted lt xs := by
  have key : ∀ (n : Nat) (h : List T), h.length = n → IsHeap lt h →
      ∃ xs, popN lt n h = some (xs, []) ∧ xs.Perm h ∧ Sorted lt xs := by
    intro n
    induction n with
    | zero =>
      intro h hl _
      have := List.length_eq_zero_iff.mp hl
      subst this
      exact ⟨[], rfl, List.Perm.refl _, List.Pairwise.nil⟩
    | succ n ih =>
      intro h hl hh
      obtain ⟨x, h', e1, e2, e3, e4⟩ := c27_heappop ho h (by rintro rfl; simp at hl) hh
      have hl' : h'.length = n := by
        have := e2.length_eq
        simp only [List.length_cons] at this; omega
      obtain ⟨xs, f1, f2, f3⟩ := ih h' hl' e3
      refine ⟨x :: xs, by simp [popN, e1, f1], (f2.cons x).trans e2.symm, ?_⟩
      unfold Sorted
      rw [List.pairwise_cons]
      exact ⟨fun y hy => e4 y (e2.symm.subset (List.mem_cons_of_mem _ (f2.subset hy))), f3⟩
  obtain ⟨h', e1, e2, e3⟩ := c27_heapify ho h
  obtain ⟨xs, f1, f2, f3⟩ := key h.length h' e2.length_eq e3
  exact ⟨h', xs, e1, f1, f2.trans e2, f3⟩

/-- The max-heap functions used by `nsmallest` and `merge` do the same for the opposite order. -/
theorem c27_max_variants (h : List T) (x : T) :
    heapifyMax lt h = heapify (fun a b => lt b a) h ∧
    heappopMax lt h = heappop (fun a b => lt b a) h ∧
    heapreplaceMax lt h x = heapreplace (fun a b => lt b a) h x := by
  have hs : ∀ h pos, siftupMax lt h pos = siftup (fun a b => lt b a) h pos := by
    intro h pos
    unfold siftupMax siftup siftdownMax siftdown
    simp only [siftupMaxLoop_eq, siftdownMaxLoop_eq]
  have hf : ∀ n h, heapifyMaxFrom lt n h = heapifyFrom (fun a b => lt b a) n h := by
    intro n
    induction n with
    | zero => intro h; rfl
    | succ n ih => intro h; simp only [heapifyMaxFrom, heapifyFrom, hs, ih]
  refine ⟨hf _ _, ?_, ?_⟩
  · unfold heappopMax heappop; simp only [hs]
  · unfold heapreplaceMax heapreplace; simp only [hs]

end

/-! ### Cases -/

def natLt (a b : Nat) : Bool := decide (a < b)

example : heapify natLt [5, 2, 8, 1, 9, 3] = some [1, 2, 3, 5, 9, 8] := by decide
example : IsHeap natLt [1, 2, 3, 5, 9, 8] := by
  rw [isHeap_iff]
  intro c v w hc _ hv hw
  have hl := (List.getElem?_eq_some_iff.mp hv).1
  simp only [List.length_cons, List.length_nil] at hl
  match c, hc with
  | 1, _ | 2, _ | 3, _ | 4, _ | 5, _ => simp at hv hw; subst hv; subst hw; decide
  | n + 6, _ => omega
example : heappush natLt [1, 2, 3, 5, 9, 8] 0 = some [0, 2, 1, 5, 9, 8, 3] := by decide
example : heappop natLt [1, 2, 3, 5, 9, 8] = some (1, [2, 5, 3, 8, 9]) := by decide
example : heappushpop natLt [1, 2, 3] 2 = some (1, [2, 2, 3]) := by decide
example : heapreplace natLt [1, 2, 3] 0 = some (1, [0, 2, 3]) := by decide
example : heapifyMax natLt [5, 2, 8, 1, 9, 3] = some [9, 5, 8, 1, 2, 3] := by decide
example : SWO natLt := natSWO

end Codon.Heapq
