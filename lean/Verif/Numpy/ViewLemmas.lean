import Verif.Numpy.ViewSpec
import Verif.Numpy.Lemmas
import Verif.Slice.Props
/-!
# Lemmas on basic indexing
-/
namespace Codon.Numpy
open Codon.SliceSpec

theorem used_append : ∀ a b : List Idx, used (a ++ b) = used a + used b
  | [], b => by simp [used]
  | .int _ :: a, b => by simp only [List.cons_append, used, used_append a b]; omega
  | .slice _ _ _ :: a, b => by simp only [List.cons_append, used, used_append a b]; omega
  | .newaxis :: a, b => by simp only [List.cons_append, used, used_append a b]
  | .ellipsis :: a, b => by simp only [List.cons_append, used, used_append a b]

theorem used_full (n : Nat) : used (List.replicate n .full) = n := by
  induction n with
  | zero => rfl
  | succ n ih => rw [List.replicate_succ, Idx.full, used]; exact congrArg (· + 1) ih

theorem used_num : ∀ l : List Idx, used l + Idx.num .newaxis l + Idx.num .ellipsis l = l.length
  | [] => rfl
  | x :: l => by
    have := used_num l
    cases x <;> simp [used, Idx.num] at this ⊢ <;> omega

theorem positions_full (n : Nat) : positions n none none 1 = List.range n := by
  simp only [positions, Int.zero_lt_one, if_true]
  rw [List.filter_eq_self]
  intro x hx
  rw [List.mem_range] at hx
  simp only [Selected, first, last, Int.zero_lt_one, if_true, decide_eq_true_eq]
  exact ⟨hx, one_dvd _, by omega, by omega⟩

theorem positions_full_get (n t j : Int) : (0 ≤ t ∧ 0 ≤ j ∧ (positions n.toNat none none ((none : Option Int).getD 1))[t.toNat]? = some j.toNat) ↔
    (0 ≤ t ∧ t < n) ∧ t = j := by
  rw [Option.getD_none, positions_full, List.getElem?_eq_some_iff]
  simp only [List.length_range, List.getElem_range]
  constructor
  · rintro ⟨h1, h2, h3, h4⟩; omega
  · rintro ⟨⟨h1, h2⟩, rfl⟩
    exact ⟨h1, h1, by omega, rfl⟩

/-- The end of an index stands for whole axes. -/
theorem sel_full : ∀ (sh c i : List Int), Sel (List.replicate sh.length .full) sh c i ↔ Valid c sh ∧ c = i
  | [], c, i => by rw [List.length_nil, List.replicate_zero, Sel]
  | n :: sh, c, i => by
    rw [List.length_cons, List.replicate_succ, Idx.full]
    cases c with
    | nil => simp [Sel, Valid]
    | cons t c =>
      cases i with
      | nil => simp [Sel]
      | cons j i =>
        rw [Sel, positions_full_get, show List.replicate sh.length (Idx.slice none none none) = List.replicate sh.length .full from rfl, sel_full sh c i, Valid]
        simp only [List.cons.injEq]
        tauto

theorem sel_remainder : ∀ (idx : List Idx) (k : Nat) (sh c i : List Int), .ellipsis ∉ idx → used idx + k = sh.length →
    (Sel idx sh c i ↔ Sel (idx ++ List.replicate k .full) sh c i)
  | [], k, sh, c, i, _, hk => by
    rw [used, Nat.zero_add] at hk
    rw [List.nil_append, hk, sel_full, Sel]
  | .int x :: r, k, sh, c, i, he, hk => by
    rw [List.cons_append]
    cases sh with
    | nil => simp [used] at hk
    | cons n sh =>
      cases i with
      | nil => simp [Sel]
      | cons j i => rw [Sel, Sel, sel_remainder r k sh c i (fun hm => he (by simp [hm])) (by simp [used] at hk; omega)]
  | .slice _ _ _ :: r, k, sh, c, i, he, hk => by
    rw [List.cons_append]
    cases sh with
    | nil => simp [used] at hk
    | cons n sh =>
      cases c with
      | nil => simp [Sel]
      | cons t c =>
        cases i with
        | nil => simp [Sel]
        | cons j i => rw [Sel, Sel, sel_remainder r k sh c i (fun hm => he (by simp [hm])) (by simp [used] at hk; omega)]
  | .newaxis :: r, k, sh, c, i, he, hk => by
    rw [List.cons_append]
    cases c with
    | nil => simp [Sel]
    | cons t c => rw [Sel, Sel, sel_remainder r k sh c i (fun hm => he (by simp [hm])) (by simpa [used] using hk)]
  | .ellipsis :: r, k, sh, c, i, he, _ => absurd (by simp) he

theorem sel_ellipsis_base : ∀ (k : Nat) (r : List Idx) (sh c i : List Int), k + used r = sh.length →
    (Sel (.ellipsis :: r) sh c i ↔ Sel (List.replicate k .full ++ r) sh c i)
  | 0, r, sh, c, i, hk => by
    rw [List.replicate_zero, List.nil_append, Sel]
    constructor
    · rintro ⟨m, h1, _, _, h4⟩
      have : m = 0 := by omega
      subst this; simpa using h4
    · intro h
      exact ⟨0, by omega, by simp [Valid], by simp, by simpa using h⟩
  | k + 1, r, sh, c, i, hk => by
    rw [List.replicate_succ, List.cons_append, Idx.full]
    cases sh with
    | nil => simp at hk
    | cons n sh =>
      have hk' : k + used r = sh.length := by simp at hk; omega
      have ih := sel_ellipsis_base k r sh
      have hm : ∀ m, (n :: sh).length = m + used r ↔ m = k + 1 := by intro m; simp; omega
      cases c with
      | nil =>
        rw [Sel]
        simp only [hm, exists_eq_left, List.take_nil, List.take_succ_cons, Valid, false_and, Sel]
      | cons t c =>
        cases i with
        | nil =>
          rw [Sel]
          simp only [hm, exists_eq_left, List.take_nil, List.take_succ_cons, Sel, reduceCtorEq, false_and, and_false]
        | cons j i =>
          have ih := ih c i hk'
          rw [Sel] at ih
          have hm' : ∀ m, sh.length = m + used r ↔ m = k := by intro m; omega
          simp only [hm', exists_eq_left] at ih
          rw [Sel, Sel]
          rw [positions_full_get]
          simp only [hm, exists_eq_left, List.take_succ_cons, List.drop_succ_cons, Valid, List.cons.injEq]
          rw [show (List.replicate k (Idx.slice none none none)) = List.replicate k .full from rfl, ← ih]
          tauto

theorem sel_ellipsis : ∀ (p : List Idx) (k : Nat) (r : List Idx) (sh c i : List Int), .ellipsis ∉ p → used p + k + used r = sh.length →
    (Sel (p ++ .ellipsis :: r) sh c i ↔ Sel (p ++ (List.replicate k .full ++ r)) sh c i)
  | [], k, r, sh, c, i, _, hk => by
    rw [List.nil_append, List.nil_append]
    exact sel_ellipsis_base k r sh c i (by simpa [used] using hk)
  | .int x :: p, k, r, sh, c, i, he, hk => by
    rw [List.cons_append, List.cons_append]
    cases sh with
    | nil => simp [used] at hk
    | cons n sh =>
      cases i with
      | nil => simp [Sel]
      | cons j i => rw [Sel, Sel, sel_ellipsis p k r sh c i (fun hm => he (by simp [hm])) (by simp [used] at hk; omega)]
  | .slice _ _ _ :: p, k, r, sh, c, i, he, hk => by
    rw [List.cons_append, List.cons_append]
    cases sh with
    | nil => simp [used] at hk
    | cons n sh =>
      cases c with
      | nil => simp [Sel]
      | cons t c =>
        cases i with
        | nil => simp [Sel]
        | cons j i => rw [Sel, Sel, sel_ellipsis p k r sh c i (fun hm => he (by simp [hm])) (by simp [used] at hk; omega)]
  | .newaxis :: p, k, r, sh, c, i, he, hk => by
    rw [List.cons_append, List.cons_append]
    cases c with
    | nil => simp [Sel]
    | cons t c => rw [Sel, Sel, sel_ellipsis p k r sh c i (fun hm => he (by simp [hm])) (by simpa [used] using hk)]
  | .ellipsis :: p, k, r, sh, c, i, he, _ => absurd (by simp) he

theorem proper_full_append : ∀ (k : Nat) (r : List Idx) (sh : List Int), k ≤ sh.length → (Proper (List.replicate k .full ++ r) sh ↔ Proper r (sh.drop k))
  | 0, r, sh, _ => by simp
  | k + 1, r, sh, hk => by
    cases sh with
    | nil => simp at hk
    | cons n sh =>
      rw [List.replicate_succ, List.cons_append, Idx.full, Proper]
      simp only [ne_eq, reduceCtorEq, not_false_eq_true, true_and]
      exact proper_full_append k r sh (by simpa using hk)

theorem proper_remainder : ∀ (idx : List Idx) (k : Nat) (sh : List Int), .ellipsis ∉ idx → used idx + k = sh.length →
    (Proper idx sh ↔ Proper (idx ++ List.replicate k .full) sh)
  | [], k, sh, _, hk => by
    have := proper_full_append k [] sh (by simp [used] at hk; omega)
    rw [List.append_nil] at this
    rw [List.nil_append, this]; simp [Proper]
  | .int x :: r, k, sh, he, hk => by
    rw [List.cons_append]
    cases sh with
    | nil => simp [used] at hk
    | cons n sh => rw [Proper, Proper, proper_remainder r k sh (fun hm => he (by simp [hm])) (by simp [used] at hk; omega)]
  | .slice _ _ _ :: r, k, sh, he, hk => by
    rw [List.cons_append]
    cases sh with
    | nil => simp [used] at hk
    | cons n sh => rw [Proper, Proper, proper_remainder r k sh (fun hm => he (by simp [hm])) (by simp [used] at hk; omega)]
  | .newaxis :: r, k, sh, he, hk => by
    rw [List.cons_append, Proper, Proper, proper_remainder r k sh (fun hm => he (by simp [hm])) (by simpa [used] using hk)]
  | .ellipsis :: r, k, sh, he, _ => absurd (by simp) he

theorem proper_ellipsis : ∀ (p : List Idx) (k : Nat) (r : List Idx) (sh : List Int), .ellipsis ∉ p → used p + k + used r = sh.length →
    (Proper (p ++ .ellipsis :: r) sh ↔ Proper (p ++ (List.replicate k .full ++ r)) sh)
  | [], k, r, sh, _, hk => by
    rw [List.nil_append, List.nil_append, Proper, proper_full_append k r sh (by simp [used] at hk; omega)]
    rw [show sh.length - used r = k by simp [used] at hk; omega]
  | .int x :: p, k, r, sh, he, hk => by
    rw [List.cons_append, List.cons_append]
    cases sh with
    | nil => simp [used] at hk
    | cons n sh => rw [Proper, Proper, proper_ellipsis p k r sh (fun hm => he (by simp [hm])) (by simp [used] at hk; omega)]
  | .slice _ _ _ :: p, k, r, sh, he, hk => by
    rw [List.cons_append, List.cons_append]
    cases sh with
    | nil => simp [used] at hk
    | cons n sh => rw [Proper, Proper, proper_ellipsis p k r sh (fun hm => he (by simp [hm])) (by simp [used] at hk; omega)]
  | .newaxis :: p, k, r, sh, he, hk => by
    rw [List.cons_append, List.cons_append, Proper, Proper, proper_ellipsis p k r sh (fun hm => he (by simp [hm])) (by simpa [used] using hk)]
  | .ellipsis :: p, k, r, sh, he, _ => absurd (by simp) he

theorem expandEllipsis_id (n : Nat) : ∀ l : List Idx, .ellipsis ∉ l → expandEllipsis n l = l
  | [], _ => rfl
  | .int _ :: l, h => by rw [expandEllipsis, expandEllipsis_id n l fun hm => h (by simp [hm])]; simp
  | .slice _ _ _ :: l, h => by rw [expandEllipsis, expandEllipsis_id n l fun hm => h (by simp [hm])]; simp
  | .newaxis :: l, h => by rw [expandEllipsis, expandEllipsis_id n l fun hm => h (by simp [hm])]; simp
  | .ellipsis :: l, h => absurd (by simp) h

theorem expandEllipsis_split (n : Nat) : ∀ (p r : List Idx), .ellipsis ∉ p → .ellipsis ∉ r → expandEllipsis n (p ++ .ellipsis :: r) = p ++ (List.replicate n .full ++ r)
  | [], r, _, hr => by rw [List.nil_append, expandEllipsis, expandEllipsis_id n r hr]; rfl
  | .int _ :: p, r, h, hr => by rw [List.cons_append, expandEllipsis, expandEllipsis_split n p r (fun hm => h (by simp [hm])) hr] <;> simp
  | .slice _ _ _ :: p, r, h, hr => by rw [List.cons_append, expandEllipsis, expandEllipsis_split n p r (fun hm => h (by simp [hm])) hr] <;> simp
  | .newaxis :: p, r, h, hr => by rw [List.cons_append, expandEllipsis, expandEllipsis_split n p r (fun hm => h (by simp [hm])) hr] <;> simp
  | .ellipsis :: p, r, h, _ => absurd (by simp) h

theorem num_zero (l : List Idx) (h : Idx.num .ellipsis l = 0) : .ellipsis ∉ l := by
  intro hm
  have : .ellipsis ∈ l.filter (· = .ellipsis) := List.mem_filter.mpr ⟨hm, by simp⟩
  rw [Idx.num, List.length_eq_zero_iff] at h
  rw [h] at this
  simp at this

theorem num_one (l : List Idx) (h : Idx.num .ellipsis l = 1) : ∃ p r, l = p ++ .ellipsis :: r ∧ .ellipsis ∉ p ∧ .ellipsis ∉ r := by
  have hm : .ellipsis ∈ l := by
    by_contra hn
    have : l.filter (· = .ellipsis) = [] := by
      rw [List.filter_eq_nil_iff]; intro x hx; simp only [decide_eq_true_eq]; rintro rfl; exact hn hx
    rw [Idx.num, this] at h; simp at h
  obtain ⟨p, r, rfl, hp⟩ := List.eq_append_cons_of_mem hm
  refine ⟨p, r, rfl, hp, ?_⟩
  intro hr
  have h1 : .ellipsis ∈ r.filter (· = .ellipsis) := List.mem_filter.mpr ⟨hr, by simp⟩
  rw [Idx.num, List.filter_append, List.filter_cons] at h
  simp only [decide_true, if_true, List.length_append, List.length_cons] at h
  have h2 := List.length_pos_of_mem h1
  omega

/-! ### The expanded index -/

theorem foldl_off (l : List Sub) (x : Int) : l.foldl (fun off m => off + m.start * m.stride) x = x + baseOffset l := by
  unfold baseOffset
  induction l generalizing x with
  | nil => simp
  | cons m l ih => rw [List.foldl_cons, List.foldl_cons, ih, ih (0 + _)]; ring

theorem baseOffset_cons (m : Sub) (l : List Sub) : baseOffset (m :: l) = m.start * m.stride + baseOffset l := by
  rw [baseOffset, List.foldl_cons, foldl_off]; ring

/-- The axes selected by `m` out of an array of shape `sh` and strides `st` give the elements of the index `E`. -/
def Selects (E : List Idx) (sh st : List Int) (m : List Sub) : Prop :=
  (∀ t ∈ m, 0 ≤ t.len) ∧
  (∀ c i, Sel E sh c i → Valid i sh ∧ Valid c ((m.filter (·.keep)).map (·.len)) ∧
    baseOffset m + ptrOff c ((m.filter (·.keep)).map fun t => t.step * t.stride) = ptrOff i st) ∧
  ∀ c, Valid c ((m.filter (·.keep)).map (·.len)) → ∃ i, Sel E sh c i

theorem adjust_axis (n : Int) (hn : 0 ≤ n) (b e k : Option Int) (t : Slice.Adj) (h : Slice.adjust n b e k = some t) :
    0 ≤ t.length ∧ (∀ q j : Int, 0 ≤ q → 0 ≤ j → ((positions n.toNat b e (k.getD 1))[q.toNat]? = some j.toNat ↔ q < t.length ∧ j = t.start + q * t.step)) ∧
    ∀ q : Int, 0 ≤ q → q < t.length → 0 ≤ t.start + q * t.step ∧ t.start + q * t.step < n := by
  obtain ⟨n', rfl⟩ := Int.eq_ofNat_of_zero_le hn
  obtain ⟨h1, h2, h3⟩ := Slice.c24_adjust_selects_python_positions n' b e k t h
  have key : ∀ q : Int, 0 ≤ q → ((positions n' b e (k.getD 1))[q.toNat]?).map (fun x : Nat => (x : Int)) = if q < t.length then some (t.start + q * t.step) else none := by
    intro q hq
    rw [← List.getElem?_map, ← h1, List.getElem?_map]
    by_cases hlt : q < t.length
    · rw [if_pos hlt, List.getElem?_range (by omega)]; simp [Int.toNat_of_nonneg hq]
    · rw [if_neg hlt, List.getElem?_eq_none (by simp; omega)]; rfl
  rw [show ((n' : Int)).toNat = n' from by simp]
  refine ⟨h2, fun q j hq hj => ?_, fun q hq hlt => ?_⟩
  · have := key q hq
    constructor
    · intro hp
      rw [hp] at this
      split at this
      · next hlt => simp at this; exact ⟨hlt, by omega⟩
      · simp at this
    · rintro ⟨hlt, rfl⟩
      rw [if_pos hlt, Option.map_eq_some_iff] at this
      obtain ⟨x, hx, he⟩ := this
      rw [hx, ← he]; simp
  · have := key q hq
    rw [if_pos hlt, Option.map_eq_some_iff] at this
    obtain ⟨x, hx, he⟩ := this
    have hm := List.mem_of_getElem? hx
    have hxn : x < n' := by
      simp only [positions] at hm
      split at hm
      · exact List.mem_range.mp (List.mem_filter.mp hm).1
      · exact List.mem_range.mp (List.mem_filter.mp (List.mem_reverse.mp hm)).1
    rw [← he]; omega

theorem view_core : ∀ (E : List Idx) (sh st : List Int), .ellipsis ∉ E → used E = sh.length → sh.length = st.length → (∀ n ∈ sh, 0 ≤ n) →
    ∃ axes, expandNewaxis E (sh.zip st) = some axes ∧
      ((∃ m, multiindex axes = .ok m ∧ Proper E sh ∧ Selects E sh st m) ∨
       ∃ e, multiindex axes = .error e ∧ ¬ Proper E sh ∧ ((e = .index ∧ ∃ i, .int i ∈ E) ∨ (e = .value ∧ ∃ b s, .slice b s (some 0) ∈ E)))
  | [], sh, st, _, hu, hl, _ => by
    have h1 : sh = [] := List.length_eq_zero_iff.mp (by simp [used] at hu; omega)
    have h2 : st = [] := List.length_eq_zero_iff.mp (by rw [h1] at hl; simpa using hl.symm)
    subst h1; subst h2
    refine ⟨[], rfl, Or.inl ⟨[], rfl, trivial, by simp, ?_, ?_⟩⟩
    · rintro c i ⟨hv, rfl⟩
      have : c = [] := List.length_eq_zero_iff.mp (Valid.length hv)
      subst this
      simp [Valid, baseOffset, ptrOff]
    · intro c hc; exact ⟨c, hc, rfl⟩
  | .newaxis :: r, sh, st, he, hu, hl, hn => by
    obtain ⟨axes, h1, h2⟩ := view_core r sh st (fun hm => he (by simp [hm])) (by simpa [used] using hu) hl hn
    refine ⟨_, by rw [expandNewaxis, h1]; rfl, ?_⟩
    have hadj : Slice.adjust 1 none none none = some ⟨0, 1, 1, 1⟩ := by decide
    rcases h2 with ⟨m, hm, hp, hs⟩ | ⟨e, hm, hp, hor⟩
    · refine Or.inl ⟨⟨0, 1, 1, true, 0⟩ :: m, by simp only [multiindex, hm, Idx.full, hadj], hp, ?_, ?_, ?_⟩
      · intro t ht
        rcases List.mem_cons.mp ht with rfl | ht
        · decide
        · exact hs.1 t ht
      · intro c i hsel
        cases c with
        | nil => simp [Sel] at hsel
        | cons t c =>
          rw [Sel] at hsel
          obtain ⟨rfl, hsel⟩ := hsel
          obtain ⟨v1, v2, v3⟩ := hs.2.1 c i hsel
          refine ⟨v1, ?_, ?_⟩
          · rw [List.filter_cons_of_pos rfl, List.map_cons]; exact ⟨by decide, v2⟩
          · rw [List.filter_cons_of_pos rfl, List.map_cons, baseOffset_cons, ptrOff, ← v3]; ring
      · intro c hc
        rw [List.filter_cons_of_pos rfl, List.map_cons] at hc
        cases c with
        | nil => simp [Valid] at hc
        | cons t c =>
          obtain ⟨i, hi⟩ := hs.2.2 c hc.2
          have h0 : t = 0 := by have := hc.1; dsimp only at this; omega
          exact ⟨i, by rw [Sel]; exact ⟨h0, hi⟩⟩
    · refine Or.inr ⟨e, by simp only [multiindex, hm], hp, ?_⟩
      rcases hor with ⟨h, i, hi⟩ | ⟨h, b, s, hi⟩
      · exact Or.inl ⟨h, i, by simp [hi]⟩
      · exact Or.inr ⟨h, b, s, by simp [hi]⟩
  | .int k :: r, sh, st, he, hu, hl, hn => by
    cases sh with
    | nil => simp [used] at hu
    | cons n sh =>
      cases st with
      | nil => simp at hl
      | cons s st =>
        obtain ⟨axes, h1, h2⟩ := view_core r sh st (fun hm => he (by simp [hm])) (by simpa [used] using hu) (by simpa using hl) (fun x hx => hn x (by simp [hx]))
        refine ⟨_, by rw [List.zip_cons_cons, expandNewaxis.eq_def]; dsimp only; rw [h1]; rfl, ?_⟩
        rcases h2 with ⟨m, hm, hp, hs⟩ | ⟨e, hm, hp, hor⟩
        · by_cases hr : -n ≤ k ∧ k < n
          · have hnorm : normIndex k n = .ok (rel n k) := by
              simp only [normIndex, rel]
              rw [if_neg]
              split <;> omega
            have hrel : 0 ≤ rel n k ∧ rel n k < n := by simp only [rel]; split <;> omega
            refine Or.inl ⟨⟨rel n k, 1, 1, false, s⟩ :: m, by simp only [multiindex, hm, hnorm], ⟨hr, hp⟩, ?_, ?_, ?_⟩
            · intro t ht
              rcases List.mem_cons.mp ht with rfl | ht
              · exact Int.one_nonneg
              · exact hs.1 t ht
            · intro c i hsel
              cases i with
              | nil => simp [Sel] at hsel
              | cons j i =>
                rw [Sel] at hsel
                obtain ⟨⟨rfl, _⟩, hsel⟩ := hsel
                obtain ⟨v1, v2, v3⟩ := hs.2.1 c i hsel
                refine ⟨⟨hrel, v1⟩, ?_, ?_⟩
                · rw [List.filter_cons_of_neg (by simp)]; exact v2
                · rw [List.filter_cons_of_neg (by simp), baseOffset_cons, ptrOff, ← v3]; ring
            · intro c hc
              rw [List.filter_cons_of_neg (by simp)] at hc
              obtain ⟨i, hi⟩ := hs.2.2 c hc
              exact ⟨rel n k :: i, by rw [Sel]; exact ⟨⟨rfl, hrel⟩, hi⟩⟩
          · have hnorm : normIndex k n = .error .index := by
              simp only [normIndex]
              rw [if_pos]
              split <;> omega
            exact Or.inr ⟨.index, by simp only [multiindex, hm, hnorm], fun hpp => hr hpp.1, Or.inl ⟨rfl, k, by simp⟩⟩
        · refine Or.inr ⟨e, by simp only [multiindex, hm], fun hpp => hp hpp.2, ?_⟩
          rcases hor with ⟨h, i, hi⟩ | ⟨h, b, s, hi⟩
          · exact Or.inl ⟨h, i, by simp [hi]⟩
          · exact Or.inr ⟨h, b, s, by simp [hi]⟩
  | .slice b z k :: r, sh, st, he, hu, hl, hn => by
    cases sh with
    | nil => simp [used] at hu
    | cons n sh =>
      cases st with
      | nil => simp at hl
      | cons s st =>
        have hn0 : 0 ≤ n := hn n (by simp)
        obtain ⟨axes, h1, h2⟩ := view_core r sh st (fun hm => he (by simp [hm])) (by simpa [used] using hu) (by simpa using hl) (fun x hx => hn x (by simp [hx]))
        refine ⟨_, by rw [List.zip_cons_cons, expandNewaxis.eq_def]; dsimp only; rw [h1]; rfl, ?_⟩
        rcases h2 with ⟨m, hm, hp, hs⟩ | ⟨e, hm, hp, hor⟩
        · cases hadj : Slice.adjust n b z k with
          | none =>
            have hk : k = some 0 := by
              obtain ⟨n', rfl⟩ := Int.eq_ofNat_of_zero_le hn0
              exact (Slice.c24_zero_step_rejected n' b z k).mp hadj
            subst hk
            exact Or.inr ⟨.value, by simp only [multiindex, hm, hadj], fun hpp => hpp.1 rfl, Or.inr ⟨rfl, b, z, by simp⟩⟩
          | some t =>
            have hk : k ≠ some 0 := by
              rintro rfl
              obtain ⟨n', rfl⟩ := Int.eq_ofNat_of_zero_le hn0
              rw [(Slice.c24_zero_step_rejected n' b z (some 0)).mpr rfl] at hadj
              simp at hadj
            obtain ⟨a1, a2, a3⟩ := adjust_axis n hn0 b z k t hadj
            refine Or.inl ⟨⟨t.start, t.step, t.length, true, s⟩ :: m, by simp only [multiindex, hm, hadj], ⟨hk, hp⟩, ?_, ?_, ?_⟩
            · intro x hx
              rcases List.mem_cons.mp hx with rfl | hx
              · exact a1
              · exact hs.1 x hx
            · intro c i hsel
              cases c with
              | nil => simp [Sel] at hsel
              | cons q c =>
                cases i with
                | nil => simp [Sel] at hsel
                | cons j i =>
                  rw [Sel] at hsel
                  obtain ⟨⟨hq, hj, hpos⟩, hsel⟩ := hsel
                  obtain ⟨hlt, rfl⟩ := (a2 q j hq hj).mp hpos
                  obtain ⟨v1, v2, v3⟩ := hs.2.1 c i hsel
                  refine ⟨⟨a3 q hq hlt, v1⟩, ?_, ?_⟩
                  · rw [List.filter_cons_of_pos rfl, List.map_cons]; exact ⟨⟨hq, hlt⟩, v2⟩
                  · rw [List.filter_cons_of_pos rfl, List.map_cons, baseOffset_cons, ptrOff, ptrOff, ← v3]; ring
            · intro c hc
              rw [List.filter_cons_of_pos rfl, List.map_cons] at hc
              cases c with
              | nil => simp [Valid] at hc
              | cons q c =>
                obtain ⟨i, hi⟩ := hs.2.2 c hc.2
                have hq := hc.1
                dsimp only at hq
                have h3 := a3 q hq.1 hq.2
                exact ⟨(t.start + q * t.step) :: i, by rw [Sel]; exact ⟨⟨hq.1, h3.1, (a2 q _ hq.1 h3.1).mpr ⟨hq.2, rfl⟩⟩, hi⟩⟩
        · refine Or.inr ⟨e, by simp only [multiindex, hm], fun hpp => hp hpp.2, ?_⟩
          rcases hor with ⟨h, i, hi⟩ | ⟨h, b, s, hi⟩
          · exact Or.inl ⟨h, i, by simp [hi]⟩
          · exact Or.inr ⟨h, b, s, by simp [hi]⟩
  | .ellipsis :: r, sh, st, he, _, _, _ => absurd (by simp) he

/-! ### Shapes -/

theorem resShape_full_append : ∀ (k : Nat) (r : List Idx) (sh : List Int), (∀ n ∈ sh, 0 ≤ n) → k ≤ sh.length →
    resShape (List.replicate k .full ++ r) sh = sh.take k ++ resShape r (sh.drop k)
  | 0, r, sh, _, _ => by simp
  | k + 1, r, sh, hn, hk => by
    cases sh with
    | nil => simp at hk
    | cons n sh =>
      have h0 := hn n (by simp)
      rw [List.replicate_succ, List.cons_append, Idx.full, resShape, Option.getD_none, positions_full, List.length_range, Int.toNat_of_nonneg h0,
        show List.replicate k (Idx.slice none none none) = List.replicate k .full from rfl,
        resShape_full_append k r sh (fun x hx => hn x (by simp [hx])) (by simpa using hk)]
      rfl

theorem resShape_remainder : ∀ (idx : List Idx) (k : Nat) (sh : List Int), (∀ n ∈ sh, 0 ≤ n) → .ellipsis ∉ idx → used idx + k = sh.length →
    resShape idx sh = resShape (idx ++ List.replicate k .full) sh
  | [], k, sh, hn, _, hk => by
    have hk' : k = sh.length := by simpa [used] using hk
    have := resShape_full_append k [] sh hn (by omega)
    rw [List.append_nil] at this
    rw [List.nil_append, this, hk']; simp [resShape]
  | .int x :: r, k, sh, hn, he, hk => by
    rw [List.cons_append]
    cases sh with
    | nil => simp [used] at hk
    | cons n sh => rw [resShape, resShape, resShape_remainder r k sh (fun x hx => hn x (by simp [hx])) (fun hm => he (by simp [hm])) (by simp [used] at hk; omega)]
  | .slice _ _ _ :: r, k, sh, hn, he, hk => by
    rw [List.cons_append]
    cases sh with
    | nil => simp [used] at hk
    | cons n sh => rw [resShape, resShape, resShape_remainder r k sh (fun x hx => hn x (by simp [hx])) (fun hm => he (by simp [hm])) (by simp [used] at hk; omega)]
  | .newaxis :: r, k, sh, hn, he, hk => by
    rw [List.cons_append, resShape, resShape, resShape_remainder r k sh hn (fun hm => he (by simp [hm])) (by simpa [used] using hk)]
  | .ellipsis :: r, k, sh, _, he, _ => absurd (by simp) he

theorem resShape_ellipsis : ∀ (p : List Idx) (k : Nat) (r : List Idx) (sh : List Int), (∀ n ∈ sh, 0 ≤ n) → .ellipsis ∉ p → used p + k + used r = sh.length →
    resShape (p ++ .ellipsis :: r) sh = resShape (p ++ (List.replicate k .full ++ r)) sh
  | [], k, r, sh, hn, _, hk => by
    rw [List.nil_append, List.nil_append, resShape, resShape_full_append k r sh hn (by simp [used] at hk; omega)]
    rw [show sh.length - used r = k by simp [used] at hk; omega]
  | .int x :: p, k, r, sh, hn, he, hk => by
    rw [List.cons_append, List.cons_append]
    cases sh with
    | nil => simp [used] at hk
    | cons n sh => rw [resShape, resShape, resShape_ellipsis p k r sh (fun x hx => hn x (by simp [hx])) (fun hm => he (by simp [hm])) (by simp [used] at hk; omega)]
  | .slice _ _ _ :: p, k, r, sh, hn, he, hk => by
    rw [List.cons_append, List.cons_append]
    cases sh with
    | nil => simp [used] at hk
    | cons n sh => rw [resShape, resShape, resShape_ellipsis p k r sh (fun x hx => hn x (by simp [hx])) (fun hm => he (by simp [hm])) (by simp [used] at hk; omega)]
  | .newaxis :: p, k, r, sh, hn, he, hk => by
    rw [List.cons_append, List.cons_append, resShape, resShape, resShape_ellipsis p k r sh hn (fun hm => he (by simp [hm])) (by simpa [used] using hk)]
  | .ellipsis :: p, k, r, sh, _, he, _ => absurd (by simp) he

theorem adjust_length (n : Int) (hn : 0 ≤ n) (b e k : Option Int) (t : Slice.Adj) (h : Slice.adjust n b e k = some t) :
    t.length = ((positions n.toNat b e (k.getD 1)).length : Int) := by
  obtain ⟨n', rfl⟩ := Int.eq_ofNat_of_zero_le hn
  obtain ⟨h1, h2, _⟩ := Slice.c24_adjust_selects_python_positions n' b e k t h
  have := congrArg List.length h1
  simp only [List.length_map, List.length_range] at this
  rw [show ((n' : Int)).toNat = n' from by simp]
  omega

theorem shape_core : ∀ (E : List Idx) (sh st : List Int) (axes : List (Idx × Int × Int)) (m : List Sub), .ellipsis ∉ E → used E = sh.length → sh.length = st.length →
    (∀ n ∈ sh, 0 ≤ n) → expandNewaxis E (sh.zip st) = some axes → multiindex axes = .ok m → (m.filter (·.keep)).map (·.len) = resShape E sh
  | [], sh, st, axes, m, _, hu, hl, _, h1, h2 => by
    have e1 : sh = [] := List.length_eq_zero_iff.mp (by simp [used] at hu; omega)
    subst e1
    simp only [List.zip_nil_left, expandNewaxis, Option.some.injEq] at h1; subst h1
    simp only [multiindex, Except.ok.injEq] at h2; subst h2
    rfl
  | .newaxis :: r, sh, st, axes, m, he, hu, hl, hn, h1, h2 => by
    rw [expandNewaxis, Option.map_eq_some_iff] at h1
    obtain ⟨ax, h1, rfl⟩ := h1
    rw [multiindex] at h2
    cases hm : multiindex ax with
    | error e => rw [hm] at h2; simp at h2
    | ok rest =>
      have ih := shape_core r sh st ax rest (fun hm => he (by simp [hm])) (by simpa [used] using hu) hl hn h1 hm
      have hadj : Slice.adjust 1 none none none = some ⟨0, 1, 1, 1⟩ := by decide
      rw [hm] at h2
      simp only [Idx.full, hadj, Except.ok.injEq] at h2; subst h2
      rw [List.filter_cons_of_pos rfl, List.map_cons, ih]; rfl
  | .int k :: r, sh, st, axes, m, he, hu, hl, hn, h1, h2 => by
    cases sh with
    | nil => simp [used] at hu
    | cons n sh =>
      cases st with
      | nil => simp at hl
      | cons s st =>
        rw [List.zip_cons_cons, expandNewaxis.eq_def] at h1
        dsimp only at h1
        rw [Option.map_eq_some_iff] at h1
        obtain ⟨ax, h1, rfl⟩ := h1
        rw [multiindex] at h2
        cases hm : multiindex ax with
        | error e => rw [hm] at h2; simp at h2
        | ok rest =>
          have ih := shape_core r sh st ax rest (fun hm => he (by simp [hm])) (by simpa [used] using hu) (by simpa using hl) (fun x hx => hn x (by simp [hx])) h1 hm
          rw [hm] at h2
          cases hk : normIndex k n with
          | error e => simp [hk] at h2
          | ok j =>
            simp only [hk, Except.ok.injEq] at h2; subst h2
            rw [List.filter_cons_of_neg (by simp), ih]; rfl
  | .slice b e k :: r, sh, st, axes, m, he, hu, hl, hn, h1, h2 => by
    cases sh with
    | nil => simp [used] at hu
    | cons n sh =>
      cases st with
      | nil => simp at hl
      | cons s st =>
        rw [List.zip_cons_cons, expandNewaxis.eq_def] at h1
        dsimp only at h1
        rw [Option.map_eq_some_iff] at h1
        obtain ⟨ax, h1, rfl⟩ := h1
        rw [multiindex] at h2
        cases hm : multiindex ax with
        | error e => rw [hm] at h2; simp at h2
        | ok rest =>
          have ih := shape_core r sh st ax rest (fun hm => he (by simp [hm])) (by simpa [used] using hu) (by simpa using hl) (fun x hx => hn x (by simp [hx])) h1 hm
          rw [hm] at h2
          cases hk : Slice.adjust n b e k with
          | none => simp [hk] at h2
          | some t =>
            simp only [hk, Except.ok.injEq] at h2; subst h2
            rw [List.filter_cons_of_pos rfl, List.map_cons, ih, resShape, adjust_length n (hn n (by simp)) b e k t hk]
  | .ellipsis :: r, sh, st, _, _, he, _, _, _, _, _ => absurd (by simp) he

/-- What `view` computes after expanding the index. -/
theorem view_expand (a : Arr) (idx : List Idx) (hl : a.shape.length = a.strides.length) (hn : ∀ n ∈ a.shape, 0 ≤ n) (h1 : Idx.num .ellipsis idx ≤ 1)
    (h2 : used idx ≤ a.shape.length) :
    ∃ E, .ellipsis ∉ E ∧ used E = a.shape.length ∧ (∀ c i, Sel idx a.shape c i ↔ Sel E a.shape c i) ∧ (Proper idx a.shape ↔ Proper E a.shape) ∧
      resShape idx a.shape = resShape E a.shape ∧ (∀ i, .int i ∈ E → .int i ∈ idx) ∧ (∀ b s, .slice b s (some 0) ∈ E → .slice b s (some 0) ∈ idx) ∧
      a.view idx = match expandNewaxis E (a.shape.zip a.strides) with
        | none => .error .compile
        | some axes =>
          match multiindex axes with
          | .error e => .error e
          | .ok m => .ok ⟨(m.filter (·.keep)).map (·.len), (m.filter (·.keep)).map fun t => t.step * t.stride, a.blk, a.off + baseOffset m⟩ := by
  have hnum := used_num idx
  have hsub : idx.length - Idx.num .newaxis idx - Idx.num .ellipsis idx = used idx := by omega
  rcases Nat.eq_zero_or_pos (Idx.num .ellipsis idx) with h0 | hpos
  · have he := num_zero idx h0
    have hk : a.shape.length + Idx.num .newaxis idx - idx.length = a.shape.length - used idx := by omega
    refine ⟨idx ++ List.replicate (a.shape.length - used idx) .full, ?_, ?_, ?_, ?_, ?_, ?_, ?_, ?_⟩
    · intro hm
      rcases List.mem_append.mp hm with hm | hm
      · exact he hm
      · have := List.eq_of_mem_replicate hm; simp [Idx.full] at this
    · rw [used_append, used_full]; omega
    · exact fun c i => sel_remainder idx _ _ c i he (by omega)
    · exact proper_remainder idx _ _ he (by omega)
    · exact resShape_remainder idx _ _ hn he (by omega)
    · intro i hm
      rcases List.mem_append.mp hm with hm | hm
      · exact hm
      · have := List.eq_of_mem_replicate hm; simp [Idx.full] at this
    · intro b s hm
      rcases List.mem_append.mp hm with hm | hm
      · exact hm
      · have := List.eq_of_mem_replicate hm; simp [Idx.full] at this
    · simp only [Arr.view]
      rw [if_neg (by omega), hsub, if_neg (by omega)]
      simp only [h0, if_true, hk]
      rfl
  · have hone : Idx.num .ellipsis idx = 1 := by omega
    obtain ⟨p, r, rfl, hp, hr⟩ := num_one idx hone
    have hu : used (p ++ .ellipsis :: r) = used p + used r := by rw [used_append]; rfl
    rw [hu] at h2 hsub hnum
    have hpr : ∀ x, x ∈ p ++ (List.replicate (a.shape.length - (used p + used r)) .full ++ r) → x = .full ∨ x ∈ p ++ .ellipsis :: r := by
      intro x hm
      rcases List.mem_append.mp hm with hm | hm
      · exact Or.inr (by simp [hm])
      · rcases List.mem_append.mp hm with hm | hm
        · exact Or.inl (List.eq_of_mem_replicate hm)
        · exact Or.inr (by simp [hm])
    refine ⟨p ++ (List.replicate (a.shape.length - (used p + used r)) .full ++ r), ?_, ?_, ?_, ?_, ?_, ?_, ?_, ?_⟩
    · intro hm
      rcases List.mem_append.mp hm with hm | hm
      · exact hp hm
      · rcases List.mem_append.mp hm with hm | hm
        · have := List.eq_of_mem_replicate hm; simp [Idx.full] at this
        · exact hr hm
    · rw [used_append, used_append, used_full]; omega
    · exact fun c i => sel_ellipsis p _ r _ c i hp (by omega)
    · exact proper_ellipsis p _ r _ hp (by omega)
    · exact resShape_ellipsis p _ r _ hn hp (by omega)
    · intro i hm
      rcases hpr _ hm with h | h
      · simp [Idx.full] at h
      · exact h
    · intro b s hm
      rcases hpr _ hm with h | h
      · simp [Idx.full] at h
      · exact h
    · have hlen : (p ++ (List.replicate (a.shape.length - (used p + used r)) Idx.full ++ r)).length = a.shape.length + Idx.num .newaxis (p ++ .ellipsis :: r) := by
        rw [hone] at hnum
        simp only [List.length_append, List.length_cons, List.length_replicate] at hnum ⊢
        omega
      simp only [Arr.view]
      rw [if_neg (by omega), hsub, if_neg (by omega), if_neg (by omega), expandEllipsis_split _ p r hp hr, hlen, Nat.sub_self, List.replicate_zero, List.append_nil]
      rfl

end Codon.Numpy
