import Verif.Str.FindLemmas
import Mathlib.Data.List.Lex
import Mathlib.Tactic.Common

/-! Properties C31 (find, index, count, `in`), C32 (rfind), C35 (string comparison) and C36 (startswith, endswith). -/

set_option linter.unusedSimpArgs false

namespace Codon.Str

open Codon.Sort (rd rd_nat rd_ex rd_some_iff)

/-! ### Specifications -/

/-- Python's lower bound of the window for a `start` argument on a string of length `n`. -/
def lo (n start : Int) : Int := if start < 0 then max 0 (start + n) else start

/-- Python's upper bound of the window for an `end` argument (missing: the whole string). -/
def hi (n : Int) : Option Int → Int
  | none => n
  | some stop => if stop < 0 then max 0 (stop + n) else min stop n

/-- `p` occurs in `s` at `j`, within the window `[a, c)`. -/
def OccursIn (s p : Str) (a c j : Int) : Prop := Occurs s p j ∧ a ≤ j ∧ j + p.length ≤ c

/-- `r` is the least index of an occurrence within the window, or -1 if there is none. -/
def FirstIn (s p : Str) (a c r : Int) : Prop :=
  (OccursIn s p a c r ∧ ∀ j, OccursIn s p a c j → r ≤ j) ∨ (r = -1 ∧ ∀ j, ¬ OccursIn s p a c j)

/-- `r` is the greatest index of an occurrence within the window, or -1 if there is none. -/
def LastIn (s p : Str) (a c r : Int) : Prop :=
  (OccursIn s p a c r ∧ ∀ j, OccursIn s p a c j → j ≤ r) ∨ (r = -1 ∧ ∀ j, ¬ OccursIn s p a c j)

/-- A list of occurrences in the window in increasing order, no two of them overlapping. -/
def NonOverlap (s p : Str) (a c : Int) (l : List Int) : Prop :=
  (∀ j ∈ l, OccursIn s p a c j) ∧ l.Pairwise fun x y => x + max 1 (p.length : Int) ≤ y

/-- Lexicographic order on the bytes: `s` is a proper prefix of `t`, or smaller at the first difference. -/
def LexLt (s t : Str) : Prop :=
  (∃ y t', t = s ++ y :: t') ∨ ∃ p x y s' t', s = p ++ x :: s' ∧ t = p ++ y :: t' ∧ x.toNat < y.toNat

/-! ### The window -/

theorem correctIndices_eq (s : Str) (start : Int) (stop : Option Int) :
    correctIndices s start (stop.getD (len s)) = (lo s.length start, hi s.length stop) := by
  unfold correctIndices lo hi len
  dsimp only
  cases stop with
  | none =>
    simp only [Option.getD_none, Prod.mk.injEq]
    constructor
    · split <;> (try split) <;> omega
    · split
      · rfl
      · split <;> omega
  | some x =>
    simp only [Option.getD_some, Prod.mk.injEq]
    constructor
    · split <;> (try split) <;> omega
    · split <;> split <;> (try split) <;> omega

theorem lo_nonneg (n start : Int) : 0 ≤ lo n start := by unfold lo; split <;> omega
theorem hi_le {n : Int} (hn : 0 ≤ n) (stop : Option Int) : hi n stop ≤ n := by
  unfold hi; split
  · omega
  · split <;> omega

theorem hi_nonneg {n : Int} (hn : 0 ≤ n) (stop : Option Int) : 0 ≤ hi n stop := by
  unfold hi; split
  · omega
  · split <;> omega

theorem slice_split {s : Str} {a c : Int} (h0 : 0 ≤ a) (h1 : a ≤ c) (h2 : c ≤ s.length) :
    ∃ A X C, s = A ++ (X ++ C) ∧ (A.length : Int) = a ∧ (X.length : Int) = c - a ∧ slice s a c = some X := by
  refine ⟨s.take a.toNat, (s.drop a.toNat).take (c - a).toNat, (s.drop a.toNat).drop (c - a).toNat,
    by rw [List.take_append_drop, List.take_append_drop], by simp; omega, by simp; omega, ?_⟩
  unfold slice len
  rw [if_pos ⟨h0, h1, h2⟩]

theorem occurs_window {A X C p : Str} {j : Int} (hj : 0 ≤ j) :
    Occurs X p j ↔ OccursIn (A ++ (X ++ C)) p A.length (A.length + X.length) (A.length + j) := by
  constructor
  · rintro ⟨a, c, rfl, rfl⟩
    refine ⟨⟨A ++ a, c ++ C, by simp, by simp⟩, by omega, by simp; omega⟩
  · rintro ⟨h, h1, h2⟩
    obtain ⟨A', X', C', e1, e2, e3⟩ := split_at X (i := j) (k := p.length) hj (by omega) (by omega)
    subst e1
    refine ⟨A', C', ?_, e2⟩
    have : X' = p := by
      have h' : Occurs ((A ++ A') ++ (X' ++ (C' ++ C))) p (A ++ A').length := by
        have : A ++ (A' ++ (X' ++ C') ++ C) = (A ++ A') ++ (X' ++ (C' ++ C)) := by simp
        rw [this] at h
        rw [List.length_append, Int.natCast_add, e2]; exact h
      exact (occurs_append (by omega)).mp h'
    rw [this]

/-- An index within the string. -/
theorem first_window {A X C p : Str} {r : Int} (h : IsFirst X p r) :
    FirstIn (A ++ (X ++ C)) p A.length (A.length + X.length) (if r < 0 then r else r + A.length) := by
  rcases h with ⟨h1, h2⟩ | ⟨rfl, h2⟩
  · have hb := h1.bounds
    rw [if_neg (by omega), Int.add_comm r]
    refine Or.inl ⟨(occurs_window hb.1).mp h1, fun j hj => ?_⟩
    by_contra hc
    have hj0 : 0 ≤ j - A.length := by have := hj.2.1; omega
    apply h2 (j - A.length) (by omega)
    rw [occurs_window (A := A) (C := C) hj0]
    rw [show (A.length : Int) + (j - A.length) = j by omega]; exact hj
  · rw [if_pos (by omega)]
    refine Or.inr ⟨rfl, fun j hj => ?_⟩
    have hj0 : 0 ≤ j - A.length := by have := hj.2.1; omega
    apply h2 (j - A.length)
    rw [occurs_window (A := A) (C := C) hj0]
    rw [show (A.length : Int) + (j - A.length) = j by omega]; exact hj

theorem last_window {A X C p : Str} {r : Int} (h : IsLast X p r) :
    LastIn (A ++ (X ++ C)) p A.length (A.length + X.length) (if r < 0 then r else r + A.length) := by
  rcases h with ⟨h1, h2⟩ | ⟨rfl, h2⟩
  · have hb := h1.bounds
    rw [if_neg (by omega), Int.add_comm r]
    refine Or.inl ⟨(occurs_window hb.1).mp h1, fun j hj => ?_⟩
    by_contra hc
    have hj0 : 0 ≤ j - A.length := by have := hj.2.1; omega
    apply h2 (j - A.length) (by omega)
    rw [occurs_window (A := A) (C := C) hj0]
    rw [show (A.length : Int) + (j - A.length) = j by omega]; exact hj
  · rw [if_pos (by omega)]
    refine Or.inr ⟨rfl, fun j hj => ?_⟩
    have hj0 : 0 ≤ j - A.length := by have := hj.2.1; omega
    apply h2 (j - A.length)
    rw [occurs_window (A := A) (C := C) hj0]
    rw [show (A.length : Int) + (j - A.length) = j by omega]; exact hj

/-! ### C31 -/

/-- **C31.** `s.find(sub, start, end)` never reads outside the string, and returns the least index at which
`sub` occurs within the window, or -1 if it does not occur there. -/
theorem c31_find (s sub : Str) (start : Int) (stop : Option Int) :
    ∃ r, find s sub start stop = some r ∧ FirstIn s sub (lo s.length start) (hi s.length stop) r := by
  unfold find
  rw [correctIndices_eq]
  dsimp only
  have hlo := lo_nonneg (s.length : Int) start
  have hhi := hi_le (n := (s.length : Int)) (by omega) stop
  generalize lo (s.length : Int) start = a at *
  generalize hi (s.length : Int) stop = c at *
  by_cases hc : c - a < len sub
  · rw [if_pos hc]
    unfold len at hc
    exact ⟨-1, rfl, Or.inr ⟨rfl, fun j hj => by have := hj.2; omega⟩⟩
  · rw [if_neg hc]
    unfold len at hc
    obtain ⟨A, X, C, rfl, e2, e3, e4⟩ := slice_split (s := s) hlo (by omega) hhi
    rw [e4]
    obtain ⟨r, r1, r2⟩ := forwardFind_spec X sub
    simp only [Option.bind_eq_bind, Option.bind_some]
    rw [r1]
    refine ⟨_, rfl, ?_⟩
    have := first_window (A := A) (C := C) r2
    rw [show c = (A.length : Int) + X.length by omega, ← e2]
    exact this

example : find (b "one two one two") (b "two") 5 (some (-1)) = some (-1) := by decide +kernel
example : find (b "one two one two") (b "two") 2 (some 7) = some 4 := by decide +kernel

/-- **C31.** `sub in s` holds exactly if `sub` occurs somewhere in `s`. -/
theorem c31_contains (s sub : Str) : ∃ r, contains s sub = some r ∧ (r = true ↔ ∃ i, Occurs s sub i) := by
  obtain ⟨r, r1, r2⟩ := c31_find s sub 0 none
  refine ⟨decide (r ≥ 0), by unfold contains; rw [r1]; rfl, ?_⟩
  rw [decide_eq_true_iff]
  have h0 : lo (s.length : Int) 0 = 0 := by simp [lo]
  have h1 : hi (s.length : Int) none = s.length := rfl
  rw [h0, h1] at r2
  constructor
  · intro h
    rcases r2 with ⟨h2, _⟩ | ⟨h2, _⟩
    · exact ⟨r, h2.1⟩
    · omega
  · rintro ⟨i, hi⟩
    rcases r2 with ⟨h2, _⟩ | ⟨_, h2⟩
    · exact h2.1.bounds.1
    · exact absurd ⟨hi, hi.bounds.1, hi.bounds.2⟩ (h2 i)

example : contains (b "haystack") (b "st") = some true := by decide +kernel

/-- **C31.** `s.index(sub, start, end)` raises exactly if `sub` does not occur in the window, and otherwise
returns the least index. -/
theorem c31_index (s sub : Str) (start : Int) (stop : Option Int) :
    (index s sub start stop = some none ∧ ∀ j, ¬ OccursIn s sub (lo s.length start) (hi s.length stop) j) ∨
    ∃ r, index s sub start stop = some (some r) ∧ OccursIn s sub (lo s.length start) (hi s.length stop) r ∧
      ∀ j, OccursIn s sub (lo s.length start) (hi s.length stop) j → r ≤ j := by
  obtain ⟨r, r1, r2⟩ := c31_find s sub start stop
  unfold index
  rw [r1]
  simp only [Option.bind_eq_bind, Option.bind_some]
  rcases r2 with ⟨h1, h2⟩ | ⟨rfl, h2⟩
  · right
    have := h1.1.bounds
    rw [if_neg (by omega)]
    exact ⟨r, rfl, h1, h2⟩
  · left
    exact ⟨rfl, h2⟩

example : index (b "abcabc") (b "ca") 0 none = some (some 2) := by decide +kernel

theorem nonoverlap_shift {A s p : Str} {l : List Int} (h : NonOverlap s p 0 s.length l) :
    NonOverlap (A ++ s) p A.length (A ++ s).length (l.map (· + (A.length : Int))) := by
  refine ⟨?_, ?_⟩
  · intro j hj
    obtain ⟨i, hi, rfl⟩ := List.mem_map.mp hj
    have hi' := (h.1 i hi)
    have := (occurs_window (A := A) (C := []) hi'.2.1).mp hi'.1
    rw [Int.add_comm]
    simpa using this
  · rw [List.pairwise_map]
    exact h.2.imp (by intro x y hxy; omega)

/-- Occurrences from `i` on in `A ++ s` with `A.length ≤ i` are occurrences of `s`. -/
theorem nonoverlap_unshift {A s p : Str} {l : List Int} (h : NonOverlap (A ++ s) p A.length (A ++ s).length l) :
    NonOverlap s p 0 s.length (l.map (· - (A.length : Int))) := by
  refine ⟨?_, ?_⟩
  · intro j hj
    obtain ⟨i, hi, rfl⟩ := List.mem_map.mp hj
    have hi' := (h.1 i hi)
    have h0 : 0 ≤ i - (A.length : Int) := by have := hi'.2.1; omega
    have : Occurs s p (i - (A.length : Int)) := by
      rw [occurs_window (A := A) (C := []) h0]
      rw [show (A.length : Int) + (i - A.length) = i by omega]
      simpa using hi'
    exact ⟨this, h0, this.bounds.2⟩
  · rw [List.pairwise_map]
    exact h.2.imp (by intro x y hxy; omega)

/-- One step of the greedy count: cutting after the first occurrence loses at most one occurrence. -/
theorem greedy_step {s p : Str} {i : Int} (hp : p ≠ []) (h : Occurs s p i) (hf : ∀ j, j < i → ¬ Occurs s p j)
    {c : Nat} (h1 : ∃ l, NonOverlap (s.drop (i + p.length).toNat) p 0 (s.drop (i + p.length).toNat).length l ∧ l.length = c)
    (h2 : ∀ l, NonOverlap (s.drop (i + p.length).toNat) p 0 (s.drop (i + p.length).toNat).length l → l.length ≤ c) :
    (∃ l, NonOverlap s p 0 s.length l ∧ l.length = c + 1) ∧ ∀ l, NonOverlap s p 0 s.length l → l.length ≤ c + 1 := by
  obtain ⟨A, C, rfl, rfl⟩ := h
  have hpl : 0 < p.length := List.length_pos_iff.mpr hp
  have hd : (A ++ (p ++ C)).drop ((A.length : Int) + p.length).toNat = C := by
    rw [show ((A.length : Int) + p.length).toNat = (A ++ p).length by simp; omega, ← List.append_assoc, List.drop_left]
  rw [hd] at h1 h2
  constructor
  · obtain ⟨l, l1, l2⟩ := h1
    have hs := nonoverlap_shift (A := A ++ p) l1
    rw [List.append_assoc] at hs
    refine ⟨(A.length : Int) :: l.map (· + ((A ++ p).length : Int)), ⟨?_, ?_⟩, by simp [l2]⟩
    · intro j hj
      rcases List.mem_cons.mp hj with rfl | hj
      · exact ⟨⟨A, C, rfl, rfl⟩, by omega, by simp⟩
      · obtain ⟨q1, q2, q3⟩ := hs.1 j hj
        exact ⟨q1, by omega, q3⟩
    · rw [List.pairwise_cons]
      refine ⟨fun j hj => ?_, hs.2⟩
      have := (hs.1 j hj).2.1
      simp at this
      omega
  · intro l hl
    cases l with
    | nil => simp
    | cons x l =>
      have hx := hl.1 x (List.mem_cons_self ..)
      have hxi : (A.length : Int) ≤ x := by
        by_contra hc
        exact hf x (by omega) hx.1
      have hp' := List.pairwise_cons.mp hl.2
      have : NonOverlap (A ++ p ++ C) p (A ++ p).length (A ++ p ++ C).length l := by
        rw [List.append_assoc]
        refine ⟨fun j hj => ?_, hp'.2⟩
        have q := hl.1 j (List.mem_cons_of_mem _ hj)
        refine ⟨q.1, ?_, q.2.2⟩
        have := hp'.1 j hj
        simp
        omega
      have := h2 _ (nonoverlap_unshift this)
      simpa using this

theorem countLoop_spec {p : Str} (hp : p ≠ []) : ∀ (n : Nat) (s : Str) (occ : Int), s.length < n →
    ∃ c : Nat, countLoop p n s occ = some (occ + c) ∧ (∃ l, NonOverlap s p 0 s.length l ∧ l.length = c) ∧
      ∀ l, NonOverlap s p 0 s.length l → l.length ≤ c := by
  have hpl : 0 < p.length := List.length_pos_iff.mpr hp
  intro n
  induction n with
  | zero => intro s occ h; omega
  | succ n ih =>
    intro s occ h
    unfold countLoop
    obtain ⟨r, r1, r2⟩ := forwardFind_spec s p
    rw [r1]
    simp only [Option.bind_eq_bind, Option.bind_some]
    rcases r2 with ⟨h1, h2⟩ | ⟨rfl, h2⟩
    · have hb := h1.bounds
      rw [if_neg (by omega)]
      obtain ⟨c, c1, c2, c3⟩ := ih (s.drop (r + len p).toNat) (occ + 1) (by unfold len; rw [List.length_drop]; omega)
      refine ⟨c + 1, by rw [c1]; congr 1; push_cast; omega, ?_⟩
      exact greedy_step hp h1 h2 c2 c3
    · rw [if_pos rfl]
      refine ⟨0, by simp, ⟨[], ⟨by simp, by simp⟩, rfl⟩, fun l hl => ?_⟩
      cases l with
      | nil => simp
      | cons x l => exact absurd (hl.1 x (List.mem_cons_self ..)).1 (h2 x)

theorem nonoverlap_empty_le {s : Str} {a c : Int} : ∀ (l : List Int), NonOverlap s [] a c l → a ≤ c → (l.length : Int) ≤ c - a + 1 := by
  intro l
  induction l generalizing a with
  | nil => intro _ h; simp; omega
  | cons x l ih =>
    intro h hac
    have hx := h.1 x (List.mem_cons_self ..)
    have hp := List.pairwise_cons.mp h.2
    by_cases hl : l = []
    · subst hl; simp; omega
    · obtain ⟨y, hy⟩ := List.exists_mem_of_ne_nil l hl
      have hy' := hp.1 y hy
      have hyc := (h.1 y (List.mem_cons_of_mem _ hy)).2.2
      have hxa := hx.2.1
      simp only [List.length_nil] at hyc hy'
      have := ih (a := x + 1) ⟨fun j hj => ?_, hp.2⟩ (by omega)
      · simp; omega
      · have q := h.1 j (List.mem_cons_of_mem _ hj)
        have := hp.1 j hj
        simp only [List.length_nil] at this
        exact ⟨q.1, by omega, q.2.2⟩

/-- **C31.** `s.count(sub, start, end)` is the greatest number of non-overlapping occurrences of `sub` in the
window. -/
theorem c31_count (s sub : Str) (start : Int) (stop : Option Int) :
    ∃ c : Nat, count s sub start stop = some (c : Int) ∧
      (∃ l, NonOverlap s sub (lo s.length start) (hi s.length stop) l ∧ l.length = c) ∧
      ∀ l, NonOverlap s sub (lo s.length start) (hi s.length stop) l → l.length ≤ c := by
  unfold count
  rw [correctIndices_eq]
  dsimp only
  have hlo := lo_nonneg (s.length : Int) start
  have hhi := hi_le (n := (s.length : Int)) (by omega) stop
  generalize lo (s.length : Int) start = a at *
  generalize hi (s.length : Int) stop = c at *
  by_cases hc : c - a < len sub
  · rw [if_pos hc]
    unfold len at hc
    refine ⟨0, rfl, ⟨[], ⟨by simp, by simp⟩, rfl⟩, fun l hl => ?_⟩
    cases l with
    | nil => simp
    | cons x l =>
      have := (hl.1 x (List.mem_cons_self ..)).2
      omega
  · rw [if_neg hc]
    unfold len at hc
    obtain ⟨A, X, C, rfl, e2, e3, e4⟩ := slice_split (s := s) hlo (by omega) hhi
    rw [e4]
    simp only [Option.bind_eq_bind, Option.bind_some]
    unfold countStr
    have hcX : c = (A.length : Int) + X.length := by omega
    subst e2
    subst hcX
    by_cases hs : sub = []
    · subst hs
      rw [if_pos (by rfl)]
      refine ⟨X.length + 1, by simp [len], ?_, ?_⟩
      · refine ⟨(List.range (X.length + 1)).map fun t : Nat => (A.length : Int) + t, ⟨?_, ?_⟩, by simp⟩
        · intro j hj
          obtain ⟨t, ht, rfl⟩ := List.mem_map.mp hj
          have ht : t < X.length + 1 := List.mem_range.mp ht
          refine ⟨occurs_nil _ (by omega) ?_, by omega, by simp; omega⟩
          simp; omega
        · rw [List.pairwise_map]
          refine List.pairwise_lt_range.imp ?_
          intro x y hxy
          simp; omega
      · intro l hl
        have := nonoverlap_empty_le l hl (by omega)
        omega
    · have hpl : 0 < sub.length := List.length_pos_iff.mpr hs
      rw [if_neg (by unfold len; omega)]
      obtain ⟨n, n1, ⟨l, l1, l2⟩, n3⟩ := countLoop_spec hs (X.length + 1) X 0 (by omega)
      refine ⟨n, by rw [n1]; simp, ⟨l.map (· + (A.length : Int)), ⟨?_, ?_⟩, by simpa using l2⟩, ?_⟩
      · intro j hj
        obtain ⟨i, hi, rfl⟩ := List.mem_map.mp hj
        have hi' := (l1.1 i hi)
        rw [Int.add_comm i]
        exact (occurs_window (A := A) (C := C) hi'.2.1).mp hi'.1
      · rw [List.pairwise_map]
        exact l1.2.imp (by intro x y hxy; omega)
      · intro l' hl'
        have : NonOverlap X sub 0 X.length (l'.map (· - (A.length : Int))) := by
          refine ⟨?_, ?_⟩
          · intro j hj
            obtain ⟨i, hi, rfl⟩ := List.mem_map.mp hj
            have hi' := (hl'.1 i hi)
            have h0 : 0 ≤ i - (A.length : Int) := by have := hi'.2.1; omega
            have hoc : Occurs X sub (i - (A.length : Int)) := by
              rw [occurs_window (A := A) (C := C) h0]
              rw [show (A.length : Int) + (i - A.length) = i by omega]
              exact hi'
            exact ⟨hoc, h0, hoc.bounds.2⟩
          · rw [List.pairwise_map]
            exact hl'.2.imp (by intro x y hxy; omega)
        have := n3 _ this
        simpa using this

example : count (b "aaaaabaaaa") (b "aa") 0 none = some 4 := by decide +kernel

/-- **C31.** `s.partition(sep)` cuts at the first occurrence: the parts give back `s`, and `sep` does not occur
earlier; without an occurrence the first part is `s` itself. -/
theorem c31_partition (s sep : Str) (h : sep ≠ []) :
    (partition s sep = some (some (s, [], [])) ∧ ∀ i, ¬ Occurs s sep i) ∨
    ∃ x z, partition s sep = some (some (x, sep, z)) ∧ x ++ (sep ++ z) = s ∧ ∀ i, Occurs s sep i → (x.length : Int) ≤ i := by
  unfold partition
  rw [if_neg h]
  obtain ⟨r, r1, r2⟩ := forwardFind_spec s sep
  simp only [Option.bind_eq_bind, Option.bind_some, Option.pure_def]
  rw [r1]
  simp only [Option.bind_some]
  rcases r2 with ⟨h1, h2⟩ | ⟨rfl, h2⟩
  · right
    have hb := h1.bounds
    rw [if_neg (by omega)]
    obtain ⟨A, C, rfl, rfl⟩ := h1
    have e1 : slice (A ++ (sep ++ C)) 0 A.length = some A := by
      unfold slice len
      rw [if_pos (by simp; omega)]
      simp
    have e2 : slice (A ++ (sep ++ C)) (A.length + len sep) (len (A ++ (sep ++ C))) = some C := by
      unfold slice len
      rw [if_pos (by simp; omega)]
      rw [show ((A.length : Int) + sep.length).toNat = (A ++ sep).length by simp; omega, ← List.append_assoc, List.drop_left]
      rw [List.take_of_length_le (by simp)]
    rw [e1, e2]
    refine ⟨A, C, rfl, rfl, fun i hi => ?_⟩
    by_contra hc
    exact h2 i (by omega) hi
  · left
    rw [if_pos (by omega)]
    exact ⟨rfl, h2⟩

example : partition (b "key=val=x") (b "=") = some (some (b "key", b "=", b "val=x")) := by decide +kernel

/-! ### C32 -/

/-- **C32, partial.** `s.rfind(sub, start, end)` returns the greatest index in the window, or -1, whenever `sub`
has at most one byte or the number of candidate positions modulo 16 is at most 9. Missing: the other lengths, for
which the unrolled code of `backward_find` steps to `i + 10` instead of `i - 10` (see `c32_violation`). -/
theorem c32_rfind_partial (s sub : Str) (start : Int) (stop : Option Int)
    (h : sub.length ≤ 1 ∨ (hi s.length stop - lo s.length start - sub.length + 1) % 16 ≤ 9) :
    ∃ r, rfind s sub start stop = some r ∧ LastIn s sub (lo s.length start) (hi s.length stop) r := by
  unfold rfind
  rw [correctIndices_eq]
  dsimp only
  have hlo := lo_nonneg (s.length : Int) start
  have hhi := hi_le (n := (s.length : Int)) (by omega) stop
  generalize lo (s.length : Int) start = a at *
  generalize hi (s.length : Int) stop = c at *
  by_cases hc : c - a < len sub
  · rw [if_pos hc]
    unfold len at hc
    exact ⟨-1, rfl, Or.inr ⟨rfl, fun j hj => by have := hj.2; omega⟩⟩
  · rw [if_neg hc]
    unfold len at hc
    obtain ⟨A, X, C, rfl, e2, e3, e4⟩ := slice_split (s := s) hlo (by omega) hhi
    rw [e4]
    obtain ⟨r, r1, r2⟩ := backwardFind_spec X sub (by omega)
    simp only [Option.bind_eq_bind, Option.bind_some]
    rw [r1]
    refine ⟨_, rfl, ?_⟩
    have := last_window (A := A) (C := C) r2
    rw [show c = (A.length : Int) + X.length by omega, ← e2]
    exact this

example : rfind (b "one two one two x") (b "one") 1 (some (-1)) = some 8 := by decide +kernel

/-- **C32, violation.** An occurrence is missed: `("ab" + "x" * 26).rfind("ab")` is -1 although `"ab"` is at 0. -/
theorem c32_violation : ∃ s sub : Str, Occurs s sub 0 ∧ rfind s sub 0 none = some (-1) :=
  ⟨b "ab" ++ List.replicate 26 120, b "ab", ⟨[], List.replicate 26 120, rfl, rfl⟩, by decide +kernel⟩

/-- **C32, violation.** The same step reads past the end of the string: `("ab" + "x" * 10).rfind("ab")`. -/
theorem c32_oob_violation : ∃ s sub : Str, rfind s sub 0 none = none :=
  ⟨b "ab" ++ List.replicate 10 120, b "ab", by decide +kernel⟩

/-- **C32, partial.** `s.rpartition(sep)` cuts at the last occurrence (same restriction). -/
theorem c32_rpartition_partial (s sep : Str) (h : sep ≠ [])
    (hm : sep.length ≤ 1 ∨ s.length < sep.length ∨ (s.length - sep.length + 1) % 16 ≤ 9) :
    (rpartition s sep = some (some ([], [], s)) ∧ ∀ i, ¬ Occurs s sep i) ∨
    ∃ x z, rpartition s sep = some (some (x, sep, z)) ∧ x ++ (sep ++ z) = s ∧ ∀ i, Occurs s sep i → i ≤ (x.length : Int) := by
  unfold rpartition
  rw [if_neg h]
  obtain ⟨r, r1, r2⟩ := backwardFind_spec s sep hm
  simp only [Option.bind_eq_bind, Option.bind_some, Option.pure_def]
  rw [r1]
  simp only [Option.bind_some]
  rcases r2 with ⟨h1, h2⟩ | ⟨rfl, h2⟩
  · right
    have hb := h1.bounds
    rw [if_neg (by omega)]
    obtain ⟨A, C, rfl, rfl⟩ := h1
    have e1 : slice (A ++ (sep ++ C)) 0 A.length = some A := by
      unfold slice len
      rw [if_pos (by simp; omega)]
      simp
    have e2 : slice (A ++ (sep ++ C)) (A.length + len sep) (len (A ++ (sep ++ C))) = some C := by
      unfold slice len
      rw [if_pos (by simp; omega)]
      rw [show ((A.length : Int) + sep.length).toNat = (A ++ sep).length by simp; omega, ← List.append_assoc, List.drop_left]
      rw [List.take_of_length_le (by simp)]
    rw [e1, e2]
    refine ⟨A, C, rfl, rfl, fun i hi => ?_⟩
    by_contra hc
    exact h2 i (by omega) hi
  · left
    rw [if_pos (by omega)]
    exact ⟨rfl, h2⟩

example : rpartition (b "a::b::c") (b "::") = some (some (b "a::b", b "::", b "c")) := by decide +kernel

/-! ### C35 -/

theorem eqLoop_spec (p s t : Str) (hst : s.length = t.length) : ∀ n, s.length < n →
    eqLoop (p ++ s) (p ++ t) n p.length = some (decide (s = t)) := by
  intro n
  induction n generalizing p s t with
  | zero => intro h; omega
  | succ n ih =>
    intro hn
    unfold eqLoop
    match s, t, hst with
    | [], [], _ =>
      rw [if_neg (by simp [len])]; rfl
    | x :: s, y :: t, hst =>
      rw [if_pos (by simp [len])]
      have e1 : rd (p ++ x :: s) p.length = some x := by rw [rd_nat]; simp
      have e2 : rd (p ++ y :: t) p.length = some y := by rw [rd_nat]; simp
      rw [e1, e2]
      simp only [Option.bind_eq_bind, Option.bind_some]
      by_cases hxy : x = y
      · subst hxy
        rw [if_neg (by simp)]
        have := ih (p ++ [x]) s t (by simpa using hst) (by simpa using hn)
        simp only [List.append_assoc, List.singleton_append, List.length_append, List.length_singleton] at this
        push_cast at this
        rw [this]
        simp
      · rw [if_pos (by simpa using hxy)]
        simp [hxy]

theorem eq_spec (s t : Str) : eq s t = some (decide (s = t)) := by
  unfold eq len
  by_cases h : s.length = t.length
  · rw [if_neg (by omega)]
    have := eqLoop_spec [] s t h (s.length + 1) (by omega)
    simpa using this
  · rw [if_pos (by omega)]
    have : s ≠ t := fun e => h (by rw [e])
    simp [this]

theorem cmpLoop_spec (p s t : Str) : ∀ n, s.length < n →
    ∃ r, cmpLoop (p ++ s) (p ++ t) (min (len (p ++ s)) (len (p ++ t))) n p.length = some r ∧
      (r < 0 ↔ LexLt s t) ∧ (0 < r ↔ LexLt t s) ∧ (r = 0 ↔ s = t) := by
  intro n
  induction n generalizing p s t with
  | zero => intro h; omega
  | succ n ih =>
    intro hn
    unfold cmpLoop
    match s, t with
    | [], t =>
      rw [if_neg (by simp [len])]
      refine ⟨_, rfl, ?_, ?_, ?_⟩
      · cases t with
        | nil =>
          simp only [Int.sub_self, Int.lt_irrefl, false_iff]
          rintro (⟨y, t', h⟩ | ⟨p, x, y, s', t', h, _⟩) <;> simp at h
        | cons y t =>
          simp only [len, List.length_append, List.length_nil, List.length_cons]
          exact ⟨fun _ => Or.inl ⟨y, t, rfl⟩, fun _ => by omega⟩
      · simp only [len, List.length_append, List.length_nil]
        constructor
        · intro h; omega
        · rintro (⟨y, t', h⟩ | ⟨p, x, y, s', t', _, h, _⟩)
          · simp at h
          · simp at h
      · cases t with
        | nil => simp
        | cons y t =>
          simp only [len, List.length_append, List.length_nil, List.length_cons]
          exact ⟨fun h => by omega, fun h => by simp at h⟩
    | x :: s, [] =>
      rw [if_neg (by simp [len])]
      refine ⟨_, rfl, ?_, ?_, ?_⟩
      · simp only [len, List.length_append, List.length_nil, List.length_cons]
        constructor
        · intro h; omega
        · rintro (⟨y, t', h⟩ | ⟨p, x, y, s', t', _, h, _⟩) <;> simp at h
      · simp only [len, List.length_append, List.length_nil, List.length_cons]
        exact ⟨fun _ => Or.inl ⟨x, s, rfl⟩, fun _ => by omega⟩
      · simp only [len, List.length_append, List.length_nil, List.length_cons]
        exact ⟨fun h => by omega, fun h => by simp at h⟩
    | x :: s, y :: t =>
      rw [if_pos (by simp [len]; omega)]
      have e1 : rd (p ++ x :: s) p.length = some x := by rw [rd_nat]; simp
      have e2 : rd (p ++ y :: t) p.length = some y := by rw [rd_nat]; simp
      rw [e1, e2]
      simp only [Option.bind_eq_bind, Option.bind_some]
      have key : ∀ (x y : UInt8) (s t : Str), x ≠ y → (LexLt (x :: s) (y :: t) ↔ x.toNat < y.toNat) := by
        intro x y s t hxy
        constructor
        · rintro (⟨z, t', h⟩ | ⟨p, x', y', s', t', h1, h2, h3⟩)
          · simp at h; exact absurd h.1.symm hxy
          · cases p with
            | nil => simp at h1 h2; rw [h1.1, h2.1]; exact h3
            | cons a p => simp at h1 h2; exact absurd (h1.1.trans h2.1.symm) hxy
        · intro h
          exact Or.inr ⟨[], x, y, s, t, rfl, rfl, h⟩
      by_cases hxy : x = y
      · subst hxy
        rw [if_neg (by simp)]
        obtain ⟨r, r1, r2, r3, r4⟩ := ih (p ++ [x]) s t (by simpa using hn)
        simp only [List.append_assoc, List.singleton_append, List.length_append, List.length_singleton] at r1
        push_cast at r1
        have cons_iff : ∀ s t : Str, LexLt (x :: s) (x :: t) ↔ LexLt s t := by
          intro s t
          constructor
          · rintro (⟨z, t', h⟩ | ⟨p, x', y', s', t', h1, h2, h3⟩)
            · simp at h; exact Or.inl ⟨z, t', h⟩
            · cases p with
              | nil => simp at h1 h2; rw [← h1.1, ← h2.1] at h3; omega
              | cons a p => simp at h1 h2; exact Or.inr ⟨p, x', y', s', t', h1.2, h2.2, h3⟩
          · rintro (⟨z, t', h⟩ | ⟨p, x', y', s', t', h1, h2, h3⟩)
            · exact Or.inl ⟨z, t', by rw [h]; rfl⟩
            · exact Or.inr ⟨x :: p, x', y', s', t', by rw [h1]; rfl, by rw [h2]; rfl, h3⟩
        exact ⟨r, r1, by rw [r2, cons_iff], by rw [r3, cons_iff], by rw [r4]; simp⟩
      · rw [if_pos (by simpa using hxy)]
        have hne : x.toNat ≠ y.toNat := fun h => hxy (UInt8.toNat_inj.mp h)
        refine ⟨_, rfl, ?_, ?_, ?_⟩
        · rw [key x y s t hxy]; omega
        · rw [key y x t s (fun h => hxy h.symm)]; omega
        · constructor
          · intro h; omega
          · intro h; simp at h; exact absurd h.1 hxy

theorem cmp_spec (s t : Str) : ∃ r, cmp s t = some r ∧ (r < 0 ↔ LexLt s t) ∧ (0 < r ↔ LexLt t s) ∧ (r = 0 ↔ s = t) := by
  have := cmpLoop_spec [] s t (s.length + 1) (by omega)
  simpa [cmp] using this

/-- **C35.** `<`, `<=`, `>`, `>=` and `==` of two strings never read outside them and decide the lexicographic
order of their bytes, resp. equality. -/
theorem c35_operators (s t : Str) : ∃ l e g : Bool, lt s t = some l ∧ eq s t = some e ∧ gt s t = some g ∧
    le s t = some (l || e) ∧ ge s t = some (g || e) ∧
    (l = true ↔ LexLt s t) ∧ (e = true ↔ s = t) ∧ (g = true ↔ LexLt t s) := by
  obtain ⟨r, r1, r2, r3, r4⟩ := cmp_spec s t
  refine ⟨decide (r < 0), decide (r = 0), decide (r > 0), ?_, ?_, ?_, ?_, ?_, ?_, ?_, ?_⟩
  · unfold lt; rw [r1]; rfl
  · rw [eq_spec]; congr 1; exact decide_eq_decide.mpr r4.symm
  · unfold gt; rw [r1]; rfl
  · unfold le; rw [r1]
    show some (decide (r ≤ 0)) = _
    congr 1
    by_cases h1 : r < 0 <;> by_cases h2 : r = 0 <;> simp [h1, h2] <;> omega
  · unfold ge; rw [r1]
    show some (decide (r ≥ 0)) = _
    congr 1
    by_cases h1 : 0 < r <;> by_cases h2 : r = 0 <;> simp [h1, h2] <;> omega
  · rw [decide_eq_true_iff]; exact r2
  · rw [decide_eq_true_iff]; exact r4
  · rw [decide_eq_true_iff]; exact r3

theorem lexLt_iff (s t : Str) : LexLt s t ↔ s < t := by
  show LexLt s t ↔ List.Lex (· < ·) s t
  constructor
  · rintro (⟨y, t', rfl⟩ | ⟨p, x, y, s', t', rfl, rfl, h⟩)
    · induction s with
      | nil => exact List.Lex.nil
      | cons a s ih => exact List.Lex.cons ih
    · induction p with
      | nil => exact List.Lex.rel (UInt8.lt_iff_toNat_lt.mpr h)
      | cons a p ih => exact List.Lex.cons ih
  · intro h
    induction h with
    | nil => exact Or.inl ⟨_, _, rfl⟩
    | rel h => exact Or.inr ⟨[], _, _, _, _, rfl, rfl, UInt8.lt_iff_toNat_lt.mp h⟩
    | cons _ ih =>
      rcases ih with ⟨z, t', h⟩ | ⟨p, x', y', s', t', h1, h2, h3⟩
      · exact Or.inl ⟨z, t', by rw [h]; rfl⟩
      · exact Or.inr ⟨_ :: p, x', y', s', t', by rw [h1]; rfl, by rw [h2]; rfl, h3⟩

/-- **C35.** `<` is a strict total order: irreflexive, transitive, and any two strings are equal or ordered one
way, never both. -/
theorem c35_total_order (s t u : Str) :
    lt s s = some false ∧ (lt s t = some true → lt t u = some true → lt s u = some true) ∧
    (lt s t = some true ∨ eq s t = some true ∨ lt t s = some true) ∧
    ¬ (lt s t = some true ∧ lt t s = some true) := by
  have h : ∀ s t : Str, lt s t = some true ↔ LexLt s t := by
    intro s t
    obtain ⟨l, e, g, h1, _, _, _, _, h2, _⟩ := c35_operators s t
    rw [h1, ← h2]; simp
  obtain ⟨r, r1, r2, r3, r4⟩ := cmp_spec s t
  refine ⟨?_, ?_, ?_, ?_⟩
  · obtain ⟨r', q1, q2, q3, q4⟩ := cmp_spec s s
    have : r' = 0 := q4.mpr rfl
    unfold lt; rw [q1, this]; rfl
  · rw [h, h, h, lexLt_iff, lexLt_iff, lexLt_iff]; exact List.lt_trans
  · rw [h, h, eq_spec, ← r2, ← r3]
    simp only [Option.some.injEq, decide_eq_true_iff]
    rw [← r4]
    omega
  · rw [h, h, ← r2, ← r3]; omega

example : lt (b "abc") (b "abd") = some true ∧ lt (b "abd") (b "abda") = some true ∧ lt (b "ab") [0x61, 0xff] = some true := by
  decide +kernel

/-! ### C36 -/

/-- `s[a:c]` starts with `pre`, Python's reading for `a` beyond the end included. -/
def StartsIn (s pre : Str) (a c : Int) : Prop := a + pre.length ≤ c ∧ Occurs s pre a

/-- `s[a:c]` ends with `suf`. -/
def EndsIn (s suf : Str) (a c : Int) : Prop := a + suf.length ≤ c ∧ Occurs s suf (c - suf.length)

theorem eq_slice (s p : Str) {a : Int} (h0 : 0 ≤ a) (h1 : a + p.length ≤ s.length) :
    ∃ r, (slice s a (a + len p) >>= fun x => eq p x) = some r ∧ (r = true ↔ Occurs s p a) := by
  unfold len
  obtain ⟨A, X, C, rfl, rfl, e3, e4⟩ := slice_split (s := s) h0 (c := a + p.length) (by omega) h1
  rw [e4]
  refine ⟨decide (p = X), ?_, ?_⟩
  · show eq p X = _
    exact eq_spec p X
  · rw [occurs_append (by omega), decide_eq_true_iff]
    exact ⟨Eq.symm, Eq.symm⟩

/-- The arguments for which the index arithmetic of `startswith` and `endswith` is right: `start` is not negative,
or it is a valid negative index and `end` is not negative; and `end` is not before the beginning (or the pattern is
not empty). -/
def GoodArgs (n start : Int) (stop : Option Int) (p : Str) : Prop :=
  (0 ≤ start ∨ (0 ≤ stop.getD n ∧ -n ≤ start)) ∧ (-n ≤ stop.getD n ∨ p ≠ [])

/-- **C36, partial.** For such arguments `s.startswith(pre, start, end)` reads nothing outside `s` and holds exactly
if the window starts with `pre`. Missing: the other negative arguments, see the violations. -/
theorem c36_startswith_partial (s pre : Str) (start : Int) (stop : Option Int) (h : GoodArgs s.length start stop pre) :
    ∃ r, startswith s pre start stop = some r ∧ (r = true ↔ StartsIn s pre (lo s.length start) (hi s.length stop)) := by
  unfold GoodArgs at h
  unfold startswith
  dsimp only [len]
  have key : ∀ a c : Int, 0 ≤ a → lo s.length start = a →
      ((c < 0 ∧ hi s.length stop = 0 ∧ pre ≠ []) ∨ (0 ≤ c ∧ hi s.length stop = min c s.length)) →
      ∃ r, (do
        if a + (pre.length : Int) > s.length then return false
        if c - a < pre.length then return false
        if pre = [] then return true
        eq pre (← slice s a (a + pre.length)) : Option Bool) = some r ∧
        (r = true ↔ StartsIn s pre (lo s.length start) (hi s.length stop)) := by
    intro a c ha hl hh
    rw [hl]
    have hlen : pre ≠ [] → 0 < pre.length := List.length_pos_iff.mpr
    unfold StartsIn
    by_cases c1 : a + (pre.length : Int) > s.length
    · rw [if_pos c1]
      refine ⟨false, rfl, ?_⟩
      simp only [Bool.false_eq_true, false_iff]
      rintro ⟨h1, h2⟩
      have := h2.bounds; omega
    · rw [if_neg c1]
      by_cases c2 : c - a < pre.length
      · rw [if_pos c2]
        refine ⟨false, rfl, ?_⟩
        simp only [Bool.false_eq_true, false_iff]
        rintro ⟨h1, h2⟩
        rcases hh with ⟨hc, hh, hp⟩ | ⟨hc, hh⟩
        · have := hlen hp; omega
        · omega
      · rw [if_neg c2]
        by_cases c3 : pre = []
        · subst c3
          rw [if_pos rfl]
          refine ⟨true, rfl, ?_⟩
          simp only [true_iff]
          simp only [List.length_nil] at *
          refine ⟨?_, occurs_nil s ha (by omega)⟩
          rcases hh with ⟨hc, hh, hp⟩ | ⟨hc, hh⟩
          · exact absurd rfl hp
          · omega
        · rw [if_neg c3]
          obtain ⟨r, r1, r2⟩ := eq_slice s pre ha (by omega)
          refine ⟨r, r1, ?_⟩
          rw [r2]
          refine ⟨fun h => ⟨?_, h⟩, fun h => h.2⟩
          rcases hh with ⟨hc, hh, hp⟩ | ⟨hc, hh⟩
          · omega
          · omega
  have hn : (0 : Int) ≤ s.length := by omega
  by_cases c1 : stop.getD (s.length : Int) < 0
  · rw [if_pos c1]
    obtain ⟨x, rfl⟩ : ∃ x, stop = some x := by
      cases stop with
      | none => simp at c1; omega
      | some x => exact ⟨x, rfl⟩
    simp only [Option.getD_some] at c1 h ⊢
    have hst : 0 ≤ start := by omega
    refine key start (x + s.length) hst (by unfold lo; rw [if_neg (by omega)]) ?_
    unfold hi; dsimp only; rw [if_pos c1]
    by_cases hx : x + s.length < 0
    · left
      refine ⟨hx, by omega, ?_⟩
      rcases h.2 with h | h
      · omega
      · exact h
    · right; omega
  · rw [if_neg c1]
    have hh : 0 ≤ stop.getD (s.length : Int) ∧ hi s.length stop = min (stop.getD (s.length : Int)) s.length := by
      refine ⟨by omega, ?_⟩
      cases stop with
      | none => unfold hi; simp
      | some x => unfold hi; simp only [Option.getD_some] at c1 ⊢; rw [if_neg c1]
    by_cases c2 : start < 0
    · rw [if_pos c2]
      exact key (start + s.length) _ (by omega) (by unfold lo; rw [if_pos c2]; omega) (Or.inr hh)
    · rw [if_neg c2]
      exact key start _ (by omega) (by unfold lo; rw [if_neg c2]) (Or.inr hh)

example : GoodArgs 6 (-3) none (b "ef") ∧ startswith (b "abcdef") (b "de") (-3) none = some true ∧
    startswith (b "abcdef") (b "de") 2 (some (-1)) = some false := by
  refine ⟨by simp [GoodArgs], ?_, ?_⟩ <;> decide +kernel

/-- **C36, partial.** The same for `endswith`. -/
theorem c36_endswith_partial (s suf : Str) (start : Int) (stop : Option Int) (h : GoodArgs s.length start stop suf) :
    ∃ r, endswith s suf start stop = some r ∧ (r = true ↔ EndsIn s suf (lo s.length start) (hi s.length stop)) := by
  unfold GoodArgs at h
  unfold endswith
  dsimp only [len]
  have key : ∀ a c : Int, 0 ≤ a → lo s.length start = a →
      ((c < 0 ∧ hi s.length stop = 0 ∧ suf ≠ []) ∨ (0 ≤ c ∧ hi s.length stop = min c s.length)) →
      ∃ r, (do
        let c := if c > s.length then (s.length : Int) else c
        if c - a < suf.length ∨ a > s.length then return false
        let a := if c - suf.length > a then c - suf.length else a
        if c - a < suf.length then return false
        if suf = [] then return true
        eq suf (← slice s a (a + suf.length)) : Option Bool) = some r ∧
        (r = true ↔ EndsIn s suf (lo s.length start) (hi s.length stop)) := by
    intro a c ha hl hh
    rw [hl]
    have hlen : suf ≠ [] → 0 < suf.length := List.length_pos_iff.mpr
    unfold EndsIn
    dsimp only
    have hc' : (if c > (s.length : Int) then (s.length : Int) else c) = min c s.length := by split <;> omega
    rw [hc']
    by_cases c1 : min c (s.length : Int) - a < suf.length ∨ a > s.length
    · rw [if_pos c1]
      refine ⟨false, rfl, ?_⟩
      simp only [Bool.false_eq_true, false_iff]
      rintro ⟨h1, h2⟩
      have := h2.bounds
      rcases hh with ⟨hc, hh, hp⟩ | ⟨hc, hh⟩
      · have := hlen hp; omega
      · omega
    · rw [if_neg c1]
      have hhh : hi s.length stop = min c s.length := by
        rcases hh with ⟨hc, hh, hp⟩ | ⟨hc, hh⟩
        · have := hlen hp; omega
        · exact hh
      rw [hhh]
      have ha' : (if min c (s.length : Int) - suf.length > a then min c (s.length : Int) - suf.length else a) = min c (s.length : Int) - suf.length := by
        split <;> omega
      rw [ha', if_neg (by omega)]
      by_cases c3 : suf = []
      · subst c3
        rw [if_pos rfl]
        refine ⟨true, rfl, ?_⟩
        simp only [true_iff]
        simp only [List.length_nil] at *
        exact ⟨by omega, occurs_nil s (by omega) (by omega)⟩
      · rw [if_neg c3]
        obtain ⟨r, r1, r2⟩ := eq_slice s suf (a := min c (s.length : Int) - suf.length) (by omega) (by omega)
        refine ⟨r, r1, ?_⟩
        rw [r2]
        exact ⟨fun h => ⟨by omega, h⟩, fun h => h.2⟩
  have hn : (0 : Int) ≤ s.length := by omega
  by_cases c1 : stop.getD (s.length : Int) < 0
  · rw [if_pos c1]
    obtain ⟨x, rfl⟩ : ∃ x, stop = some x := by
      cases stop with
      | none => simp at c1; omega
      | some x => exact ⟨x, rfl⟩
    simp only [Option.getD_some] at c1 h ⊢
    have hst : 0 ≤ start := by omega
    refine key start (x + s.length) hst (by unfold lo; rw [if_neg (by omega)]) ?_
    unfold hi; dsimp only; rw [if_pos c1]
    by_cases hx : x + s.length < 0
    · left
      refine ⟨hx, by omega, ?_⟩
      rcases h.2 with h | h
      · omega
      · exact h
    · right; omega
  · rw [if_neg c1]
    have hh : 0 ≤ stop.getD (s.length : Int) ∧ hi s.length stop = min (stop.getD (s.length : Int)) s.length := by
      refine ⟨by omega, ?_⟩
      cases stop with
      | none => unfold hi; simp
      | some x => unfold hi; simp only [Option.getD_some] at c1 ⊢; rw [if_neg c1]
    by_cases c2 : start < 0
    · rw [if_pos c2]
      exact key (start + s.length) _ (by omega) (by unfold lo; rw [if_pos c2]; omega) (Or.inr hh)
    · rw [if_neg c2]
      exact key start _ (by omega) (by unfold lo; rw [if_neg c2]) (Or.inr hh)

example : GoodArgs 6 2 (some (-1)) (b "de") ∧ endswith (b "abcdef") (b "de") 2 (some (-1)) = some true ∧
    endswith (b "abcdef") (b "de") 4 (some (-1)) = some false := by
  refine ⟨by simp [GoodArgs], ?_, ?_⟩ <;> decide +kernel

/-- **C36, violation.** `"abc".startswith("a", -10)` reads before the start of the string. -/
theorem c36_startswith_violation : ∃ (s pre : Str) (start : Int), startswith s pre start none = none :=
  ⟨b "abc", b "a", -10, by decide +kernel⟩

/-- **C36, violation.** If both arguments are negative, `start` is used as it is: `"abcd".startswith("b", -3, -1)`
reads before the start of the string, and `"abcd".endswith("abc", -3, -1)` holds although `"abcd"[-3:-1] == "bc"`. -/
theorem c36_both_negative_violation :
    startswith (b "abcd") (b "b") (-3) (some (-1)) = none ∧
    endswith (b "abcd") (b "abc") (-3) (some (-1)) = some true ∧
    ¬ EndsIn (b "abcd") (b "abc") (lo 4 (-3)) (hi 4 (some (-1))) := by
  refine ⟨by decide +kernel, by decide +kernel, ?_⟩
  rintro ⟨h, _⟩
  revert h
  decide +kernel

/-- **C36, violation.** `"abc".startswith("", 0, -10)` is false although the (empty) window starts with `""`. -/
theorem c36_empty_violation :
    startswith (b "abc") [] 0 (some (-10)) = some false ∧ StartsIn (b "abc") [] (lo 3 0) (hi 3 (some (-10))) := by
  refine ⟨by decide +kernel, by decide +kernel, ?_⟩
  exact ⟨[], b "abc", rfl, by decide +kernel⟩

end Codon.Str
