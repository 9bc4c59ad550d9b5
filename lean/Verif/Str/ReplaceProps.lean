import Verif.Str.ReplaceModel
import Verif.Str.SplitProps

/-! Property C34: `str.replace`. -/

set_option linter.unusedSimpArgs false

namespace Codon.Str

open Codon.Sort (rd rd_nat rd_ex rd_some_iff)

/-- A search function finds the first occurrence. -/
def Finds (search : Str → Option (Option Nat)) (p : Str) : Prop :=
  ∀ s, (∃ i : Nat, search s = some (some i) ∧ Occurs s p i ∧ ∀ j, j < (i : Int) → ¬ Occurs s p j) ∨
    (search s = some none ∧ ∀ i, ¬ Occurs s p i)

theorem finds_sub (p : Str) : Finds (searchSub p) p := by
  intro s
  obtain ⟨r, r1, r2⟩ := forwardFind_spec s p
  unfold searchSub
  rw [r1]
  simp only [Option.bind_eq_bind, Option.bind_some]
  rcases r2 with ⟨h1, h2⟩ | ⟨rfl, h2⟩
  · have hb := h1.bounds
    obtain ⟨n, rfl⟩ := Int.eq_ofNat_of_zero_le hb.1
    left
    rw [if_neg (by omega)]
    exact ⟨n, by simp, h1, h2⟩
  · right
    exact ⟨rfl, h2⟩

theorem finds_char (c : UInt8) : Finds (searchChar c) [c] := by
  intro s
  unfold searchChar findChar memchr
  cases hf : s.findIdx? (· == c) with
  | none =>
    right
    refine ⟨rfl, fun j ho => ?_⟩
    obtain ⟨n, rfl⟩ := Int.eq_ofNat_of_zero_le ho.bounds.1
    rw [occurs_single] at ho
    rw [List.findIdx?_eq_none_iff] at hf
    have := hf c (List.mem_of_getElem? ho)
    simp at this
  | some i =>
    rw [List.findIdx?_eq_some_iff_getElem] at hf
    obtain ⟨g1, g2, g3⟩ := hf
    left
    refine ⟨i, rfl, ?_, fun j hj ho => ?_⟩
    · rw [occurs_single, List.getElem?_eq_getElem g1]
      simpa using g2
    · obtain ⟨n, rfl⟩ := Int.eq_ofNat_of_zero_le ho.bounds.1
      rw [occurs_single] at ho
      have := g3 n (by omega)
      have hn : n < i := by omega
      rw [List.getElem?_eq_getElem (by omega)] at ho
      simp at this ho
      exact this ho

theorem Finds.cut {search : Str → Option (Option Nat)} {p : Str} (h : Finds search p) {x : Str} (rest : Str)
    (hx : ∀ i, Occurs (x ++ p) p i → (x.length : Int) ≤ i) : search (x ++ (p ++ rest)) = some (some x.length) := by
  have ho : Occurs (x ++ (p ++ rest)) p x.length := ⟨x, rest, rfl, rfl⟩
  rcases h (x ++ (p ++ rest)) with ⟨i, h1, h2, h3⟩ | ⟨_, h2⟩
  · have hle : (i : Int) ≤ x.length := by
      by_contra hc
      exact h3 _ (by omega) ho
    have hge : (x.length : Int) ≤ i := by
      apply hx
      have := (occurs_window (A := []) (X := x ++ p) (C := rest) (p := p) (j := i) (by omega)).mpr
        ⟨by simpa using h2, by simp, by simp; omega⟩
      exact this
    rw [h1]
    congr 2
    omega
  · exact absurd ho (h2 _)

theorem Finds.none {search : Str → Option (Option Nat)} {p : Str} (h : Finds search p) {s : Str}
    (hs : ∀ i, ¬ Occurs s p i) : search s = some .none := by
  rcases h s with ⟨i, _, h2, _⟩ | ⟨h1, _⟩
  · exact absurd h2 (hs _)
  · exact h1

theorem SplitL.zero {p s : Str} {ps : List Str} {m : Int} (h : SplitL p m s ps) (hm : m ≤ 0) : ps = [s] := by
  cases h with
  | stop => rfl
  | step h => omega

/-- The number of cuts. -/
theorem countMaxLoop_spec {p : Str} (hp : p ≠ []) (maxcount : Int) : ∀ (f : Nat) (s : Str) (occ : Int) (ps : List Str) (m : Int),
    SplitL p m s ps → m = maxcount - occ → 0 < m → s.length < f →
    countMaxLoop p maxcount f s occ = some (occ + ps.length - 1) := by
  have hpl := List.length_pos_iff.mpr hp
  intro f
  induction f with
  | zero => intro s occ ps m _ _ _ h; omega
  | succ f ih =>
    intro s occ ps m h hm h0 hf
    unfold countMaxLoop
    cases h with
    | stop _ hno =>
      obtain ⟨r, r1, r2⟩ := forwardFind_spec s p
      rcases r2 with ⟨h1, _⟩ | ⟨rfl, _⟩
      · exact absurd h1 (hno h0 _)
      · rw [r1]
        simp only [Option.bind_eq_bind, Option.bind_some]
        rw [if_pos trivial]
        simp
    | @step _ x rest ps _ hx hr =>
      have hfind : forwardFind (x ++ (p ++ rest)) p = some (x.length : Int) := by
        have := (finds_sub p).cut rest hx
        unfold searchSub at this
        obtain ⟨r, r1, _⟩ := forwardFind_spec (x ++ (p ++ rest)) p
        rw [r1] at this ⊢
        simp only [Option.bind_eq_bind, Option.bind_some] at this
        by_cases hr : r = -1
        · rw [if_pos hr] at this; cases this
        · rw [if_neg hr] at this
          simp at this
          congr 1
          rcases ‹IsFirst (x ++ (p ++ rest)) p r› with ⟨h, _⟩ | ⟨h, _⟩
          · have := h.bounds; omega
          · exact absurd h hr
      rw [hfind]
      simp only [Option.bind_eq_bind, Option.bind_some]
      rw [if_neg (by omega)]
      by_cases hlast : occ + 1 = maxcount
      · rw [if_pos hlast, hr.zero (by omega)]
        simp; omega
      · rw [if_neg hlast]
        have hd : (x ++ (p ++ rest)).drop ((x.length : Int) + len p).toNat = rest := by
          rw [show ((x.length : Int) + len p).toNat = (x ++ p).length by simp [len]; omega, ← List.append_assoc, List.drop_left]
        rw [hd, ih rest (occ + 1) ps (m - 1) hr (by omega) (by omega) (by simp at hf; omega)]
        congr 1
        simp; omega

theorem countWithMax_spec {p s : Str} (hp : p ≠ []) {maxcount : Int} {ps : List Str} (h : SplitL p maxcount s ps) (h0 : 0 < maxcount) :
    countWithMax s p maxcount = some ((ps.length : Int) - 1) := by
  have hpl := List.length_pos_iff.mpr hp
  unfold countWithMax
  rw [if_neg (by omega), if_neg (by unfold len; omega), countMaxLoop_spec hp maxcount _ s 0 ps maxcount h (by omega) h0 (by omega)]
  simp

theorem countCharLoop_spec (c : UInt8) (maxcount : Int) : ∀ (f : Nat) (s : Str) (occ : Int) (ps : List Str) (m : Int),
    SplitL [c] m s ps → m = maxcount - occ → 0 < m → s.length < f →
    countCharLoop c maxcount f s occ = some (occ + ps.length - 1) := by
  intro f
  induction f with
  | zero => intro s occ ps m _ _ _ h; omega
  | succ f ih =>
    intro s occ ps m h hm h0 hf
    unfold countCharLoop
    cases h with
    | stop _ hno =>
      have := (finds_char c).none (hno h0)
      simp only [searchChar, Option.some.injEq] at this
      rw [this]
      simp
    | @step _ x rest ps _ hx hr =>
      have := (finds_char c).cut rest hx
      simp only [searchChar, Option.some.injEq] at this
      rw [this]
      dsimp only
      by_cases hlast : occ + 1 ≥ maxcount
      · rw [if_pos hlast, hr.zero (by omega)]
        simp; omega
      · rw [if_neg hlast]
        have hd : (x ++ ([c] ++ rest)).drop (x.length + 1) = rest := by
          rw [show x.length + 1 = (x ++ [c]).length by simp, ← List.append_assoc, List.drop_left]
        rw [hd, ih rest (occ + 1) ps (m - 1) hr (by omega) (by omega) (by simp at hf; omega)]
        congr 1
        simp; omega

theorem countChar_spec {c : UInt8} {s : Str} {maxcount : Int} {ps : List Str} (h : SplitL [c] maxcount s ps) (h0 : 0 < maxcount) :
    countChar s c maxcount = some ((ps.length : Int) - 1) := by
  unfold countChar
  rw [countCharLoop_spec c maxcount _ s 0 ps maxcount h (by omega) h0 (by omega)]
  simp

/-- The length of the result. -/
theorem SplitL.replaced_length {p s : Str} {m : Int} {ps : List Str} (h : SplitL p m s ps) (nw : Str) :
    ((nw.intercalate ps).length : Int) = s.length + ((ps.length : Int) - 1) * (len nw - len p) := by
  induction h with
  | stop => simp [intercalate_one]
  | @step m x rest ps _ _ h ih =>
    rw [intercalate_cons nw x h.ne]
    simp only [List.length_append, List.length_cons]
    push_cast
    rw [ih, show (ps.length : Int) + 1 - 1 = ((ps.length : Int) - 1) + 1 by omega, Int.add_mul ((ps.length : Int) - 1) 1]
    unfold len
    omega

theorem emit_some {cap : Int} {out xs : Str} (h : len out + len xs ≤ cap) : emit cap out xs = some (out ++ xs) := by
  unfold emit; rw [if_pos h]

theorem take_cut (x t : Str) : (x ++ t).take x.length = x := by simp

theorem drop_cut (x p rest : Str) : (x ++ (p ++ rest)).drop (x.length + p.length) = rest := by
  rw [← List.append_assoc, show x.length + p.length = (x ++ p).length by simp, List.drop_left]

theorem replaceLoop_spec {search : Str → Option (Option Nat)} {p : Str} (hs : Finds search p) (nw : Str) (cap : Int)
    {m : Int} {s : Str} {ps : List Str} (h : SplitL p m s ps) : ∀ (c : Nat) (out : Str), ps.length = c + 1 →
    len out + len (nw.intercalate ps) ≤ cap →
    replaceLoop search p.length nw cap c s out = some (out ++ nw.intercalate ps) := by
  induction h with
  | stop =>
    intro c out hc hcap
    have : c = 0 := by simp at hc; omega
    subst this
    rw [intercalate_one] at hcap ⊢
    exact emit_some hcap
  | @step m x rest ps _ hx h ih =>
    intro c out hc hcap
    have hpos := List.length_pos_iff.mpr h.ne
    obtain ⟨c, rfl⟩ : ∃ d, c = d + 1 := ⟨c - 1, by simp at hc; omega⟩
    rw [intercalate_cons nw x h.ne] at hcap ⊢
    simp only [len, List.length_append] at hcap
    push_cast at hcap
    unfold replaceLoop
    rw [hs.cut rest hx]
    simp only [Option.bind_eq_bind, Option.bind_some]
    by_cases h0 : x.length = 0
    · rw [if_pos h0]
      have hx0 : x = [] := List.eq_nil_of_length_eq_zero h0
      subst hx0
      rw [emit_some (by unfold len; omega)]
      simp only [Option.bind_some]
      have hd : ([] ++ (p ++ rest)).drop p.length = rest := by simp
      rw [hd, ih c (out ++ nw) (by simpa using hc) (by simp [len]; omega)]
      simp
    · rw [if_neg h0, take_cut, drop_cut, emit_some (by unfold len; omega)]
      simp only [Option.bind_some]
      rw [emit_some (by simp [len]; omega)]
      simp only [Option.bind_some]
      rw [ih c (out ++ x ++ nw) (by simpa using hc) (by simp [len]; omega)]
      simp

theorem deleteLoop_spec {search : Str → Option (Option Nat)} {p : Str} (hs : Finds search p) (cap : Int)
    {m : Int} {s : Str} {ps : List Str} (h : SplitL p m s ps) : ∀ (c : Nat) (out : Str), ps.length = c + 1 →
    len out + len (([] : Str).intercalate ps) ≤ cap →
    deleteLoop search p.length cap c s out = some (out ++ ([] : Str).intercalate ps) := by
  induction h with
  | stop =>
    intro c out hc hcap
    have : c = 0 := by simp at hc; omega
    subst this
    rw [intercalate_one] at hcap ⊢
    exact emit_some hcap
  | @step m x rest ps _ hx h ih =>
    intro c out hc hcap
    have hpos := List.length_pos_iff.mpr h.ne
    obtain ⟨c, rfl⟩ : ∃ d, c = d + 1 := ⟨c - 1, by simp at hc; omega⟩
    rw [intercalate_cons [] x h.ne] at hcap ⊢
    simp only [len, List.length_append] at hcap
    push_cast at hcap
    unfold deleteLoop
    rw [hs.cut rest hx]
    simp only [Option.bind_eq_bind, Option.bind_some]
    rw [take_cut, drop_cut, emit_some (by unfold len; omega)]
    simp only [Option.bind_some]
    rw [ih c (out ++ x) (by simpa using hc) (by simp [len]; omega)]
    simp

theorem overwrite_spec (done x p nw rest : Str) (hl : nw.length = p.length) :
    overwrite (done ++ (x ++ (p ++ rest))) (done.length + x.length) nw = some (done ++ (x ++ (nw ++ rest))) := by
  unfold overwrite
  rw [if_pos (by simp; omega)]
  congr 1
  rw [show done.length + x.length = (done ++ x).length by simp, hl]
  have e : done ++ (x ++ (p ++ rest)) = (done ++ x) ++ (p ++ rest) := by simp
  rw [e, List.take_left, drop_cut]
  simp

theorem inPlaceLoop_spec {search : Str → Option (Option Nat)} {p : Str} (hp : p ≠ []) (hs : Finds search p) (nw : Str)
    (hl : nw.length = p.length) {m : Int} {s : Str} {ps : List Str} (h : SplitL p m s ps) : ∀ (f : Nat) (done : Str), s.length < f →
    inPlaceLoop search nw f m (done ++ s) done.length = some (done ++ nw.intercalate ps) := by
  have hpl := List.length_pos_iff.mpr hp
  induction h with
  | @stop m s h0 hno =>
    intro f done hf
    obtain ⟨f, rfl⟩ : ∃ g, f = g + 1 := ⟨f - 1, by omega⟩
    unfold inPlaceLoop
    rw [intercalate_one]
    by_cases hm : m > 0
    · rw [if_pos hm, List.drop_left, hs.none (hno hm)]
      rfl
    · rw [if_neg hm]
  | @step m x rest ps hm hx h ih =>
    intro f done hf
    obtain ⟨f, rfl⟩ : ∃ g, f = g + 1 := ⟨f - 1, by omega⟩
    unfold inPlaceLoop
    rw [if_pos (by omega), List.drop_left, hs.cut rest hx]
    simp only [Option.bind_eq_bind, Option.bind_some]
    rw [overwrite_spec done x p nw rest hl]
    simp only [Option.bind_some]
    have := ih f (done ++ (x ++ nw)) (by simp at hf; omega)
    rw [intercalate_cons nw x h.ne]
    have e1 : done ++ (x ++ nw) ++ rest = done ++ (x ++ (nw ++ rest)) := by simp
    have e2 : (done ++ (x ++ nw)).length = done.length + x.length + nw.length := by simp; omega
    rw [e1, e2] at this
    rw [this]
    simp

theorem replaceInPlace_spec {search : Str → Option (Option Nat)} {p : Str} (hp : p ≠ []) (hs : Finds search p) (nw : Str)
    (hl : nw.length = p.length) {m : Int} {s : Str} {ps : List Str} (h : SplitL p m s ps) (hm : 0 < m) :
    replaceInPlace search s nw m = some (some (nw.intercalate ps)) := by
  have hpl := List.length_pos_iff.mpr hp
  unfold replaceInPlace
  cases h with
  | stop _ hno =>
    rw [hs.none (hno hm), intercalate_one]
    rfl
  | @step _ x rest ps _ hx h =>
    rw [hs.cut rest hx]
    simp only [Option.bind_eq_bind, Option.bind_some]
    have h1 := overwrite_spec [] x p nw rest hl
    simp only [List.nil_append, List.length_nil, Nat.zero_add] at h1
    rw [h1]
    simp only [Option.bind_some]
    have h2 := inPlaceLoop_spec hp hs nw hl h ((x ++ (p ++ rest)).length + 1) (x ++ nw) (by simp; omega)
    have e1 : x ++ nw ++ rest = x ++ (nw ++ rest) := by simp
    have e2 : (x ++ nw).length = x.length + nw.length := by simp
    rw [e1, e2] at h2
    rw [h2, intercalate_cons nw x h.ne]
    simp

/-! ### The specification for an empty pattern -/

/-- `new` in front of each of the first `m` positions of `s` (`none`: of all, the end included). -/
def interleaved (new : Str) : Option Nat → Str → Str
  | some 0, s => s
  | _, [] => new
  | m, c :: s => new ++ c :: interleaved new (m.map (· - 1)) s

theorem interleaveLoop_spec (cap : Int) (nw : Str) : ∀ (n : Nat) (s out : Str), n ≤ s.length →
    len out + len s + n * len nw ≤ cap →
    ∃ rest o, interleaveLoop cap nw n s out = some (rest, o) ∧ rest.length + n = s.length ∧
      nw ++ (o.drop out.length ++ rest) = interleaved nw (some (n + 1)) s ∧
        o = out ++ o.drop out.length ∧ len o = len out + n * (len nw + 1) := by
  intro n
  induction n with
  | zero =>
    intro s out h hcap
    refine ⟨s, out, rfl, by simp, ?_, by simp, by simp⟩
    cases s with
    | nil => simp [interleaved]
    | cons c s => simp [interleaved]
  | succ n ih =>
    intro s out h hcap
    cases s with
    | nil => simp at h
    | cons c s =>
      have hcap' : len out + (s.length + 1) + (n * len nw + len nw) ≤ cap := by
        simp only [len, List.length_cons] at hcap ⊢
        push_cast at hcap
        rw [Int.add_mul, Int.one_mul] at hcap
        omega
      have hn : 0 ≤ (n : Int) * len nw := Int.mul_nonneg (by omega) (by unfold len; omega)
      unfold interleaveLoop
      have hr : rd (c :: s) 0 = some c := rfl
      rw [hr]
      simp only [Option.bind_eq_bind, Option.bind_some]
      rw [emit_some (by simp [len] at *; omega)]
      simp only [Option.bind_some]
      rw [emit_some (by simp [len] at *; omega)]
      simp only [Option.bind_some]
      obtain ⟨rest, o, h1, h2, h4, h5, h6⟩ := ih s (out ++ [c] ++ nw) (by simpa using h) (by simp [len] at *; omega)
      refine ⟨rest, o, h1, by simp; omega, ?_, ?_, ?_⟩
      · have e : o.drop out.length = c :: (nw ++ o.drop (out ++ [c] ++ nw).length) := by
          conv_lhs => rw [h5]
          simp
        rw [e]
        have : interleaved nw (some (n + 1 + 1)) (c :: s) = nw ++ c :: interleaved nw (some (n + 1)) s := by
          simp [interleaved]
        rw [this, ← h4]
        simp
      · have e : o.drop out.length = c :: (nw ++ o.drop (out ++ [c] ++ nw).length) := by
          conv_lhs => rw [h5]
          simp
        rw [e]
        conv_lhs => rw [h5]
        simp
      · rw [h6]
        simp only [len, List.length_append, List.length_singleton]
        push_cast
        ring

theorem interleaved_length (nw : Str) : ∀ (s : Str) (m : Option Nat), len (interleaved nw m s) =
    len s + (match m with | none => len s + 1 | some k => min (k : Int) (len s + 1)) * len nw := by
  intro s
  induction s with
  | nil =>
    intro m
    match m with
    | none => simp [interleaved, len]
    | some 0 => simp [interleaved, len]
    | some (k + 1) =>
      have : min ((k + 1 : Nat) : Int) (len [] + 1) = 1 := by simp [len]
      simp only [this]
      simp [interleaved, len]
  | cons c s ih =>
    intro m
    match m with
    | none =>
      have := ih none
      simp only [interleaved, Option.map_none] at this ⊢
      simp only [len, List.length_append, List.length_cons] at this ⊢
      push_cast at this ⊢
      rw [this]; ring
    | some 0 =>
      have : min ((0 : Nat) : Int) (len (c :: s) + 1) = 0 := by simp [len]; omega
      simp only [this]
      simp [interleaved]
    | some (k + 1) =>
      have := ih (some k)
      have e : min ((k + 1 : Nat) : Int) (len (c :: s) + 1) = min (k : Int) (len s + 1) + 1 := by
        simp [len]
      simp only [e]
      have e2 : interleaved nw (some (k + 1)) (c :: s) = nw ++ c :: interleaved nw (some k) s := by simp [interleaved]
      rw [e2]
      simp only [len, List.length_append, List.length_cons] at this ⊢
      push_cast at this ⊢
      rw [this]; ring

theorem interleaved_big (nw : Str) : ∀ (s : Str) (k : Nat), s.length < k → interleaved nw (some k) s = interleaved nw none s := by
  intro s
  induction s with
  | nil => intro k h; cases k with
    | zero => simp at h
    | succ k => simp [interleaved]
  | cons c s ih =>
    intro k h
    cases k with
    | zero => simp at h
    | succ k =>
      have := ih k (by simpa using h)
      simp [interleaved, this]

theorem tdiv_gt {n c t : Int} (hn : 0 ≤ n) (hc : 0 < c) : t > n.tdiv c ↔ c * t > n := by
  rw [Int.tdiv_eq_ediv_of_nonneg hn]
  constructor
  · intro h
    have := (Int.ediv_lt_iff_lt_mul hc).mp h
    rw [Int.mul_comm]; exact this
  · intro h
    exact (Int.ediv_lt_iff_lt_mul hc).mpr (by rw [Int.mul_comm]; exact h)

theorem replaceInterleave_spec (s nw : Str) (maxcount : Int) (hm : 0 < maxcount) (hlen : (s.length : Int) < MAX) :
    replaceInterleave s nw maxcount = some (if len (interleaved nw (some maxcount.toNat) s) ≤ MAX then
      some (interleaved nw (some maxcount.toNat) s) else none) := by
  have hcount : (if maxcount ≤ len s then maxcount else len s + 1) = min maxcount (len s + 1) := by split <;> omega
  have hl := interleaved_length nw s (some maxcount.toNat)
  dsimp only at hl
  rw [show ((maxcount.toNat : Nat) : Int) = maxcount by omega] at hl
  have hpos : 0 < min maxcount (len s + 1) := by unfold len; omega
  unfold replaceInterleave
  dsimp only
  rw [hcount]
  by_cases hov : len nw > (MAX - len s).tdiv (min maxcount (len s + 1))
  · rw [if_pos hov]
    rw [tdiv_gt (by unfold len; omega) hpos] at hov
    rw [if_neg (by rw [hl]; omega)]
    rfl
  · rw [if_neg hov]
    rw [tdiv_gt (by unfold len; omega) hpos] at hov
    rw [if_pos (by rw [hl]; omega)]
    generalize hc : min maxcount (len s + 1) = c at *
    obtain ⟨n, hn⟩ : ∃ n : Nat, c = (n : Int) + 1 := ⟨(c - 1).toNat, by omega⟩
    have hnl : n ≤ s.length := by unfold len at hc; omega
    have hmul : c * len nw = n * len nw + len nw := by rw [hn, Int.add_mul, Int.one_mul]
    have hnn : 0 ≤ (n : Int) * len nw := Int.mul_nonneg (by omega) (by unfold len; omega)
    rw [emit_some (by rw [hmul]; simp [len] at *; omega)]
    simp only [Option.bind_eq_bind, Option.bind_some, List.nil_append]
    rw [show (c - 1).toNat = n by omega]
    obtain ⟨rest, o, h1, h2, h4, h5, h6⟩ := interleaveLoop_spec (c * len nw + len s) nw n s nw hnl (by rw [hmul]; omega)
    rw [h1]
    simp only [Option.bind_some]
    have hfull : len o + len rest = c * len nw + len s := by
      rw [h6, hmul]
      unfold len
      rw [Int.mul_add]
      have : (rest.length : Int) + n = s.length := by omega
      unfold len at *
      omega
    rw [emit_some (by omega)]
    simp only [Option.bind_some]
    have hfin : finish (c * len nw + len s) (o ++ rest) = some (o ++ rest) := by
      unfold finish
      rw [if_pos (by rw [len_append]; exact hfull)]
    rw [hfin]
    simp only [Option.bind_some]
    have hres : o ++ rest = interleaved nw (some (n + 1)) s := by
      rw [← h4]
      conv_lhs => rw [h5]
      simp
    rw [hres]
    congr 2
    by_cases hcs : maxcount ≤ len s + 1
    · have : maxcount.toNat = n + 1 := by omega
      rw [this]
    · rw [interleaved_big nw s maxcount.toNat (by unfold len at *; omega), interleaved_big nw s (n + 1) (by unfold len at *; omega)]

/-! ### C34 -/

/-- **C34.** For a non-empty pattern, `s.replace(old, new, maxcount)` is `new.join` of the pieces that splitting at `old`
from the left gives (at most `maxcount` cuts); every buffer is filled exactly, without access outside `s` or the buffer.
Only if the result would have more than 2^63 - 1 bytes an `OverflowError` is raised instead. -/
theorem c34_replace (s old new : Str) (maxcount : Int) (ho : old ≠ []) (hlen : (s.length : Int) < MAX) :
    ∃ ps, LeftSplit s old (cuts maxcount) ps ∧
      replace s old new maxcount = some (if len (new.intercalate ps) ≤ MAX then some (new.intercalate ps) else none) := by
  have hpl := List.length_pos_iff.mpr ho
  obtain ⟨ps, p1, p2⟩ := splitLoop_spec ho (s.length + 1) (limit maxcount) [] s [] (by omega) (limit_nonneg _)
  clear p1
  refine ⟨ps, p2.toSpec ho hlen, ?_⟩
  have hpos := List.length_pos_iff.mpr p2.ne
  have hlenp := p2.replaced_length new
  have hself : ps = [s] → some (if len (new.intercalate ps) ≤ MAX then some (new.intercalate ps) else none) = some (some s) := by
    intro h
    rw [h, intercalate_one, if_pos (by unfold len; omega)]
  unfold replace
  by_cases h1 : len s < len old
  · rw [if_pos h1, hself]
    cases p2 with
    | stop => rfl
    | @step _ x rest ps _ _ _ => simp [len] at h1; omega
  · rw [if_neg h1]
    by_cases h2 : maxcount = 0
    · rw [if_pos h2, hself (p2.zero (by unfold limit; rw [if_pos (by omega)]; omega))]
    · rw [if_neg h2]
      have hmc : (if maxcount < 0 then MAX else maxcount) = limit maxcount := by unfold limit; split <;> split <;> omega
      dsimp only
      rw [hmc]
      have hm0 : 0 < limit maxcount := by unfold limit MAX; split <;> omega
      generalize limit maxcount = m at *
      rw [if_neg (by unfold len; omega)]
      have hchar : len old = 1 → ∃ c, old = [c] := fun h => List.length_eq_one_iff.mp (by unfold len at h; omega)
      have hcnt : ((ps.length : Int) - 1).toNat + 1 = ps.length := by omega
      by_cases h3 : len new = 0
      · rw [if_pos h3]
        have hnew : new = [] := List.eq_nil_of_length_eq_zero (by unfold len at h3; omega)
        subst hnew
        have hle : ((ps.length : Int) - 1) * (len [] - len old) ≤ 0 := by
          have : ((ps.length : Int) - 1) * (len [] - len old) = -(((ps.length : Int) - 1) * len old) := by
            simp [len]
          rw [this]
          have : 0 ≤ ((ps.length : Int) - 1) * len old := Int.mul_nonneg (by omega) (by unfold len; omega)
          omega
        rw [if_pos (show len (([] : Str).intercalate ps) ≤ MAX by unfold len at *; omega)]
        by_cases h4 : len old = 1
        · rw [if_pos h4]
          obtain ⟨c, rfl⟩ := hchar h4
          have : rd [c] 0 = some c := rfl
          rw [this]
          simp only [Option.bind_eq_bind, Option.bind_some]
          unfold replaceDeleteChar
          rw [countChar_spec p2 hm0]
          simp only [Option.bind_eq_bind, Option.bind_some]
          by_cases h5 : (ps.length : Int) - 1 = 0
          · rw [if_pos h5]
            cases p2 with
            | stop => rw [intercalate_one]; rfl
            | step _ _ h => have := List.length_pos_iff.mpr h.ne; simp only [List.length_cons] at h5; omega
          · rw [if_neg h5]
            have hcap : len s - ((ps.length : Int) - 1) = len (([] : Str).intercalate ps) := by
              unfold len at *
              rw [hlenp]; simp; omega
            rw [hcap]
            have := deleteLoop_spec (finds_char c) (len (([] : Str).intercalate ps)) p2 ((ps.length : Int) - 1).toNat [] (by omega) (by simp [len])
            rw [show [c].length = 1 from rfl] at this
            rw [this]
            simp [finish]
        · rw [if_neg h4]
          unfold replaceDeleteSub
          rw [countWithMax_spec ho p2 hm0]
          simp only [Option.bind_eq_bind, Option.bind_some]
          by_cases h5 : (ps.length : Int) - 1 = 0
          · rw [if_pos h5]
            cases p2 with
            | stop => rw [intercalate_one]; rfl
            | step _ _ h => have := List.length_pos_iff.mpr h.ne; simp only [List.length_cons] at h5; omega
          · rw [if_neg h5]
            have hcap : len s - ((ps.length : Int) - 1) * len old = len (([] : Str).intercalate ps) := by
              have : ((ps.length : Int) - 1) * (len [] - len old) = -(((ps.length : Int) - 1) * len old) := by
                simp [len]
              rw [this] at hlenp
              unfold len at *
              rw [hlenp]; omega
            rw [hcap]
            rw [deleteLoop_spec (finds_sub old) (len (([] : Str).intercalate ps)) p2 ((ps.length : Int) - 1).toNat [] (by omega) (by simp [len])]
            simp [finish]
      · rw [if_neg h3]
        by_cases h4 : len old = len new
        · rw [if_pos h4]
          have hlen2 : ((new.intercalate ps).length : Int) = s.length := by
            rw [hlenp, h4, Int.sub_self, Int.mul_zero, Int.add_zero]
          rw [if_pos (show len (new.intercalate ps) ≤ MAX by unfold len; omega)]
          by_cases h5 : len old = 1
          · rw [if_pos h5]
            obtain ⟨c, rfl⟩ := hchar h5
            obtain ⟨d, rfl⟩ : ∃ d, new = [d] := List.length_eq_one_iff.mp (by unfold len at *; omega)
            have e1 : rd [c] 0 = some c := rfl
            have e2 : rd [d] 0 = some d := rfl
            rw [e1, e2]
            simp only [Option.bind_eq_bind, Option.bind_some]
            exact replaceInPlace_spec ho (finds_char c) [d] rfl p2 hm0
          · rw [if_neg h5]
            exact replaceInPlace_spec ho (finds_sub old) new (by unfold len at h4; omega) p2 hm0
        · rw [if_neg h4]
          by_cases h5 : len old = 1
          · rw [if_pos h5]
            obtain ⟨c, rfl⟩ := hchar h5
            have e1 : rd [c] 0 = some c := rfl
            rw [e1]
            simp only [Option.bind_eq_bind, Option.bind_some]
            unfold replaceChar
            rw [countChar_spec p2 hm0]
            simp only [Option.bind_eq_bind, Option.bind_some]
            by_cases h6 : (ps.length : Int) - 1 = 0
            · rw [if_pos h6]
              have : ps = [s] := by
                clear hcnt hlenp hself
                cases p2 with
                | stop => rfl
                | step _ _ h => have := List.length_pos_iff.mpr h.ne; simp only [List.length_cons] at h6; omega
              rw [hself this]
              rfl
            · rw [if_neg h6]
              have hlc : len [c] = 1 := rfl
              rw [hlc] at hlenp
              by_cases h7 : len new - 1 > (MAX - len s).tdiv ((ps.length : Int) - 1)
              · rw [if_pos h7]
                rw [tdiv_gt (by unfold len; omega) (by omega)] at h7
                rw [if_neg (by unfold len at *; omega)]
                rfl
              · rw [if_neg h7]
                rw [tdiv_gt (by unfold len; omega) (by omega)] at h7
                rw [if_pos (by unfold len at *; omega)]
                have hcap : len s + ((ps.length : Int) - 1) * (len new - 1) = len (new.intercalate ps) := by
                  unfold len at *; rw [hlenp]
                rw [hcap]
                have := replaceLoop_spec (finds_char c) new (len (new.intercalate ps)) p2 ((ps.length : Int) - 1).toNat [] (by omega) (by simp [len])
                rw [show [c].length = 1 from rfl] at this
                rw [this]
                simp [finish]
          · rw [if_neg h5]
            unfold replaceSub
            rw [countWithMax_spec ho p2 hm0]
            simp only [Option.bind_eq_bind, Option.bind_some]
            by_cases h6 : (ps.length : Int) - 1 = 0
            · rw [if_pos h6]
              have : ps = [s] := by
                clear hcnt hlenp hself
                cases p2 with
                | stop => rfl
                | step _ _ h => have := List.length_pos_iff.mpr h.ne; simp only [List.length_cons] at h6; omega
              rw [hself this]
              rfl
            · rw [if_neg h6]
              by_cases h7 : len new - len old > (MAX - len s).tdiv ((ps.length : Int) - 1)
              · rw [if_pos h7]
                rw [tdiv_gt (by unfold len; omega) (by omega)] at h7
                rw [if_neg (by unfold len at *; omega)]
                rfl
              · rw [if_neg h7]
                rw [tdiv_gt (by unfold len; omega) (by omega)] at h7
                rw [if_pos (by unfold len at *; omega)]
                have hcap : len s + ((ps.length : Int) - 1) * (len new - len old) = len (new.intercalate ps) := by
                  unfold len at *; rw [hlenp]
                rw [hcap]
                rw [replaceLoop_spec (finds_sub old) new (len (new.intercalate ps)) p2 ((ps.length : Int) - 1).toNat [] (by omega) (by simp [len])]
                simp [finish]

example : replace (b "a--b----c") (b "--") (b "+") 2 = some (some (b "a+b+--c")) ∧
    LeftSplit (b "a--b--c") (b "--") (cuts 1) [b "a", b "b--c"] := by
  refine ⟨by decide +kernel, ?_⟩
  obtain ⟨ps, h1, h2, _⟩ := c33_split (b "a--b--c") (b "--") 1 (by decide) (by decide)
  have : split (b "a--b--c") (some (b "--")) 1 = some (some [b "a", b "b--c"]) := by decide +kernel
  rw [this] at h1
  cases h1
  exact h2

/-- **C34.** For an empty pattern `new` is inserted in front of every byte and at the end (of the first `maxcount` such
places). -/
theorem c34_replace_empty (s new : Str) (maxcount : Int) (hmax : maxcount ≤ MAX) (hlen : (s.length : Int) < MAX) :
    replace s [] new maxcount = some (if len (interleaved new (cuts maxcount) s) ≤ MAX then
      some (interleaved new (cuts maxcount) s) else none) := by
  have hempty : ∀ (s : Str) (m : Option Nat), interleaved [] m s = s := by
    intro s
    induction s with
    | nil => intro m; match m with
      | none => rfl
      | some 0 => rfl
      | some (k + 1) => rfl
    | cons c s ih => intro m; match m with
      | none => simp [interleaved, ih]
      | some 0 => rfl
      | some (k + 1) => simp [interleaved, ih]
  unfold replace
  rw [if_neg (by simp [len])]
  by_cases h2 : maxcount = 0
  · subst h2
    rw [if_pos rfl]
    have : interleaved new (cuts 0) s = s := by simp [cuts, interleaved]
    rw [this, if_pos (by unfold len; omega)]
  · rw [if_neg h2]
    dsimp only
    rw [if_pos (by rfl)]
    by_cases h3 : len new = 0
    · have hnew : new = [] := List.eq_nil_of_length_eq_zero (by unfold len at h3; omega)
      subst hnew
      rw [if_pos h3, hempty, if_pos (by unfold len; omega)]
    · rw [if_neg h3]
      by_cases h4 : maxcount < 0
      · rw [if_pos h4, replaceInterleave_spec s new MAX (by decide) hlen]
        have : interleaved new (some MAX.toNat) s = interleaved new (cuts maxcount) s := by
          unfold cuts
          rw [if_pos h4, interleaved_big new s MAX.toNat (by omega)]
        rw [this]
      · rw [if_neg h4, replaceInterleave_spec s new maxcount (by omega) hlen]
        have : cuts maxcount = some maxcount.toNat := by unfold cuts; rw [if_neg h4]
        rw [this]

example : replace (b "ab") [] (b ".") (-1) = some (some (b ".a.b.")) ∧ interleaved (b ".") none (b "ab") = b ".a.b." := by
  decide +kernel

end Codon.Str
