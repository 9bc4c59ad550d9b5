import Verif.Str.SplitLemmas
import Verif.Str.FindProps

/-! Properties C33 (split, rsplit and join) and C51 (whitespace splitting, stripping, line splitting). -/

set_option linter.unusedSimpArgs false

namespace Codon.Str

open Codon.Sort (rd rd_nat rd_ex rd_some_iff)

/-! ### Specification of splitting at a separator -/

/-- How many cuts a `maxsplit` argument allows. -/
def cuts (maxsplit : Int) : Option Nat := if maxsplit < 0 then none else some maxsplit.toNat

/-- `ps` are the pieces of `s` cut at `sep` from the left, at most `m` times: joined they give `s`; each cut is at the
first occurrence of `sep` after the previous one; and `sep` occurs in the last piece only if the cuts ran out. -/
structure LeftSplit (s sep : Str) (m : Option Nat) (ps : List Str) : Prop where
  nonempty : ps ≠ []
  joined : sep.intercalate ps = s
  bound : ∀ k, m = some k → ps.length ≤ k + 1
  first : ∀ pre x y post, ps = pre ++ x :: y :: post → ∀ i, Occurs (x ++ sep) sep i → (x.length : Int) ≤ i
  last : ∀ pre x, ps = pre ++ [x] → (∃ i, Occurs x sep i) → ∃ k, m = some k ∧ ps.length = k + 1

/-- The same from the right. -/
structure RightSplit (s sep : Str) (m : Option Nat) (ps : List Str) : Prop where
  nonempty : ps ≠ []
  joined : sep.intercalate ps = s
  bound : ∀ k, m = some k → ps.length ≤ k + 1
  first : ∀ pre x y post, ps = pre ++ x :: y :: post → ∀ i, Occurs (sep ++ y) sep i → i ≤ 0
  last : ∀ x post, ps = x :: post → (∃ i, Occurs x sep i) → ∃ k, m = some k ∧ ps.length = k + 1

theorem limit_nonneg (m : Int) : 0 ≤ limit m := by unfold limit MAX; split <;> omega

theorem SplitL.toSpec {sep s : Str} {m : Int} {ps : List Str} (hs : sep ≠ []) (hlen : (s.length : Int) < MAX)
    (h : SplitL sep (limit m) s ps) : LeftSplit s sep (cuts m) ps where
  nonempty := h.ne
  joined := h.joined
  bound := by
    intro k hk
    have := h.bound
    unfold cuts at hk
    unfold limit at this
    by_cases hm : m < 0
    · rw [if_pos hm] at hk; cases hk
    · rw [if_neg hm] at hk
      rw [if_pos (by omega)] at this
      cases hk
      omega
  first := h.first
  last := by
    intro pre x e hx
    have h1 := h.last pre x e hx
    have h2 := h.length hs
    unfold limit at h1
    unfold cuts
    by_cases hm : m < 0
    · rw [if_neg (by omega)] at h1; omega
    · rw [if_pos (by omega)] at h1
      rw [if_neg hm]
      exact ⟨m.toNat, rfl, by omega⟩

theorem SplitR.toSpec {sep s : Str} {m : Int} {ps : List Str} (hs : sep ≠ []) (hlen : (s.length : Int) < MAX)
    (h : SplitR sep (limit m) s ps) : RightSplit s sep (cuts m) ps.reverse where
  nonempty := by simpa using h.ne
  joined := h.joined
  bound := by
    intro k hk
    have := h.bound
    unfold cuts at hk
    unfold limit at this
    rw [List.length_reverse]
    by_cases hm : m < 0
    · rw [if_pos hm] at hk; cases hk
    · rw [if_neg hm] at hk
      rw [if_pos (by omega)] at this
      cases hk
      omega
  first := h.first
  last := by
    intro x post e hx
    have h1 := h.last x post e hx
    have h2 := h.length hs
    unfold limit at h1
    unfold cuts
    rw [List.length_reverse]
    by_cases hm : m < 0
    · rw [if_neg (by omega)] at h1; omega
    · rw [if_pos (by omega)] at h1
      rw [if_neg hm]
      exact ⟨m.toNat, rfl, by omega⟩

/-! ### C33 -/

/-- **C33.** `s.split(sep, maxsplit)` for a non-empty separator reads nothing outside `s`, cuts from the left at most
`maxsplit` times (negative: without limit), and `sep.join` of the pieces is `s` again. -/
theorem c33_split (s sep : Str) (maxsplit : Int) (hs : sep ≠ []) (hlen : (s.length : Int) < MAX) :
    ∃ ps, split s (some sep) maxsplit = some (some ps) ∧ LeftSplit s sep (cuts maxsplit) ps ∧ join sep ps = some s := by
  have hpl := List.length_pos_iff.mpr hs
  have fin : ∀ ps, SplitL sep (limit maxsplit) s ps → LeftSplit s sep (cuts maxsplit) ps ∧ join sep ps = some s := by
    intro ps h
    exact ⟨h.toSpec hs hlen, by rw [join_spec, h.joined]⟩
  unfold split
  dsimp only
  rw [if_neg (by unfold len; omega)]
  by_cases h1 : len sep = 1
  · rw [if_pos h1]
    obtain ⟨c, rfl⟩ := List.length_eq_one_iff.mp (show sep.length = 1 by unfold len at h1; omega)
    have : rd [c] 0 = some c := rfl
    rw [this]
    simp only [Option.bind_eq_bind, Option.bind_some]
    obtain ⟨ps, p1, p2⟩ := splitCharLoop_spec (c := c) (s.length + 1) (limit maxsplit) [] [] s [] (by omega)
      (limit_nonneg _) (by simp)
    simp only [List.nil_append, List.length_nil, Int.natCast_zero, Int.add_zero] at p1 p2
    rw [p1]
    exact ⟨ps, rfl, fin ps p2⟩
  · rw [if_neg h1]
    obtain ⟨ps, p1, p2⟩ := splitLoop_spec hs (s.length + 1) (limit maxsplit) [] s [] (by omega) (limit_nonneg _)
    simp only [List.nil_append, List.length_nil, Int.natCast_zero] at p1
    rw [p1]
    exact ⟨ps, rfl, fin ps p2⟩

example : split (b "a::b::::c") (some (b "::")) 2 = some (some [b "a", b "b", b "::c"]) := by decide +kernel

/-- **C33.** An empty separator is a `ValueError`, in both directions. -/
theorem c33_empty_separator (s : Str) (maxsplit : Int) :
    split s (some []) maxsplit = some none ∧ rsplit s (some []) maxsplit = some none := ⟨rfl, rfl⟩

/-- **C33.** The description of the pieces leaves no choice: there is only one way to split. -/
theorem c33_unique (s sep : Str) (hs : sep ≠ []) (m : Option Nat) (ps qs : List Str)
    (h1 : LeftSplit s sep m ps) (h2 : LeftSplit s sep m qs) : ps = qs := by
  induction ps generalizing s m qs with
  | nil => exact absurd rfl h1.nonempty
  | cons x ps ih =>
    cases qs with
    | nil => exact absurd rfl h2.nonempty
    | cons y qs =>
      cases ps with
      | nil =>
        cases qs with
        | nil => rw [← intercalate_one sep x, ← intercalate_one sep y, h1.joined, h2.joined]
        | cons z qs =>
          exfalso
          have hj := h2.joined
          rw [intercalate_cons sep y (by simp), ← h1.joined, intercalate_one] at hj
          obtain ⟨k, k1, k2⟩ := h1.last [] x rfl ⟨y.length, y, sep.intercalate (z :: qs), hj.symm, rfl⟩
          have := h2.bound k k1
          simp at k2 this
          omega
      | cons x' ps =>
        cases qs with
        | nil =>
          exfalso
          have hj := h1.joined
          rw [intercalate_cons sep x (by simp), ← h2.joined, intercalate_one] at hj
          obtain ⟨k, k1, k2⟩ := h2.last [] y rfl ⟨x.length, x, sep.intercalate (x' :: ps), hj.symm, rfl⟩
          have := h1.bound k k1
          simp at k2 this
          omega
        | cons y' qs =>
          have e1 := h1.joined
          have e2 := h2.joined
          rw [intercalate_cons sep x (by simp)] at e1
          rw [intercalate_cons sep y (by simp)] at e2
          have key : ∀ {x y : Str} {r t : Str}, x ++ (sep ++ r) = s → y ++ (sep ++ t) = s →
              (∀ i, Occurs (y ++ sep) sep i → (y.length : Int) ≤ i) → y.length ≤ x.length := by
            intro x y r t e1 e2 hf
            by_contra hc
            have hlt : x.length < y.length := by omega
            have ho : Occurs ([] ++ ((y ++ sep) ++ t)) sep (([] : Str).length + (x.length : Int)) := by
              rw [List.nil_append, List.append_assoc, e2, ← e1]
              exact ⟨x, r, rfl, by simp⟩
            have := (occurs_window (A := []) (X := y ++ sep) (C := t) (p := sep) (j := x.length) (by omega)).mpr
              ⟨ho, by simp, by simp; omega⟩
            have := hf _ this
            omega
          have l1 := key e1 e2 (h2.first [] y y' qs rfl)
          have l2 := key e2 e1 (h1.first [] x x' ps rfl)
          have e3 : x ++ (sep ++ sep.intercalate (x' :: ps)) = y ++ (sep ++ sep.intercalate (y' :: qs)) := by rw [e1, e2]
          obtain ⟨hxy, e4⟩ := List.append_inj e3 (by omega)
          subst hxy
          have e5 := (List.append_inj e4 rfl).2
          congr 1
          have tail : ∀ (x x' : Str) (ps : List Str), LeftSplit s sep m (x :: x' :: ps) →
              LeftSplit (sep.intercalate (x' :: ps)) sep (m.map (· - 1)) (x' :: ps) := by
            intro x x' ps h
            refine ⟨by simp, rfl, ?_, ?_, ?_⟩
            · intro k hk
              cases m with
              | none => simp at hk
              | some m =>
                have := h.bound m rfl
                simp at hk this ⊢
                omega
            · intro pre a c post e
              exact h.first (x :: pre) a c post (by rw [e]; rfl)
            · intro pre a e ha
              obtain ⟨k, k1, k2⟩ := h.last (x :: pre) a (by rw [e]; rfl) ha
              refine ⟨k - 1, by rw [k1]; rfl, ?_⟩
              simp at k2 ⊢
              omega
          have t1 := tail x x' ps h1
          have t2 := tail x y' qs h2
          rw [← e5] at t2
          exact ih _ _ _ t1 t2

/-- **C33.** Conversely, splitting joined pieces gives them back, provided each is cut off at the first occurrence of the
separator (`x + sep` contains `sep` only at its end) and the last one does not contain the separator. -/
theorem c33_split_join (sep : Str) (ps : List Str) (hs : sep ≠ []) (hne : ps ≠ [])
    (hp : ∀ x ∈ ps, ∀ i, Occurs (x ++ sep) sep i → (x.length : Int) ≤ i)
    (hlen : ((sep.intercalate ps).length : Int) < MAX) :
    ∃ s, join sep ps = some s ∧ split s (some sep) (-1) = some (some ps) := by
  refine ⟨sep.intercalate ps, join_spec sep ps, ?_⟩
  obtain ⟨qs, q1, q2, _⟩ := c33_split (sep.intercalate ps) sep (-1) hs hlen
  rw [q1]
  congr 2
  refine c33_unique _ sep hs _ qs ps q2 ⟨hne, rfl, ?_, ?_, ?_⟩
  · intro k hk; cases hk
  · intro pre x y post e
    exact hp x (by rw [e]; simp)
  · rintro pre x e ⟨i, hi⟩
    have h1 := hp x (by rw [e]; simp) i (occurs_mono sep hi)
    have := hi.bounds
    have := List.length_pos_iff.mpr hs
    omega

example : ∃ s, join (b ", ") [b "x", b "", b "yz"] = some s ∧ split s (some (b ", ")) (-1) = some (some [b "x", b "", b "yz"]) :=
  ⟨b "x, , yz", by decide +kernel, by decide +kernel⟩

/-- **C33.** `sep.join` of a list copies into a buffer of exactly the right size and gives the pieces in order with the
separator between them; the variant for generators gives the same. -/
theorem c33_join (sep : Str) (ps : List Str) :
    join sep ps = some (sep.intercalate ps) ∧ joinGen sep ps = sep.intercalate ps :=
  ⟨join_spec sep ps, joinGen_spec sep ps⟩

example : join (b "-") [b "a", b "b", b "c"] = some (b "a-b-c") := by decide +kernel

/-- **C33, partial.** `s.rsplit(sep, maxsplit)` cuts from the right and its pieces join to `s`, for separators of one byte
or strings of fewer than `len(sep) + 9` bytes. Missing: longer strings with longer separators, where `rsplit` inherits the
error of `rfind` (`c33_rsplit_violation`). -/
theorem c33_rsplit_partial (s sep : Str) (maxsplit : Int) (hs : sep ≠ []) (hlen : (s.length : Int) < MAX)
    (hshort : sep.length = 1 ∨ s.length < sep.length + 9) :
    ∃ ps, rsplit s (some sep) maxsplit = some (some ps) ∧ RightSplit s sep (cuts maxsplit) ps ∧ join sep ps = some s := by
  have hpl := List.length_pos_iff.mpr hs
  have fin : ∀ ps, SplitR sep (limit maxsplit) s ps → RightSplit s sep (cuts maxsplit) ps.reverse ∧ join sep ps.reverse = some s := by
    intro ps h
    exact ⟨h.toSpec hs hlen, by rw [join_spec, h.joined]⟩
  unfold rsplit
  dsimp only
  rw [if_neg (by unfold len; omega)]
  by_cases h1 : len sep = 1
  · rw [if_pos h1]
    obtain ⟨c, rfl⟩ := List.length_eq_one_iff.mp (show sep.length = 1 by unfold len at h1; omega)
    have : rd [c] 0 = some c := rfl
    rw [this]
    simp only [Option.bind_eq_bind, Option.bind_some]
    obtain ⟨ps, p1, p2⟩ := rsplitCharLoop_spec (c := c) (s.length + 1) (limit maxsplit) s [] [] [] (by omega)
      (limit_nonneg _) (by simp)
    simp only [List.append_nil, List.nil_append, List.length_nil, Int.natCast_zero, Int.add_zero] at p1 p2
    unfold len
    rw [p1]
    exact ⟨ps.reverse, rfl, fin ps p2⟩
  · rw [if_neg h1]
    obtain ⟨ps, p1, p2⟩ := rsplitLoop_spec hs (s.length + 1) (limit maxsplit) s [] [] (by omega) (limit_nonneg _)
      (by unfold len at h1; omega)
    simp only [List.append_nil, List.nil_append] at p1
    unfold len
    rw [p1]
    exact ⟨ps.reverse, rfl, fin ps p2⟩

example : rsplit (b "a,b,c,d") (some (b ",")) 2 = some (some [b "a,b", b "c", b "d"]) ∧
    rsplit (b "a=>b=>c") (some (b "=>")) (-1) = some (some [b "a", b "b", b "c"]) := by decide +kernel

/-- **C33, violation.** `("ab" + "x" * 26).rsplit("ab")` does not cut although the separator occurs, so its only piece
contains the separator without any limit on the number of cuts. -/
theorem c33_rsplit_violation : ∃ s sep, Occurs s sep 0 ∧ rsplit s (some sep) (-1) = some (some [s]) :=
  ⟨b "ab" ++ List.replicate 26 120, b "ab", ⟨[], List.replicate 26 120, rfl, rfl⟩, by decide +kernel⟩

/-! ### C51: whitespace -/

/-- The white space bytes. -/
def Blank (c : UInt8) : Prop := c = 9 ∨ c = 10 ∨ c = 11 ∨ c = 12 ∨ c = 13 ∨ c = 32

/-- The words of a string, at most `m` of them split off (`none`: all), the rest (without leading blanks) being the
last piece. -/
inductive Words : Option Nat → Str → List Str → Prop
  | blank {m g} : (∀ c ∈ g, Blank c) → Words m g []
  | rest {g c x} : (∀ c ∈ g, Blank c) → ¬ Blank c → Words (some 0) (g ++ c :: x) [c :: x]
  | word {m g w r ps} : m ≠ some 0 → (∀ c ∈ g, Blank c) → w ≠ [] → (∀ c ∈ w, ¬ Blank c) →
      (∀ c, r.head? = some c → Blank c) → Words (m.map (· - 1)) r ps → Words m (g ++ (w ++ r)) (w :: ps)

theorem isSpace_iff (c : UInt8) : isSpace c = true ↔ Blank c := by
  have h : ∀ c : UInt8, isSpace c = decide (c = 9 ∨ c = 10 ∨ c = 11 ∨ c = 12 ∨ c = 13 ∨ c = 32) := by
    intro c
    have : ∀ n : Fin 256, isSpace (UInt8.ofNat n.val) = decide (UInt8.ofNat n.val = 9 ∨ UInt8.ofNat n.val = 10 ∨
        UInt8.ofNat n.val = 11 ∨ UInt8.ofNat n.val = 12 ∨ UInt8.ofNat n.val = 13 ∨ UInt8.ofNat n.val = 32) := by
      decide +kernel
    have h := this ⟨c.toNat, c.toNat_lt⟩
    simpa using h
  rw [h]
  exact decide_eq_true_iff

theorem takeWhile_split (q : UInt8 → Bool) (s : Str) : ∃ g r, s = g ++ r ∧ s.takeWhile q = g ∧ (∀ c ∈ g, q c = true) ∧
    ∀ c, r.head? = some c → q c = false := by
  refine ⟨s.takeWhile q, s.dropWhile q, (List.takeWhile_append_dropWhile).symm, rfl, ?_, ?_⟩
  · intro c hc
    induction s with
    | nil => simp at hc
    | cons x s ih =>
      by_cases hq : q x = true
      · rw [List.takeWhile_cons_of_pos hq] at hc
        rcases List.mem_cons.mp hc with rfl | hc
        · exact hq
        · exact ih hc
      · rw [List.takeWhile_cons_of_neg hq] at hc
        simp at hc
  · intro c hc
    induction s with
    | nil => simp at hc
    | cons x s ih =>
      by_cases hq : q x = true
      · rw [List.dropWhile_cons_of_pos hq] at hc; exact ih hc
      · rw [List.dropWhile_cons_of_neg hq] at hc
        simp at hc
        subst hc
        simpa using hq

theorem blank_of {g : Str} (h : ∀ c ∈ g, isSpace c = true) : ∀ c ∈ g, Blank c :=
  fun c hc => (isSpace_iff c).mp (h c hc)

theorem splitWsEnd_spec (done rest : Str) (l : List Str) :
    ∃ ps, splitWsEnd (done ++ rest) done.length l = some (l ++ ps) ∧ Words (some 0) rest ps := by
  unfold splitWsEnd
  obtain ⟨g, r, e, e1, e2, e3⟩ := takeWhile_split isSpace rest
  by_cases h : (done.length : Int) < len (done ++ rest)
  · rw [if_pos h, skipFwd_spec isSpace ((done ++ rest).length + 1) done rest (by simp; omega), e1]
    simp only [Option.bind_eq_bind, Option.bind_some]
    subst e
    cases r with
    | nil =>
      rw [if_neg (by simp [len])]
      exact ⟨[], by simp, by simpa using Words.blank (blank_of e2)⟩
    | cons c x =>
      rw [if_pos (by simp [len]; omega)]
      have hs : slice (done ++ (g ++ c :: x)) (done.length + g.length) (len (done ++ (g ++ c :: x))) = some (c :: x) := by
        have := slice_end (done ++ g) (c :: x) (a := done.length + g.length) (c := len (done ++ (g ++ c :: x))) (by simp)
          (by simp [len]; omega)
        simpa using this
      rw [hs]
      have hc : isSpace c = false := e3 c rfl
      exact ⟨[c :: x], rfl, Words.rest (blank_of e2) (by rw [← isSpace_iff, hc]; simp)⟩
  · rw [if_neg h]
    have : rest = [] := List.eq_nil_of_length_eq_zero (by rw [len_append] at h; omega)
    subst this
    exact ⟨[], by simp, Words.blank (by simp)⟩

theorem splitWsLoop_spec : ∀ (f m : Nat) (done rest : Str) (l : List Str), rest.length < f →
    ∃ ps, splitWsLoop (done ++ rest) f m done.length l = some (l ++ ps) ∧ Words (some m) rest ps := by
  intro f
  induction f with
  | zero => intro m done rest l h; omega
  | succ f ih =>
    intro m done rest l h
    unfold splitWsLoop
    cases m with
    | zero =>
      rw [if_neg (by simp)]
      exact splitWsEnd_spec done rest l
    | succ m =>
      rw [if_pos (by omega)]
      obtain ⟨g, r, rfl, e1, e2, e3⟩ := takeWhile_split isSpace rest
      rw [skipFwd_spec isSpace ((done ++ (g ++ r)).length + 1) done (g ++ r) (by simp; omega), e1]
      simp only [Option.bind_eq_bind, Option.bind_some]
      cases r with
      | nil =>
        rw [if_pos (by simp [len])]
        refine ⟨[], ?_, by simpa using Words.blank (blank_of e2)⟩
        unfold splitWsEnd
        rw [if_neg (by simp [len])]
        simp
      | cons c x =>
        rw [if_neg (by simp [len]; omega)]
        have hc : isSpace c = false := e3 c rfl
        obtain ⟨w, r, rfl, f1, f2, f3⟩ := takeWhile_split (fun c => !isSpace c) x
        have hsk : skipFwd (done ++ (g ++ c :: (w ++ r))) (fun c => !isSpace c) ((done ++ (g ++ c :: (w ++ r))).length + 1)
            ((done.length : Int) + g.length + 1) = some ((done.length : Int) + g.length + 1 + w.length) := by
          have := skipFwd_spec (fun c => !isSpace c) ((done ++ (g ++ c :: (w ++ r))).length + 1) (done ++ (g ++ [c])) (w ++ r)
            (by simp; omega)
          rw [f1] at this
          have e4 : done ++ (g ++ [c]) ++ (w ++ r) = done ++ (g ++ c :: (w ++ r)) := by simp
          have e5 : (((done ++ (g ++ [c])).length : Nat) : Int) = (done.length : Int) + g.length + 1 := by simp; omega
          rw [e4, e5] at this
          exact this
        rw [hsk]
        simp only [Option.bind_some]
        have hsl : slice (done ++ (g ++ c :: (w ++ r))) (done.length + g.length) ((done.length : Int) + g.length + 1 + w.length) = some (c :: w) := by
          have := slice_mid (done ++ g) (c :: w) r (a := done.length + g.length) (c := (done.length : Int) + g.length + 1 + w.length)
            (by simp) (by simp; omega)
          simpa using this
        rw [hsl]
        simp only [Option.bind_some]
        obtain ⟨ps, p1, p2⟩ := ih m (done ++ (g ++ c :: w)) r (l ++ [c :: w]) (by simp at h; omega)
        have e4 : done ++ (g ++ c :: w) ++ r = done ++ (g ++ c :: (w ++ r)) := by simp
        have e5 : (((done ++ (g ++ c :: w)).length : Nat) : Int) = (done.length : Int) + g.length + 1 + w.length := by simp; omega
        rw [e4, e5] at p1
        refine ⟨(c :: w) :: ps, ?_, ?_⟩
        · rw [show ((m + 1 : Nat) : Int) - 1 = (m : Int) by omega, p1]
          simp
        · have : Words (some (m + 1)) (g ++ ((c :: w) ++ r)) ((c :: w) :: ps) := by
            refine Words.word (by simp) (blank_of e2) (by simp) ?_ ?_ (by simpa using p2)
            · intro d hd
              rw [← isSpace_iff]
              rcases List.mem_cons.mp hd with rfl | hd
              · simp [hc]
              · have := f2 d hd
                simpa using this
            · intro d hd
              rw [← isSpace_iff]
              have := f3 d hd
              simpa using this
          simpa using this

theorem words_none {m : Option Nat} {s : Str} {ps : List Str} (h : Words m s ps) : ∀ k, m = some k → s.length ≤ k → Words none s ps := by
  induction h with
  | blank h => intro k _ _; exact Words.blank h
  | rest h1 h2 => intro k hk hl; cases hk; simp at hl
  | @word m g w r ps h1 h2 h3 h4 h5 _ ih =>
    intro k hk hl
    have := List.length_pos_iff.mpr h3
    refine Words.word (by simp) h2 h3 h4 h5 (ih (k - 1) (by rw [hk]; rfl) ?_)
    simp at hl; omega

theorem limit_cases (maxsplit : Int) (s : Str) (hlen : (s.length : Int) < MAX) {ps : List Str}
    (h : Words (some (limit maxsplit).toNat) s ps) : Words (cuts maxsplit) s ps := by
  unfold cuts
  unfold limit at h
  by_cases hm : maxsplit < 0
  · rw [if_pos hm]
    rw [if_neg (by omega)] at h
    exact words_none h _ rfl (by omega)
  · rw [if_neg hm]
    rw [if_pos (by omega)] at h
    exact h

/-- **C51.** `s.split(None, maxsplit)` gives the words of `s` in order: the maximal runs of non-blank bytes, at most
`maxsplit` of them, followed by the rest of the string if anything but blanks is left. -/
theorem c51_split_whitespace (s : Str) (maxsplit : Int) (hlen : (s.length : Int) < MAX) :
    ∃ ps, split s none maxsplit = some (some ps) ∧ Words (cuts maxsplit) s ps := by
  unfold split
  dsimp only
  obtain ⟨ps, p1, p2⟩ := splitWsLoop_spec (s.length + 1) (limit maxsplit).toNat [] s [] (by omega)
  have hl := limit_nonneg maxsplit
  rw [show (((limit maxsplit).toNat : Nat) : Int) = limit maxsplit by omega] at p1
  simp only [List.nil_append, List.length_nil, Int.natCast_zero] at p1
  rw [p1]
  exact ⟨ps, rfl, limit_cases maxsplit s hlen p2⟩

example : split (b " to be  or ") none (-1) = some (some [b "to", b "be", b "or"]) ∧
    split (b " to be  or ") none 1 = some (some [b "to", b "be  or "]) := by decide +kernel

theorem rsplitWsEnd_spec (rest done : Str) (l : List Str) :
    ∃ ps, rsplitWsEnd (rest ++ done) (rest.length - 1) l = some (l ++ ps) ∧ Words (some 0) rest.reverse (ps.map List.reverse) := by
  unfold rsplitWsEnd
  obtain ⟨g, r, e, e1, e2, e3⟩ := takeWhile_split isSpace rest.reverse
  have e' : rest = r.reverse ++ g.reverse := by rw [← List.reverse_reverse rest, e, List.reverse_append]
  by_cases h : (rest.length : Int) - 1 ≥ 0
  · rw [if_pos h, skipBwd_spec isSpace ((rest ++ done).length + 1) rest done (by simp; omega), e1]
    simp only [Option.bind_eq_bind, Option.bind_some]
    rw [e]
    have hlen : rest.length = r.length + g.length := by rw [e']; simp
    cases r with
    | nil =>
      rw [if_neg (by simp at hlen; omega)]
      exact ⟨[], by simp, by simpa using Words.blank (blank_of e2)⟩
    | cons c x =>
      rw [if_pos (by simp at hlen; omega)]
      have hs : slice (rest ++ done) 0 ((rest.length : Int) - 1 - g.length + 1) = some (c :: x).reverse := by
        rw [e', List.append_assoc]
        exact slice_start (c :: x).reverse (g.reverse ++ done) (by simp; omega)
      rw [hs]
      have hc : isSpace c = false := e3 c rfl
      refine ⟨[(c :: x).reverse], rfl, ?_⟩
      rw [List.map_singleton, List.reverse_reverse]
      exact Words.rest (blank_of e2) (by rw [← isSpace_iff, hc]; simp)
  · rw [if_neg h]
    have : rest = [] := List.eq_nil_of_length_eq_zero (by omega)
    subst this
    exact ⟨[], by simp, Words.blank (by simp)⟩

theorem rsplitWsLoop_spec : ∀ (f m : Nat) (rest done : Str) (l : List Str), rest.length < f →
    ∃ ps, rsplitWsLoop (rest ++ done) f m (rest.length - 1) l = some (l ++ ps) ∧
      Words (some m) rest.reverse (ps.map List.reverse) := by
  intro f
  induction f with
  | zero => intro m rest done l h; omega
  | succ f ih =>
    intro m rest done l h
    unfold rsplitWsLoop
    cases m with
    | zero =>
      rw [if_neg (by simp)]
      exact rsplitWsEnd_spec rest done l
    | succ m =>
      rw [if_pos (by omega)]
      obtain ⟨g, r, e, e1, e2, e3⟩ := takeWhile_split isSpace rest.reverse
      have e' : rest = r.reverse ++ g.reverse := by rw [← List.reverse_reverse rest, e, List.reverse_append]
      rw [skipBwd_spec isSpace ((rest ++ done).length + 1) rest done (by simp; omega), e1]
      simp only [Option.bind_eq_bind, Option.bind_some]
      rw [e]
      have hlen : rest.length = r.length + g.length := by rw [e']; simp
      cases r with
      | nil =>
        have hl : (rest.length : Int) - 1 - g.length = -1 := by simp at hlen; omega
        rw [hl, if_pos (by omega)]
        refine ⟨[], ?_, by simpa using Words.blank (blank_of e2)⟩
        unfold rsplitWsEnd
        rw [if_neg (by omega)]
        simp
      | cons c x =>
        have hc : isSpace c = false := e3 c rfl
        obtain ⟨w, r, rfl, f1, f2, f3⟩ := takeWhile_split (fun c => !isSpace c) x
        have hl : (rest.length : Int) - 1 - g.length = r.length + w.length := by simp at hlen; omega
        rw [hl, if_neg (by omega)]
        have e'' : rest ++ done = (r.reverse ++ w.reverse) ++ ([c] ++ g.reverse ++ done) := by rw [e']; simp
        have hsk : skipBwd (rest ++ done) (fun c => !isSpace c) ((rest ++ done).length + 1)
            ((r.length : Int) + w.length - 1) = some ((r.length : Int) - 1) := by
          have := skipBwd_spec (fun c => !isSpace c) ((rest ++ done).length + 1) (r.reverse ++ w.reverse) ([c] ++ g.reverse ++ done)
            (by simp at hlen ⊢; omega)
          rw [List.reverse_append, List.reverse_reverse, List.reverse_reverse, f1, ← e''] at this
          have e5 : (((r.reverse ++ w.reverse).length : Nat) : Int) = (r.length : Int) + w.length := by simp
          rw [e5] at this
          rw [this]
          congr 1
          omega
        rw [hsk]
        simp only [Option.bind_some]
        have hsl : slice (rest ++ done) ((r.length : Int) - 1 + 1) ((r.length : Int) + w.length + 1) = some (c :: w).reverse := by
          have := slice_mid r.reverse (c :: w).reverse (g.reverse ++ done) (a := (r.length : Int) - 1 + 1) (c := (r.length : Int) + w.length + 1)
            (by simp) (by simp; omega)
          rw [e'']
          simpa using this
        rw [hsl]
        simp only [Option.bind_some]
        obtain ⟨ps, p1, p2⟩ := ih m r.reverse ((c :: w).reverse ++ g.reverse ++ done) (l ++ [(c :: w).reverse]) (by simp at hlen ⊢; omega)
        have e4 : r.reverse ++ ((c :: w).reverse ++ g.reverse ++ done) = rest ++ done := by rw [e'']; simp
        rw [e4, List.length_reverse] at p1
        rw [List.reverse_reverse] at p2
        refine ⟨(c :: w).reverse :: ps, ?_, ?_⟩
        · rw [show ((m + 1 : Nat) : Int) - 1 = (m : Int) by omega, p1]
          simp
        · rw [List.map_cons, List.reverse_reverse]
          have : Words (some (m + 1)) (g ++ ((c :: w) ++ r)) ((c :: w) :: ps.map List.reverse) := by
            refine Words.word (by simp) (blank_of e2) (by simp) ?_ ?_ (by simpa using p2)
            · intro d hd
              rw [← isSpace_iff]
              rcases List.mem_cons.mp hd with rfl | hd
              · simp [hc]
              · have := f2 d hd
                simpa using this
            · intro d hd
              rw [← isSpace_iff]
              have := f3 d hd
              simpa using this
          simpa using this

/-- **C51.** `s.rsplit(None, maxsplit)` is the mirror image: reversed, its pieces are those of `split` on the reversed
string. -/
theorem c51_rsplit_whitespace (s : Str) (maxsplit : Int) (hlen : (s.length : Int) < MAX) :
    ∃ ps, rsplit s none maxsplit = some (some ps) ∧ Words (cuts maxsplit) s.reverse (ps.reverse.map List.reverse) := by
  unfold rsplit
  dsimp only
  obtain ⟨ps, p1, p2⟩ := rsplitWsLoop_spec (s.length + 1) (limit maxsplit).toNat s [] [] (by omega)
  have hl := limit_nonneg maxsplit
  rw [show (((limit maxsplit).toNat : Nat) : Int) = limit maxsplit by omega] at p1
  simp only [List.nil_append, List.append_nil] at p1
  unfold len
  rw [p1]
  refine ⟨ps.reverse, rfl, ?_⟩
  rw [List.reverse_reverse]
  exact limit_cases maxsplit s.reverse (by simpa using hlen) p2

example : rsplit (b " to be  or ") none 1 = some (some [b " to be", b "or"]) := by decide +kernel

/-! ### Stripping -/

/-- The bytes that `strip(chars)` removes. -/
def Stripped (chars : Str) (c : UInt8) : Prop := (chars = [] ∧ Blank c) ∨ c ∈ chars

theorem hasChar_iff (chars : Str) (c : UInt8) : hasChar chars c = true ↔ Stripped chars c := by
  unfold hasChar Stripped
  by_cases h : chars = []
  · subst h; simp [isSpace_iff]
  · rw [if_pos h]
    simp [h]

/-- **C51.** `s.strip(chars)` is the string without the longest prefix and the longest suffix of bytes from `chars`
(blanks if `chars` is empty): what is removed consists of such bytes, and what remains neither starts nor ends with one. -/
theorem c51_strip (s chars : Str) : ∃ x pre post, strip s chars = some x ∧ s = pre ++ (x ++ post) ∧
    (∀ c ∈ pre, Stripped chars c) ∧ (∀ c ∈ post, Stripped chars c) ∧
    (∀ c, x.head? = some c → ¬ Stripped chars c) ∧ ∀ c, x.getLast? = some c → ¬ Stripped chars c := by
  obtain ⟨g, r, rfl, e1, e2, e3⟩ := takeWhile_split (hasChar chars) s
  have h1 : lstrip (g ++ r) chars = some r := by
    unfold lstrip
    have := skipFwd_spec (hasChar chars) ((g ++ r).length + 1) [] (g ++ r) (by simp)
    simp only [List.nil_append, List.length_nil, Int.natCast_zero, Int.zero_add] at this
    rw [this, e1]
    exact slice_end g r rfl (len_append ..)
  obtain ⟨g', r', e, f1, f2, f3⟩ := takeWhile_split (hasChar chars) r.reverse
  have e' : r = r'.reverse ++ g'.reverse := by rw [← List.reverse_reverse r, e, List.reverse_append]
  have h2 : rstrip r chars = some r'.reverse := by
    unfold rstrip
    have := skipBwd_spec (hasChar chars) (r.length + 1) r [] (by omega)
    rw [List.append_nil] at this
    unfold len
    rw [this, f1]
    show slice r 0 _ = _
    conv_lhs => rw [e']
    refine slice_start r'.reverse g'.reverse ?_
    have : r.length = r'.length + g'.length := by rw [e']; simp
    simp; omega
  refine ⟨r'.reverse, g, g'.reverse, ?_, by rw [e'], ?_, ?_, ?_, ?_⟩
  · unfold strip; rw [h1]; exact h2
  · exact fun c hc => (hasChar_iff chars c).mp (e2 c hc)
  · exact fun c hc => (hasChar_iff chars c).mp (f2 c (by simpa using hc))
  · intro c hc
    rw [← hasChar_iff]
    have : r.head? = some c := by
      rw [e']
      rw [List.head?_append, hc]; rfl
    simp [e3 c this]
  · intro c hc
    rw [← hasChar_iff]
    rw [List.getLast?_reverse] at hc
    simp [f3 c hc]

example : strip (b "xxhexllox") (b "xo") = some (b "hexll") := by decide +kernel

/-! ### Lines -/

/-- A line ending, given what follows it: `\n`, `\r\n`, or a lone `\r`. -/
def Eol (e rest : Str) : Prop := e = [10] ∨ e = [13, 10] ∨ (e = [13] ∧ rest.head? ≠ some 10)

/-- The lines of a string. -/
inductive Lines (keep : Bool) : Str → List Str → Prop
  | nil : Lines keep [] []
  | last {x} : x ≠ [] → (∀ c ∈ x, c ≠ 10 ∧ c ≠ 13) → Lines keep x [x]
  | line {x e rest ps} : (∀ c ∈ x, c ≠ 10 ∧ c ≠ 13) → Eol e rest → Lines keep rest ps →
      Lines keep (x ++ (e ++ rest)) ((if keep then x ++ e else x) :: ps)

theorem splitlinesLoop_spec (keep : Bool) : ∀ (f : Nat) (done rest : Str) (v : List Str), rest.length < f →
    (done = [] → v = []) →
    ∃ ps, splitlinesLoop (done ++ rest) keep f done.length done.length v = some (v ++ ps) ∧ Lines keep rest ps := by
  intro f
  induction f with
  | zero => intro done rest v h; omega
  | succ f ih =>
    intro done rest v h hv
    unfold splitlinesLoop
    by_cases h0 : rest = []
    · subst h0
      rw [if_neg (by simp [len])]
      exact ⟨[], by simp, Lines.nil⟩
    · have hpos := List.length_pos_iff.mpr h0
      rw [if_pos (by rw [len_append]; omega)]
      obtain ⟨x, r, rfl, e1, e2, e3⟩ := takeWhile_split (fun c => !(c = 13 || c = 10)) rest
      have hx : ∀ c ∈ x, c ≠ 10 ∧ c ≠ 13 := by
        intro c hc
        have := e2 c hc
        simp at this
        exact ⟨this.2, this.1⟩
      rw [skipFwd_spec _ ((done ++ (x ++ r)).length + 1) done (x ++ r) (by simp; omega), e1]
      simp only [Option.bind_eq_bind, Option.bind_some]
      -- what the rest of an iteration does, once the line ending is known
      have fin : ∀ (e rest : Str), r = e ++ rest → Eol e rest →
          ∃ ps, (if (done.length : Int) = 0 ∧ (if keep then (done.length : Int) + x.length + e.length else done.length + x.length) = len (done ++ (x ++ r)) then
              pure (v ++ [done ++ (x ++ r)])
            else do
              let y ← slice (done ++ (x ++ r)) done.length (if keep then (done.length : Int) + x.length + e.length else done.length + x.length)
              splitlinesLoop (done ++ (x ++ r)) keep f ((done.length : Int) + x.length + e.length) ((done.length : Int) + x.length + e.length) (v ++ [y])) =
            some (v ++ ps) ∧ Lines keep (x ++ r) ps := by
        intro e rest hr he
        subst hr
        have hel : 0 < e.length := by rcases he with h | h | ⟨h, _⟩ <;> rw [h] <;> simp
        by_cases hc : (done.length : Int) = 0 ∧ (if keep then (done.length : Int) + x.length + e.length else done.length + x.length) = len (done ++ (x ++ (e ++ rest)))
        · rw [if_pos hc]
          have hd : done = [] := List.eq_nil_of_length_eq_zero (by omega)
          subst hd
          have hk : keep = true := by
            by_contra hk
            have := hc.2
            rw [if_neg hk] at this
            simp [len] at this
            omega
          subst hk
          have hr : rest = [] := by
            have := hc.2
            rw [if_pos rfl] at this
            rw [len_append] at this
            simp only [List.length_append, List.length_nil] at this
            exact List.eq_nil_of_length_eq_zero (by omega)
          subst hr
          refine ⟨[x ++ e], by simp, ?_⟩
          exact Lines.line (keep := true) hx he Lines.nil
        · rw [if_neg hc]
          have hsl : slice (done ++ (x ++ (e ++ rest))) done.length (if keep then (done.length : Int) + x.length + e.length else done.length + x.length) =
              some (if keep then x ++ e else x) := by
            cases keep with
            | true =>
              have := slice_mid done (x ++ e) rest (a := done.length) (c := (done.length : Int) + x.length + e.length) rfl (by simp; omega)
              simpa using this
            | false => simpa using slice_mid done x (e ++ rest) rfl rfl
          rw [hsl]
          simp only [Option.bind_eq_bind, Option.bind_some]
          obtain ⟨ps, p1, p2⟩ := ih (done ++ (x ++ e)) rest (v ++ [if keep then x ++ e else x]) (by simp at h; omega) (by
            intro hh
            have := congrArg List.length hh
            simp only [List.length_append, List.length_nil] at this
            omega)
          have e4 : done ++ (x ++ e) ++ rest = done ++ (x ++ (e ++ rest)) := by simp
          have e5 : (((done ++ (x ++ e)).length : Nat) : Int) = (done.length : Int) + x.length + e.length := by simp; omega
          rw [e4, e5] at p1
          exact ⟨_ :: ps, by rw [p1]; simp, Lines.line hx he p2⟩
      cases r with
      | nil =>
        rw [if_neg (by simp [len])]
        simp only [Option.bind_some, List.append_nil] at *
        by_cases hd : (done.length : Int) = 0
        · rw [if_pos ⟨hd, by simp [len]⟩]
          have hd : done = [] := List.eq_nil_of_length_eq_zero (by omega)
          subst hd
          exact ⟨[x], by simp, Lines.last h0 hx⟩
        · rw [if_neg (fun hh => hd hh.1)]
          have hsl : slice (done ++ x) done.length ((done.length : Int) + x.length) = some x := slice_end done x rfl rfl
          rw [hsl]
          simp only [Option.bind_some]
          obtain ⟨ps, p1, p2⟩ := ih (done ++ x) [] (v ++ [x]) (by simp; omega) (by
            intro hh
            have := congrArg List.length hh
            simp at this
            exact absurd this.2 h0)
          simp only [List.append_nil, List.length_append, Int.natCast_add] at p1
          have hps : ps = [] := by
            generalize hz : ([] : Str) = z at p2
            cases p2 with
            | nil => rfl
            | last h => exact absurd hz.symm h
            | @line a e t _ _ he _ =>
              exfalso
              rcases he with h | h | ⟨h, _⟩ <;> rw [h] at hz <;> simp at hz
          subst hps
          exact ⟨[x], by rw [p1]; simp, Lines.last h0 hx⟩
      | cons c r =>
        rw [if_pos (by simp [len])]
        have hr : rd (done ++ (x ++ c :: r)) ((done.length : Int) + x.length) = some c := by
          have := rd_append_cons (done ++ x) r c
          simpa using this
        have hc := e3 c rfl
        have hc : c = 13 ∨ c = 10 := by
          simp at hc
          by_cases h : c = 13
          · exact Or.inl h
          · exact Or.inr (hc h)
        rw [hr]
        simp only [Option.bind_some]
        by_cases h13 : c = 13
        · subst h13
          rw [if_pos rfl]
          cases r with
          | nil =>
            rw [if_neg (by simp [len]; omega)]
            obtain ⟨ps, p1, p2⟩ := fin [13] [] rfl (Or.inr (Or.inr ⟨rfl, by simp⟩))
            refine ⟨ps, ?_, p2⟩
            rw [← p1]
            cases keep <;> simp
          | cons d r =>
            rw [if_pos (by simp [len]; omega)]
            have hr2 : rd (done ++ (x ++ 13 :: d :: r)) ((done.length : Int) + x.length + 1) = some d := by
              have := rd_append_cons (done ++ (x ++ [13])) r d
              simp only [List.append_assoc, List.singleton_append, List.length_append, List.length_singleton] at this
              push_cast at this
              rw [← this]
              congr 1
            rw [hr2]
            simp only [Option.bind_some]
            by_cases h10 : d = 10
            · subst h10
              rw [if_pos rfl]
              obtain ⟨ps, p1, p2⟩ := fin [13, 10] r rfl (Or.inr (Or.inl rfl))
              refine ⟨ps, ?_, p2⟩
              rw [← p1]
              cases keep <;> simp
            · rw [if_neg h10]
              obtain ⟨ps, p1, p2⟩ := fin [13] (d :: r) rfl (Or.inr (Or.inr ⟨rfl, by simpa using h10⟩))
              refine ⟨ps, ?_, p2⟩
              rw [← p1]
              cases keep <;> simp
        · have hc10 : c = 10 := by rcases hc with h | h; exact absurd h h13; exact h
          subst hc10
          rw [if_neg h13]
          obtain ⟨ps, p1, p2⟩ := fin [10] r rfl (Or.inl rfl)
          refine ⟨ps, ?_, p2⟩
          rw [← p1]
          cases keep <;> simp

/-- **C51.** `s.splitlines(keepends)` gives the lines of `s` (ended by `\n`, `\r` or `\r\n`), with or without their
endings. -/
theorem c51_splitlines (s : Str) (keepends : Bool) : ∃ ps, splitlines s keepends = some ps ∧ Lines keepends s ps := by
  obtain ⟨ps, p1, p2⟩ := splitlinesLoop_spec keepends (s.length + 1) [] s [] (by omega) (fun _ => rfl)
  simp only [List.nil_append, List.length_nil, Int.natCast_zero] at p1
  exact ⟨ps, p1, p2⟩

/-- **C51.** The lines with their endings, put together, are the string. -/
theorem c51_lines_join {s : Str} {ps : List Str} (h : Lines true s ps) : ps.flatten = s := by
  induction h with
  | nil => rfl
  | last => simp
  | line _ _ _ ih => simp [ih]

example : splitlines (b "one

two
three") false = some [b "one", b "", b "two", b "three"] := by decide +kernel

end Codon.Str
