import Verif.Rx.Lemmas

/-!
# C94: the matches of a regular expression
-/

namespace Codon.Rx

/-! ### Which matches -/

/-- The search finds the first position with a match and the preferred match there, and nothing only
if there is none. -/
theorem c94_search (M : Rx) (n pos : Nat) (m : Nat × Nat) :
    search M (n + 1 - pos) pos = some m ↔ Finds M n pos false m := by
  constructor
  · intro h; exact finds_of_search h
  · intro h
    rcases hs : search M (n + 1 - pos) pos with _ | m'
    · exact absurd h (not_finds hs m)
    · have h1 := finds_of_search (s := m'.1) (e := m'.2) hs
      obtain ⟨a1, a2, a3, a4⟩ := h
      obtain ⟨b1, b2, b3, b4⟩ := h1
      simp only at b1 b2 b3 b4
      have hs' : m.1 = m'.1 := by
        rcases Nat.lt_trichotomy m.1 m'.1 with h | h | h
        · rw [b4 _ a1 h] at a3; simp at a3
        · exact h
        · rw [a4 _ b1 h] at b3; simp at b3
      rw [hs', b3] at a3
      simp only [Option.some.injEq] at a3
      rw [Prod.ext hs' a3.symm]

/-- The spans of `finditer` are in order and do not overlap, each is the preferred match at its
place, and the loop ends: for all patterns and strings. -/
theorem c94_spans (M : Rx) (n : Nat) (hM : M.Ok n) (pos : Nat) (hp : pos ≤ n) : ∃ l,
    (∀ f ≥ n + 2, iter M n f pos = some l) ∧ Ordered n pos l ∧
      ∀ m ∈ l, (M m.1).head? = some m.2 := by
  have hst : ∀ f f' p, p ≤ n → n + 1 - p < f → n + 1 - p < f' → iter M n f p = iter M n f' p := by
    intro f
    induction f with
    | zero => intro f' p _ h; omega
    | succ f ih =>
      intro f' p h1 h2 h3
      obtain ⟨g, rfl⟩ : ∃ g, f' = g + 1 := ⟨f' - 1, by omega⟩
      rw [iter, iter]
      rcases hs : search M (n + 1 - p) p with _ | ⟨s, e⟩
      · rfl
      · obtain ⟨q1, q2, q3, _⟩ := search_some hs
        obtain ⟨b1, b2⟩ := head_bounds hM q3
        simp only
        by_cases c1 : p = n
        · rw [if_pos c1, if_pos c1]
        · rw [if_neg c1, if_neg c1]
          by_cases c2 : p = e
          · rw [if_pos c2, if_pos c2, ih g (p + 1) (by omega) (by omega) (by omega)]
          · rw [if_neg c2, if_neg c2, ih g e b2 (by omega) (by omega)]
  obtain ⟨l, e1, e2, e3⟩ := iter_ordered hM (n + 2) pos hp (by omega)
  exact ⟨l, fun f hf => by rw [hst f (n + 2) pos hp (by omega) (by omega), e1], e2, e3⟩

/-- `finditer` gives the matches that Python gives, for all patterns whose empty matches are steady:
none at all, or everywhere where there is no longer one. -/
theorem c94_finditer_partial (M : Rx) (n : Nat) (hM : M.Ok n) (pos : Nat) (hp : pos ≤ n)
    (hS : Steady M pos) (f : Nat) (hf : n + 2 ≤ f) (l : List (Nat × Nat)) :
    iter M n f pos = some l ↔ Matches M n pos false l := by
  obtain ⟨l', e1, e2⟩ := iter_matches hM hS f pos le_rfl hp (by omega)
  constructor
  · intro h
    rw [e1] at h
    cases h
    exact e2
  · intro h
    rw [matches_unique h e2, e1]

/-- Patterns that do not match the empty string are steady. -/
theorem c94_nonempty (M : Rx) (pos : Nat) (h : ∀ p, p ∉ M p) : Steady M pos := by
  intro p hp
  exact absurd (List.mem_of_mem_head? (by rw [show (M p).head? = some p from hp]; exact rfl)) (h p)

/-- The matches of `x*` in `axxb`. -/
def xStar : Rx := fun p => if p = 1 then [3, 2, 1] else if p = 2 then [3, 2] else if p ≤ 4 then [p] else []

example : xStar.Ok 4 ∧ Steady xStar 0 ∧ iter xStar 4 6 0 = some [(0, 0), (1, 3), (3, 3), (4, 4)] := by
  refine ⟨?_, ?_, by decide⟩
  · intro p e h
    simp only [xStar] at h
    split_ifs at h <;> simp at h <;> omega
  · intro p hp
    simp only [Empty, xStar] at hp ⊢
    have : p ≤ 4 := by
      by_contra hc
      rw [if_neg (by omega), if_neg (by omega), if_neg (by omega)] at hp
      simp at hp
    rcases (by omega : p = 0 ∨ p = 1 ∨ p = 2 ∨ p = 3 ∨ p = 4) with rfl | rfl | rfl | rfl | rfl <;>
      simp_all

/-- The bounds of the search: `pos` and `endpos` are cut to the string, and there is no match if the
one is after the other. -/
theorem c94_bounds (M : Nat → Rx) (len : Nat) (pos endpos : Option Int) (f : Nat) :
    ∃ a b : Nat, b ≤ len ∧ a ≤ len ∧
      (∀ p : Int, pos = some p → (0 ≤ p → p ≤ len → (a : Int) = p) ∧ (p < 0 → a = 0) ∧ (len < p → a = len)) ∧
      (∀ p : Int, endpos = some p → (0 ≤ p → p ≤ len → (b : Int) = p) ∧ (p < 0 → b = 0) ∧
        (len < p → b = len)) ∧ (pos = none → a = 0) ∧ (endpos = none → b = len) ∧
      finditer M len pos endpos f = if a > b then some [] else iter (M b) b f a := by
  refine ⟨((match pos with | none => 0 | some p => max 0 (min p len) : Int)).toNat,
    ((match endpos with | none => len | some p => max 0 (min p len) : Int)).toNat, ?_, ?_, ?_, ?_, ?_,
    ?_, ?_⟩
  · cases endpos <;> simp only <;> omega
  · cases pos <;> simp only <;> omega
  · rintro p rfl; simp only; omega
  · rintro p rfl; simp only; omega
  · rintro rfl; rfl
  · rintro rfl; simp
  · unfold finditer
    cases pos <;> cases endpos <;> simp only <;> (split_ifs <;> first | rfl | omega)

/-! ### `sub` and `split` -/

/-- `subn` on matches in order: the string with the first `count` matches replaced (all of them if
`count` is zero), and how many there were. -/
theorem c94_subn {α : Type} (repl : Nat × Nat → List α) (str : List α) (count : Int)
    (ms : List (Nat × Nat)) (ho : Ordered str.length 0 ms) (hc : 0 ≤ count) :
    Replaced str repl 0 (if count > 0 then ms.take count.toNat else ms) (subn repl str count ms).1 ∧
    (subn repl str count ms).2 = (if count > 0 then ms.take count.toNat else ms).length := by
  obtain ⟨out, h1, h2, h3⟩ := subn_loop repl str count hc ms 0 0 [] ho
  simp only [limited, Nat.sub_zero, List.flatten_nil, List.nil_append, Nat.zero_add] at h1 h2 h3
  have hn : ¬ count < 0 := by omega
  simp only [subn, split, hn, if_false]
  exact ⟨by rw [h2]; exact h1, h3⟩

/-- With a negative count nothing is replaced. -/
theorem c94_subn_negative {α : Type} (repl : Nat × Nat → List α) (str : List α) (count : Int)
    (ms : List (Nat × Nat)) (hc : count < 0) : subn repl str count ms = (str, 0) := by
  simp [subn, split, hc]

/-- Replacing each match by its own text gives the string back, whatever the count: no character is
lost or doubled, also by `split` with the whole pattern in parentheses. -/
theorem c94_nothing_lost {α : Type} (str : List α) (count : Int) (ms : List (Nat × Nat))
    (ho : Ordered str.length 0 ms) :
    (subn (fun m => (str.take m.2).drop m.1) str count ms).1 = str := by
  by_cases hc : count < 0
  · rw [c94_subn_negative _ _ _ _ hc]
  · obtain ⟨h1, _⟩ := c94_subn (fun m => (str.take m.2).drop m.1) str count ms ho (by omega)
    have ht : Ordered str.length 0 (if count > 0 then ms.take count.toNat else ms) := by
      split_ifs
      · generalize count.toNat = k
        clear h1
        have : ∀ (l : List (Nat × Nat)) (a k : Nat), Ordered str.length a l →
            Ordered str.length a (l.take k) := by
          intro l
          induction l with
          | nil => intro a k h; simpa using h
          | cons m r ih =>
            intro a k h
            have hle : ∀ {n a l}, Ordered n a l → a ≤ n := by
              intro n a l h
              induction h with
              | nil h => exact h
              | cons h1 h2 _ ih => omega
            cases k with
            | zero => exact .nil (hle h)
            | succ k =>
              cases h with
              | cons q1 q2 q3 => exact .cons q1 q2 (ih _ _ q3)
        exact this ms 0 k ho
      · exact ho
    have := replaced_self str ht h1
    simpa using this

example : subn (fun _ => "-".toList) "axxb".toList 0 [(0, 0), (1, 3), (3, 3), (4, 4)] =
    ("-a--b-".toList, 4) ∧
    subn (fun _ => "-".toList) "axxb".toList 2 [(0, 0), (1, 3), (3, 3), (4, 4)] =
    ("-a-b".toList, 2) := by decide

/-! ### Where it is not Python's -/

/-- The matches of `$` in a string of two characters. -/
def dollar : Rx := fun p => if p = 2 then [2] else []

/-- An empty match that is not where the search began is found twice: `re.sub('$', '!', 'ab')` is
`ab!!`. -/
theorem c94_violation_twice : dollar.Ok 2 ∧ Matches dollar 2 0 false [(2, 2)] ∧
    iter dollar 2 4 0 = some [(2, 2), (2, 2)] ∧
    subn (fun _ => "!".toList) "ab".toList 0 [(2, 2), (2, 2)] = ("ab!!".toList, 2) := by
  refine ⟨?_, ?_, by decide, by decide⟩
  · intro p e h
    simp only [dollar] at h
    split_ifs at h <;> simp at h
    omega
  · refine .next ⟨by simp, by simp, by decide, fun q _ h => ?_⟩ (.stop ?_)
    · have : q ≠ 2 := by simp only at h; omega
      simp [allowed, dollar, this]
    · rintro ⟨s, e⟩ ⟨h1, h2, h3, _⟩
      simp only at h1 h2 h3
      have : s = 2 := by omega
      subst this
      simp [allowed, dollar] at h3

/-- The matches of `|a` in `a`. -/
def orA : Rx := fun p => if p = 0 then [0, 1] else if p = 1 then [1] else []

/-- After an empty match, a longer one at the same place is passed over: `re.findall('|a', 'a')` is
`['', '']` and not `['', 'a', '']`. -/
theorem c94_violation_passed_over : orA.Ok 1 ∧ Matches orA 1 0 false [(0, 0), (0, 1), (1, 1)] ∧
    iter orA 1 3 0 = some [(0, 0), (1, 1)] := by
  refine ⟨?_, ?_, by decide⟩
  · intro p e h
    simp only [orA] at h
    split_ifs at h <;> simp at h <;> omega
  · refine .next ⟨by simp, by simp, by decide, fun q _ h => by simp at h⟩
      (.next ⟨by simp, by simp, by decide, fun q _ h => by simp at h⟩
        (.next ⟨by simp, by simp, by decide, fun q h1 h2 => by simp only at h1 h2; omega⟩ (.stop ?_)))
    rintro ⟨s, e⟩ ⟨h1, h2, h3, _⟩
    simp only at h1 h2 h3
    have : s = 1 := by omega
    subst this
    simp [allowed, orA] at h3

end Codon.Rx
