import Verif.CallArgs.Props
/-!
# C13: calls of partially applied functions

`known` marks the parameters that the partial function already has (`f(1, ...)`, `g = f(b=2, ...)`).
-/
namespace Codon.CallArgs

/-! ## Specification -/

/-- The arguments are handed out, in order, to the parameters that are not known yet. -/
def fill : List Bool → List Nat → List (List Nat)
  | [], _ => []
  | true :: k, as => [] :: fill k as
  | false :: k, [] => [] :: fill k []
  | false :: k, a :: as => [a] :: fill k as

/-! ## Lemmas -/

theorem fill_nil (k : List Bool) : fill k [] = List.replicate k.length [] := by
  induction k with
  | nil => rfl
  | cons b k ih => cases b <;> simp [fill, ih, List.replicate_succ]

theorem fill_length (k : List Bool) (as : List Nat) : (fill k as).length = k.length := by
  induction k generalizing as with
  | nil => rfl
  | cons b k ih => cases b <;> cases as <;> simp [fill, ih]

theorem fill_trues (c : Nat) (k : List Bool) (as : List Nat) :
    fill (List.replicate c true ++ k) as = List.replicate c [] ++ fill k as := by
  induction c with
  | zero => rfl
  | succ c ih => simp [List.replicate_succ, fill, ih]

theorem skipKnown_spec (k0 : List Bool) (c : Nat) (k : List Bool) (hk : k.head? ≠ some true) (n fuel : Nat)
    (hn : n = k0.length + c + k.length) (hf : c ≤ fuel) :
    skipKnown (k0 ++ (List.replicate c true ++ k)) n fuel k0.length = k0.length + c := by
  induction c generalizing k0 fuel with
  | zero =>
    cases fuel with
    | zero => rfl
    | succ f =>
      rw [skipKnown, if_neg]
      · rfl
      · rintro ⟨_, h⟩
        rw [List.getElem?_append_right (Nat.le_refl _)] at h
        simp at h
        rw [← List.head?_eq_getElem?] at h
        exact hk h
  | succ c ih =>
    cases fuel with
    | zero => omega
    | succ f =>
      rw [skipKnown, if_pos]
      · have := ih (k0 ++ [true]) f (by simp; omega) (by omega)
        simp only [List.length_append, List.length_singleton, List.append_assoc, List.singleton_append] at this
        rw [List.replicate_succ, List.cons_append, this]
        omega
      · refine ⟨by omega, ?_⟩
        rw [List.getElem?_append_right (Nat.le_refl _)]
        simp [List.replicate_succ]

/-- Split a mask at its first unknown parameter. -/
theorem mask_split (k : List Bool) : ∃ c k', k = List.replicate c true ++ k' ∧ k'.head? ≠ some true := by
  induction k with
  | nil => exact ⟨0, [], rfl, by simp⟩
  | cons b k ih =>
    cases b with
    | false => exact ⟨0, false :: k, rfl, by simp⟩
    | true =>
      obtain ⟨c, k', h1, h2⟩ := ih
      exact ⟨c + 1, k', by simp [h1, List.replicate_succ], h2⟩

theorem assignLoop_known (m : Nat) : ∀ (k0 k : List Bool) (s0 : List (List Nat)) (a : Nat),
    s0.length = k0.length →
    ∃ si, assignLoop (k0 ++ k) none ⟨k0.length, s0 ++ List.replicate k.length [], [], []⟩ a (List.replicate m none) =
      ⟨si, s0 ++ fill k (List.range' a (min m (k.count false))), List.range' (a + k.count false) (m - k.count false), []⟩ := by
  induction m with
  | zero =>
    intro k0 k s0 a h
    exact ⟨k0.length, by simp [assignLoop, fill_nil]⟩
  | succ m ih =>
    intro k0 k s0 a h
    obtain ⟨c, k', rfl, hk⟩ := mask_split k
    rw [List.replicate_succ, assignLoop]
    have hskip := skipKnown_spec k0 c k' hk
      (s0 ++ List.replicate (List.replicate c true ++ k').length ([] : List Nat)).length
      (s0 ++ List.replicate (List.replicate c true ++ k').length ([] : List Nat)).length (by simp; omega) (by simp; omega)
    have hcount : (List.replicate c true ++ k').count false = k'.count false := by
      rw [List.count_append, List.count_replicate]; simp
    cases k' with
    | nil =>
      -- all known: the argument is surplus, and so are the ones after it
      have hs : assign1 (k0 ++ (List.replicate c true ++ [])) none
          ⟨k0.length, s0 ++ List.replicate (List.replicate c true ++ []).length [], [], []⟩ a none =
          ⟨k0.length + c, s0 ++ List.replicate (List.replicate c true ++ []).length [], [a], []⟩ := by
        unfold assign1
        simp only [hskip]
        rw [if_neg (by simp [h])]
        rfl
      rw [hs]
      have hsur : ∀ (m a : Nat) (ex : List Nat), assignLoop (k0 ++ (List.replicate c true ++ [])) none
          ⟨k0.length + c, s0 ++ List.replicate (List.replicate c true ++ []).length [], ex, []⟩ a
          (List.replicate m none) =
          ⟨k0.length + c, s0 ++ List.replicate (List.replicate c true ++ []).length [], ex ++ List.range' a m, []⟩ := by
        intro m
        induction m with
        | zero => intro a ex; simp [assignLoop]
        | succ m ih2 =>
          intro a ex
          rw [List.replicate_succ, assignLoop]
          have hsk : skipKnown (k0 ++ (List.replicate c true ++ []))
              (s0 ++ List.replicate (List.replicate c true ++ []).length ([] : List Nat)).length
              (s0 ++ List.replicate (List.replicate c true ++ []).length ([] : List Nat)).length (k0.length + c) =
              k0.length + c := by
            generalize hq : (s0 ++ List.replicate (List.replicate c true ++ []).length ([] : List Nat)).length = q
            have : q = k0.length + c := by rw [← hq]; simp [h]
            cases q with
            | zero => rfl
            | succ q => rw [skipKnown, if_neg (by omega)]
          have : assign1 (k0 ++ (List.replicate c true ++ [])) none
              ⟨k0.length + c, s0 ++ List.replicate (List.replicate c true ++ []).length [], ex, []⟩ a none =
              ⟨k0.length + c, s0 ++ List.replicate (List.replicate c true ++ []).length [], ex ++ [a], []⟩ := by
            unfold assign1
            simp only [hsk]
            rw [if_neg (by simp [h])]
          rw [this, ih2]
          simp [List.range'_succ]
      refine ⟨k0.length + c, ?_⟩
      rw [hsur, hcount]
      have : fill (List.replicate c true ++ []) [] = List.replicate (List.replicate c true ++ []).length [] := fill_nil _
      simp only [List.count_nil, Nat.min_zero, Nat.sub_zero, Nat.add_zero, List.range'_zero, this]
      simp [List.range'_succ]
    | cons b k'' =>
      cases b with
      | true => simp at hk
      | false =>
        have hs : assign1 (k0 ++ (List.replicate c true ++ false :: k'')) none
            ⟨k0.length, s0 ++ List.replicate (List.replicate c true ++ false :: k'').length [], [], []⟩ a none =
            ⟨(k0 ++ (List.replicate c true ++ [false])).length,
              (s0 ++ (List.replicate c [] ++ [[a]])) ++ List.replicate k''.length [], [], []⟩ := by
          unfold assign1
          simp only [hskip]
          rw [if_pos (by simp [h, beforeStar])]
          have e : s0 ++ List.replicate (List.replicate c true ++ false :: k'').length ([] : List Nat) =
              (s0 ++ List.replicate c []) ++ ([] :: List.replicate k''.length []) := by
            rw [List.append_assoc, ← List.replicate_succ, ← List.replicate_add]
            simp
          rw [e, ← h]
          have hl : s0.length + c = (s0 ++ List.replicate c ([] : List Nat)).length := by simp
          rw [hl, List.set_append_right _ _ (Nat.le_refl _)]
          simp [h, Nat.add_assoc]
        rw [hs]
        obtain ⟨si, hsi⟩ := ih (k0 ++ (List.replicate c true ++ [false])) k''
          (s0 ++ (List.replicate c [] ++ [[a]])) (a + 1) (by simp [h])
        refine ⟨si, ?_⟩
        have e : k0 ++ (List.replicate c true ++ false :: k'') = k0 ++ (List.replicate c true ++ [false]) ++ k'' := by
          simp
        rw [e, hsi, hcount, fill_trues]
        have e2 : List.count false (false :: k'') = List.count false k'' + 1 := by simp
        rw [e2, Nat.succ_min_succ, List.range'_succ, fill]
        simp [Nat.add_assoc, Nat.add_comm 1, List.append_assoc]

theorem starIndex_none_of {k : Nat} {ps : List Param} (h : ∀ p ∈ ps, p.stars ≠ k) : starIndex k ps = none := by
  cases hs : starIndex k ps with
  | none => rfl
  | some i =>
    obtain ⟨p, hp, hk⟩ := starIndex_some hs
    exact absurd hk (h p (List.mem_of_getElem? hp))

theorem missing_iff (known : List Bool) (isPartial : Bool) (slots : List (List Nat)) (ps : List Param) (i : Nat) :
    missingLoop known none none isPartial slots i ps = true ↔
      isPartial = false ∧ ∃ (j : Nat) (p : Param), ps[j]? = some p ∧ slots[i + j]? = some [] ∧ p.isValue = true ∧ p.hasDefault = false ∧
        p.captured = false ∧ known[i + j]? ≠ some true := by
  induction ps generalizing i with
  | nil => simp [missingLoop]
  | cons p ps ih =>
    have hrec := ih (i + 1)
    have hshift : (∃ j q, (p :: ps)[j]? = some q ∧ slots[i + j]? = some [] ∧ q.isValue = true ∧ q.hasDefault = false ∧
          q.captured = false ∧ known[i + j]? ≠ some true) ↔
        (slots[i]? = some [] ∧ p.isValue = true ∧ p.hasDefault = false ∧ p.captured = false ∧ known[i]? ≠ some true) ∨
        (∃ j q, ps[j]? = some q ∧ slots[i + 1 + j]? = some [] ∧ q.isValue = true ∧ q.hasDefault = false ∧
          q.captured = false ∧ known[i + 1 + j]? ≠ some true) := by
      constructor
      · rintro ⟨j, q, h1, h2⟩
        cases j with
        | zero => simp at h1; subst h1; exact .inl h2
        | succ j =>
          right
          refine ⟨j, q, by simpa using h1, ?_⟩
          rw [show i + 1 + j = i + (j + 1) by omega]; exact h2
      · rintro (h | ⟨j, q, h1, h2⟩)
        · exact ⟨0, p, by simp, h⟩
        · refine ⟨j + 1, q, by simpa using h1, ?_⟩
          rw [show i + (j + 1) = i + 1 + j by omega]; exact h2
    rw [hshift, missingLoop]
    by_cases h1 : slots[i]? = some []
    · rw [if_pos ⟨h1, by simp, by simp⟩]
      by_cases h2 : ((p.isValue && (p.hasDefault || known[i]? = some true)) || p.captured) = true
      · rw [if_pos h2, hrec]
        constructor
        · rintro ⟨a, b⟩; exact ⟨a, .inr b⟩
        · rintro ⟨a, b⟩
          refine ⟨a, b.resolve_left ?_⟩
          rintro ⟨_, b1, b2, b3, b4⟩
          simp [b1, b2, b3, b4] at h2
      · rw [if_neg h2]
        by_cases h3 : (!isPartial && p.isValue) = true
        · rw [if_pos h3]
          simp only [Bool.and_eq_true, Bool.not_eq_true'] at h3
          simp only [h3.2, Bool.true_and, Bool.or_eq_true, decide_eq_true_eq, not_or, Bool.not_eq_true] at h2
          simp [h3, h1, h2]
        · rw [if_neg h3, hrec]
          constructor
          · rintro ⟨a, b⟩; exact ⟨a, .inr b⟩
          · rintro ⟨a, b⟩
            refine ⟨a, b.resolve_left ?_⟩
            rintro ⟨_, b1, _⟩
            simp [a, b1] at h3
    · rw [if_neg (by simp [h1]), hrec]
      simp [h1]

/-! ## The property -/

/-- A call with `m` positional arguments of a function of which some parameters are known already (no starred
parameters): too many arguments are rejected; otherwise the arguments go, in order, to the parameters not known
yet, known parameters get none, and a call that is not partial again is rejected exactly when a parameter that
is neither known nor has a default gets no argument. -/
theorem c13_partial_call (known : List Bool) (isPartial : Bool) (ps : List Param) (m : Nat)
    (hl : known.length = ps.length) (hs : ∀ p ∈ ps, p.stars = 0) :
    (known.count false < m → reorderNamedArgs known isPartial ps (List.replicate m none) = .error .tooMany) ∧
    (m ≤ known.count false →
      ((isPartial = false ∧ ∃ (j : Nat) (p : Param), ps[j]? = some p ∧ (fill known (List.range m))[j]? = some [] ∧ p.isValue = true ∧
          p.hasDefault = false ∧ p.captured = false ∧ known[j]? = some false) →
        reorderNamedArgs known isPartial ps (List.replicate m none) = .error .missing) ∧
      (¬ (isPartial = false ∧ ∃ (j : Nat) (p : Param), ps[j]? = some p ∧ (fill known (List.range m))[j]? = some [] ∧ p.isValue = true ∧
          p.hasDefault = false ∧ p.captured = false ∧ known[j]? = some false) →
        reorderNamedArgs known isPartial ps (List.replicate m none) = .ok (fill known (List.range m)))) := by
  have s1 : starIndex 1 ps = none := starIndex_none_of fun p hp => by rw [hs p hp]; decide
  have s2 : starIndex 2 ps = none := starIndex_none_of fun p hp => by rw [hs p hp]; decide
  obtain ⟨si, h⟩ := assignLoop_known m [] known [] 0 rfl
  rw [List.nil_append, hl] at h
  simp only [List.length_nil, List.nil_append, Nat.zero_add] at h
  have hk : ∀ j, j < ps.length → (known[j]? = some false ↔ known[j]? ≠ some true) := by
    intro j hj
    rw [List.getElem?_eq_getElem (by omega)]
    cases known[j] <;> simp
  have hmiss := missing_iff known isPartial (fill known (List.range' 0 (min m (known.count false)))) ps 0
  unfold reorderNamedArgs
  simp only [s1, s2, h, clearBoth, clearSlot, namedLoop, setStar, setKwstar]
  constructor
  · intro hm
    rw [if_pos]
    refine ⟨?_, trivial⟩
    intro hc
    have := congrArg List.length hc
    simp at this
    omega
  · intro hm
    rw [Nat.min_eq_left hm] at hmiss ⊢
    rw [if_neg (by simp; omega), if_neg (by simp)]
    have hiff : missingLoop known none none isPartial (fill known (List.range' 0 m)) 0 ps = true ↔
        (isPartial = false ∧ ∃ (j : Nat) (p : Param), ps[j]? = some p ∧ (fill known (List.range m))[j]? = some [] ∧ p.isValue = true ∧
          p.hasDefault = false ∧ p.captured = false ∧ known[j]? = some false) := by
      rw [hmiss, List.range_eq_range']
      refine and_congr_right fun _ => exists_congr fun j => exists_congr fun p => ?_
      rw [Nat.zero_add]
      constructor
      · rintro ⟨a, b, c, d, e, f⟩
        exact ⟨a, b, c, d, e, (hk j (List.getElem?_eq_some_iff.1 a).1).2 f⟩
      · rintro ⟨a, b, c, d, e, f⟩
        exact ⟨a, b, c, d, e, (hk j (List.getElem?_eq_some_iff.1 a).1).1 f⟩
    constructor
    · intro hx
      rw [if_pos (hiff.2 hx)]
    · intro hx
      rw [if_neg (fun hc => hx (hiff.1 hc)), List.range_eq_range']

/-- `def f(a, b, c=1, d)` with `b` known, called with two arguments. -/
example : reorderNamedArgs [false, true, false, false] true
    [⟨"a", 0, true, false⟩, ⟨"b", 0, true, false⟩, ⟨"c", 0, true, true⟩, ⟨"d", 0, true, false⟩] [none, none] =
    .ok [[0], [], [1], []] := by decide +kernel

example : reorderNamedArgs [false, true, false, false] false
    [⟨"a", 0, true, false⟩, ⟨"b", 0, true, false⟩, ⟨"c", 0, true, true⟩, ⟨"d", 0, true, false⟩] [none, none] =
    .error .missing := by decide +kernel

end Codon.CallArgs
