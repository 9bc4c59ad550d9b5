import Verif.Deque.Lemmas

/-!
# C26: `deque` is a double-ended queue

The specification (`Spec.lean`) is a step function on plain lists.  A program sees a deque through
its operations; `step` below runs the modelled source and reports what the program sees.
-/

namespace Codon.Deque

open Codon Spec

variable {α : Type} [DecidableEq α]

/-- An `IndexError` the program catches: the state is as before the operation. -/
def catching {β : Type} (d : Dq α) (r : Out Err β) (f : β → Obs α × Dq α) :
    Out Err (Obs α × Dq α) :=
  match r with
  | .ub => .ub
  | .exc .index => .ok (.indexError, d)
  | .exc .assertion => .exc .assertion
  | .ok a => .ok (f a)

/-- One operation of the source. -/
def step (d : Dq α) : Op α → Out Err (Obs α × Dq α)
  | .append x => catching d (append d x) fun d' => (.done, d')
  | .appendleft x => catching d (appendleft d x) fun d' => (.done, d')
  | .pop => catching d (pop d) fun r => (.val r.1, r.2)
  | .popleft => catching d (popleft d) fun r => (.val r.1, r.2)
  | .clear => .ok (.done, clear d)
  | .get i => catching d (getitem d i) fun x => (.val x, d)
  | .left => catching d (left d) fun x => (.val x, d)
  | .len => .ok (.num (len d), d)
  | .bool => .ok (.truth (nonEmpty d), d)
  | .iter => catching d (iter d) fun xs => (.items xs, d)
  | .contains x => catching d (contains d x) fun b => (.truth b, d)

/-- A history of operations of the source. -/
def run (d : Dq α) : List (Op α) → Out Err (List (Obs α) × Dq α)
  | [] => .ok ([], d)
  | op :: ops => do
    let r ← step d op
    let s ← run r.2 ops
    pure (r.1 :: s.1, s.2)

theorem within_step {m : Int} {xs : List α} (hw : m < 0 ∨ (xs.length : Int) ≤ m) (op : Op α) :
    m < 0 ∨ (((Spec.step (if m < 0 then none else some m.toNat) xs op).2.length : Nat) : Int)
      ≤ m := by
  by_cases hm : m < 0
  · exact Or.inl hm
  · right
    rcases hw with hw | hw
    · omega
    rw [if_neg hm]
    cases op <;> simp only [Spec.step, keepRight, keepLeft, List.length_drop, List.length_take,
      List.length_append, List.length_cons, List.length_nil, List.length_dropLast,
      List.length_tail]
    case get i => split <;> (try split) <;> simpa using hw
    all_goals omega

/-- One operation on a deque holding `xs` shows what the specification says and leaves the deque
holding what the specification says. -/
theorem c26_step_partial {d : Dq α} {xs : List α} (h : Rel d xs) (hg : GoodMax d.maxlen)
    (hw : Within d xs) (op : Op α) :
    ∃ d', step d op = .ok ((Spec.step (bound d) xs op).1, d') ∧
      Rel d' (Spec.step (bound d) xs op).2 ∧ d'.maxlen = d.maxlen := by
  cases op with
  | append x =>
    obtain ⟨d', e, hm, hr⟩ := append_eq h hg hw x
    exact ⟨d', by simp [step, catching, e, Spec.step], hr, hm⟩
  | appendleft x =>
    obtain ⟨d', e, hm, hr⟩ := appendleft_eq h hg hw x
    exact ⟨d', by simp [step, catching, e, Spec.step], hr, hm⟩
  | pop =>
    rcases List.eq_nil_or_concat xs with rfl | ⟨ys, y, rfl⟩
    · exact ⟨d, by simp [step, catching, pop_nil h, Spec.step, ofOption], h, rfl⟩
    · simp only [List.concat_eq_append] at h ⊢
      obtain ⟨d', e, hr, hm⟩ := pop_append h
      exact ⟨d', by simp [step, catching, e, Spec.step, ofOption], by simpa [Spec.step] using hr, hm⟩
  | popleft =>
    cases xs with
    | nil => exact ⟨d, by simp [step, catching, popleft_nil h, Spec.step, ofOption], h, rfl⟩
    | cons y ys =>
      obtain ⟨d', e, hr, hm⟩ := popleft_cons h
      exact ⟨d', by simp [step, catching, e, Spec.step, ofOption], by simpa [Spec.step] using hr, hm⟩
  | clear => exact ⟨clear d, rfl, clear_eq h, rfl⟩
  | get i =>
    refine ⟨d, ?_, ?_, rfl⟩
    · simp only [step, Spec.step]
      by_cases h0 : 0 ≤ i
      · rw [if_pos h0]
        by_cases hl : i < xs.length
        · have hx : xs[i.toNat]? = some xs[i.toNat] := List.getElem?_eq_getElem (by omega)
          rw [getitem_eq h (k := i.toNat) (Or.inl (by omega)) hx, hx]
          rfl
        · rw [getitem_none h (Or.inl (by omega)), List.getElem?_eq_none (by omega)]
          rfl
      · rw [if_neg h0]
        by_cases hl : -(xs.length : Int) ≤ i
        · have hx : xs[(i + xs.length).toNat]? = some xs[(i + xs.length).toNat] :=
            List.getElem?_eq_getElem (by omega)
          rw [if_pos hl, getitem_eq h (k := (i + xs.length).toNat) (Or.inr (by omega)) hx, hx]
          rfl
        · rw [if_neg hl, getitem_none h (Or.inr (by omega))]
          rfl
    · simp only [Spec.step]
      split
      · exact h
      · split <;> exact h
  | left =>
    refine ⟨d, ?_, h, rfl⟩
    simp only [step, left_eq h, Spec.step]
    cases xs <;> rfl
  | len => exact ⟨d, by simp [step, len_eq h, Spec.step], h, rfl⟩
  | bool => exact ⟨d, by simp [step, nonEmpty_iff h, Spec.step], h, rfl⟩
  | iter => exact ⟨d, by simp [step, catching, iter_eq h, Spec.step], h, rfl⟩
  | contains x =>
    refine ⟨d, ?_, h, rfl⟩
    have : contains d x = .ok (decide (x ∈ xs)) := by
      simp [contains, iter_eq h, List.any_eq]
    simp [step, catching, this, Spec.step]

/-- Every history of operations agrees with the specification, whatever the deque held before:
buffer growth and wrap-around are never seen.  Full claim: for every `maxlen`.  Missing: bounds of
the form `2^k - 1`, for which the claim is false (`c26_violation_maxlen`). -/
theorem c26_history_partial (ops : List (Op α)) : ∀ {d : Dq α} {xs : List α}, Rel d xs →
    GoodMax d.maxlen → Within d xs →
    ∃ d', run d ops = .ok ((Spec.run (bound d) xs ops).1, d') ∧
      Rel d' (Spec.run (bound d) xs ops).2 := by
  induction ops with
  | nil => intro d xs h _ _; exact ⟨d, rfl, h⟩
  | cons op ops ih =>
    intro d xs h hg hw
    obtain ⟨d1, e1, r1, m1⟩ := c26_step_partial h hg hw op
    have hb : bound d1 = bound d := by simp [bound, m1]
    obtain ⟨d2, e2, r2⟩ := ih r1 (by rw [m1]; exact hg)
      (by
        have := within_step (m := d.maxlen) hw op
        unfold Within
        rw [m1]
        exact this)
    rw [hb] at e2 r2
    exact ⟨d2, by simp [run, e1, e2, Spec.run], by simpa [Spec.run] using r2⟩

/-- A deque without `maxlen` shows exactly what a double-ended sequence shows: no restriction on the
history. -/
theorem c26_unbounded (ops : List (Op α)) :
    ∃ d', run (new : Dq α) ops = .ok ((Spec.run none [] ops).1, d') ∧
      iter d' = .ok (Spec.run none [] ops).2 := by
  obtain ⟨d', e, r⟩ := c26_history_partial ops (new_rel (α := α)) (Or.inl (by simp [new]))
    (Or.inl (by simp [new]))
  exact ⟨d', e, iter_eq r⟩

/-- A deque with `maxlen` not of the form `2^k - 1` shows exactly what Python's bounded deque
shows. -/
theorem c26_bounded_partial (m : Nat) (hm : ∀ e : Nat, m + 1 ≠ 2 ^ e) (ops : List (Op α)) :
    ∃ d', run (newMax m : Dq α) ops = .ok ((Spec.run (some m) [] ops).1, d') ∧
      iter d' = .ok (Spec.run (some m) [] ops).2 := by
  obtain ⟨d', e, r⟩ := c26_history_partial ops (newMax_rel (α := α) m)
    (Or.inr (by intro e h; apply hm e; simp only [newMax] at h; exact_mod_cast h))
    (Or.inr (by simp [newMax]))
  have hb : bound (newMax (m : Int) : Dq α) = some m := by
    unfold bound
    rw [if_neg (by simp [newMax])]
    simp [newMax]
  rw [hb] at e r
  exact ⟨d', e, iter_eq r⟩

/-- The specification never holds more than `maxlen` elements, so neither does the deque. -/
theorem c26_maxlen_partial (m : Nat) (hm : ∀ e : Nat, m + 1 ≠ 2 ^ e) (ops : List (Op α)) :
    ∃ d' obs, run (newMax m : Dq α) ops = .ok (obs, d') ∧ len d' ≤ m := by
  obtain ⟨d', e, r⟩ := c26_history_partial ops (newMax_rel (α := α) m)
    (Or.inr (by intro e h; apply hm e; simp only [newMax] at h; exact_mod_cast h))
    (Or.inr (by simp [newMax]))
  refine ⟨d', _, e, ?_⟩
  rw [len_eq r]
  have key : ∀ (ops : List (Op α)) (xs : List α), xs.length ≤ m →
      (Spec.run (some m) xs ops).2.length ≤ m := by
    intro ops
    induction ops with
    | nil => intro xs h; exact h
    | cons op ops ih =>
      intro xs h
      apply ih
      have := within_step (m := (m : Int)) (xs := xs) (Or.inr (by omega)) op
      rw [if_neg (by omega)] at this
      simp only [Int.toNat_natCast] at this
      omega
  have hb : bound (newMax (m : Int) : Dq α) = some m := by
    unfold bound
    rw [if_neg (by simp [newMax])]
    simp [newMax]
  rw [hb]
  have := key ops [] (by simp)
  omega

/-- `deque(it)` holds the elements of the iterable in order. -/
theorem c26_from_iterable (xs : List α) :
    ∃ d, fromList xs = .ok d ∧ iter d = .ok xs ∧ len d = xs.length := by
  have key : ∀ (ys : List α) (d : Dq α) (zs : List α), Rel d zs → d.maxlen < 0 →
      ∃ d', ys.foldlM append d = .ok d' ∧ Rel d' (zs ++ ys) := by
    intro ys
    induction ys with
    | nil => intro d zs h _; exact ⟨d, rfl, by simpa using h⟩
    | cons y ys ih =>
      intro d zs h hm
      obtain ⟨d1, e1, m1, r1⟩ := append_eq h (Or.inl hm) (Or.inl hm) y
      have hb : bound d = none := by simp [bound, hm]
      rw [hb] at r1
      obtain ⟨d2, e2, r2⟩ := ih d1 (zs ++ [y]) r1 (by rw [m1]; exact hm)
      exact ⟨d2, by simp [List.foldlM_cons, e1, e2], by simpa using r2⟩
  obtain ⟨d, e, r⟩ := key xs new [] new_rel (by simp [new])
  exact ⟨d, e, iter_eq r, len_eq r⟩

/-- `maxlen=3`: after four appends the deque holds four elements.  (The masked length of a full ring
is zero, so the bound is not enforced and the ring grows.) -/
theorem c26_violation_maxlen :
    ∃ d', run (newMax 3 : Dq Nat) [.append 1, .append 2, .append 3, .append 4]
      = .ok ([.done, .done, .done, .done], d') ∧ iter d' = .ok [1, 2, 3, 4] ∧ len d' = 4 := by
  exact ⟨⟨[some 1, some 2, some 3, some 4, none, none, none, none], 0, 4, 3⟩, by decide⟩

/-- `maxlen=0`: an appended element is kept. -/
theorem c26_violation_maxlen_zero :
    ∃ d', run (newMax 0 : Dq Nat) [.append 1] = .ok ([.done], d') ∧ iter d' = .ok [1] :=
  ⟨⟨[some 1, none], 0, 1, 0⟩, by decide⟩

/-- A deep copy loses the bound: Python's `copy.deepcopy` keeps `maxlen`. -/
theorem c26_violation_deepcopy :
    ∃ d d' : Dq Nat, run (newMax 2) [.append 1, .append 2] = .ok ([.done, .done], d) ∧
      deepcopy d = .ok d' ∧ d.maxlen = 2 ∧ d'.maxlen = -1 :=
  ⟨⟨[some 1, some 2, none, none], 0, 2, 2⟩,
    ⟨some 1 :: some 2 :: List.replicate 14 none, 0, 2, -1⟩, by decide⟩

/-! Non-vacuity: the hypotheses are met by `maxlen = 2` (not of the form `2^k - 1`), and the history
below wraps around, drops elements at both ends and raises. -/

example : ∀ e : Nat, 2 + 1 ≠ 2 ^ e := by
  intro e h
  match e with
  | 0 => simp at h
  | 1 => simp at h
  | e + 2 =>
    have : 2 ^ (e + 2) = 4 * 2 ^ e := by rw [Nat.pow_add]; omega
    omega

example : ∃ d', run (newMax 2 : Dq Nat) [.append 1, .append 2, .append 3, .appendleft 0, .get (-1),
    .pop, .pop, .pop] =
    .ok ([.done, .done, .done, .done, .val 2, .val 2, .val 0, .indexError], d') :=
  ⟨⟨[some 0, some 2, some 3, none], 0, 0, 2⟩, by decide⟩

end Codon.Deque
