import Verif.Bltin.Lemmas

/-!
# C86: the built-in functions that consume iterators
-/

namespace Codon.Bltin
open Spec

variable {α β κ : Type}

/-- A generator that yields the items of a list. -/
def ofList (l : List α) : Gen α := ⟨fun i => l[i]?, 0, .live⟩

/-- The first generators yield the items of the lists. -/
def worldOf (ls : List (List α)) : World α := fun g => ofList (ls.getD g [])

/-! ## `zip` -/

/-- Taking any number of items from `zip(it₁, …, itₙ)` gives the items that Python gives; as long as there are items the
iterators stand where Python's stand; other generators are untouched; no finished generator is resumed.  Missing: the
iterators must be different from one another (`c86_violation_zip_twice`); at the end iterators after the shortest one
have lost an item and all of them are freed (`c86_violation_zip_end`). -/
theorem c86_zip_partial (ids : List Nat) (h0 : ids ≠ []) (hn : ids.Nodup) (src : Nat → Nat → Option α) (w : World α)
    (pos : Nat → Nat) (hw : ∀ g, (w g).src = src g ∧ (w g).pos = pos g ∧ (g ∈ ids → (w g).st = .live)) (n : Nat) :
    ∃ w', takeM (zipStep ids) n w = some ((takeN (pyZip src ids) n pos).1, w') ∧ (∀ g, g ∉ ids → w' g = w g) ∧
      ((takeN (pyZip src ids) n pos).1.length = n → ∀ g, (w' g).src = src g ∧ (w' g).pos = (takeN (pyZip src ids) n pos).2 g ∧
        (g ∈ ids → (w' g).st = .live)) :=
  zip_take h0 hn n hw

/-- `zip()` has no items. -/
theorem c86_zip_empty (w : World α) : zipStep [] w = some (none, w) := rfl

example : (takeM (zipStep [0, 1]) 5 (worldOf [[1, 2, 3], [10, 20]])).map Prod.fst = some [[1, 10], [2, 20]] := rfl

/-- Violation: with the same generator twice (the usual way to take items in pairs) `zip` yields every second item
twice, and with an odd number of items it resumes a finished generator; with an even number it destroys one twice. -/
theorem c86_violation_zip_twice :
    (takeM (zipStep [0, 0]) 2 (worldOf [[1, 2, 3, 4]])).map Prod.fst = some [[2, 2], [4, 4]] ∧
    (takeN (pyZip (fun g i => ([[1, 2, 3, 4]].getD g [])[i]?) [0, 0]) 2 (fun _ => 0)).1 = [[1, 2], [3, 4]] ∧
    (takeM (zipStep [0, 0]) 3 (worldOf [[1, 2, 3, 4]])).isNone ∧ (takeM (zipStep [0, 0]) 3 (worldOf [[1, 2, 3, 4, 5]])).isNone :=
  ⟨rfl, rfl, rfl, rfl⟩

/-- Violation: when the first iterator of `zip` ends, Python leaves the second one alone, the next item can still be taken
from it; here it has been advanced and freed. -/
theorem c86_violation_zip_end :
    (takeN (pyZip (fun g i => ([[1], [10, 20, 30]].getD g [])[i]?) [0, 1]) 2 (fun _ => 0)).2 1 = 1 ∧
    (takeM (zipStep [0, 1]) 2 (worldOf [[1], [10, 20, 30]])).map (fun r => ((r.2 1).pos, (r.2 1).st)) = some (2, .dead) ∧
    ((takeM (zipStep [0, 1]) 2 (worldOf [[1], [10, 20, 30]])).bind fun r => next none 1 r.2).isNone := ⟨rfl, rfl, rfl⟩

/-! ## `map`, `filter`, `enumerate` -/

/-- One item of `map(f, g)`: the next item of `g` with `f` applied, and `g` advanced by one; at the end of `g` the end. -/
theorem c86_map (f : α → β) (g : Nat) (w : World α) (h : (w g).st = .live) :
    ∃ w', mapStep f g w = some (((w g).src (w g).pos).map f, w') ∧ (∀ h, h ≠ g → w' h = w h) ∧
      (w' g).src = (w g).src ∧ (w' g).pos = (pyNext (w g).src (w g).pos).2 ∧
      ((w' g).st = .live ↔ ((w g).src (w g).pos).isSome) := by
  unfold mapStep pyNext
  rw [resume_live h]
  simp only [Option.bind_eq_bind, Option.bind_some, set_same]
  cases e : (w g).src (w g).pos with
  | none =>
    rw [if_pos ((adv_fin h).mpr e), adv_none e]
    refine ⟨w.set g { w g with st := .dead }, by simp [destroy, set_same, set_set], fun k hk => set_other _ _ hk, ?_⟩
    simp [set_same]
  | some a =>
    rw [if_neg (by rw [adv_fin h, e]; simp), value_adv h e (set_same ..), adv_some e]
    refine ⟨w.set g { w g with pos := (w g).pos + 1 }, rfl, fun k hk => set_other _ _ hk, ?_⟩
    simp [set_same, h]

/-- One item of `enumerate(g)` whose counter is `i`. -/
theorem c86_enumerate (i : Int) (g : Nat) (w : World α) (h : (w g).st = .live) :
    ∃ w', enumStep g i w = some (((w g).src (w g).pos).map fun a => (i, a), w') ∧ (∀ h, h ≠ g → w' h = w h) ∧
      (w' g).src = (w g).src ∧ (w' g).pos = (pyNext (w g).src (w g).pos).2 ∧
      ((w' g).st = .live ↔ ((w g).src (w g).pos).isSome) :=
  c86_map (fun a => (i, a)) g w h

/-- One item of `filter(p, g)`: the first item of `g` from where it stands that satisfies `p`, with `g` advanced just past
it; if `g` ends before, the end. -/
theorem c86_filter (p : α → Bool) (g : Nat) (w : World α) (h : (w g).st = .live) (q : Nat)
    (hq : First (w g).src p (w g).pos q) (f : Nat) (hf : q - (w g).pos < f) :
    ∃ w', filterStep p g f w = some ((w g).src q, w') ∧ (∀ h, h ≠ g → w' h = w h) ∧ (w' g).src = (w g).src ∧
      (w' g).pos = (pyNext (w g).src q).2 ∧ ((w' g).st = .live ↔ ((w g).src q).isSome) := by
  rw [filter_first _ h hq rfl hf]
  unfold pyNext
  cases e : (w g).src q with
  | none => exact ⟨_, rfl, fun k hk => set_other _ _ hk, by rw [set_same], by rw [set_same], by rw [set_same]; simp⟩
  | some a => exact ⟨_, rfl, fun k hk => set_other _ _ hk, by rw [set_same], by rw [set_same], by rw [set_same]; simp [h]⟩

example : First (fun i => [1, 3, 4, 5][i]?) (fun x => x % 2 == 0) 0 2 ∧
    (takeM (filterStep (fun x => x % 2 == 0) 0 9) 9 (worldOf [[1, 3, 4, 5, 6]])).map Prod.fst = some [4, 6] := by
  refine ⟨⟨by decide, ?_, ?_⟩, rfl⟩
  · intro i _ hi
    match i, hi with
    | 0, _ => exact ⟨1, rfl, rfl⟩
    | 1, _ => exact ⟨3, rfl, rfl⟩
  · intro a ha
    cases ha
    rfl

/-! ## `any`, `all`, `next` -/

/-- `any(g)` stops at the first true item: it is true iff there is one, and exactly the items up to it are consumed. -/
theorem c86_any (t : α → Bool) (g : Nat) (w : World α) (h : (w g).st = .live) (q : Nat)
    (hq : First (w g).src t (w g).pos q) (f : Nat) (hf : q - (w g).pos < f) :
    ∃ w', any t f g w = some (((w g).src q).isSome, w') ∧ (∀ h, h ≠ g → w' h = w h) ∧ (w' g).src = (w g).src ∧
      (w' g).pos = (pyNext (w g).src q).2 ∧ ((w' g).st = .live ↔ ((w g).src q).isSome) := by
  unfold any
  rw [forGen_first _ h hq rfl hf]
  unfold pyNext
  cases e : (w g).src q with
  | none => exact ⟨_, rfl, fun k hk => set_other _ _ hk, by rw [set_same], by rw [set_same], by rw [set_same]; simp⟩
  | some a => exact ⟨_, rfl, fun k hk => set_other _ _ hk, by rw [set_same], by rw [set_same], by rw [set_same]; simp [h]⟩

/-- `all(g)` stops at the first false item. -/
theorem c86_all (t : α → Bool) (g : Nat) (w : World α) (h : (w g).st = .live) (q : Nat)
    (hq : First (w g).src (fun a => !t a) (w g).pos q) (f : Nat) (hf : q - (w g).pos < f) :
    ∃ w', all t f g w = some (((w g).src q).isNone, w') ∧ (∀ h, h ≠ g → w' h = w h) ∧ (w' g).src = (w g).src ∧
      (w' g).pos = (pyNext (w g).src q).2 ∧ ((w' g).st = .live ↔ ((w g).src q).isSome) := by
  unfold all
  rw [forGen_first (t := fun a => !t a) _ h hq rfl hf]
  unfold pyNext
  cases e : (w g).src q with
  | none => exact ⟨_, rfl, fun k hk => set_other _ _ hk, by rw [set_same], by rw [set_same], by rw [set_same]; simp⟩
  | some a => exact ⟨_, rfl, fun k hk => set_other _ _ hk, by rw [set_same], by rw [set_same], by rw [set_same]; simp [h]⟩

/-- If no item is true and the generator never ends, `any` does not end. -/
theorem c86_any_forever (t : α → Bool) (g : Nat) (w : World α) (h : (w g).st = .live)
    (hi : ∀ i, (w g).pos ≤ i → ∃ a, (w g).src i = some a ∧ t a = false) (f : Nat) : (any t f g w).isNone := by
  unfold any
  rw [forGen_forever f h hi]
  rfl

example : (any (fun x => x == 2) 9 0 (worldOf [[1, 2, 3]])).map (fun r => (r.1, (r.2 0).pos)) = some (true, 2) ∧
    (all (fun x => x == 2) 9 0 (worldOf [[2, 2]])).map (fun r => (r.1, (r.2 0).pos)) = some (true, 2) := ⟨rfl, rfl⟩

/-- `next(g, default)`: the next item, or the default (or a `StopIteration`) at the end.  Missing: a generator that was found
at its end before (`c86_violation_next_twice`). -/
theorem c86_next_partial (d : Option α) (g : Nat) (w : World α) (h : (w g).st = .live) :
    ∃ w', next d g w = some (((w g).src (w g).pos).or d, w') ∧ (∀ h, h ≠ g → w' h = w h) ∧ (w' g).src = (w g).src ∧
      (w' g).pos = (pyNext (w g).src (w g).pos).2 ∧ ((w' g).st = .live ↔ ((w g).src (w g).pos).isSome) := by
  unfold next pyNext
  rw [done_live h]
  cases e : (w g).src (w g).pos with
  | none =>
    rw [adv_none e]
    refine ⟨w.set g { w g with st := .fin }, ?_, fun k hk => set_other _ _ hk, by simp [set_same]⟩
    cases d <;> rfl
  | some a =>
    refine ⟨w.set g (adv (w g)), ?_, fun k hk => set_other _ _ hk, by simp [set_same, adv_some e, h]⟩
    simp only [Option.isNone_some, Option.bind_eq_bind, Option.bind_some, Bool.false_eq_true, if_false]
    rw [value_adv h e (set_same ..)]
    rfl

example : (next none 0 (worldOf [[7]])).map Prod.fst = some (some 7) ∧
    (next (some 3) 0 (worldOf [[]])).map Prod.fst = some (some 3) := ⟨rfl, rfl⟩

/-- Violation: asking a generator that is at its end again, which in Python gives the default (or `StopIteration`) again,
resumes a finished coroutine. -/
theorem c86_violation_next_twice : ((next (some 0) 0 (worldOf [[]])).bind fun r => next (some 0) 0 r.2).isNone := rfl

/-- Violation: a second loop over a generator that was used up, which in Python has no rounds, resumes a coroutine that the
first loop destroyed; the same for `any` and `min`. -/
theorem c86_violation_loop_twice :
    ((any (fun _ => false) 9 0 (worldOf [[1, 2]])).bind fun r => any (fun _ => false) 9 0 r.2).isNone ∧
    ((best1 (fun i s : Int => i < s) (some 0) 9 0 (worldOf [[1, 2]])).bind fun r => best1 (fun i s : Int => i < s) (some 0) 9 0 r.2).isNone :=
  ⟨rfl, rfl⟩

/-! ## `min` and `max` -/

/-- The operators of a type of keys: `<` is a weak order and the others agree with it. -/
structure Ops.Good (o : Ops κ) : Prop where
  weak : Weak fun a b => o.lt a b = true
  le : ∀ a b, o.le a b = !o.lt b a
  gt : ∀ a b, o.gt a b = o.lt b a
  ge : ∀ a b, o.ge a b = !o.lt a b

/-- `min(g, key=k)` is the first item with a least key, `max(g, key=k)` the first with a greatest one; the generator is used
up. -/
theorem c86_min_max (o : Ops κ) (ho : o.Good) (key : α → κ) (d : Option α) (g : Nat) (w : World α) (h : (w g).st = .live)
    (m : α) (l : List α) (hr : Rest (w g).src (w g).pos (m :: l)) (f : Nat) (hf : l.length < f) :
    (∃ x w', min1 o key d f g w = some (some x, w') ∧ IsFirstLeast (fun a b => o.lt (key a) (key b) = true) (m :: l) x ∧
      ∀ h, h ≠ g → w' h = w h) ∧
    ∃ x w', max1 o key d f g w = some (some x, w') ∧ IsFirstLeast (fun a b => o.lt (key b) (key a) = true) (m :: l) x ∧
      ∀ h, h ≠ g → w' h = w h := by
  have w1 : Weak fun a b : α => o.lt (key a) (key b) = true :=
    ⟨fun a b => ho.weak.asymm _ _, fun a b c => ho.weak.trans _ _ _⟩
  have w2 : Weak fun a b : α => o.gt (key a) (key b) = true :=
    ⟨fun a b => by rw [ho.gt, ho.gt]; exact ho.weak.asymm _ _,
      fun a b c => by rw [ho.gt, ho.gt, ho.gt]; exact fun h1 h2 => ho.weak.trans _ _ _ h2 h1⟩
  refine ⟨⟨_, _, best1_eq _ m l h hr hf, bestN_spec w1 l m, fun k hk => set_other _ _ hk⟩,
    ⟨_, _, best1_eq _ m l h hr hf, ?_, fun k hk => set_other _ _ hk⟩⟩
  have := bestN_spec w2 l m
  simp only [ho.gt] at this ⊢
  exact this

/-- `min(g, default=d)` of an empty generator is the default, without one a `ValueError`; `max` likewise. -/
theorem c86_min_max_empty (o : Ops κ) (key : α → κ) (d : Option α) (g : Nat) (w : World α) (h : (w g).st = .live)
    (hr : (w g).src (w g).pos = none) (f : Nat) :
    (min1 o key d f g w).map Prod.fst = some d ∧ (max1 o key d f g w).map Prod.fst = some d := by
  have : ∀ below, (best1 below d f g w).map Prod.fst = some d := by
    intro below
    unfold best1
    rw [done_live h, hr, adv_none hr]
    simp only [Option.isNone_none, Option.bind_eq_bind, Option.bind_some, Bool.not_true, Bool.false_eq_true, if_false, destroy,
      set_same]
    cases d <;> rfl
  exact ⟨this _, this _⟩

/-- `min(a, b, …)` and `max(a, b, …)` with a key or without.  Missing: keys with NaN, see below. -/
theorem c86_min_max_args_partial (o : Ops κ) (ho : o.Good) (key : α → κ) (a b : α) (l : List α) :
    IsFirstLeast (fun x y => o.lt (key x) (key y) = true) (a :: b :: l) (minArgs o key a b l) ∧
    IsFirstLeast (fun x y => o.lt (key y) (key x) = true) (a :: b :: l) (maxArgs o key a b l) := by
  have w1 : Weak fun a b : α => o.lt (key a) (key b) = true :=
    ⟨fun a b => ho.weak.asymm _ _, fun a b c => ho.weak.trans _ _ _⟩
  have w2 : Weak fun a b : α => o.lt (key b) (key a) = true :=
    ⟨fun a b => ho.weak.asymm _ _, fun a b c h1 h2 => ho.weak.trans _ _ _ h2 h1⟩
  have e1 : minArgs o key a b l = bestN (fun i m => o.lt (key i) (key m)) a (b :: l) := by
    cases l with
    | nil =>
      simp only [minArgs, bestN, ho.le]
      by_cases h : o.lt (key b) (key a) = true <;> simp [h]
    | cons c l => rfl
  have e2 : maxArgs o key a b l = bestN (fun i m => o.lt (key m) (key i)) a (b :: l) := by
    cases l with
    | nil =>
      simp only [maxArgs, bestN, ho.ge]
      by_cases h : o.lt (key a) (key b) = true <;> simp [h]
    | cons c l => simp only [maxArgs, ho.gt]
  rw [e1, e2]
  exact ⟨bestN_spec w1 (b :: l) a, bestN_spec w2 (b :: l) a⟩

/-- There is one such item: the specification leaves no choice of position, so ties go to the first. -/
theorem isFirstLeast_unique {below : α → α → Prop} {l : List α} {pre post pre' post' : List α} {x y : α}
    (h1 : l = pre ++ x :: post) (h2 : ∀ z ∈ pre, below x z) (h3 : ∀ z ∈ post, ¬ below z x) (k1 : l = pre' ++ y :: post')
    (k2 : ∀ z ∈ pre', below y z) (k3 : ∀ z ∈ post', ¬ below z y) : pre = pre' ∧ x = y := by
  have key : ∀ {pre post pre' post' : List α} {x y : α}, pre ++ x :: post = pre' ++ y :: post' → (∀ z ∈ post, ¬ below z x) →
      (∀ z ∈ pre', below y z) → pre'.length ≤ pre.length := by
    intro pre post pre' post' x y e h3 k2
    by_contra hc
    have hlt : pre.length < pre'.length := by omega
    have ex : pre'[pre.length]? = some x := by
      have := congrArg (fun l => l[pre.length]?) e
      simp only [List.getElem?_append_right (Nat.le_refl _), Nat.sub_self, List.getElem?_cons_zero,
        List.getElem?_append_left hlt] at this
      exact this.symm
    have hx : x ∈ pre' := List.mem_of_getElem? ex
    have hy : y ∈ post := by
      have := congrArg (fun l => l[pre'.length]?) e
      simp only [List.getElem?_append_right (Nat.le_refl _), Nat.sub_self, List.getElem?_cons_zero] at this
      rw [List.getElem?_append_right (by omega), List.getElem?_cons] at this
      rw [if_neg (by omega)] at this
      exact List.mem_of_getElem? this
    exact h3 y hy (k2 x hx)
  have e : pre ++ x :: post = pre' ++ y :: post' := h1 ▸ k1
  have l1 := key e h3 k2
  have l2 := key e.symm k3 h2
  have := List.append_inj e (by omega)
  exact ⟨this.1, (List.cons.inj this.2).1⟩

/-- The integers. -/
def intOps : Ops Int := ⟨(· < ·), (· ≤ ·), (· > ·), (· ≥ ·)⟩

example : intOps.Good := by
  refine ⟨⟨?_, ?_⟩, ?_, ?_, ?_⟩
  · intro a b; simp [intOps]; omega
  · intro a b c; simp [intOps]; omega
  · intro a b; simp [intOps, ← Int.not_lt]
  · intro a b; simp [intOps]
  · intro a b; simp [intOps, ← Int.not_lt]

example : minArgs intOps (fun x : Int => x.natAbs) (-2) 2 [1, -1] = 1 ∧ maxArgs intOps (fun x : Int => x.natAbs) (-2) 2 [] = -2 ∧
    (max1 intOps id none 9 0 (worldOf [[3, 5, 4]])).map Prod.fst = some (some 5) := ⟨rfl, rfl, rfl⟩

/-- Numbers with NaN (`none`), which compares false with everything. -/
def nanOps : Ops (Option Int) where
  lt a b := match a, b with | some a, some b => a < b | _, _ => false
  le a b := match a, b with | some a, some b => a ≤ b | _, _ => false
  gt a b := match a, b with | some a, some b => a > b | _, _ => false
  ge a b := match a, b with | some a, some b => a ≥ b | _, _ => false

/-- Violation: `min(1.0, nan)` is NaN (it tests `a <= b`), where Python, and `min([1.0, nan])` and `min(1.0, nan, nan)` here,
give 1.0; `max` likewise. -/
theorem c86_violation_nan : minArgs nanOps id (some 1) none [] = none ∧ maxArgs nanOps id (some 1) none [] = none ∧
    bestN (fun i m => nanOps.lt i m) (some 1) [none] = some 1 ∧ minArgs nanOps id (some 1) none [none] = some 1 :=
  ⟨rfl, rfl, rfl, rfl⟩

end Codon.Bltin
