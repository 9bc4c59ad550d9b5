import Verif.Compr.Lemmas

/-! # C90: comprehensions and displays build what Python's do -/

namespace Codon.Compr

variable {X T V C E W : Type}

/-! ### A small language to show cases on

Expressions are numbers and calls that write to the world; the world is the log of what happened,
newest first. -/

namespace Demo

/-- Values: numbers, tuples, and two iterables: a list, and an object whose `__len__` writes `-1` to
the log. -/
inductive Val where
  | num (n : Int)
  | tup (a b : Val)
  | seq (l : List Int)
  | loud (l : List Int)
  /-- a generator, by its place among the generators -/
  | gen (g : Nat)
  deriving DecidableEq, Repr

/-- Expressions. -/
inductive Ex where
  /-- a constant that writes `n` to the log when evaluated -/
  | say (n : Int)
  | lit (v : Val)
  /-- the loop variable -/
  | x
  /-- is the loop variable even? (0 or 1) -/
  | even
  deriving DecidableEq, Repr

/-- The log, the variable, and the items left in each generator. -/
structure World where
  log : List Int := []
  x : Val := .num 0
  gens : List (List Val) := []
  deriving DecidableEq, Repr

/-- Containers: what was put in, in order. -/
abbrev Cont := List Val

def lang : Lang Ex Unit Val Cont Unit World where
  eval
    | .say n, w => (.ok (.num n), { w with log := n :: w.log })
    | .lit v, w => (.ok v, w)
    | .x, w => (.ok w.x, w)
    | .even, w => (.ok (match w.x with | .num n => .num (if n % 2 = 0 then 1 else 0) | v => v), w)
  iter
    | .seq l, w => (.ok (.gen w.gens.length), { w with gens := w.gens ++ [l.map .num] })
    | .loud l, w => (.ok (.gen w.gens.length), { w with gens := w.gens ++ [l.map .num] })
    | _, w => (.error (), w)
  next
    | .gen g, w =>
      match w.gens[g]? with
      | some (v :: r) => (.ok (some v), { w with gens := w.gens.set g r })
      | _ => (.ok none, w)
    | _, w => (.error (), w)
  truth
    | .num n, w => (.ok (n ≠ 0), w)
    | _, w => (.ok true, w)
  len
    | .seq l, w => (.ok l.length, w)
    | .loud l, w => (.ok l.length, { w with log := -1 :: w.log })
    | _, w => (.error (), w)
  bind _ v w := (.ok (), { w with x := v })
  items
    | .seq l, w => (.ok (.gen w.gens.length),
        { w with gens := w.gens ++ [l.map fun n => .tup (.num n) (.num n)] })
    | _, w => (.error (), w)
  new _ := []
  add _ c v w := (.ok (c ++ [v]), w)
  setitem c a b w := (.ok (c ++ [.tup a b]), w)
  pair := .tup
  fst | .tup a _ => a | v => v
  snd | .tup _ b => b | v => v

theorem pairs : Pairs lang := fun _ _ => ⟨rfl, rfl⟩

/-- Result of a run, without its world. -/
def result (r : Option (Option (Ans Unit World Cont))) : Option (List Val) :=
  match r with
  | some (some (.ok c, _)) => some c
  | _ => none

/-- The log that a run leaves. -/
def logOf (r : Option (Option (Ans Unit World Cont))) : List Int :=
  match r with
  | some (some (_, w)) => w.log
  | _ => []

end Demo

/-! ### Comprehensions -/

/-- **C90, comprehensions.**  The statements that a list, set or dictionary comprehension is lowered
to compute what the comprehension means: the clauses nest from left to right, each part is evaluated
as often and in the order that the nesting says, every time the innermost block is reached the
element (a key before its value) is evaluated and put in, an exception stops everything where it is
raised, and the program runs for ever when and only when the nested loops do.

Missing for the full statement: a list comprehension with one `for` and no `if` calls `__len__` of
the iterable first, so `__len__` must neither raise nor do anything; see
`c90_len_violation`. -/
theorem c90_comprehension_partial (L : Lang X T V C E W) (hp : Pairs L) (hasLen static : X → Bool)
    (hl : ∀ x, hasLen x = true → ∀ w v w', L.eval x w = (.ok v, w') →
      ∃ m, L.len v w' = (.ok m, w'))
    (k : Kind) (e : Elt X) (hf : e.fits k) (cs : List (Clause X T)) (w : W) :
    Computes L (lower hasLen static k e cs) w (Comprehends L k e cs w) := by
  have hplain := computes_plain L hp k e hf cs w
  unfold lower
  cases k with
  | set => exact hplain
  | dict => exact hplain
  | list =>
    dsimp only
    rw [loopCount_form]
    match cs, hplain with
    | [], hplain => exact hplain
    | [.if_ x], hplain => exact hplain
    | [.for_ t x], hplain =>
      simp only [List.length_cons, List.length_nil, Nat.zero_add, if_true, form, setFinal]
      by_cases h : (!static x && hasLen x) = true
      · rw [if_pos h]
        exact computes_fast L hp e hf t x w (hl x (by simp_all))
      · rw [if_neg h]
        exact hplain
    | a :: b :: r, hplain =>
      rw [if_neg (by simp)]
      exact hplain

/-- The same without a condition on `__len__` for every comprehension that is not a list
comprehension with a single clause over something that has `__len__`. -/
theorem c90_comprehension_plain (L : Lang X T V C E W) (hp : Pairs L) (hasLen static : X → Bool)
    (k : Kind) (e : Elt X) (hf : e.fits k) (cs : List (Clause X T)) (w : W)
    (h : k ≠ .list ∨ cs.length ≠ 1 ∨ ∀ t x, cs = [.for_ t x] → static x = true ∨ hasLen x = false) :
    Computes L (lower hasLen static k e cs) w (Comprehends L k e cs w) := by
  have hplain := computes_plain L hp k e hf cs w
  unfold lower
  cases k with
  | set => exact hplain
  | dict => exact hplain
  | list =>
    dsimp only
    rw [loopCount_form]
    match cs, hplain with
    | [], hplain => exact hplain
    | [.if_ x], hplain => exact hplain
    | [.for_ t x], hplain =>
      simp only [List.length_cons, List.length_nil, Nat.zero_add, if_true, form, setFinal]
      rcases h with h | h | h
      · exact absurd rfl h
      · exact absurd rfl h
      · rw [if_neg (by rcases h t x rfl with h | h <;> simp [h])]
        exact hplain
    | a :: b :: r, hplain =>
      rw [if_neg (by simp)]
      exact hplain

section
open Demo

/-- `[x for x in [1, 2, 3, 4] if even(x)]`. -/
example : result (value lang 9 (lower (fun _ => true) (fun _ => false) .list (.one .x)
    [.for_ () (.lit (.seq [1, 2, 3, 4])), .if_ .even]) {}) = some [.num 2, .num 4] := by decide

/-- `{x: say(7) for x in [1, 2]}`: the value is evaluated for each key. -/
example : result (value lang 9 (lower (fun _ => true) (fun _ => false) .dict (.pair .x (.say 7))
    [.for_ () (.lit (.seq [1, 2]))]) {}) =
      some [.tup (.num 1) (.num 7), .tup (.num 2) (.num 7)] := by decide

/-- `[x for x in [5, 6]]` goes by way of `__len__`. -/
example : result (value lang 9 (lower (fun _ => true) (fun _ => false) .list (.one .x)
    [.for_ () (.lit (.seq [5, 6]))]) {}) = some [.num 5, .num 6] ∧
    (∀ w v w', lang.eval (.lit (.seq [5, 6])) w = (.ok v, w') →
      ∃ m, lang.len v w' = (.ok m, w')) := by
  refine ⟨by decide, fun w v w' h => ?_⟩
  cases h
  exact ⟨2, rfl⟩

end

/-! ### Displays -/

/-- **C90, displays.**  `[…]`, `{…}` and `{k: v, …}` with any number of `*e` or `**e` among the items
build the container from left to right: each item is evaluated once (a key before its value) and put
in before the next is evaluated; all that a starred item gives is put in at its place. -/
theorem c90_display (L : Lang X T V C E W) (hp : Pairs L) (k : Kind) (is : List (Item X))
    (hf : ∀ i ∈ is, i.fits k) (w : W) :
    Computes L (display k is : Stmt X T) w (PutsAll L k is (L.new k) w) := by
  have he : ∀ n, exec L n (display k is : Stmt X T) ({} : St V C) w =
      exec L n (body k is : Stmt X T) { coll := some (L.new k) } w := fun _ => rfl
  apply computes_of
  · intro r hr
    obtain ⟨N, hN⟩ := putsAll_exec (T := T) L hp k hr hf
    exact ⟨N, fun n hn => by rw [he]; exact hN n hn _ rfl⟩
  · intro n h
    rw [he] at h ⊢
    exact exec_putsAll L hp k n is hf rfl w h

section
open Demo

/-- `[say(1), *[2, 3], say(4)]`. -/
example : result (value lang 9 (display .list [.elt (.one (.say 1)), .star (.lit (.seq [2, 3])),
    .elt (.one (.say 4))]) {}) = some [.num 1, .num 2, .num 3, .num 4] := by decide

/-- `{say(1): say(2), **d}`. -/
example : result (value lang 9 (display .dict [.elt (.pair (.say 1) (.say 2)),
    .dstar (.lit (.seq [8]))]) {}) =
      some [.tup (.num 1) (.num 2), .tup (.num 8) (.num 8)] := by decide

end

/-! ### What is read off

The meaning spelled out for pure programs: a reader can check the relations against it. -/

/-- Iterators that give the items of a list, one after another, without raising: from world `w` the
generator `it` gives `vs`, where storing an item and running the body on it is `f`. -/
inductive Feeds (L : Lang X T V C E W) (it : V) : List V → W → W → Prop where
  | nil {w w'} (h : L.next it w = (.ok none, w')) : Feeds L it [] w w'
  | cons {v vs w w' w''} (h : L.next it w = (.ok (some v), w')) (hr : Feeds L it vs w' w'') :
      Feeds L it (v :: vs) w w''

/-- A star item puts in what its iterator gives, in that order: for lists. -/
theorem c90_star_list (L : Lang X T V (List V) E W) (hadd : ∀ c v w, L.add .list c v w =
      (.ok (c ++ [v]), w)) (x : X) (it : V) (vs : List V) (c : List V) (w w1 w2 : W)
    (h : (L.eval x w).bind L.iter = (.ok it, w1)) (hv : Feeds L it vs w1 w2) :
    Puts L .list (.star x) c w (.ok (c ++ vs), w2) := by
  refine .star h ?_
  clear h
  induction hv generalizing c with
  | nil h => rw [List.append_nil]; exact .stop h
  | @cons v vs w w' w'' h _ ih =>
    have := ih (c ++ [v])
    rw [List.append_assoc, List.singleton_append] at this
    exact .step h (hadd c v w') this

section
open Demo

/-- The condition of `c90_star_list` met: the generator of `[2, 3]`. -/
example : ∃ w2, Feeds lang (.gen 0) [.num 2, .num 3] { gens := [[.num 2, .num 3]] } w2 :=
  ⟨_, .cons rfl (.cons rfl (.nil rfl))⟩

end

/-! ### The deviation -/

/-- **Violation.**  `[x for x in obj]` calls `obj.__len__()`; Python does not.  The call leaves `-1`
in the log, and by the meaning of the comprehension nothing does. -/
theorem c90_len_violation :
    ¬ Computes Demo.lang (lower (fun _ => true) (fun _ => false) .list (.one Demo.Ex.x)
        [.for_ () (.lit (.loud [5]))]) {}
      (Comprehends Demo.lang .list (.one Demo.Ex.x) [.for_ () (.lit (.loud [5]))] {}) := by
  intro h
  have hr : Comprehends Demo.lang .list (.one Demo.Ex.x) [.for_ () (.lit (.loud [5]))] {}
      (.ok [.num 5], { log := [], x := .num 5, gens := [[]] }) :=
    .forOk (it := .gen 0) rfl (.step rfl rfl (.act _ _) (.stop rfl))
  obtain ⟨N, hN⟩ := h.total _ hr
  have h1 := hN (N + 9) (by omega)
  have h2 : ∀ n, value Demo.lang (n + 9) (lower (fun _ => true) (fun _ => false) .list
      (.one Demo.Ex.x) [.for_ () (.lit (.loud [5]))]) {} =
      some (some (.ok [.num 5], { log := [-1], x := .num 5, gens := [[]] })) := fun _ => rfl
  rw [h2] at h1
  have h3 := congrArg Demo.logOf h1
  exact absurd h3 (by decide)

end Codon.Compr
