import Verif.Dce.TrimDce
import Verif.Dce.Determ
/-!
# C04: dead-code elimination keeps what a program does

`Exec M (.fn f vs) s r t`: calling function `f` of `M` with arguments `vs` in state `s` ends with `r` (a value or an
exception) in state `t`; the state holds the output so far.  `SameObs` compares everything that can be seen: output,
global variables visible from outside (all of them in the first round, `gash`), variables read anywhere.
-/
namespace Codon.Dce

/-- C04.  Whatever a terminating call does, it does after the pass too, and it does nothing else then.  Functions
declared pure must be pure (`AttrsOk`).

Missing: resuming a generator object is not taken for an effect (`NoGens`, see `c04_violation_generator`), and a call
that never ends may end after the pass (`c04_violation_endless`).  Not modelled: see `Model.lean`. -/
theorem c04_dce_partial (gash : Bool) (M : Module) (ha : AttrsOk gash M) (f : Nat) (vs : List Val) (s : St)
    (hs : NoGens s) (r : Res) (t : St) (hx : Exec M (.fn f vs) s r t) :
    (∃ t', Exec (dceModule gash M) (.fn f vs) s r t' ∧ SameObs gash M t t') ∧
    (∀ r' t', Exec (dceModule gash M) (.fn f vs) s r' t' → r' = r ∧ SameObs gash M t t') := by
  obtain ⟨t', e, o⟩ := simul (right_analyze gash M) ha (dceModule_trim gash M) hx _ s .fn hs (sameObs_refl s)
  refine ⟨⟨t', e, o⟩, fun r' t'' h => ?_⟩
  obtain ⟨rfl, rfl⟩ := determ (M := dceModule gash M) e h
  exact ⟨rfl, o⟩

/-- C04, the analysis behind it: a function with status `PURE` returns, raises nothing and changes nothing that
matters. -/
theorem c04_pure_function_partial (gash : Bool) (M : Module) (ha : AttrsOk gash M) (f : Nat)
    (hf : (analyze gash M).res f = some PURE) (vs : List Val) (s : St) (hs : NoGens s) (r : Res) (t : St)
    (hx : Exec M (.fn f vs) s r t) : (∀ k, r ≠ .exc k) ∧ SameObs gash M s t := by
  have h0 : formStat (varInfo gash M) (fstatus (analyze gash M)) (.fn f vs) = PURE := by
    simp only [formStat, fstatus, hf, Option.getD_some]
  have := (purity (right_analyze gash M) ha hx hs).1 h0
  refine ⟨fun k hk => ?_, this.2⟩
  subst hk
  exact this.1 trivial

/-! ### A program -/

/-- Output: the number of arguments. -/
def print : Func := .ext none fun _ vs => ([vs.length], .inl unit)

/-- ```
def main():           # 0
    sq(3)
    if False: print()
    for i in range(0, 0): print()
    print(sq(2))
    unread = 1
    try: raise 4
    except 4: print(1, 2)
def sq(x): return x   # 1
``` -/
def prog : Module where
  funcs := [
    .bodied none [] (.cons 0 (.call 1 (.arg (.int 3) .nil)) <|
      .cons 0 (.ite (.bool false) (.call 2 .nil) .nil) <|
      .cons 0 (.imp 5 (.int 0) 1 (.int 0) (.call 2 .nil)) <|
      .cons 0 (.call 2 (.arg (.call 1 (.arg (.int 2) .nil)) .nil)) <|
      .cons 0 (.assign 6 (.int 1)) <|
      .cons 0 (.tryc (.throw_ (.int 4)) (.ctch (some 4) none
        (.call 2 (.arg (.int 1) (.arg (.int 2) .nil))) .nil) .nil .nil) .nil),
    .bodied none [7] (.cons 0 (.ret (.var 7)) .nil),
    print]
  isGlobal _ := false
  isExternal _ := false

def st0 : St := ⟨fun _ => unit, fun _ => unit, fun _ => [], []⟩

example : AttrsOk false prog := by
  constructor
  · intro f attr sem h h0
    match f, h with
    | 0, h => cases h
    | 1, h => cases h
    | 2, h => cases h; cases h0
    | n + 3, h => cases h
  · intro f attr ps body h h0
    match f, h with
    | 0, h => cases h; cases h0
    | 1, h => cases h; cases h0
    | 2, h => cases h
    | n + 3, h => cases h

example : NoGens st0 := rfl

/-- The program prints twice. -/
example : ∃ t, Exec prog (.fn 0 []) st0 (.val unit) t ∧ t.trace = [1, 2] := by
  have sq : ∀ i s, Exec prog (.node (.call 1 (.arg (.int i) .nil))) s (.val (.int i)) s := by
    intro i s
    refine .call (.argsCons .int .argsNil) ?_
    have := @Exec.fnRet prog 1 none [7] (.cons 0 (.ret (.var 7)) .nil) [.int i] s (.int i)
      { s with loc := bindParams [7] [.int i] } rfl (.consX (.ret .var) trivial)
    exact this
  have h := @Exec.fnEnd prog 0 none [] _ [] st0 _ _ rfl
    (.cons (sq 3 _) (.cons (.iteF .bool .nil) (.cons (.imp .int .int (.countEnd (by show (0 : I64).sle 0 = true; decide)))
    (.cons (.call (.argsCons (sq 2 _) .argsNil) (.fnExt rfl rfl)) (.cons (.assign .int)
    (.cons (.tryc (.coreExc (.throw_ .int) (.catchYes (.inr (by decide))
      (.call (.argsCons .int (.argsCons .int .argsNil)) (.fnExt rfl rfl)))) .nil) .nil))))))
  exact ⟨_, h, rfl⟩

/-- The pass erases the call of `sq` and the assignment, and empties the conditional and the loop. -/
example : ((dceModule false prog).funcs[0]?.bind Func.body?) =
    some (.cons 3 .nil <| .cons 3 .nil <| .cons 3 (.call 2 (.arg (.call 1 (.arg (.int 2) .nil)) .nil)) <|
      .cons 3 (.tryc (.throw_ (.int 4)) (.ctch (some 4) none
        (.call 2 (.arg (.int 1) (.arg (.int 2) .nil))) .nil) .nil .nil) .nil) := by decide +kernel

/-! ### Where the pass changes what a program does -/

/-- ```
def main(it):             # 0
    drain(it)
def drain(it):            # 1
    for x in it: pass
``` -/
def drainProg : Module where
  funcs := [
    .bodied none [0] (.cons 0 (.call 1 (.arg (.var 0) .nil)) .nil),
    .bodied none [1] (.cons 0 (.for_ 2 (.var 1) .nil) .nil)]
  isGlobal _ := false
  isExternal _ := false

/-- A generator that prints before its only value. -/
def stGen : St := ⟨fun _ => unit, fun _ => unit, fun h => if h = 0 then [([7], .int 1)] else [], []⟩

/-- C04 fails: `drain` counts as a function without effects, the call is erased, and the generator is not run
(side_effect.cpp:190-198: the visitor of `ForFlow` looks at the iterator expression and the body only). -/
theorem c04_violation_generator :
    AttrsOk false drainProg ∧ (∃ t, Exec drainProg (.fn 0 [.obj 0]) stGen (.val unit) t ∧ t.trace = [7]) ∧
    (∃ t, Exec (dceModule false drainProg) (.fn 0 [.obj 0]) stGen (.val unit) t ∧ t.trace = []) := by
  refine ⟨⟨?_, ?_⟩, ?_, ?_⟩
  · intro f attr sem h h0
    match f, h with
    | 0, h => cases h
    | 1, h => cases h
    | n + 2, h => cases h
  · intro f attr ps body h h0
    match f, h with
    | 0, h => cases h; cases h0
    | 1, h => cases h; cases h0
    | n + 2, h => cases h
  · have h := @Exec.fnEnd drainProg 0 none [0] _ [.obj 0] stGen _ _ rfl
      (.cons (.call (.argsCons .var .argsNil) (.fnEnd rfl
        (.cons (.for_ .var (.loopNext (i := .int 1) (v' := .obj 0) rfl .nil trivial (.loopEnd rfl))) .nil))) .nil)
    exact ⟨_, h, rfl⟩
  · have : (dceModule false drainProg).funcs[0]? = some (.bodied none [0] .nil) := by rfl
    exact ⟨_, .fnEnd this .nil, rfl⟩

/-- `while True: pass`, then `print()` -/
def endless : Module where
  funcs := [.bodied none [] (.cons 0 (.while_ (.bool true) .nil) <| .cons 0 (.call 1 .nil) .nil), print]
  isGlobal _ := false
  isExternal _ := false

theorem endless_loop {M : Module} {G : Form} {s : St} {r : Res} {t : St} (h : Exec M G s r t) :
    G ≠ .node (.while_ (.bool true) .nil) := by
  induction h with
  | whileF h1 => rintro ⟨⟩; cases h1
  | whileX h1 hr => rintro ⟨⟩; cases h1; exact hr
  | whileT h1 h2 hr h3 ih1 ih2 ih3 => intro h; exact ih3 h
  | whileB h1 h2 => rintro ⟨⟩; cases h2
  | whileR h1 h2 hr => rintro ⟨⟩; cases h2; exact hr
  | _ => intro h; cases h

/-- C04 fails for calls that do not end: `while True: pass` is erased (side_effect.cpp:186-188) and what follows it is
executed. -/
theorem c04_violation_endless :
    (∀ s r t, ¬ Exec endless (.fn 0 []) s r t) ∧
    (∃ t, Exec (dceModule false endless) (.fn 0 []) st0 (.val unit) t ∧ t.trace = [0]) := by
  refine ⟨fun s r t h => ?_, ?_⟩
  · have body : ∀ {s r t}, Exec endless (.node (.cons 0 (.while_ (.bool true) .nil) <| .cons 0 (.call 1 .nil) .nil)) s r t →
        False := by
      intro s r t h
      cases h with
      | cons h1 _ => exact endless_loop h1 rfl
      | consX h1 _ => exact endless_loop h1 rfl
    cases h with
    | fnRet hf h => cases hf; exact body h
    | fnEnd hf h => cases hf; exact body h
    | fnExc hf h => cases hf; exact body h
    | fnExt hf => cases hf
    | fnExtX hf => cases hf
    | fnInternal hf => cases hf
  · have : (dceModule false endless).funcs[0]? = some (.bodied none [] (.cons 3 (.call 1 .nil) .nil)) := by rfl
    exact ⟨_, .fnEnd this (.cons (.call .argsNil (.fnExt rfl rfl)) .nil), rfl⟩

end Codon.Dce
