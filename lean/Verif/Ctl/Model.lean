/-!
# Lowering of `match`, of loops with `else` and of loops over tuples

Models `codon/parser/visitors/typecheck/loops.cpp:24-342` (`break`, `continue`,
`while`/`for` with `else`, loops over tuples that are unrolled at compile time) and
`typecheck/cond.cpp:115-260` (`match` and its patterns).

Simplifications:

* simple statements are functions on the state of the program that may leave the
  function (by an exception or a `return`); conditions, guards and the subject of a
  `match` are functions that may change the state;
* `for x in e` over a generator is the `while` loop whose condition advances the
  iterator and assigns `x` (both statements treat `break`, `continue` and `else` in
  the same way, `loops.cpp:155-215`);
* a tuple variable has a fixed length, given by its type;
* values are integers, booleans, strings, tuples and lists, and are not changed in
  place; `isinstance` tests, which are decided by the type checker, are made on the
  value when the program runs;
* captured names are plain variables (which variable a name stands for is C68);
* of the patterns that fall back to `__match__`/`==` (`cond.cpp:246-259`) only
  strings are modelled; several ellipses in a list pattern (an error) are left out;
* the `flat` flag of loops is never set when a loop is unrolled first, and is left out.
-/

namespace Verif.Ctl

/-- Values. -/
inductive Val where
  | int (i : Int)
  | bool (b : Bool)
  | str (s : String)
  | tup (vs : List Val)
  | lst (vs : List Val)

/-- The state of the program: plain variables, tuple variables (by component), and
what has been printed. -/
structure St where
  vars : Nat → Val
  tups : Nat → Nat → Val
  out : List Int

def St.set (s : St) (x : Nat) (v : Val) : St :=
  { s with vars := fun y => if y = x then v else s.vars y }

mutual
/-- Patterns of `case` (`cond.cpp:149-163`). -/
inductive Pat where
  | int (i : Int)
  | bool (b : Bool)
  | str (s : String)
  /-- `a ... b` -/
  | range (a b : Int)
  | tup (ps : Pats)
  /-- `[p, q]` -/
  | lst (ps : Pats)
  /-- `[p, q, ..., r]` -/
  | lstE (ps qs : Pats)
  /-- `p | q` -/
  | alt (p q : Pat)
  /-- `_` -/
  | wild
  | var (x : Nat)
  /-- `(x := p)` -/
  | bind (x : Nat) (p : Pat)
inductive Pats where
  | nil
  | cons (p : Pat) (ps : Pats)
end

def Pats.length : Pats → Nat
  | .nil => 0
  | .cons _ ps => ps.length + 1

abbrev Guard := Option (St → Bool × St)

/-- What a loop over a tuple iterates: a variable, or an expression
(`special.cpp:1336-1341`). -/
inductive TIter where
  | var (y : Nat)
  | expr (e : St → (Nat → Val) × St)

mutual
/-- Statements as parsed. -/
inductive Src where
  | skip
  /-- a simple statement; `true`: it leaves the function -/
  | act (f : St → St × Bool)
  | seq (a b : Src)
  | ite (c : St → Bool × St) (a b : Src)
  /-- `while c: body` -/
  | loop (c : St → Bool × St) (body : Src)
  /-- `while c: body else: els` -/
  | loopElse (c : St → Bool × St) (body els : Src)
  /-- `for x in <tuple of n components of different types>: body` -/
  | tfor (n : Nat) (it : TIter) (x : Nat) (body : Src)
  | tforElse (n : Nat) (it : TIter) (x : Nat) (body els : Src)
  | mtch (e : St → Val × St) (cs : Cases)
  | brk
  | cont
inductive Cases where
  | nil
  | cons (p : Pat) (g : Guard) (body : Src) (rest : Cases)
end

/-! ## Lowered statements -/

/-- Tests made by a lowered pattern. -/
inductive Test where
  | isInt | isBool | isStr | isTup | isLst
  | eqInt (i : Int) | eqBool (b : Bool) | eqStr (s : String)
  | ge (i : Int) | le (i : Int)
  | lenEq (n : Nat) | lenGe (n : Nat)

/-- An expression `_match[i][j]…`: a temporary and the indices, outermost last. -/
structure Path where
  tmp : Nat
  ix : List Int

/-- Conditions of lowered loops. -/
inductive TCond where
  | usr (c : St → Bool × St)
  | flag (t : Nat)
  | tt

/-- Where the items of an unrolled loop come from. -/
inductive TSrc where
  | usr (y : Nat)
  | tmp (t : Nat)

/-- Lowered statements.  `brk done`: a `BreakStmt` and its `done` flag. -/
inductive Tgt where
  | skip
  | act (f : St → St × Bool)
  | seq (a b : Tgt)
  | ite (c : St → Bool × St) (a b : Tgt)
  /-- `while`; `goto`: `WhileStmt::gotoVar` (`stmt.h:249-251`) -/
  | loop (goto : Option Nat) (c : TCond) (body : Tgt)
  | setFlag (t : Nat) (b : Bool)
  | ifFlag (t : Nat) (a : Tgt)
  /-- `_match = e` -/
  | setVal (t : Nat) (e : St → Val × St)
  /-- `_tuple = e` -/
  | setTup (t : Nat) (e : St → (Nat → Val) × St)
  /-- `x = <tuple>[i]` -/
  | item (x : Nat) (s : TSrc) (i : Nat)
  /-- `if <test of path>: a` -/
  | test (p : Path) (t : Test) (a : Tgt)
  /-- `x = path` -/
  | bindP (x : Nat) (p : Path)
  | brk (done : Bool)
  | cont

/-- How the type checker fails. -/
inductive Err where
  /-- `'break' outside loop` (`loops.cpp:25-26`, `46-47`) -/
  | notInLoop
  /-- `staticLoops.back()` of an empty vector: undefined behaviour (`loops.cpp:36`, `51`) -/
  | undefined
deriving DecidableEq

abbrev R := Except Err

/-- The part of the context that `break` and `continue` look at: the break variable of
the last entry of `ctx->getBase()->loops` (`none`: there is no entry; `some none`: the
loop has no break variable) and the last entry of `ctx->staticLoops`
(`ctx.h:137-149`, `185`). -/
structure Ctx where
  bv : Option (Option Nat)
  sl : Option (Option Nat)

/-- `visit(BreakStmt *)`, `loops.cpp:24-42`. -/
def visitBreak (V : Ctx) : R Tgt :=
  match V.bv with
  | none => .error .notInLoop
  | some (some v) => .ok (.seq (.setFlag v false) (.brk false))
  | some none =>
    match V.sl with
    | none => .error .undefined
    | some none => .ok (.brk true)
    | some (some g) => .ok (.seq (.setFlag g false) (.brk true))

/-- `visit(ContinueStmt *)`, `loops.cpp:45-55`. -/
def visitCont (V : Ctx) : R Tgt :=
  match V.bv with
  | none => .error .notInLoop
  | some _ =>
    match V.sl with
    | none => .error .undefined
    | some none => .ok .cont
    | some (some _) => .ok (.brk true)

/-- A later pass of the type checker over a statement it has been through before
(`transform(Stmt *)`, `typecheck.cpp:289-320`, leaves finished statements alone):
only `break` statements can be unfinished.  No loop has an `else` any more, so no loop
has a break variable; `r` is the last entry of `staticLoops`, `none` outside loops. -/
def revisit (r : Option (Option Nat)) : Tgt → R Tgt
  | .seq a b => do .ok (.seq (← revisit r a) (← revisit r b))
  | .ite c a b => do .ok (.ite c (← revisit r a) (← revisit r b))
  | .loop g c a => do .ok (.loop g c (← revisit (some g) a))
  | .ifFlag t a => do .ok (.ifFlag t (← revisit r a))
  | .test p t a => do .ok (.test p t (← revisit r a))
  | .brk false => visitBreak ⟨r.map fun _ => none, r⟩
  | t => .ok t

/-! ### Patterns -/

mutual
/-- `transformPattern`, `cond.cpp:164-260`.  `mk` makes a copy of the suite: the
copies are visited one after the other, each with its own temporaries. -/
def tp (path : Path) (mk : Nat → R (Tgt × Nat)) : Pat → Nat → R (Tgt × Nat)
  | .int i, k => do
    let (s, k) ← mk k
    .ok (.test path .isInt (.test path (.eqInt i) s), k)
  | .bool b, k => do
    let (s, k) ← mk k
    .ok (.test path .isBool (.test path (.eqBool b) s), k)
  | .str t, k => do
    let (s, k) ← mk k
    .ok (.test path .isStr (.test path (.eqStr t) s), k)
  | .range a b, k => do
    let (s, k) ← mk k
    .ok (.test path .isInt (.test path (.ge a) (.test path (.le b) s)), k)
  | .tup ps, k => do
    let (s, k) ← tps path 0 mk ps k
    .ok (.test path .isTup (.test path (.lenEq ps.length) s), k)
  | .lst ps, k => do
    let (s, k) ← tps path 0 mk ps k
    .ok (.test path .isLst (.test path (.lenEq ps.length) s), k)
  | .lstE ps qs, k => do
    let (s, k) ← tps path 0 (tps path (-(qs.length : Int)) mk qs) ps k
    .ok (.test path .isLst (.test path (.lenGe (ps.length + qs.length)) s), k)
  | .alt p q, k => do
    let (a, k) ← tp path mk p k
    let (b, k) ← tp path mk q k
    .ok (.seq a b, k)
  | .wild, k => mk k
  | .var x, k => do
    let (s, k) ← mk k
    .ok (.seq (.bindP x path) s, k)
  | .bind x p, k => do
    let (s, k) ← tp path mk p k
    .ok (.seq (.bindP x path) s, k)
/-- The loops over the items of a tuple or list pattern (`cond.cpp:194-197`,
`214-221`): the suite of an item is the code for the items after it; `i` is the index
of the first item. -/
def tps (path : Path) (i : Int) (mk : Nat → R (Tgt × Nat)) : Pats → Nat → R (Tgt × Nat)
  | .nil, k => mk k
  | .cons p ps, k => tp ⟨path.tmp, path.ix ++ [i]⟩ (tps path (i + 1) mk ps) p k
end

/-! ### Statements -/

/-- The copies of the body of an unrolled loop (`loops.cpp:269-285`,
`special.cpp:1342-1356`): item `i` and those after it, `m` in all. -/
def copies (g x : Nat) (src : TSrc) (mk : Nat → R (Tgt × Nat)) :
    (i m : Nat) → Nat → R (Tgt × Nat)
  | _, 0, k => .ok (.setFlag g false, k)
  | i, m + 1, k => do
    let (b, k) ← mk k
    let (r, k) ← copies g x src mk (i + 1) m k
    .ok (.seq (.loop (some g) (.flag g) (.seq (.item x src i) (.seq b (.brk true)))) r, k)

/-- `transformStaticForLoop`, `loops.cpp:266-312`. -/
def unroll (n : Nat) (it : TIter) (x : Nat) (mk : Nat → Nat → R (Tgt × Nat)) (k : Nat) :
    R (Tgt × Nat) := do
  let g := k
  match it with
  | .var y =>
    let (b, k) ← copies g x (.usr y) (mk g) 0 n (k + 1)
    .ok (.seq (.setFlag g true) (.loop none (.flag g) b), k)
  | .expr e =>
    let (b, k) ← copies g x (.tmp (g + 1)) (mk g) 0 n (k + 2)
    .ok (.seq (.setFlag g true) (.loop none (.flag g) (.seq (.setTup (g + 1) e) b)), k)

/-- The guard of a case (`cond.cpp:137-138`). -/
def guarded : Guard → Tgt → Tgt
  | none, s => s
  | some g, s => .ite g s .skip

mutual
/-- `TypecheckVisitor::transform(Stmt *)`, the first pass over a statement.
The number is the counter of temporaries (`getTemporaryVar`). -/
def visit (V : Ctx) : Src → Nat → R (Tgt × Nat)
  | .skip, k => .ok (.skip, k)
  | .act f, k => .ok (.act f, k)
  | .seq a b, k => do
    let (a, k) ← visit V a k
    let (b, k) ← visit V b k
    .ok (.seq a b, k)
  -- `cond.cpp:86-113`
  | .ite c a b, k => do
    let (a, k) ← visit V a k
    let (b, k) ← visit V b k
    .ok (.ite c a b, k)
  -- `visit(WhileStmt *)`, `loops.cpp:64-98`, `visit(ForStmt *)`, `loops.cpp:155-220`
  | .loop c body, k => do
    let (b, k) ← visit ⟨some none, some none⟩ body k
    .ok (.loop none (.usr c) b, k)
  | .loopElse c body els, k => do
    let v := k
    let (b, k) ← visit ⟨some (some v), some none⟩ body (k + 1)
    -- `transform(N<SuiteStmt>(stmt, N<IfStmt>(breakVar, es)))`: the loop is visited for
    -- a second time, the `else` for the first time, and the loop is still the last
    -- entry of `loops` (`loops.cpp:88-93`, `202-209`)
    let b ← revisit (some none) b
    let (e, k) ← visit ⟨some (some v), V.sl⟩ els k
    .ok (.seq (.setFlag v true) (.seq (.loop none (.usr c) b) (.ifFlag v e)), k)
  -- `loops.cpp:138-144`
  | .tfor n it x body, k =>
    unroll n it x (fun g => visit ⟨some none, some (some g)⟩ body) k
  | .tforElse n it x body _, k =>
    unroll n it x (fun g => visit ⟨some none, some (some g)⟩ body) k
  -- `visit(MatchStmt *)`, `cond.cpp:131-147`
  | .mtch e cs, k => do
    let m := k
    let (b, k) ← visitCases m cs (k + 1)
    .ok (.loop none .tt (.seq (.setVal m e) b), k)
  | .brk, k => do .ok (← visitBreak V, k)
  | .cont, k => do .ok (← visitCont V, k)
def visitCases (m : Nat) : Cases → Nat → R (Tgt × Nat)
  | .nil, k => .ok (.brk true, k)
  | .cons p g body rest, k => do
    let (a, k) ← tp ⟨m, []⟩ (fun k => do
      let (s, k) ← visit ⟨some none, some none⟩ body k
      .ok (guarded g (.seq s (.brk true)), k)) p k
    let (b, k) ← visitCases m rest k
    .ok (.seq a b, k)
end

/-- The lowering of a function body: passes are made until nothing is unfinished (one
pass after the first finishes all). -/
def lower (s : Src) : R Tgt := do
  let (t, _) ← visit ⟨none, none⟩ s 0
  revisit none t

/-! ## Execution of lowered statements -/

/-- How a statement ends.  `stuck`: an index out of range or a test on a value of the
wrong type; `fuel`: a loop has not ended within the given number of iterations. -/
inductive Out where
  | norm | brk | cont | leave | stuck | fuel
deriving DecidableEq

/-- Temporaries: flags, values, tuples. -/
structure Tm where
  fl : Nat → Bool
  va : Nat → Val
  tu : Nat → Nat → Val

def upd {α : Type} (f : Nat → α) (i : Nat) (a : α) : Nat → α :=
  fun j => if j = i then a else f j

/-- `v[i]` on tuples and lists, from the end if `i` is negative. -/
def Val.index (v : Val) (i : Int) : Option Val :=
  match v with
  | .tup vs | .lst vs =>
    if 0 ≤ i then vs[i.toNat]?
    else if 0 ≤ i + vs.length then vs[(i + vs.length).toNat]? else none
  | _ => none

def Val.path (v : Val) : List Int → Option Val
  | [] => some v
  | i :: is =>
    match v.index i with
    | some w => w.path is
    | none => none

/-- A test, `none` if it is not defined on the value. -/
def Test.run : Test → Val → Option Bool
  | .isInt, .int _ => some true
  | .isInt, _ => some false
  | .isBool, .bool _ => some true
  | .isBool, _ => some false
  | .isStr, .str _ => some true
  | .isStr, _ => some false
  | .isTup, .tup _ => some true
  | .isTup, _ => some false
  | .isLst, .lst _ => some true
  | .isLst, _ => some false
  | .eqInt i, .int j => some (j == i)
  | .eqBool b, .bool c => some (c == b)
  | .eqStr s, .str t => some (t == s)
  | .ge i, .int j => some (decide (j ≥ i))
  | .le i, .int j => some (decide (j ≤ i))
  | .lenEq n, .tup vs => some (vs.length == n)
  | .lenEq n, .lst vs => some (vs.length == n)
  | .lenGe n, .lst vs => some (decide (vs.length ≥ n))
  | _, _ => none

abbrev TSt := St × Tm

def TCond.run : TCond → TSt → Bool × TSt
  | .usr c, (s, m) => ((c s).1, ((c s).2, m))
  | .flag t, (s, m) => (m.fl t, (s, m))
  | .tt, s => (true, s)

/-- A `while` loop, for at most `n` evaluations of the condition. -/
def loopT (c : TSt → Bool × TSt) (body : TSt → TSt × Out) : Nat → TSt → TSt × Out
  | 0, s => (s, .fuel)
  | n + 1, s =>
    match c s with
    | (false, s) => (s, .norm)
    | (true, s) =>
      match body s with
      | (s, .norm) => loopT c body n s
      | (s, .cont) => loopT c body n s
      | (s, .brk) => (s, .norm)
      | r => r

/-- Execution of a lowered statement. -/
def runT (n : Nat) : Tgt → TSt → TSt × Out
  | .skip, s => (s, .norm)
  | .act f, (s, m) => (((f s).1, m), if (f s).2 then .leave else .norm)
  | .seq a b, s =>
    match runT n a s with
    | (s, .norm) => runT n b s
    | r => r
  | .ite c a b, (s, m) =>
    if (c s).1 then runT n a ((c s).2, m) else runT n b ((c s).2, m)
  | .loop _ c a, s => loopT c.run (runT n a) n s
  | .setFlag t b, (s, m) => ((s, { m with fl := upd m.fl t b }), .norm)
  | .ifFlag t a, s => if s.2.fl t then runT n a s else (s, .norm)
  | .setVal t e, (s, m) => (((e s).2, { m with va := upd m.va t (e s).1 }), .norm)
  | .setTup t e, (s, m) => (((e s).2, { m with tu := upd m.tu t (e s).1 }), .norm)
  | .item x (.usr y) i, (s, m) => ((s.set x (s.tups y i), m), .norm)
  | .item x (.tmp t) i, (s, m) => ((s.set x (m.tu t i), m), .norm)
  | .test p t a, s =>
    match (s.2.va p.tmp).path p.ix with
    | none => (s, .stuck)
    | some v =>
      match t.run v with
      | none => (s, .stuck)
      | some true => runT n a s
      | some false => (s, .norm)
  | .bindP x p, (s, m) =>
    match (m.va p.tmp).path p.ix with
    | none => ((s, m), .stuck)
    | some v => ((s.set x v, m), .norm)
  | .brk _, s => (s, .brk)
  | .cont, s => (s, .cont)

end Verif.Ctl
