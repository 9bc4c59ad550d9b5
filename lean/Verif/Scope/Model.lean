/-!
# Resolution of local names: `ScopingVisitor` and the name lookup of the type checker

Models `codon/parser/visitors/scoping/scoping.cpp` (the analysis that decides
which assignments declare a variable and which update an existing one) together
with the use its results are put to in `typecheck/{typecheck,assign,access,loops}.cpp`.

The body of one function is modelled: assignments, expression statements,
`if`, conditional expressions that contain assignments (`:=`), `while`, `for`,
`try`/`except`, `break`, `continue`, `return`.  Simplifications:

* an expression is the list of the names it reads, from left to right, together
  with a function from the values read to its value; `none` means that evaluating
  it raises an exception (other than `NameError`);
* no nested functions, classes, `global`/`nonlocal`, `del`, `with`, `match`,
  comprehensions, `else` of loops and of `try`, `finally`, `except … as`;
* a name that is read and never bound in the function is a name of an enclosing
  scope, which is taken to be bound;
* an `except` clause catches every exception but `NameError`.

The visitor keeps all its data about bindings under the name that is bound and
never uses the data of one name for another, so the model runs it for one name at
a time.
-/

namespace Verif.Scope

abbrev Name := Nat

/-- An occurrence of a name that is read: an `IdExpr` (its identity and its name). -/
structure Rd where
  id : Nat
  x : Name
deriving DecidableEq, Repr

/-- The statements of a function body.  Every binding occurrence (`i`), every block
(`b`) and every reading occurrence has a label: its identity as a node. -/
inductive Stmt (V : Type) where
  | skip
  /-- an expression statement that prints its value -/
  | out (rs : List Rd) (f : List V → Option V)
  /-- `x = e` -/
  | asg (i : Nat) (x : Name) (rs : List Rd) (f : List V → Option V)
  | seq (s t : Stmt V)
  /-- `if` (`k = true`) or a conditional expression, `and`, `or` (`k = false`) whose
  branches contain assignments -/
  | ite (k : Bool) (rs : List Rd) (p : List V → Option Bool) (b₁ : Nat) (s₁ : Stmt V)
      (b₂ : Nat) (s₂ : Stmt V)
  | whl (rs : List Rd) (p : List V → Option Bool) (b : Nat) (s : Stmt V)
  /-- `for x in e` -/
  | forr (rs : List Rd) (f : List V → Option (List V)) (b i : Nat) (x : Name) (s : Stmt V)
  | try_ (b₁ : Nat) (s₁ : Stmt V) (b₂ : Nat) (s₂ : Stmt V)
  | brk
  | cont
  | ret (rs : List Rd) (f : List V → Option V)

/-- `ScopeBlock` (scoping.h:57-66): identity, whether there is a suite
(`suite != nullptr`), whether it is a loop (`seenVars != nullptr`). -/
structure Blk where
  id : Nat
  suite : Bool
  loop : Bool
deriving DecidableEq, Repr

/-- What binds a name: a parameter (the `FunctionStmt`), an assignment, or the
declaration the visitor puts at the start of a suite.  Also: the variables of the
compiled function. -/
inductive Bnd where
  | param
  | site (i : Nat)
  | suite (b : Nat)
deriving DecidableEq, Repr

/-- `Context::Item` (scoping.h:76-91). -/
structure Item where
  scope : List Nat
  bnd : Bnd
  ignore : Bool
  acc : List (List Nat)
deriving DecidableEq, Repr

/-- The attributes `ExprDominated` and `ExprDominatedUsed` of a binding occurrence. -/
structure Attr where
  dom : Bool
  used : Bool
deriving DecidableEq, Repr

/-- The state of the visitor for one name: the items of `ctx->map[name]`, most recent
first; whether `ctx->captures[name]` is `Read`; the loops whose `seenVars` contain the
name; the attributes set so far (`attr` of assignments, `sdecl` the count of the entry
of the name in the `BindingsAttribute` of a suite, `chk` the attribute
`ExprDominatedUndefCheck` of reading occurrences); whether an error was reported. -/
structure St where
  items : List Item
  cap : Bool
  seen : List Nat
  attr : Nat → Attr
  sdecl : Nat → Option Nat
  chk : Nat → Bool
  err : Bool

/-- `Context::getScope` (scoping.h:69-75). -/
def ids (cur : List Blk) : List Nat := cur.map Blk.id

/-- `completeDomination` (scoping.cpp:880-881). -/
def dominates (s cur : List Nat) : Bool :=
  s.length ≤ cur.length && s.getLast? == cur[s.length - 1]?

/-- The loop of scoping.cpp:891-893. -/
def shrink (s cur : List Nat) : Nat → Nat
  | 0 => 0
  | c + 1 => if s[c]? = cur[c]? then c + 1 else shrink s cur c

/-- The result of the search: the items before `lastGood`, `lastGood`, the items
after it, `commonScope`. -/
structure Hit where
  pre : List Item
  lg : Item
  post : List Item
  common : Nat

/-- The search for the closest binding that dominates the current scope
(scoping.cpp:870-898); `c` is `commonScope`. -/
def scan (cur : List Nat) : Nat → List Item → Option Hit
  | _, [] => none
  | c, i :: r =>
    if i.ignore then
      (scan cur c r).map fun h => { h with pre := i :: h.pre }
    else if dominates i.scope cur then some ⟨[], i, r, i.scope.length⟩
    else
      let c' := shrink i.scope cur (min c i.scope.length)
      match scan cur c' r with
      | none => some ⟨[], i, r, c'⟩
      | some h => some { h with pre := i :: h.pre }

/-- The loop of scoping.cpp:919-933 that looks for a suite to put the declaration
in: `for (size_t si = commonScope; si-- > 0; si--)`, which passes over every other
block (block 0 always has a suite). -/
def siLoop (cur : List Blk) : Nat → Option Nat
  | 0 => none
  | 1 =>
    match cur[0]? with
    | some b => if b.suite then some b.id else none
    | none => none
  | n + 2 =>
    match cur[n + 1]? with
    | some b => if b.suite then some b.id else siLoop cur n
    | none => none

/-- `switchToUpdate` (scoping.cpp:767-781). -/
def switch (used : Bool) (st : St) (i : Item) : St :=
  match i.bnd with
  | .param => { st with err := true }
  | .site n =>
    { st with attr := fun m =>
        if m = n then (if used then { st.attr n with used := true } else ⟨true, false⟩)
        else st.attr m }
  | .suite b => { st with sdecl := fun c => if c = b then none else st.sdecl c }

/-- `i->scope = lastGood->scope; i->ignore = true` (scoping.cpp:944-945). -/
def absorb (sc : List Nat) (i : Item) : Item := { i with scope := sc, ignore := true }

/-- The last part of `findDominatingBinding` (scoping.cpp:939-951). -/
def finish (used : Bool) (pre : List Item) (lg : Item) (post : List Item) (st : St) :
    St × Option Item :=
  let st := pre.foldl (switch used) st
  let st := { st with items := pre.map (absorb lg.scope) ++ lg :: post }
  match lg.bnd, used with
  | .suite b, false => ({ st with sdecl := fun c => if c = b then some 0 else st.sdecl c }, some lg)
  | _, _ => (st, some lg)

/-- `findDominatingBinding` with `allowShadow` (scoping.cpp:865-952). -/
def find (cur : List Blk) (st : St) : St × Option Item :=
  match scan (ids cur) cur.length st.items with
  | none => (st, none)
  | some h =>
    if h.lg.scope.length ≠ h.common then
      match siLoop cur h.common with
      | some b =>
        let n : Item := ⟨(ids cur).take h.common, .suite b, false, [h.lg.scope]⟩
        let st := { st with sdecl := fun c => if c = b then some 1 else st.sdecl c }
        finish true (h.pre ++ [h.lg]) n h.post st
      | none => finish false h.pre h.lg h.post st
    else
      let used := match h.lg.bnd with
        | .suite b => decide (0 < (st.sdecl b).getD 0)
        | _ => false
      finish used h.pre h.lg h.post st

/-- The loops whose `seenVars` the name is entered in (scoping.cpp:826-837), from
inside to outside. -/
def seenAt (cur : List Blk) (vs : List Nat) : Nat → List Nat
  | 0 => []
  | n + 1 =>
    match cur[n]? with
    | none => []
    | some b =>
      if b.loop then (if vs[n]? = some b.id then [] else b.id :: seenAt cur vs n)
      else seenAt cur vs n

/-- The test of scoping.cpp:843-845. -/
def accOK (cur : List Nat) (a : List Nat) : Bool :=
  a.length ≤ cur.length && a.getLast? == cur[a.length - 1]?

/-- The last part of `visitName` (scoping.cpp:820-860).  `accessChecked` is non-empty
only for the declarations put into a suite, whose binding has the attribute
`Bindings`, so that nothing is added to it (lines 852-855). -/
def lookup (cur : List Blk) (st : St) : St × Bool :=
  match find cur st with
  | (st, none) => (st, false)
  | (st, some v) =>
    let st := { st with seen := seenAt cur v.scope cur.length ++ st.seen }
    if v.acc.isEmpty then (st, false)
    else if v.acc.any (accOK (ids cur)) then (st, false)
    else (st, true)

/-- `visitName` of a binding occurrence (scoping.cpp:787-812, 820-860). -/
def visitAdd (cur : List Blk) (i : Nat) (st : St) : St :=
  if st.cap then { st with err := true }
  else (lookup cur { st with items := ⟨ids cur, .site i, false, []⟩ :: st.items }).1

/-- `visitName` of a reading occurrence and `visit(IdExpr)` (scoping.cpp:131-144,
813-860). -/
def visitRead (cur : List Blk) (r : Nat) (st : St) : St :=
  let st := if st.items.isEmpty then { st with cap := true } else st
  match lookup cur st with
  | (st, true) => { st with chk := fun m => if m = r then true else st.chk m }
  | (st, false) => st

/-- The reading occurrences of an expression. -/
def visitReads (x : Name) (cur : List Blk) (rs : List Rd) (st : St) : St :=
  rs.foldl (fun st r => if r.x = x then visitRead cur r.id st else st) st

/-- `findDominatingBinding` at the end of a loop, if the name is in `seenVars`
(scoping.cpp:327-329). -/
def endLoop (cur : List Blk) (b : Nat) (st : St) : St :=
  if st.seen.contains b then (find cur st).1 else st

/-- The visitor, for the name `x`: `visit` of `AssignStmt`, `ExprStmt`, `IfStmt` and
`IfExpr`/`BinaryExpr`, `WhileStmt`, `ForStmt`, `TryStmt` (scoping.cpp:237-250,
297-357, 402-419). -/
def visit {V : Type} (x : Name) (cur : List Blk) : Stmt V → St → St
  | .skip, st => st
  | .out rs _, st => visitReads x cur rs st
  | .asg i y rs _, st =>
    let st := visitReads x cur rs st
    if y = x then visitAdd cur i st else st
  | .seq s t, st => visit x cur t (visit x cur s st)
  | .ite k rs _ b₁ s₁ b₂ s₂, st =>
    let st := visitReads x cur rs st
    let st := visit x (cur ++ [⟨b₁, k, false⟩]) s₁ st
    visit x (cur ++ [⟨b₂, k, false⟩]) s₂ st
  | .whl rs _ b s, st =>
    let cur' := cur ++ [⟨b, true, true⟩]
    let st := visitReads x cur' rs st
    let st := visit x cur' s st
    endLoop cur b st
  | .forr rs _ b i y s, st =>
    let st := visitReads x cur rs st
    let cur' := cur ++ [⟨b, true, true⟩]
    let st := if y = x then visitAdd cur' i st else st
    let d := st.seen.contains b
    let st := { st with seen := st.seen.filter (· != b) }
    let st := visit x cur' s st
    if d then st else endLoop cur b st
  | .try_ b₁ s₁ b₂ s₂, st =>
    let st := visit x (cur ++ [⟨b₁, true, false⟩]) s₁ st
    visit x (cur ++ [⟨b₂, true, false⟩]) s₂ st
  | .brk, st => st
  | .cont, st => st
  | .ret rs _, st => visitReads x cur rs st

/-- The block of the function's suite (scoping.cpp:555). -/
def root : Blk := ⟨0, true, false⟩

/-- `visit(FunctionStmt)` (scoping.cpp:547-558): the parameters are bound in block 0,
then the body is visited. -/
def analyse {V : Type} (params : List Name) (body : Stmt V) (x : Name) : St :=
  visit x [root] body
    { items := if x ∈ params then [⟨[0], .param, false, []⟩] else []
      cap := false, seen := [], attr := fun _ => ⟨false, false⟩, sdecl := fun _ => none,
      chk := fun _ => false, err := false }

/-! ## The code produced by the type checker -/

/-- What `ctx->find` gives for `x` and for the control variable `x:used`: the latest
declaration in the text (typecheck/ctx.cpp:104-122; declarations are entered with
`ctx->add` and never removed at the end of a block). -/
structure Ctx where
  var : Option Bnd
  used : Option Nat
deriving DecidableEq, Repr

/-- A resolved reading occurrence: the variable (`none`: a name of an enclosing
scope) and the control variable to be tested, if any. -/
structure RRd where
  x : Name
  var : Option Bnd
  chk : Option Nat

/-- The resolved program.  `pro` of a block tells for which names the suite starts by
setting the control variable to `False`. -/
inductive RStmt (V : Type) where
  | skip
  | out (rs : List RRd) (f : List V → Option V)
  /-- assignment to the variable `v` of `x`, and to the control variable `u` -/
  | asg (x : Name) (v : Option Bnd) (u : Option (Option Nat)) (rs : List RRd)
      (f : List V → Option V)
  | seq (s t : RStmt V)
  | ite (rs : List RRd) (p : List V → Option Bool) (b₁ : Nat) (pro₁ : Name → Bool)
      (s₁ : RStmt V) (b₂ : Nat) (pro₂ : Name → Bool) (s₂ : RStmt V)
  | whl (rs : List RRd) (p : List V → Option Bool) (b : Nat) (pro : Name → Bool) (s : RStmt V)
  | forr (rs : List RRd) (f : List V → Option (List V)) (x : Name) (v : Option Bnd)
      (u : Option (Option Nat)) (b : Nat) (pro : Name → Bool) (s : RStmt V)
  | try_ (b₁ : Nat) (pro₁ : Name → Bool) (s₁ : RStmt V) (b₂ : Nat) (pro₂ : Name → Bool)
      (s₂ : RStmt V)
  | brk
  | cont
  | ret (rs : List RRd) (f : List V → Option V)

/-- The declarations at the start of a suite (typecheck/typecheck.cpp:347-356). -/
def enterCtx (T : St) (b : Nat) (c : Ctx) : Ctx :=
  match T.sdecl b with
  | none => c
  | some 0 => { c with var := some (.suite b) }
  | some _ => ⟨some (.suite b), some b⟩

/-- The effect of a binding occurrence on the context: a declaration unless the
occurrence is marked as dominated (typecheck/assign.cpp:40-50, 256-288,
loops.cpp:170-178). -/
def bindCtx (T : St) (i : Nat) (c : Ctx) : Ctx :=
  if (T.attr i).dom || (T.attr i).used then c else { c with var := some (.site i) }

/-- The context after a statement, for the name `x`. -/
def ctxAfter {V : Type} (x : Name) (T : St) : Stmt V → Ctx → Ctx
  | .skip, c => c
  | .out _ _, c => c
  | .asg i y _ _, c => if y = x then bindCtx T i c else c
  | .seq s t, c => ctxAfter x T t (ctxAfter x T s c)
  | .ite _ _ _ b₁ s₁ b₂ s₂, c =>
    ctxAfter x T s₂ (enterCtx T b₂ (ctxAfter x T s₁ (enterCtx T b₁ c)))
  | .whl _ _ b s, c => ctxAfter x T s (enterCtx T b c)
  | .forr _ _ b i y s, c =>
    ctxAfter x T s (enterCtx T b (if y = x then bindCtx T i c else c))
  | .try_ b₁ s₁ b₂ s₂, c =>
    ctxAfter x T s₂ (enterCtx T b₂ (ctxAfter x T s₁ (enterCtx T b₁ c)))
  | .brk, c => c
  | .cont, c => c
  | .ret _ _, c => c

/-- `visit(IdExpr)` of the type checker (typecheck/access.cpp:25-79). -/
def resRead (T : Name → St) (c : Name → Ctx) (r : Rd) : RRd :=
  ⟨r.x, (c r.x).var, if (T r.x).chk r.id then (c r.x).used else none⟩

/-- The variable a binding occurrence assigns to (typecheck/assign.cpp:40-50,
238-252). -/
def resVar (T : St) (i : Nat) (c : Ctx) : Option Bnd := (bindCtx T i c).var

/-- The control variable a binding occurrence sets to `True`
(typecheck/assign.cpp:51-61, loops.cpp:177-183). -/
def resUsed (T : St) (i : Nat) (c : Ctx) : Option (Option Nat) :=
  if (T.attr i).used then some c.used else none

/-- The suite `b` sets the control variable of `x` to `False`
(typecheck/typecheck.cpp:350-352). -/
def pro (T : Name → St) (b : Nat) (x : Name) : Bool :=
  match (T x).sdecl b with
  | none => false
  | some n => 0 < n

/-- The resolved program. -/
def elab_ {V : Type} (T : Name → St) : Stmt V → (Name → Ctx) → RStmt V
  | .skip, _ => .skip
  | .out rs f, c => .out (rs.map (resRead T c)) f
  | .asg i x rs f, c =>
    .asg x (resVar (T x) i (c x)) (resUsed (T x) i (c x)) (rs.map (resRead T c)) f
  | .seq s t, c => .seq (elab_ T s c) (elab_ T t fun x => ctxAfter x (T x) s (c x))
  | .ite _ rs p b₁ s₁ b₂ s₂, c =>
    let c₁ : Name → Ctx := fun x => enterCtx (T x) b₁ (c x)
    let c₂ : Name → Ctx := fun x => enterCtx (T x) b₂ (ctxAfter x (T x) s₁ (c₁ x))
    .ite (rs.map (resRead T c)) p b₁ (pro T b₁) (elab_ T s₁ c₁) b₂ (pro T b₂) (elab_ T s₂ c₂)
  | .whl rs p b s, c =>
    .whl (rs.map (resRead T c)) p b (pro T b) (elab_ T s fun x => enterCtx (T x) b (c x))
  | .forr rs f b i y s, c =>
    let c₁ : Name → Ctx := fun x =>
      enterCtx (T x) b (if y = x then bindCtx (T x) i (c x) else c x)
    .forr (rs.map (resRead T c)) f y (resVar (T y) i (c y)) (resUsed (T y) i (c y)) b (pro T b)
      (elab_ T s c₁)
  | .try_ b₁ s₁ b₂ s₂, c =>
    let c₁ : Name → Ctx := fun x => enterCtx (T x) b₁ (c x)
    let c₂ : Name → Ctx := fun x => enterCtx (T x) b₂ (ctxAfter x (T x) s₁ (c₁ x))
    .try_ b₁ (pro T b₁) (elab_ T s₁ c₁) b₂ (pro T b₂) (elab_ T s₂ c₂)
  | .brk, _ => .brk
  | .cont, _ => .cont
  | .ret rs f, c => .ret (rs.map (resRead T c)) f

/-- The context at the start of the body. -/
def ctx0 (params : List Name) (T : Name → St) (x : Name) : Ctx :=
  enterCtx (T x) 0 ⟨if x ∈ params then some .param else none, none⟩

/-- The compiled function. -/
def compile {V : Type} (params : List Name) (body : Stmt V) : RStmt V :=
  elab_ (analyse params body) body (ctx0 params (analyse params body))

/-! ## Running the compiled function -/

/-- How a statement ends. `ub`: a variable that was never set is read; `bad`: the
compiler could not resolve an occurrence; `fuel`: the bound on the number of steps
was reached. -/
inductive Out (V : Type) where
  | norm
  | brk
  | cont
  | ret (v : V)
  | exc
  | nameErr (x : Name)
  | ub
  | bad
  | fuel
deriving DecidableEq, Repr

/-- The state of the compiled function: its variables, its control variables, and
what was printed. -/
structure CS (V : Type) where
  store : Name → Bnd → Option V
  flags : Name → Nat → Option Bool
  out : List V

/-- Reading a variable, after the test of the control variable if there is one
(typecheck/access.cpp:68-78, stdlib/internal/internal.codon:25-27). -/
def readC {V : Type} (gl : Name → V) (σ : CS V) (r : RRd) : Except (Out V) V :=
  match r.chk.map (σ.flags r.x) with
  | some none => .error .ub
  | some (some false) => .error (.nameErr r.x)
  | _ =>
    match r.var with
    | none => .ok (gl r.x)
    | some v =>
      match σ.store r.x v with
      | none => .error .ub
      | some a => .ok a

def readsC {V : Type} (gl : Name → V) (σ : CS V) : List RRd → Except (Out V) (List V)
  | [] => .ok []
  | r :: rs =>
    match readC gl σ r with
    | .error e => .error e
    | .ok a =>
      match readsC gl σ rs with
      | .error e => .error e
      | .ok as => .ok (a :: as)

/-- Evaluate an expression. -/
def evC {V W : Type} (gl : Name → V) (σ : CS V) (rs : List RRd) (f : List V → Option W) :
    Except (Out V) W :=
  match readsC gl σ rs with
  | .error e => .error e
  | .ok as =>
    match f as with
    | none => .error .exc
    | some a => .ok a

/-- Assign to a variable and to its control variable. -/
def setC {V : Type} (x : Name) (v : Bnd) (u : Option Nat) (a : V) (σ : CS V) : CS V :=
  { σ with
    store := fun y w => if y = x ∧ w = v then some a else σ.store y w
    flags := fun y b => if y = x ∧ u = some b then some true else σ.flags y b }

/-- The assignment of a binding occurrence. -/
def bindC {V : Type} (x : Name) (v : Option Bnd) (u : Option (Option Nat)) (a : V) (σ : CS V) :
    Except (Out V) (CS V) :=
  match v, u with
  | none, _ => .error .bad
  | _, some none => .error .bad
  | some v, some (some b) => .ok (setC x v (some b) a σ)
  | some v, none => .ok (setC x v none a σ)

/-- The start of a suite. -/
def enterC {V : Type} (b : Nat) (pro : Name → Bool) (σ : CS V) : CS V :=
  { σ with flags := fun y c => if c = b ∧ pro y then some false else σ.flags y c }

mutual
/-- Run the compiled function; the first argument bounds the depth of the run. -/
def runC {V : Type} (gl : Name → V) : Nat → RStmt V → CS V → CS V × Out V
  | 0, _, σ => (σ, .fuel)
  | _ + 1, .skip, σ => (σ, .norm)
  | _ + 1, .out rs f, σ =>
    match evC gl σ rs f with
    | .error e => (σ, e)
    | .ok a => ({ σ with out := σ.out ++ [a] }, .norm)
  | _ + 1, .asg x v u rs f, σ =>
    match evC gl σ rs f with
    | .error e => (σ, e)
    | .ok a =>
      match bindC x v u a σ with
      | .error e => (σ, e)
      | .ok σ => (σ, .norm)
  | n + 1, .seq s t, σ =>
    match runC gl n s σ with
    | (σ, .norm) => runC gl n t σ
    | r => r
  | n + 1, .ite rs p b₁ pro₁ s₁ b₂ pro₂ s₂, σ =>
    match evC gl σ rs p with
    | .error e => (σ, e)
    | .ok true => runC gl n s₁ (enterC b₁ pro₁ σ)
    | .ok false => runC gl n s₂ (enterC b₂ pro₂ σ)
  | n + 1, .whl rs p b pr s, σ =>
    match evC gl σ rs p with
    | .error e => (σ, e)
    | .ok false => (σ, .norm)
    | .ok true =>
      match runC gl n s (enterC b pr σ) with
      | (σ, .norm) => runC gl n (.whl rs p b pr s) σ
      | (σ, .cont) => runC gl n (.whl rs p b pr s) σ
      | (σ, .brk) => (σ, .norm)
      | r => r
  | n + 1, .forr rs f x v u b pr s, σ =>
    match evC gl σ rs f with
    | .error e => (σ, e)
    | .ok vs => forC gl n vs x v u b pr s σ
  | n + 1, .try_ b₁ pro₁ s₁ b₂ pro₂ s₂, σ =>
    match runC gl n s₁ (enterC b₁ pro₁ σ) with
    | (σ, .exc) => runC gl n s₂ (enterC b₂ pro₂ σ)
    | r => r
  | _ + 1, .brk, σ => (σ, .brk)
  | _ + 1, .cont, σ => (σ, .cont)
  | _ + 1, .ret rs f, σ =>
    match evC gl σ rs f with
    | .error e => (σ, e)
    | .ok a => (σ, .ret a)

/-- The iterations of a `for` loop over the remaining values. -/
def forC {V : Type} (gl : Name → V) : Nat → List V → Name → Option Bnd → Option (Option Nat) →
    Nat → (Name → Bool) → RStmt V → CS V → CS V × Out V
  | 0, _, _, _, _, _, _, _, σ => (σ, .fuel)
  | _ + 1, [], _, _, _, _, _, _, σ => (σ, .norm)
  | n + 1, a :: vs, x, v, u, b, pr, s, σ =>
    match bindC x v u a σ with
    | .error e => (σ, e)
    | .ok σ =>
      match runC gl n s (enterC b pr σ) with
      | (σ, .norm) => forC gl n vs x v u b pr s σ
      | (σ, .cont) => forC gl n vs x v u b pr s σ
      | (σ, .brk) => (σ, .norm)
      | r => r
end

/-- The state on entry: the parameters hold the arguments, the suite of the function
has started. -/
def initC {V : Type} (args : Name → Option V) (pr : Name → Bool) : CS V :=
  enterC 0 pr
    { store := fun x v => if v = .param then args x else none
      flags := fun _ _ => none
      out := [] }

/-- Call the compiled function. -/
def callC {V : Type} (gl : Name → V) (params : List Name) (body : Stmt V)
    (args : Name → Option V) (n : Nat) : CS V × Out V :=
  runC gl n (compile params body) (initC args (pro (analyse params body) 0))

end Verif.Scope
