import Mathlib.Tactic.Basic

/-!
# Lowering of comprehensions and of list, set and dictionary displays

Source: `/repo/codon/parser/visitors/typecheck/collections.cpp:24-51` (displays), `:56-112`
(comprehensions), `:159-320` (`transformComprehension`),
`/repo/codon/parser/ast/expr.cpp:285-334` (`loopCount`, `setFinalExpr`, `getFinalStmt`,
`formCompleteStmt`), `/repo/codon/parser/ast/stmt.cpp:72-76` (`SuiteStmt::wrap`).

Expressions are opaque: what they do when evaluated is given by the record `Lang`, as a function
from the world (all memory, all program variables) to a value or an exception and a new world.
The temporaries that the lowering makes (`gen`, `cont`, `i`, `it`) have fresh names, so no
expression reads or writes them: they are kept apart from the world, in `St`.

Not modelled: the tuple generator and the lazy generator expression (`collections.cpp:113-156`),
`async for`, and the element type that `transformComprehension` computes first
(`collections.cpp:166-253`).
-/

namespace Codon.Compr

/-- The three containers (`collections.cpp:26, 36, 46`). -/
inductive Kind where
  | list
  | set
  | dict
  deriving DecidableEq, Repr

/-- What an expression evaluation or a method call ends in. -/
abbrev Ans (E W α : Type) := Except E α × W

/-- What the pieces of the program do.  `X` are expressions, `T` loop targets, `V` values, `C`
containers, `E` exceptions, `W` worlds.

* `eval`: evaluation of an expression;
* `iter`, `next`: `__iter__` and one step of the generator that it returns (`none`: it is
  exhausted);
* `truth`: the test of an `if`;
* `len`: `__len__`;
* `bind`: assignment of a value to a loop target;
* `items`: the method `items` of a dictionary;
* `new`: the constructor `List(…)`, `Set()`, `Dict()`; the capacity passed to `List` is not an
  argument, as nothing a list does depends on it (`/repo/stdlib/internal/types/collections/
  list.codon:22-26, 387-392`, property C23);
* `add`: `append` of a list and `add` of a set;
* `setitem`: `__setitem__` of a dictionary;
* `pair`, `fst`, `snd`: making a tuple of two, and reading its parts. -/
structure Lang (X T V C E W : Type) where
  eval : X → W → Ans E W V
  iter : V → W → Ans E W V
  next : V → W → Ans E W (Option V)
  truth : V → W → Ans E W Bool
  len : V → W → Ans E W Int
  bind : T → V → W → Ans E W Unit
  items : V → W → Ans E W V
  new : Kind → C
  add : Kind → C → V → W → Ans E W C
  setitem : C → V → V → W → Ans E W C
  pair : V → V → V
  fst : V → V
  snd : V → V

/-- The final expression of a comprehension or one plain item of a display: `e`, or `k: v`, which
the parser makes the tuple `(k, v)` (`/repo/codon/parser/peg/grammar.peg:673-690`). -/
inductive Elt (X : Type) where
  | one (e : X)
  | pair (k v : X)
  deriving DecidableEq, Repr

/-- An argument of a call in the lowered program: an expression of the source (`arg`), the
variable of a star loop (`tmp`) or one of its parts (`tmp0`, `tmp1`), the item of a dictionary
display stored in a temporary and its first part (`(star := (k, v))[0]`), that temporary's second
part (`star[1]`). -/
inductive Arg (X : Type) where
  | elt (e : Elt X)
  | tmp
  | tmp0
  | tmp1
  | lead0 (e : Elt X)
  | lead1
  deriving DecidableEq, Repr

/-- What a loop of the lowered program runs over: `e` (the loop calls `__iter__`), the temporary
`i` (likewise), `e.__iter__()`, `e.items()` (both are generators already). -/
inductive Src (X : Type) where
  | ex (e : X)
  | var
  | iterOf (e : X)
  | items (e : X)
  deriving DecidableEq, Repr

/-- Statements of the lowered program.  A suite is a chain of `seq` that ends in `skip`.
`final e` is the statement `e` that the parser puts innermost; `call f a` is `gen.f(a…)`, with
one, two, or one starred argument; `for_ none` binds the temporary of a star loop. -/
inductive Stmt (X T : Type) where
  | skip
  | seq (a b : Stmt X T)
  | final (e : Elt X)
  | call (k : Kind) (a : List (Arg X)) (star : Bool)
  | new (k : Kind) (cap : Option Nat)
  | setIter (e : X)
  | newLen (k : Kind)
  | for_ (t : Option T) (s : Src X) (body : Stmt X T)
  | if_ (c : X) (body : Stmt X T)
  deriving DecidableEq, Repr

/-- One clause of a comprehension as the parser hands it over. -/
inductive Clause (X T : Type) where
  | for_ (t : T) (e : X)
  | if_ (e : X)
  deriving DecidableEq, Repr

variable {X T V C E W : Type}

/-- `SuiteStmt::wrap` (`stmt.cpp:72-76`). -/
def wrap : Stmt X T → Stmt X T
  | .skip => .skip
  | .seq a b => .seq a b
  | s => .seq s .skip

/-- `GeneratorExpr::formCompleteStmt` (`expr.cpp:324-334`): each clause holds the next one, the
last one the final expression, wrapped in a suite. -/
def form (e : Elt X) : List (Clause X T) → Stmt X T
  | [] => .seq (.final e) .skip
  | .for_ t x :: r => .for_ (some t) (.ex x) (wrap (form e r))
  | .if_ c :: r => .if_ c (wrap (form e r))

/-- `GeneratorExpr::loopCount` (`expr.cpp:285-302`): the walk goes into the last statement of a
suite. -/
def loopCount : Stmt X T → Nat
  | .for_ _ _ b => loopCount b + 1
  | .if_ _ b => loopCount b + 1
  | .seq a .skip => loopCount a
  | .seq _ (.seq b c) => loopCount (.seq b c)
  | _ => 0

/-- `GeneratorExpr::getFinalStmt` (`expr.cpp:308-323`) followed by the assignment of
`setFinalExpr` (`:303-305`): the statement that the walk reaches is replaced by what `f` makes of
it.  -/
def setFinal (f : Elt X → Stmt X T) : Stmt X T → Stmt X T
  | .for_ t s b => .for_ t s (setFinal f b)
  | .if_ c b => .if_ c (setFinal f b)
  | .seq a .skip => .seq (setFinal f a) .skip
  | .seq a (.seq b c) => .seq a (setFinal f (.seq b c))
  | .final e => f e
  | s => s

/-- What becomes of the final expression (`collections.cpp:74-75, 103-104, 110-111`). -/
def finalCall (k : Kind) (e : Elt X) : Stmt X T :=
  match k with
  | .dict => .call .dict [.elt e] true
  | k => .call k [.elt e] false

/-- `TypecheckVisitor::visit(GeneratorExpr *)` for the three eager kinds
(`collections.cpp:56-112`).  `hasLen x`: the type of `x` has the method `__len__`
(`hasattr(x, "__len__")` is decided at compile time); `static x`: `x` is a call of a function
whose name begins with `std.internal.static`. -/
def lower (hasLen static : X → Bool) (k : Kind) (e : Elt X) (cs : List (Clause X T)) :
    Stmt X T :=
  let loops := form e cs
  let suite := setFinal (finalCall k) loops
  let plain := Stmt.seq (.new k none) (.seq suite .skip)
  match k with
  | .list =>
    if loopCount loops = 1 then
      match suite with
      | .for_ t (.ex x) b =>
        if !static x && hasLen x then
          .seq (.setIter x) (.seq (.newLen k) (.seq (.for_ t .var b) .skip))
        else plain
      | _ => plain
    else plain
  | _ => plain

/-- An item of a display: `e` or `k: v`; `*e` in a list or set; `**e` in a dictionary. -/
inductive Item (X : Type) where
  | elt (e : Elt X)
  | star (e : X)
  | dstar (e : X)
  deriving DecidableEq, Repr

/-- The statement for one item (`collections.cpp:279-317`).  The item of a dictionary is always a
tuple expression, for which `hasSideEffect` is true (`typecheck.cpp:1309-1313`), so it is stored in
a temporary. -/
def itemStmt (k : Kind) (i : Item X) : Stmt X T :=
  match i with
  | .elt e =>
    if k = .dict then .call .dict [.lead0 e, .lead1] false else .call k [.elt e] false
  | .star e => .for_ none (.iterOf e) (.seq (.call k [.tmp] false) .skip)
  | .dstar e => .for_ none (.items e) (.seq (.call k [.tmp0, .tmp1] false) .skip)

/-- `transformComprehension`, the statements it makes (`collections.cpp:255-319`). -/
def display (k : Kind) (is : List (Item X)) : Stmt X T :=
  .seq (.new k (if k = .list ∧ is ≠ [] then some is.length else none))
    (is.foldr (fun i r => .seq (itemStmt k i) r) .skip)

/-- The temporaries: `gen`/`cont`, `i`, the variable of a star loop, `star`. -/
structure St (V C : Type) where
  coll : Option C := none
  src : Option V := none
  tmp : Option V := none
  lead : Option V := none

/-- How a run of a statement ends: `more`: the bound on the number of loop iterations is used up;
`stuck`: a temporary is read before it is set, or a call has the wrong number of arguments. -/
inductive Out (V C E W : Type) where
  | more
  | stuck
  | raise (e : E) (w : W)
  | ok (s : St V C) (w : W)

/-- Go on after an evaluation, unless it raised. -/
def andThen {α : Type} (r : Ans E W α) (f : α → W → Out V C E W) : Out V C E W :=
  match r.1 with
  | .ok a => f a r.2
  | .error e => .raise e r.2

/-- Go on after a statement. -/
def Out.next (o : Out V C E W) (f : St V C → W → Out V C E W) : Out V C E W :=
  match o with
  | .ok s w => f s w
  | .raise e w => .raise e w
  | .more => .more
  | .stuck => .stuck

/-- Go on with the value of a temporary. -/
def have_ {α : Type} (o : Option α) (f : α → Out V C E W) : Out V C E W :=
  match o with
  | some a => f a
  | none => .stuck

/-- The value of an element: `e`, or the tuple `(k, v)`, evaluated from left to right. -/
def evalElt (L : Lang X T V C E W) (e : Elt X) (w : W) (f : V → W → Out V C E W) :
    Out V C E W :=
  match e with
  | .one x => andThen (L.eval x w) f
  | .pair k v =>
    andThen (L.eval k w) fun a w => andThen (L.eval v w) fun b w => f (L.pair a b) w

/-- Evaluation of an argument; the state changes when `star` is assigned. -/
def evalArg (L : Lang X T V C E W) (a : Arg X) (s : St V C) (w : W)
    (f : V → St V C → W → Out V C E W) : Out V C E W :=
  match a with
  | .elt e => evalElt L e w fun v w => f v s w
  | .tmp => have_ s.tmp fun v => f v s w
  | .tmp0 => have_ s.tmp fun v => f (L.fst v) s w
  | .tmp1 => have_ s.tmp fun v => f (L.snd v) s w
  | .lead0 e => evalElt L e w fun v w => f (L.fst v) { s with lead := some v } w
  | .lead1 => have_ s.lead fun v => f (L.snd v) s w

/-- The call `gen.fn(args)`: `append`, `add` or `__setitem__`; a starred argument is a tuple of
two. -/
def callFn (L : Lang X T V C E W) (k : Kind) (vs : List V) (c : C) (w : W)
    (f : C → W → Out V C E W) : Out V C E W :=
  match k, vs with
  | .dict, [a, b] => andThen (L.setitem c a b w) f
  | .dict, _ => .stuck
  | k, [a] => andThen (L.add k c a w) f
  | _, _ => .stuck

/-- Evaluation of the arguments from left to right, then the call. -/
def execCall (L : Lang X T V C E W) (k : Kind) (as : List (Arg X)) (star : Bool) (vs : List V)
    (s : St V C) (w : W) : Out V C E W :=
  match as with
  | a :: r => evalArg L a s w fun v s w =>
    execCall L k r star (vs ++ (if star then [L.fst v, L.snd v] else [v])) s w
  | [] => have_ s.coll fun c => callFn L k vs c w fun c w => .ok { s with coll := some c } w

/-- A loop over the generator `it`; `set` stores the item in the target. -/
def loop (L : Lang X T V C E W) (set : V → St V C → W → Out V C E W)
    (body : St V C → W → Out V C E W) (it : V) : Nat → St V C → W → Out V C E W
  | 0, _, _ => .more
  | n + 1, s, w => andThen (L.next it w) fun o w =>
    match o with
    | none => .ok s w
    | some v => (set v s w).next fun s w => (body s w).next fun s w =>
      loop L set body it n s w

/-- The generator that a loop runs over. -/
def source (L : Lang X T V C E W) (x : Src X) (s : St V C) (w : W)
    (f : V → W → Out V C E W) : Out V C E W :=
  match x with
  | .ex e => andThen (L.eval e w) fun v w => andThen (L.iter v w) f
  | .var => have_ s.src fun v => andThen (L.iter v w) f
  | .iterOf e => andThen (L.eval e w) fun v w => andThen (L.iter v w) f
  | .items e => andThen (L.eval e w) fun v w => andThen (L.items v w) f

/-- Storing an item: in the program's loop target, or in the loop's temporary. -/
def store (L : Lang X T V C E W) (t : Option T) (v : V) (s : St V C) (w : W) : Out V C E W :=
  match t with
  | some t => andThen (L.bind t v w) fun _ w => .ok s w
  | none => .ok { s with tmp := some v } w

/-- The meaning of the lowered statements; every loop makes at most `n` steps. -/
def exec (L : Lang X T V C E W) (n : Nat) : Stmt X T → St V C → W → Out V C E W
  | .skip, s, w => .ok s w
  | .seq a b, s, w => (exec L n a s w).next fun s w => exec L n b s w
  | .final e, s, w => evalElt L e w fun _ w => .ok s w
  | .call k as star, s, w => execCall L k as star [] s w
  | .new k _, s, w => .ok { s with coll := some (L.new k) } w
  | .setIter e, s, w => andThen (L.eval e w) fun v w => .ok { s with src := some v } w
  | .newLen k, s, w => have_ s.src fun v => andThen (L.len v w) fun _ w =>
    .ok { s with coll := some (L.new k) } w
  | .for_ t x b, s, w => source L x s w fun it w =>
    loop L (store L t) (fun s w => exec L n b s w) it n s w
  | .if_ c b, s, w => andThen (L.eval c w) fun v w => andThen (L.truth v w) fun q w =>
    if q then exec L n b s w else .ok s w

/-- A statement expression `(stmts; gen)`: run the statements, then the value of `gen`. -/
def value (L : Lang X T V C E W) (n : Nat) (p : Stmt X T) (w : W) : Option (Option (Ans E W C)) :=
  match exec L n p {} w with
  | .more => none
  | .stuck => some none
  | .raise e w => some (some (.error e, w))
  | .ok s w => some (s.coll.map fun c => (.ok c, w))

end Codon.Compr
