/-!
# Model of the lowering of `with` statements

`codon/parser/visitors/typecheck/error.cpp:220-248` (`visit(WithStmt)`): the statement becomes assignments, calls of
`__enter__` and nested `try … finally` statements.

Everything else is arbitrary: the state `U` of the program with its variables, and what the expressions, the methods
`__enter__` and `__exit__` and the suite do to it; each may raise an exception or not terminate.  The variables made
by `getTemporaryVar` are kept apart from `U`, since no other code mentions them.  `async with` differs only by
awaiting the two calls and is not distinguished.  That `try … finally` means what the evaluator here says is C52.
-/

namespace Codon.WithM

/-- How a statement ends. -/
inductive Out
  | normal | brk | cont
  | ret (v : Nat)
  | raised (x : Nat)
  deriving DecidableEq

/-- The result of an expression, or an exception; `none` if it does not terminate. -/
abbrev Res (α U : Type) := Option (Except Nat α × U)

/-- The result of a statement. -/
abbrev SRes (U : Type) := Option (Out × U)

/-- The program around: reading and assigning variables, expressions, the methods of the context managers (objects
are numbers), and the suite of the statement. -/
structure Sem (U : Type) where
  get : U → Nat → Nat
  set : U → Nat → Nat → U
  expr : Nat → U → Res Nat U
  enter : Nat → U → Res Nat U
  exit : Nat → U → Res Nat U
  suite : U → SRes U

/-- A name: of the user's, or made by `getTemporaryVar`. -/
inductive Name
  | user (x : Nat)
  | temp (n : Nat)
  deriving DecidableEq

/-- The statements that occur in the lowered form. -/
inductive Stmt
  | assign (x : Name) (e : Nat)
  | enter (x : Name)
  | exit (x : Name)
  | seq (a b : Stmt)
  | tryFinally (a b : Stmt)
  | suite
  deriving DecidableEq

/-- The program's state and the temporary variables. -/
structure World (U : Type) where
  u : U
  temp : Nat → Nat

def World.get {U : Type} (S : Sem U) (w : World U) : Name → Nat
  | .user x => S.get w.u x
  | .temp n => w.temp n

def World.set {U : Type} (S : Sem U) (w : World U) : Name → Nat → World U
  | .user x, v => ⟨S.set w.u x v, w.temp⟩
  | .temp n, v => ⟨w.u, fun m => if m = n then v else w.temp m⟩

/-- A call as a statement: the result is dropped. -/
def callStmt {U : Type} (w : World U) (r : Res Nat U) : Option (Out × World U) :=
  match r with
  | none => none
  | some (.error x, u) => some (.raised x, ⟨u, w.temp⟩)
  | some (.ok _, u) => some (.normal, ⟨u, w.temp⟩)

/-- The meaning of the lowered statements. -/
def exec {U : Type} (S : Sem U) : Stmt → World U → Option (Out × World U)
  | .assign x e, w =>
    match S.expr e w.u with
    | none => none
    | some (.error y, u) => some (.raised y, ⟨u, w.temp⟩)
    | some (.ok v, u) => some (.normal, World.set S ⟨u, w.temp⟩ x v)
  | .enter x, w => callStmt w (S.enter (w.get S x) w.u)
  | .exit x, w => callStmt w (S.exit (w.get S x) w.u)
  | .suite, w =>
    match S.suite w.u with
    | none => none
    | some (o, u) => some (o, ⟨u, w.temp⟩)
  | .seq a b, w =>
    match exec S a w with
    | some (.normal, w) => exec S b w
    | r => r
  | .tryFinally a b, w =>
    match exec S a w with
    | none => none
    | some (o, w) =>
      match exec S b w with
      | some (.normal, w) => some (o, w)
      | r => r

/-- error.cpp:227: the name for an item, and the next number of a temporary variable. -/
def itemName (x : Option Nat) (next : Nat) : Name × Nat :=
  match x with
  | some x => (.user x, next)
  | none => (.temp next, next + 1)

/-- error.cpp:225-247: the loop from the last item to the first.  `items` are the remaining items, last first;
`content` is what was built so far (`none` for the empty vector). -/
def lowerLoop : List (Nat × Option Nat) → Nat → Option Stmt → Option Stmt
  | [], _, content => content
  | (e, x) :: items, next, content =>
    let (var, next) := itemName x next
    lowerLoop items next (some
      (.seq (.assign var e) (.seq (.enter var)
        (.tryFinally (content.getD .suite) (.exit var)))))

/-- error.cpp:220-248 `visit(WithStmt)`; `next` is the state of the counter of temporary variables. -/
def lower (items : List (Nat × Option Nat)) (next : Nat) : Option Stmt := lowerLoop items.reverse next none

end Codon.WithM
