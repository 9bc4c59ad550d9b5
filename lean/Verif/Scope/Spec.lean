import Verif.Scope.Model

/-!
# Specification: the names of a Python function

A name is local to a function if it is a parameter or is bound somewhere in the
body.  All occurrences of a local name denote one variable of the activation;
reading it before it was ever bound is a `NameError`.
-/

namespace Verif.Scope

/-- The labels of the occurrences that bind `x`. -/
def sites {V : Type} (x : Name) : Stmt V → List Nat
  | .asg i y _ _ => if y = x then [i] else []
  | .seq s t => sites x s ++ sites x t
  | .ite _ _ _ _ s₁ _ s₂ => sites x s₁ ++ sites x s₂
  | .whl _ _ _ s => sites x s
  | .forr _ _ _ i y s => (if y = x then [i] else []) ++ sites x s
  | .try_ _ s₁ _ s₂ => sites x s₁ ++ sites x s₂
  | _ => []

/-- The state of a Python activation. -/
structure PS (V : Type) where
  env : Name → Option V
  out : List V

def readP {V : Type} (loc : Name → Bool) (gl : Name → V) (σ : PS V) (r : Rd) :
    Except (Out V) V :=
  if loc r.x then
    match σ.env r.x with
    | none => .error (.nameErr r.x)
    | some a => .ok a
  else .ok (gl r.x)

def readsP {V : Type} (loc : Name → Bool) (gl : Name → V) (σ : PS V) :
    List Rd → Except (Out V) (List V)
  | [] => .ok []
  | r :: rs =>
    match readP loc gl σ r with
    | .error e => .error e
    | .ok a =>
      match readsP loc gl σ rs with
      | .error e => .error e
      | .ok as => .ok (a :: as)

def evP {V W : Type} (loc : Name → Bool) (gl : Name → V) (σ : PS V) (rs : List Rd)
    (f : List V → Option W) : Except (Out V) W :=
  match readsP loc gl σ rs with
  | .error e => .error e
  | .ok as =>
    match f as with
    | none => .error .exc
    | some a => .ok a

def setP {V : Type} (x : Name) (a : V) (σ : PS V) : PS V :=
  { σ with env := fun y => if y = x then some a else σ.env y }

mutual
def runP {V : Type} (loc : Name → Bool) (gl : Name → V) : Nat → Stmt V → PS V → PS V × Out V
  | 0, _, σ => (σ, .fuel)
  | _ + 1, .skip, σ => (σ, .norm)
  | _ + 1, .out rs f, σ =>
    match evP loc gl σ rs f with
    | .error e => (σ, e)
    | .ok a => ({ σ with out := σ.out ++ [a] }, .norm)
  | _ + 1, .asg _ x rs f, σ =>
    match evP loc gl σ rs f with
    | .error e => (σ, e)
    | .ok a => (setP x a σ, .norm)
  | n + 1, .seq s t, σ =>
    match runP loc gl n s σ with
    | (σ, .norm) => runP loc gl n t σ
    | r => r
  | n + 1, .ite _ rs p _ s₁ _ s₂, σ =>
    match evP loc gl σ rs p with
    | .error e => (σ, e)
    | .ok true => runP loc gl n s₁ σ
    | .ok false => runP loc gl n s₂ σ
  | n + 1, .whl rs p b s, σ =>
    match evP loc gl σ rs p with
    | .error e => (σ, e)
    | .ok false => (σ, .norm)
    | .ok true =>
      match runP loc gl n s σ with
      | (σ, .norm) => runP loc gl n (.whl rs p b s) σ
      | (σ, .cont) => runP loc gl n (.whl rs p b s) σ
      | (σ, .brk) => (σ, .norm)
      | r => r
  | n + 1, .forr rs f _ _ x s, σ =>
    match evP loc gl σ rs f with
    | .error e => (σ, e)
    | .ok vs => forP loc gl n vs x s σ
  | n + 1, .try_ _ s₁ _ s₂, σ =>
    match runP loc gl n s₁ σ with
    | (σ, .exc) => runP loc gl n s₂ σ
    | r => r
  | _ + 1, .brk, σ => (σ, .brk)
  | _ + 1, .cont, σ => (σ, .cont)
  | _ + 1, .ret rs f, σ =>
    match evP loc gl σ rs f with
    | .error e => (σ, e)
    | .ok a => (σ, .ret a)

def forP {V : Type} (loc : Name → Bool) (gl : Name → V) :
    Nat → List V → Name → Stmt V → PS V → PS V × Out V
  | 0, _, _, _, σ => (σ, .fuel)
  | _ + 1, [], _, _, σ => (σ, .norm)
  | n + 1, a :: vs, x, s, σ =>
    match runP loc gl n s (setP x a σ) with
    | (σ, .norm) => forP loc gl n vs x s σ
    | (σ, .cont) => forP loc gl n vs x s σ
    | (σ, .brk) => (σ, .norm)
    | r => r
end

/-- A name is local to the function. -/
def isLocal {V : Type} (params : List Name) (body : Stmt V) (x : Name) : Bool :=
  params.contains x || !(sites x body).isEmpty

/-- Call the function as Python does. -/
def callP {V : Type} (gl : Name → V) (params : List Name) (body : Stmt V)
    (args : Name → Option V) (n : Nat) : PS V × Out V :=
  runP (isLocal params body) gl n body ⟨args, []⟩

/-! ## Shape of programs -/

/-- The labels of the blocks of a statement. -/
def blocks {V : Type} : Stmt V → List Nat
  | .seq s t => blocks s ++ blocks t
  | .ite _ _ _ b₁ s₁ b₂ s₂ => b₁ :: blocks s₁ ++ b₂ :: blocks s₂
  | .whl _ _ b s => b :: blocks s
  | .forr _ _ b _ _ s => b :: blocks s
  | .try_ b₁ s₁ b₂ s₂ => b₁ :: blocks s₁ ++ b₂ :: blocks s₂
  | _ => []

/-- The labels of all binding occurrences. -/
def allSites {V : Type} : Stmt V → List Nat
  | .asg i _ _ _ => [i]
  | .seq s t => allSites s ++ allSites t
  | .ite _ _ _ _ s₁ _ s₂ => allSites s₁ ++ allSites s₂
  | .whl _ _ _ s => allSites s
  | .forr _ _ _ i _ s => i :: allSites s
  | .try_ _ s₁ _ s₂ => allSites s₁ ++ allSites s₂
  | _ => []

/-- The labels of all reading occurrences. -/
def reads {V : Type} : Stmt V → List Nat
  | .out rs _ => rs.map Rd.id
  | .asg _ _ rs _ => rs.map Rd.id
  | .seq s t => reads s ++ reads t
  | .ite _ rs _ _ s₁ _ s₂ => rs.map Rd.id ++ reads s₁ ++ reads s₂
  | .whl rs _ _ s => rs.map Rd.id ++ reads s
  | .forr rs _ _ _ _ s => rs.map Rd.id ++ reads s
  | .try_ _ s₁ _ s₂ => reads s₁ ++ reads s₂
  | .ret rs _ => rs.map Rd.id
  | _ => []

/-- The blocks inside loops. -/
def loopBlocks {V : Type} : Stmt V → List Nat
  | .seq s t => loopBlocks s ++ loopBlocks t
  | .ite _ _ _ _ s₁ _ s₂ => loopBlocks s₁ ++ loopBlocks s₂
  | .whl _ _ b s => b :: blocks s
  | .forr _ _ b _ _ s => b :: blocks s
  | .try_ _ s₁ _ s₂ => loopBlocks s₁ ++ loopBlocks s₂
  | _ => []

/-- No assignment is inside an expression. -/
def plain {V : Type} : Stmt V → Bool
  | .seq s t => plain s && plain t
  | .ite k _ _ _ s₁ _ s₂ => k && plain s₁ && plain s₂
  | .whl _ _ _ s => plain s
  | .forr _ _ _ _ _ s => plain s
  | .try_ _ s₁ _ s₂ => plain s₁ && plain s₂
  | _ => true

/-- The occurrences of `x` in the order of the text: `true` binds, `false` reads. -/
def occs {V : Type} (x : Name) : Stmt V → List Bool
  | .out rs _ => readsOf x rs
  | .asg _ y rs _ => readsOf x rs ++ if y = x then [true] else []
  | .seq s t => occs x s ++ occs x t
  | .ite _ rs _ _ s₁ _ s₂ => readsOf x rs ++ occs x s₁ ++ occs x s₂
  | .whl rs _ _ s => readsOf x rs ++ occs x s
  | .forr rs _ _ _ y s => readsOf x rs ++ (if y = x then [true] else []) ++ occs x s
  | .try_ _ s₁ _ s₂ => occs x s₁ ++ occs x s₂
  | .ret rs _ => readsOf x rs
  | _ => []
where
  readsOf (x : Name) (rs : List Rd) : List Bool := (rs.filter (·.x = x)).map fun _ => false

/-- The first statement that binds `x` is not inside a block of `s`. -/
def topFirst {V : Type} (x : Name) : Stmt V → Bool
  | .asg _ y _ _ => y = x
  | .seq s t => topFirst x s || ((sites x s).isEmpty && topFirst x t)
  | _ => false

/-- If `x` is first bound (in the order of the text) inside a loop, then this is the
variable of a `for` loop, or not inside a further block of the loop; `bnd`: there is
an earlier binding. -/
def settled {V : Type} (x : Name) : Bool → Stmt V → Bool
  | bnd, .seq s t => settled x bnd s && settled x (bnd || !(sites x s).isEmpty) t
  | bnd, .ite _ _ _ _ s₁ _ s₂ => settled x bnd s₁ && settled x (bnd || !(sites x s₁).isEmpty) s₂
  | bnd, .try_ _ s₁ _ s₂ => settled x bnd s₁ && settled x (bnd || !(sites x s₁).isEmpty) s₂
  | bnd, .whl _ _ _ s => bnd || (sites x s).isEmpty || topFirst x s
  | bnd, .forr _ _ _ _ y s => bnd || decide (y = x) || (sites x s).isEmpty || topFirst x s
  | _, _ => true

/-- Distinct nodes have distinct labels; block 0 is the suite of the function. -/
def Labelled {V : Type} (s : Stmt V) : Prop :=
  (0 :: blocks s).Nodup ∧ (allSites s).Nodup ∧ (reads s).Nodup

/-- No name that the function binds is read, in the order of the text, before it is
first bound. -/
def BoundFirst {V : Type} (params : List Name) (body : Stmt V) : Prop :=
  ∀ x, x ∉ params → ∀ t, occs x body = false :: t → true ∉ t

end Verif.Scope
