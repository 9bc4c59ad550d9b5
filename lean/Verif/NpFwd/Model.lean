/-!
# Model of the forwarding of NumPy expressions: codon/cir/transform/numpy/forward.cpp

`y = a + b; …; z = y * c` becomes `…; z = (a + b) * c` if `y` has no other use and the expression can be evaluated later.  What an expression is turned into is the subject of C71; here an
expression is evaluated as in the program (operands from left to right, each operation when its operands are there) or, after the pass, as `NumPyOptimizationUnit::optimize` does it: first all leaves,
then the operations.

Arrays are named by the place in the program (the site) where they are made and a number, so that programs can be compared that do not make the same arrays.  The contents of arrays and numbers are of
any type `V`.  `none` as a result means that an exception is raised.
-/
namespace Codon.NpFwd

abbrev Var := Nat

/-- The site of the statement that made an array, and how many it had made before. -/
abbrev Loc := Nat × Nat

/-- A value: a number, or an array that can be changed. -/
inductive Val (V : Type) where
  | imm (c : V)
  | arr (l : Loc)

variable {V : Type}

/-- Variables, arrays, and how many arrays every site has made. -/
structure State (V : Type) where
  env : Var → Option (Val V)
  mem : Loc → Option V
  cnt : Nat → Nat

/-- A call of a function of which only this is known: what it does, and the result of the side effect analysis. -/
structure Call (V : Type) where
  run : State V → Option (State V × Val V)
  se : Bool
  uses : List Var

/-- A leaf of an expression. -/
inductive Leaf (V : Type) where
  | var (x : Var)
  | num (c : V)
  | call (f : Call V)

/-- `NumPyExpr`: every leaf has its identity, the pointer in the code; an operation gives the contents of a new array or raises an exception (`none`). -/
inductive Tree (V : Type) where
  | leaf (id : Nat) (a : Leaf V)
  | bin (op : V → V → Option V) (l r : Tree V)

/-- The leaves in the order of `parse` (numpy.cpp:462-690). -/
def Tree.leaves : Tree V → List (Nat × Leaf V)
  | .leaf id a => [(id, a)]
  | .bin _ l r => l.leaves ++ r.leaves

/-- `NumPyExpr::replace` of a leaf (forward.cpp:340). -/
def Tree.replace (id : Nat) (t : Tree V) : Tree V → Tree V
  | .leaf i a => if i = id then t else .leaf i a
  | .bin op l r => .bin op (Tree.replace id t l) (Tree.replace id t r)

/-- `NumPyOptimizationUnit`: the expression and its leaves. -/
structure NUnit (V : Type) where
  tree : Tree V
  leaves : List (Nat × Leaf V)

/-! ### Evaluation -/

/-- Contents of a value. -/
def State.read (s : State V) : Val V → Option V
  | .imm c => some c
  | .arr l => s.mem l

/-- A new array, stored in a variable. -/
def State.store (s : State V) (site : Nat) (x : Var) (c : V) : State V where
  env v := if v = x then some (.arr (site, s.cnt site)) else s.env v
  mem l := if l = (site, s.cnt site) then some c else s.mem l
  cnt k := if k = site then s.cnt k + 1 else s.cnt k

/-- An operand: a value, or the contents of a temporary array that nobody else sees. -/
inductive Opd (V : Type) where
  | val (v : Val V)
  | tmp (c : V)

/-- Contents of an operand. -/
def State.readOpd (s : State V) : Opd V → Option V
  | .val v => s.read v
  | .tmp c => some c

/-- A leaf in the program as it is written. -/
def Leaf.run (a : Leaf V) (s : State V) : Option (State V × Val V) :=
  match a with
  | .var x => (s.env x).map fun v => (s, v)
  | .num c => some (s, .imm c)
  | .call f => f.run s

/-- An expression in the program as it is written. -/
def Tree.run : Tree V → State V → Option (State V × Opd V)
  | .leaf _ a, s => (a.run s).map fun r => (r.1, .val r.2)
  | .bin op l r, s =>
    match l.run s with
    | none => none
    | some (s1, x) =>
      match r.run s1 with
      | none => none
      | some (s2, y) =>
        match s2.readOpd x, s2.readOpd y with
        | some cx, some cy => (op cx cy).map fun c => (s2, .tmp c)
        | _, _ => none

/-- The leaves that `optimize` assigns to variables, one after the other (numpy.cpp:805-808).  A variable that has no value gives an undefined one. -/
def runLeaves : List (Nat × Leaf V) → State V → (Nat → Option (Val V)) → Option (State V × (Nat → Option (Val V)))
  | [], s, m => some (s, m)
  | (id, .var x) :: ls, s, m => runLeaves ls s fun i => if i = id then s.env x else m i
  | (id, a) :: ls, s, m =>
    match a.run s with
    | none => none
    | some (s1, v) => runLeaves ls s1 fun i => if i = id then some v else m i

/-- The operations, when the leaves have been evaluated. -/
def Tree.compute (s : State V) (m : Nat → Option (Val V)) : Tree V → Option V
  | .leaf id _ => (m id).bind s.read
  | .bin op l r =>
    match l.compute s m, r.compute s m with
    | some cx, some cy => op cx cy
    | _, _ => none

/-- Statements: an assignment of an expression, as it is written or after the pass; an assignment of a variable; a call for its effects. -/
inductive Stmt (V : Type) where
  | np (site : Nat) (x : Var) (u : NUnit V)
  | opt (site : Nat) (x : Var) (u : NUnit V)
  | copy (x y : Var)
  | call (f : Call V)

/-- One statement. -/
def Stmt.run : Stmt V → State V → Option (State V)
  | .np site x u, s =>
    match u.tree.run s with
    | none => none
    | some (s1, o) => (s1.readOpd o).map fun c => s1.store site x c
  | .opt site x u, s =>
    match runLeaves u.leaves s fun _ => none with
    | none => none
    | some (s1, m) => (u.tree.compute s1 m).map fun c => s1.store site x c
  | .copy x y, s => (s.env y).map fun v => { s with env := fun w => if w = x then some v else s.env w }
  | .call f, s => (f.run s).map (·.1)

/-- Statements one after the other. -/
def runStmts : List (Stmt V) → State V → Option (State V)
  | [], s => some s
  | t :: ts, s =>
    match t.run s with
    | none => none
    | some s1 => runStmts ts s1

/-- The end of a block of the control flow graph. -/
inductive Term (V : Type) where
  | ret
  | goto (b : Nat)
  | branch (cond : State V → Bool) (b c : Nat)

/-- A block. -/
structure Block (V : Type) where
  body : List (Stmt V)
  term : Term V

/-- A function. -/
abbrev Prog (V : Type) := List (Block V)

/-- What comes after a block. -/
def Term.next (t : Term V) (s : State V) : Option Nat :=
  match t with
  | .ret => none
  | .goto b => some b
  | .branch cond b c => some (if cond s then b else c)

/-- At most `fuel` blocks, beginning with block `b`: the state, and the block that would be next (`none`: the function has returned). -/
def run (p : Prog V) : Nat → Nat → State V → Option (State V × Option Nat)
  | 0, b, s => some (s, some b)
  | fuel + 1, b, s =>
    match p[b]? with
    | none => some (s, none)
    | some blk =>
      match runStmts blk.body s with
      | none => none
      | some s1 =>
        match blk.term.next s1 with
        | none => some (s1, none)
        | some b' => run p fuel b' s1

/-! ### The decision -/

/-- The values of a block in the order of evaluation (cfg.cpp:342-345, 358-363 and others): leaves and calls, assignments.  Operations have no effect and are left out. -/
inductive Node (V : Type) where
  | leaf (id : Nat) (a : Leaf V)
  | asg (site : Option Nat) (x : Var)
  | call (f : Call V)

/-- The values of a statement. -/
def Stmt.nodes : Stmt V → List (Node V)
  | .np site x u => u.tree.leaves.map (fun p => .leaf p.1 p.2) ++ [.asg (some site) x]
  | .opt site x u => u.leaves.map (fun p => .leaf p.1 p.2) ++ [.asg (some site) x]
  | .copy x _ => [.asg none x]
  | .call f => [.call f]

/-- `OkToForwardPast` (forward.cpp:28-59). -/
def Node.okPast (vids : List Var) : Node V → Bool
  | .leaf _ (.call f) => !f.se
  | .leaf _ _ => true
  | .asg _ x => !vids.contains x
  | .call f => !f.se

/-- The assignment of the statement at a site. -/
def Node.isAsg (site : Nat) : Node V → Bool
  | .asg (some k) _ => k == site
  | _ => false

/-- A leaf. -/
def Node.isLeaf (id : Nat) : Node V → Bool
  | .leaf i _ => i == id
  | _ => false

/-- The inner loop of `canForwardExpressionAlongPath` (forward.cpp:86-106): the new `go`, and whether everything is fine. -/
def scan (front back : Bool) (src id : Nat) (vids : List Var) : Bool → List (Node V) → Bool × Bool
  | go, [] => (go, true)
  | go, v :: vs =>
    if !go && front && v.isAsg src then scan front back src id vids true vs
    else if go && back && v.isLeaf id then (false, true)
    else if !go then scan front back src id vids go vs
    else if v.okPast vids then scan front back src id vids go vs
    else (go, false)

/-- The values of a block. -/
def nodesOf (p : Prog V) (b : Nat) : List (Node V) := (p.getD b ⟨[], .ret⟩).body.flatMap Stmt.nodes

/-- `canForwardExpressionAlongPath` (forward.cpp:77-109): the blocks of the path that are left, with the first and the last block of the whole path. -/
def alongPath (p : Prog V) (src id : Nat) (vids : List Var) (first last : Nat) : Bool → List Nat → Bool
  | _, [] => true
  | go, b :: bs =>
    let r := scan (b == first) (b == last) src id vids go (nodesOf p b)
    r.2 && alongPath p src id vids first last r.1 bs

/-- Successors of a block. -/
def succs (p : Prog V) (b : Nat) : List Nat :=
  match (p.getD b ⟨[], .ret⟩).term with
  | .ret => []
  | .goto c => [c]
  | .branch _ c d => [c, d]

/-- The search of `canForwardExpression` (forward.cpp:138-152), with `path` including the current block; a successor is followed if it **is** on the path (forward.cpp:147). -/
def dfs (p : Prog V) (src id : Nat) (vids : List Var) (fin : Nat) : Nat → Nat → List Nat → Bool
  | 0, _, _ => true
  | fuel + 1, curr, path =>
    let path' := path ++ [curr]
    if curr = fin then alongPath p src id vids (path'.headD 0) (path'.getLastD 0) false path'
    else (succs p curr).all fun c => if path'.contains c then dfs p src id vids fin fuel c path' else true

/-- The variables of the leaves, and whether none has a side effect (forward.cpp:117-129). -/
def leafVars : List (Nat × Leaf V) → List Var
  | [] => []
  | (_, .var x) :: ls => x :: leafVars ls
  | (_, .num _) :: ls => leafVars ls
  | (_, .call f) :: ls => f.uses ++ leafVars ls

@[inherit_doc leafVars]
def leavesPure : List (Nat × Leaf V) → Bool
  | [] => true
  | (_, .call f) :: ls => !f.se && leavesPure ls
  | _ :: ls => leavesPure ls

/-- `canForwardExpression` (forward.cpp:111-157): the expression `u` of the statement at site `src` in block `b` can be moved to the leaf `id` in block `c`. -/
def canForward (p : Prog V) (src : Nat) (u : NUnit V) (b : Nat) (id c : Nat) : Bool :=
  leavesPure u.tree.leaves && dfs p src id (leafVars u.tree.leaves) c (p.length + 1) b []

/-! ### The transformation -/

/-- `doForwardingHelper` (forward.cpp:327-345): the leaf is replaced by the expression, and the leaves are added at the end. -/
def NUnit.forward (dst : NUnit V) (id : Nat) (src : NUnit V) : NUnit V := ⟨Tree.replace id src.tree dst.tree, dst.leaves ++ src.leaves⟩

/-- The unit of an expression (numpy.cpp:815-842). -/
def unitOf (t : Tree V) : NUnit V := ⟨t, t.leaves⟩

/-- Deletion of an assignment (numpy.cpp:874-877) and replacement of another one. -/
def rewrite (src dst : Nat) (u : NUnit V) (t : Stmt V) : List (Stmt V) :=
  match t with
  | .np site x v => if site = src then [] else if site = dst then [.opt site x u] else [.np site x v]
  | t => [t]

/-- The whole function. -/
def rewriteProg (src dst : Nat) (u : NUnit V) (p : Prog V) : Prog V := p.map fun b => ⟨b.body.flatMap (rewrite src dst u), b.term⟩

end Codon.NpFwd
