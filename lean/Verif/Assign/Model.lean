import Verif.Operator.Model
/-!
# Assignment statements

How plain, chained, augmented and unpacking assignments are rewritten (codon/parser/peg/grammar.peg:129-140;
codon/parser/visitors/typecheck/assign.cpp:34-62, 103-198, 338-360, 460-492) and what the rewritten statements do when they run.

Left out: type annotations, wrapping of optionals and unions, `Capsule` variables, atomic updates, properties and `__setattr__`.
-/
namespace Codon.Assign
open Codon.Operator

/-- What the values and variables of a program can do.  Variables are read and set directly; the rest are method calls: `__getitem__`, `__setitem__`, members,
    the binary operators (`bin`) and their in-place forms (`iop`). -/
structure Mem (σ ε V : Type) where
  var : Nat → σ → V
  setVar : Nat → V → σ → σ
  getItem : V → V → M σ ε V
  setItem : V → V → V → M σ ε Unit
  getAttr : V → Nat → M σ ε V
  setAttr : V → Nat → V → M σ ε Unit
  bin : Nat → V → V → M σ ε V
  iop : Nat → V → V → M σ ε V

/-- Expressions.  `name` is an `IdExpr`, `opnd` any other operand that was written, `tmp` a temporary variable of the compiler; `inpl` is a `BinaryExpr` marked as
    in place: `useI` tells whether the class of the left operand has the in-place method (op.cpp:938-947), otherwise the plain one is called. -/
inductive Ex (σ ε V : Type) where
  | opnd (run : M σ ε V)
  | name (x : Nat)
  | tmp (n : Nat)
  | item (o i : Ex σ ε V)
  | attr (o : Ex σ ε V) (m : Nat)
  | inpl (op : Nat) (useI : Bool) (l r : Ex σ ε V)

/-- Statements after the rewriting.  `drop` is an `ExprStmt`. -/
inductive St (σ ε V : Type) where
  | setName (x : Nat) (e : Ex σ ε V)
  | setTmp (n : Nat) (e : Ex σ ε V)
  | setItem (o i v : Ex σ ε V)
  | setAttr (o : Ex σ ε V) (m : Nat) (v : Ex σ ε V)
  | drop (e : Ex σ ε V)

/-- The targets of an assignment. -/
inductive Target (σ ε V : Type) where
  | name (x : Nat)
  | item (o i : Ex σ ε V)
  | attr (o : Ex σ ε V) (m : Nat)

variable {σ ε V : Type}

/-- A target read as an expression. -/
def Target.expr : Target σ ε V → Ex σ ε V
  | .name x => .name x
  | .item o i => .item o i
  | .attr o m => .attr o m

/-- `cast<IdExpr>(e)`: names and temporary variables. -/
def Ex.isId : Ex σ ε V → Bool
  | .name _ => true
  | .tmp _ => true
  | _ => false

/-- `transformAssignment` of `t = e` (assign.cpp:178-206, and the name case after it): `a[x] = b` is a call of `__setitem__`, `a.x = b` an
    `AssignMemberStmt`. -/
def emitAssign (t : Target σ ε V) (e : Ex σ ε V) : St σ ε V :=
  match t with
  | .name x => .setName x e
  | .item o i => .setItem o i e
  | .attr o m => .setAttr o m e

/-- `transformAssignment` of `t op= e`, which the parser stores as `t = Binary(t, op, e, inPlace)` (grammar.peg:137-140).  Item targets assign.cpp:180-197: the index is
    stored in a variable unless `e` is an identifier.  Name targets assign.cpp:338-345, 471-483: with an in-place method the call alone is the statement.
    `n` is a fresh temporary variable. -/
def emitAug (n : Nat) (t : Target σ ε V) (op : Nat) (useI : Bool) (e : Ex σ ε V) : List (St σ ε V) :=
  match t with
  | .name x => if useI then [.drop (.inpl op true (.name x) e)] else [.setName x (.inpl op false (.name x) e)]
  | .item o i =>
    if e.isId then [.setItem o i (.inpl op useI (.item o i) e)]
    else [.setTmp n i, .setItem o (.tmp n) (.inpl op useI (.item o (.tmp n)) e)]
  | .attr o m => [.setAttr o m (.inpl op useI (.attr o m) e)]

/-- A chained assignment `t₁ = t₂ = … = e` (grammar.peg:129-136): the last target is assigned first, and every other one gets the target after it, read as an
    expression. -/
def emitChain (ts : List (Target σ ε V)) (e : Ex σ ε V) : List (St σ ε V) :=
  match ts with
  | [] => []
  | [t] => [emitAssign t e]
  | t :: t' :: ts => emitChain (t' :: ts) e ++ [emitAssign t t'.expr]

/-- Evaluating an expression: operands from left to right (llvisitor.cpp:3253-3258). -/
def evalEx (m : Mem σ ε V) : Ex σ ε V → M (σ × Tmps V) ε V
  | .opnd run => lift run
  | .name x => fun s => some (s, .ok (m.var x s.1))
  | .tmp n => getTmp n
  | .item o i => andThen (evalEx m o) fun x => andThen (evalEx m i) fun y => lift (m.getItem x y)
  | .attr o k => andThen (evalEx m o) fun x => lift (m.getAttr x k)
  | .inpl op useI l r => andThen (evalEx m l) fun x => andThen (evalEx m r) fun y =>
      lift (if useI then m.iop op x y else m.bin op x y)

/-- Running a statement.  The object of a member assignment is evaluated before the value (llvisitor.cpp:3233-3236). -/
def runSt (m : Mem σ ε V) : St σ ε V → M (σ × Tmps V) ε Unit
  | .setName x e => andThen (evalEx m e) fun v s => some ((m.setVar x v s.1, s.2), .ok ())
  | .setTmp n e => andThen (evalEx m e) fun v => andThen (setTmp n v) fun _ => ret ()
  | .setItem o i v => andThen (evalEx m o) fun x => andThen (evalEx m i) fun y => andThen (evalEx m v) fun z => lift (m.setItem x y z)
  | .setAttr o k v => andThen (evalEx m o) fun x => andThen (evalEx m v) fun z => lift (m.setAttr x k z)
  | .drop e => andThen (evalEx m e) fun _ => ret ()

/-- Running statements one after another. -/
def runSts (m : Mem σ ε V) : List (St σ ε V) → M (σ × Tmps V) ε Unit
  | [] => ret ()
  | s :: ss => andThen (runSt m s) fun _ => runSts m ss

/-- The effect of the statements of one assignment on the program; the temporary variables are not read again. -/
def exec (m : Mem σ ε V) (ss : List (St σ ε V)) : M σ ε Unit := fun s =>
  match runSts m ss (s, fun _ => none) with
  | none => none
  | some (s', r) => some (s'.1, r)

/-! ## Unpacking -/

/-- What unpacking needs to know of values: the items of a sequence in a state (`none`: not a sequence), whether it is a tuple, building a list or a tuple, and the
    exceptions of a wrong index, of a wrong length and of a value that is not a sequence. -/
structure Seqs (σ ε V : Type) where
  items : V → σ → Option (List V)
  isTuple : V → Bool
  ofList : List V → V
  ofTuple : List V → V
  indexError : ε
  valueError : ε
  typeError : ε

mutual
/-- The left side of an unpacking assignment: a target (what storing a value in it does), or a tuple or list of patterns. -/
inductive Pat (σ ε V : Type) where
  | tgt (store : V → M σ ε Unit)
  | seq (ps : Pats σ ε V)
/-- The patterns of a tuple or list; `star`: the pattern is written `*p`. -/
inductive Pats (σ ε V : Type) where
  | nil
  | cons (star : Bool) (p : Pat σ ε V) (ps : Pats σ ε V)
end

/-- `leftSide.size()`. -/
def Pats.size : Pats σ ε V → Nat
  | .nil => 0
  | .cons _ _ ps => ps.size + 1

/-- The right sides that occur: an identifier (read each time it is evaluated), another expression, a temporary variable, `r[k]`, and `List.as_list(r[st:en])`. -/
inductive Rhs (σ ε V : Type) where
  | id (read : σ → V)
  | expr (run : M σ ε V)
  | tmp (n : Nat)
  | idx (r : Rhs σ ε V) (k : Int)
  | slice (r : Rhs σ ε V) (st : Int) (en : Option Int)

/-- `cast<IdExpr>(rhs)`. -/
def Rhs.isId : Rhs σ ε V → Bool
  | .id _ => true
  | .tmp _ => true
  | _ => false

/-- The simple assignments that remain. -/
inductive USt (σ ε V : Type) where
  | setTmp (n : Nat) (r : Rhs σ ε V)
  | store (store : V → M σ ε Unit) (r : Rhs σ ε V)

mutual
/-- `TypecheckVisitor::unpackAssignment` (assign.cpp:103-170); `n` is the next temporary variable.  `none` is the error for a second starred target. -/
def unpack (n : Nat) (r : Rhs σ ε V) : Pat σ ε V → Option (Nat × List (USt σ ε V))
  | .tgt store => some (n, [.store store r])
  | .seq ps =>
    let (n, pre, r) := if r.isId then (n, [], r) else (n + 1, [.setTmp n r], Rhs.tmp n)
    match unpackPre n r ps.size 0 ps with
    | none => none
    | some (n, ss) => some (n, pre ++ ss)
/-- The targets up to and including the starred one (assign.cpp:129-156). -/
def unpackPre (n : Nat) (r : Rhs σ ε V) (size st : Nat) : Pats σ ε V → Option (Nat × List (USt σ ε V))
  | .nil => some (n, [])
  | .cons false p ps =>
    match unpack n (.idx r st) p with
    | none => none
    | some (n, ss) =>
      match unpackPre n r size (st + 1) ps with
      | none => none
      | some (n, ss') => some (n, ss ++ ss')
  | .cons true p ps =>
    match unpack n (.slice r st (if size = st + 1 then none else some (-(size : Int) + st + 1))) p with
    | none => none
    | some (n, ss) =>
      match unpackPost n r size (st + 1) ps with
      | none => none
      | some (n, ss') => some (n, ss ++ ss')
/-- The targets after the starred one (assign.cpp:159-166). -/
def unpackPost (n : Nat) (r : Rhs σ ε V) (size st : Nat) : Pats σ ε V → Option (Nat × List (USt σ ε V))
  | .nil => some (n, [])
  | .cons true _ _ => none
  | .cons false p ps =>
    match unpack n (.idx r (-((size - st : Nat) : Int))) p with
    | none => none
    | some (n, ss) =>
      match unpackPost n r size (st + 1) ps with
      | none => none
      | some (n, ss') => some (n, ss ++ ss')
end

/-- `l[k]` with the usual meaning of negative indices (list.codon `__getitem__`; `Verif/ListM`). -/
def index (l : List V) (k : Int) : Option V :=
  if 0 ≤ k then l[k.toNat]? else if -(l.length : Int) ≤ k then l[(k + l.length).toNat]? else none

/-- `l[st:en]` for `0 ≤ st` and `en` absent or negative (`Slice.adjust_indices` with step 1; `Verif/Slice`): `st` is cut down to the length, a negative `en` counts from
    the end and is raised to 0. -/
def sliceList (l : List V) (st : Nat) (en : Option Int) : List V :=
  let stop := match en with
    | none => l.length
    | some e => (e + l.length).toNat
  (l.drop st).take (stop - st)

/-- Evaluating a right side.  A slice becomes a list unless the value is a tuple (`List.as_list`, list.codon:8-14). -/
def evalRhs (q : Seqs σ ε V) : Rhs σ ε V → M (σ × Tmps V) ε V
  | .id read => fun s => some (s, .ok (read s.1))
  | .expr run => lift run
  | .tmp n => getTmp n
  | .idx r k => andThen (evalRhs q r) fun v s =>
      match q.items v s.1 with
      | none => some (s, .error (.exc q.typeError))
      | some l =>
        match index l k with
        | none => some (s, .error (.exc q.indexError))
        | some x => some (s, .ok x)
  | .slice r st en => andThen (evalRhs q r) fun v s =>
      match q.items v s.1 with
      | none => some (s, .error (.exc q.typeError))
      | some l =>
        let l' := sliceList l st.toNat en
        some (s, .ok (if q.isTuple v then q.ofTuple l' else q.ofList l'))

/-- Running the simple assignments. -/
def runU (q : Seqs σ ε V) : List (USt σ ε V) → M (σ × Tmps V) ε Unit
  | [] => ret ()
  | .setTmp n r :: ss => andThen (evalRhs q r) fun v => andThen (setTmp n v) fun _ => runU q ss
  | .store store r :: ss => andThen (evalRhs q r) fun v => andThen (lift (store v)) fun _ => runU q ss

/-- The statements of an unpacking assignment run on the program. -/
def execU (q : Seqs σ ε V) (ss : List (USt σ ε V)) : M σ ε Unit := fun s =>
  match runU q ss (s, fun _ => none) with
  | none => none
  | some (s', r) => some (s'.1, r)

end Codon.Assign
