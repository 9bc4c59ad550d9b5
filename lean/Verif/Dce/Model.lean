import Mathlib.Data.List.Basic
/-!
# Model of the side-effect analysis and of dead-code elimination

`codon/cir/analyze/module/side_effect.cpp` and `codon/cir/transform/cleanup/dead_code.cpp`.

Left out of the model: field assignments (`InsertInstr`, which need the capture analysis), pointers to
variables, pipelines, `yield`/`await`, and nodes of plugins.  `break`/`continue` refer to the innermost loop.
-/
namespace Codon.Dce

/-- A 64-bit integer. -/
abbrev I64 := BitVec 64

/-! codon/cir/util/side_effect.h:19-24 `SideEffectStatus`; the enumeration is compared as a number. -/

def PURE : Nat := 0
def NO_SIDE_EFFECT : Nat := 1
def NO_CAPTURE : Nat := 2
def UNKNOWN : Nat := 3

/-- IR nodes (codon/cir/flow.h, instr.h, const.h, var.h).  A series is a chain of `cons` ended by `nil`; the cell of
a statement also holds what the analysis recorded for it.  Argument lists are chains of `arg`, the clauses of a
`try` chains of `ctch`, both ended by `nil`.  A missing branch is `nil`. -/
inductive Node where
  | int (v : I64)
  | bool (b : Bool)
  | var (x : Nat)
  | nil
  | cons (st : Nat) (hd tl : Node)
  | ite (c t f : Node)
  | while_ (c b : Node)
  | for_ (x : Nat) (iter body : Node)
  | imp (x : Nat) (start : Node) (step : I64) (stop body : Node)
  | tryc (body catches els fin : Node)
  | ctch (ty : Option Nat) (x : Option Nat) (handler rest : Node)
  | assign (x : Nat) (rhs : Node)
  | call (f : Nat) (args : Node)
  | dyn (callee args : Node)
  | arg (hd tl : Node)
  | ternary (c a b : Node)
  | brk
  | cont
  | ret (v : Node)
  | throw_ (v : Node)
  | flow (f v : Node)
  deriving DecidableEq, Repr

/-- Run-time values: integers, booleans, function values, freshly made sequences to iterate over, and generator
objects. -/
inductive Val where
  | int (v : I64)
  | bool (b : Bool)
  | fn (f : Nat)
  | seq (items : List I64)
  | obj (h : Nat)
  deriving DecidableEq, Repr

/-- An observable effect of an external function. -/
abbrev Ev := Nat

/-- Functions.  `attr` is the status forced by an attribute, if any (side_effect.cpp:41-70
`getFunctionStatusFromAttributes`).  An external or LLVM function is a computation that depends on its arguments
and on the effects so far, adds effects, and returns a value or raises. -/
inductive Func where
  | bodied (attr : Option (Fin 4)) (params : List Nat) (body : Node)
  | ext (attr : Option (Fin 4)) (sem : List Ev → List Val → List Ev × (Val ⊕ Nat))
  | internal (sem : List Val → Val)

/-- A module; the first function is the main function. -/
structure Module where
  funcs : List Func
  isGlobal : Nat → Bool
  isExternal : Nat → Bool

/-! ## Uses of variables -/

/-- side_effect.cpp:29-33 `VarUseAnalyzer::preHook`: occurrences of the variable, including those as a target of
an assignment, a loop or a clause (instr.h:68, flow.h:201, 296, flow.cpp:230). -/
def cntVar (x : Nat) : Node → Nat
  | .int _ | .bool _ | .nil | .brk | .cont => 0
  | .var y => if y = x then 1 else 0
  | .cons _ a b | .while_ a b | .dyn a b | .arg a b | .flow a b => cntVar x a + cntVar x b
  | .ite a b c | .ternary a b c => cntVar x a + cntVar x b + cntVar x c
  | .for_ y a b => (if y = x then 1 else 0) + cntVar x a + cntVar x b
  | .imp y a _ b c => (if y = x then 1 else 0) + cntVar x a + cntVar x b + cntVar x c
  | .tryc a b c d => cntVar x a + cntVar x b + cntVar x c + cntVar x d
  | .ctch _ y a b => (if y = some x then 1 else 0) + cntVar x a + cntVar x b
  | .assign y a => (if y = x then 1 else 0) + cntVar x a
  | .call _ a | .ret a | .throw_ a => cntVar x a

/-- side_effect.cpp:35 `VarUseAnalyzer::handle(AssignInstr)`. -/
def cntAsg (x : Nat) : Node → Nat
  | .int _ | .bool _ | .nil | .brk | .cont | .var _ => 0
  | .cons _ a b | .while_ a b | .dyn a b | .arg a b | .flow a b => cntAsg x a + cntAsg x b
  | .ite a b c | .ternary a b c => cntAsg x a + cntAsg x b + cntAsg x c
  | .for_ _ a b => cntAsg x a + cntAsg x b
  | .imp _ a _ b c => cntAsg x a + cntAsg x b + cntAsg x c
  | .tryc a b c d => cntAsg x a + cntAsg x b + cntAsg x c + cntAsg x d
  | .ctch _ _ a b => cntAsg x a + cntAsg x b
  | .assign y a => (if y = x then 1 else 0) + cntAsg x a
  | .call _ a | .ret a | .throw_ a => cntAsg x a

def Func.body? : Func → Option Node
  | .bodied _ _ b => some b
  | _ => none

/-- side_effect.cpp:114-121: the counts of the module differ. -/
def used (M : Module) (x : Nat) : Bool :=
  ((M.funcs.filterMap Func.body?).map (cntVar x)).sum != ((M.funcs.filterMap Func.body?).map (cntAsg x)).sum

/-! ## Side-effect analysis -/

/-- What the analyzer knows about variables. -/
structure VarInfo where
  used : Nat → Bool
  isGlobal : Nat → Bool
  isExternal : Nat → Bool
  /-- `globalAssignmentHasSideEffects` -/
  gash : Bool

/-- side_effect.cpp:110-130 `getVarAssignStatus`: status of an assignment for the statement and for the function. -/
def varAssignStatus (I : VarInfo) (x : Nat) : Nat × Nat :=
  let dflt := if I.isGlobal x then UNKNOWN else NO_CAPTURE
  let se2stat := fun b : Bool => if b then dflt else PURE
  if I.gash || I.isExternal x then (se2stat (I.used x || I.isGlobal x), se2stat (I.isGlobal x))
  else (se2stat (I.used x), se2stat (I.used x && I.isGlobal x))

def optAssignStatus (I : VarInfo) : Option Nat → Nat × Nat
  | none => (PURE, PURE)
  | some x => varAssignStatus I x

/-- State of `SideEfectAnalyzer`: `result` for functions, the bodies with the statuses recorded in them, and
`funcStatus`. -/
structure An where
  res : Nat → Option Nat
  bodies : Nat → Option Node
  fs : Nat

/-- `set(v, expr, func)` (side_effect.cpp:95-98): the second part. -/
def An.raise (σ : An) (s : Nat) : An := { σ with fs := max σ.fs s }

/-- side_effect.cpp:144-347: the visitor of a node; `fn` processes a function.  The order in which C++ evaluates the
arguments of `max` is not specified; here from left to right. -/
def proc (I : VarInfo) (fn : Nat → An → Nat × An) : Node → An → Nat × Node × An
  | .int v, σ => (PURE, .int v, σ)
  | .bool b, σ => (PURE, .bool b, σ)
  | .var x, σ => (PURE, .var x, σ)
  | .nil, σ => (PURE, .nil, σ)
  | .cons _ a b, σ =>
    let ra := proc I fn a σ
    let rb := proc I fn b ra.2.2
    (max ra.1 rb.1, .cons ra.1 ra.2.1 rb.2.1, rb.2.2)
  | .ite a b c, σ =>
    let ra := proc I fn a σ
    let rb := proc I fn b ra.2.2
    let rc := proc I fn c rb.2.2
    (max ra.1 (max rb.1 rc.1), .ite ra.2.1 rb.2.1 rc.2.1, rc.2.2)
  | .while_ a b, σ =>
    let ra := proc I fn a σ
    let rb := proc I fn b ra.2.2
    (max ra.1 rb.1, .while_ ra.2.1 rb.2.1, rb.2.2)
  | .for_ x a b, σ =>
    let ra := proc I fn a σ
    let rb := proc I fn b ra.2.2
    (max (varAssignStatus I x).1 (max ra.1 rb.1), .for_ x ra.2.1 rb.2.1, rb.2.2.raise (varAssignStatus I x).2)
  | .imp x a d b c, σ =>
    let ra := proc I fn a σ
    let rb := proc I fn b ra.2.2
    let rc := proc I fn c rb.2.2
    (max (varAssignStatus I x).1 (max ra.1 (max rb.1 rc.1)), .imp x ra.2.1 d rb.2.1 rc.2.1,
      rc.2.2.raise (varAssignStatus I x).2)
  | .tryc b cs e f, σ =>
    let rb := proc I fn b σ
    let re := proc I fn e rb.2.2
    let rf := proc I fn f re.2.2
    let rc := proc I fn cs rf.2.2
    (max rb.1 (max re.1 (max rf.1 rc.1)), .tryc rb.2.1 rc.2.1 re.2.1 rf.2.1, rc.2.2)
  | .ctch ty x a b, σ =>
    let ra := proc I fn a σ
    let rb := proc I fn b ra.2.2
    (max (optAssignStatus I x).1 (max ra.1 rb.1), .ctch ty x ra.2.1 rb.2.1, rb.2.2.raise (optAssignStatus I x).2)
  | .assign x a, σ =>
    let ra := proc I fn a σ
    (max (varAssignStatus I x).1 ra.1, .assign x ra.2.1, ra.2.2.raise (varAssignStatus I x).2)
  | .call f a, σ =>
    let ra := proc I fn a σ
    let rf := fn f ra.2.2
    (max ra.1 rf.1, .call f ra.2.1, rf.2.raise rf.1)
  | .dyn a b, σ =>
    let ra := proc I fn a σ
    let rb := proc I fn b ra.2.2
    (UNKNOWN, .dyn ra.2.1 rb.2.1, rb.2.2.raise UNKNOWN)
  | .arg a b, σ =>
    let ra := proc I fn a σ
    let rb := proc I fn b ra.2.2
    (max ra.1 rb.1, .arg ra.2.1 rb.2.1, rb.2.2)
  | .ternary a b c, σ =>
    let ra := proc I fn a σ
    let rb := proc I fn b ra.2.2
    let rc := proc I fn c rb.2.2
    (max ra.1 (max rb.1 rc.1), .ternary ra.2.1 rb.2.1 rc.2.1, rc.2.2)
  | .brk, σ => (NO_CAPTURE, .brk, σ)
  | .cont, σ => (NO_CAPTURE, .cont, σ)
  | .ret a, σ =>
    let ra := proc I fn a σ
    (max NO_CAPTURE ra.1, .ret ra.2.1, ra.2.2)
  | .throw_ a, σ =>
    let ra := proc I fn a σ
    (UNKNOWN, .throw_ ra.2.1, ra.2.2.raise NO_CAPTURE)
  | .flow a b, σ =>
    let ra := proc I fn a σ
    let rb := proc I fn b ra.2.2
    (max ra.1 rb.1, .flow ra.2.1 rb.2.1, rb.2.2)

def upd {α : Type} (m : Nat → Option α) (i : Nat) (v : α) : Nat → Option α := fun j => if j = i then some v else m j

/-- side_effect.cpp:41-70: the status of the attribute, `UNKNOWN` without one. -/
def attrStatus : Option (Fin 4) → Nat
  | some a => a
  | none => UNKNOWN

/-- side_effect.cpp:100-108 `process` for a function, 146-167 the visitors of functions.  The fuel bounds the nesting;
a function being processed already has a result, so the number of functions is enough. -/
def procFn (I : VarInfo) (funcs : List Func) : Nat → Nat → An → Nat × An
  | 0, _, σ => (UNKNOWN, σ)
  | fuel + 1, f, σ =>
    match σ.res f with
    | some s => (s, σ)
    | none =>
      match funcs[f]? with
      | none => (UNKNOWN, σ)
      | some (.internal _) => (PURE, { σ with res := upd σ.res f PURE })
      | some (.ext attr _) => (attrStatus attr, { σ with res := upd σ.res f (attrStatus attr) })
      | some (.bodied attr _ body) =>
        let s := attrStatus attr
        let σ1 := { σ with res := upd σ.res f s, fs := max σ.fs s }
        let r := proc I (procFn I funcs fuel) body { σ1 with fs := PURE }
        let σ2 := r.2.2
        let s' := if attr.isSome then s else σ2.fs
        (s', { res := upd σ2.res f s', bodies := upd σ2.bodies f r.2.1, fs := σ1.fs })

/-- side_effect.cpp:137-142 `visit(Module)`: all functions in turn, the main function first. -/
def procAll (I : VarInfo) (funcs : List Func) : List Nat → An → An
  | [], σ => σ
  | f :: fs, σ => procAll I funcs fs (procFn I funcs (funcs.length + 1) f σ).2

def varInfo (gash : Bool) (M : Module) : VarInfo := ⟨used M, M.isGlobal, M.isExternal, gash⟩

/-- side_effect.cpp:362-369 `SideEffectAnalysis::run`. -/
def analyze (gash : Bool) (M : Module) : An :=
  procAll (varInfo gash M) M.funcs (List.range M.funcs.length) ⟨fun _ => none, fun _ => none, PURE⟩

/-! ## Dead-code elimination -/

/-- dead_code.cpp:80: the counted loop has no iteration. -/
def emptyRange (step a b : I64) : Bool :=
  (step.slt 0 && a.sle b) || (BitVec.slt 0 step && b.sle a)

/-- dead_code.cpp:69-83: both bounds are literals and the loop has no iteration. -/
def emptyLoop (step : I64) : Node → Node → Bool
  | .int a, .int b => emptyRange step a b
  | _, _ => false

/-- dead_code.cpp:25-100.  The pass handles a node before its children (operator.h:11-20, pass.h:86).  A statement with no
effect is erased.  A conditional with a literal condition is replaced by a clone of the branch taken.  The nodes of
a clone are new (`fresh`): the analysis knows nothing about them, so that no statement is erased there
(side_effect.cpp:357-360), and the clone itself is not handled, only its children (`top`). -/
def dce (top fresh : Bool) : Node → Node
  | .int v => .int v
  | .bool b => .bool b
  | .var x => .var x
  | .nil => .nil
  | .cons st a b =>
    if !fresh && st == PURE then dce top fresh b else .cons st (dce true fresh a) (dce top fresh b)
  | .ite c t f =>
    if top && c == .bool true then dce false true t
    else if top && c == .bool false then dce false true f
    else .ite (dce true fresh c) (dce true fresh t) (dce true fresh f)
  | .while_ c b =>
    if top && c == .bool false then .nil
    else .while_ (dce true fresh c) (dce true fresh b)
  | .for_ x it b => .for_ x (dce true fresh it) (dce true fresh b)
  | .imp x a d b c =>
    if top && emptyLoop d a b then .nil
    else .imp x (dce true fresh a) d (dce true fresh b) (dce true fresh c)
  | .tryc b cs e f => .tryc (dce true fresh b) (dce true fresh cs) (dce true fresh e) (dce true fresh f)
  | .ctch ty x h r => .ctch ty x (dce true fresh h) (dce true fresh r)
  | .assign x a => .assign x (dce true fresh a)
  | .call f as => .call f (dce true fresh as)
  | .dyn c as => .dyn (dce true fresh c) (dce true fresh as)
  | .arg a b => .arg (dce true fresh a) (dce true fresh b)
  | .ternary c a b =>
    if top && c == .bool true then dce false true a
    else if top && c == .bool false then dce false true b
    else .ternary (dce true fresh c) (dce true fresh a) (dce true fresh b)
  | .brk => .brk
  | .cont => .cont
  | .ret v => .ret (dce true fresh v)
  | .throw_ v => .throw_ (dce true fresh v)
  | .flow f v => .flow (dce true fresh f) (dce true fresh v)

/-- The function after the pass, with the statuses recorded in `σ`.  Without recorded statuses no statement is erased
(side_effect.cpp:357-360). -/
def dceFunc (σ : An) (i : Nat) : Func → Func
  | .bodied attr ps body => .bodied attr ps (match σ.bodies i with
    | some b => dce true false b
    | none => dce true true body)
  | f => f

/-- dead_code.cpp:20-23 `run`, with the side-effect analysis it asks for. -/
def dceModule (gash : Bool) (M : Module) : Module :=
  { M with funcs := M.funcs.mapIdx (dceFunc (analyze gash M)) }

end Codon.Dce
