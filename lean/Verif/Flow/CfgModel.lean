import Verif.Flow.ReachModel
/-!
# Building the control-flow graph of a function

`CFVisitor` of `codon/cir/analyze/dataflow/cfg.cpp` (151-474).

The values of the intermediate representation are reduced to what the visitor looks at.  A value that is inserted in
a block after its operands (assignment, call, extract, insert, yield, await, throw, flow value; cfg.cpp:342-363,
410-432) is `seq operands (op i)`.
-/
namespace Codon.Flow

/-- The body of a function, as far as `CFVisitor` distinguishes it.
`skip` is an empty series; as the second branch of `ite` and as the `else` or `finally` part of `tryc` it stands for
the absent part. -/
inductive Node where
  | skip
  | op (i : Instr)
  | seq (a b : Node)
  | ite (c t f : Node)
  | tern (c t f : Node) (phi : Instr)
  | while_ (l : Nat) (c b : Node)
  | for_ (l : Nat) (mayRaise : Bool) (a : Instr) (iter b : Node)
  | impFor (l : Nat) (start end_ : Node) (a upd : Instr) (b : Node)
  | brk (l : Nat)
  | cont (l : Nat)
  | ret
  | tryc (body handlers els fin : Node)
  /-- a list of `except` clauses, ended by `skip` -/
  | ctch (v : Option Instr) (h rest : Node)
deriving DecidableEq, Repr

def Node.isSkip : Node → Bool
  | .skip => true
  | _ => false

/-- cfg.h `CFVisitor::Loop`; `tcLen` is `tcIndex + 1`. -/
structure Loop where
  nextIt : Nat
  «end» : Nat
  id : Nat
  tcLen : Nat

/-- The stacks of the visitor.  `tcs` has the innermost `try` first (block to route exceptions through, and block of
the `finally` part); `loops` has the innermost loop last.  `dst` is only used within the clauses of a `try`
(cfg.cpp:289, a local variable of the source). -/
structure Env where
  loops : List Loop
  tcs : List (Nat × Option Nat)
  dst : Nat

/-- The graph under construction: blocks have the numbers below `next`. -/
structure B where
  code : Nat → List Instr
  edges : List (Nat × Nat)
  next : Nat
  cur : Nat

namespace B

/-- cfg.h `CFGraph::newBlock`; its number is `s.next` -/
def newBlock (s : B) : B := { s with next := s.next + 1 }
/-- cfg.h `successors_insert` -/
def edge (s : B) (a b : Nat) : B := { s with edges := (a, b) :: s.edges }
def setCur (s : B) (b : Nat) : B := { s with cur := b }
/-- cfg.h `CFBlock::push_back` -/
def push (s : B) (b : Nat) (i : Option Instr) : B :=
  { s with code := fun c => if c = b then s.code c ++ i.toList else s.code c }

/-- cfg.cpp:438-449 `defaultInsert`.  `break`, `continue` and `return` are inserted as `none`: they do nothing when
they are reached. -/
def insert (e : Env) (s : B) (i : Option Instr) : B :=
  match e.tcs with
  | [] => s.push s.cur i
  | (r, _) :: _ =>
    let nb := s.next
    (((s.newBlock.edge s.cur nb).edge nb r).setCur nb).push nb i

/-- cfg.cpp:458-464: the `finally` block of the outermost `try` that is left -/
def nearestFinally (e : Env) (tcLen : Nat) : Option Nat :=
  ((e.tcs.take (e.tcs.length - tcLen)).reverse).findSome? (·.2)

/-- cfg.cpp:451-474 `defaultJump` -/
def jump (e : Env) (s : B) (cf : Option Nat) (tcLen : Nat) : B :=
  let direct := match cf with
    | some t => s.edge s.cur t
    | none => s
  if e.tcs.length ≤ tcLen then direct
  else match nearestFinally e tcLen, e.tcs with
    | some f, (r, _) :: _ =>
      match cf with
      | some t => (s.edge s.cur r).edge f t
      | none => s.edge s.cur r
    | _, _ => direct

/-- cfg.cpp:320-325: an edge to the block that routes exceptions outwards -/
def toRoute (e : Env) (s : B) (b : Nat) : B :=
  match e.tcs with
  | [] => s
  | (r, _) :: _ => s.edge b r

/-- cfg.cpp:301: an edge from the block that routes exceptions -/
def fromRoute (e : Env) (s : B) (b : Nat) : B :=
  match e.tcs with
  | [] => s
  | (r, _) :: _ => s.edge r b

/-- cfg.cpp:280-287: the blocks of a `try` statement: route, end, and those of the parts that are there -/
def tryBlocks (s : B) (noElse noFinally : Bool) : B :=
  let s := s.newBlock.newBlock
  let s := if noElse then s else s.newBlock
  if noFinally then s else s.newBlock

end B

/-- cfg.cpp:476-479 `findLoop` -/
def Env.find (e : Env) (l : Nat) : Option Loop := e.loops.find? (·.id == l)

/-- cfg.cpp:151-474, the `visit` methods.  A `break` of an unknown loop is left out (the source would use a loop that
does not exist). -/
def build : Node → Env → B → B
  | .skip, _, s => s
  | .op i, e, s => s.insert e (some i)
  -- cfg.cpp:160-164
  | .seq a b, e, s => build b e (build a e s)
  -- cfg.cpp:166-189
  | .ite c t f, e, s =>
    let s1 := build c e s
    let original := s1.cur
    let end_ := s1.next
    let tB := s1.next + 1
    let s3 := build t e ((s1.newBlock.newBlock).setCur tB)
    let s3 := s3.edge s3.cur end_
    if f.isSkip then
      ((s3.edge original tB).edge original end_).setCur end_
    else
      let fB := s3.next
      let s5 := build f e (s3.newBlock.setCur fB)
      let s5 := s5.edge s5.cur end_
      ((s5.edge original tB).edge original fB).setCur end_
  -- cfg.cpp:365-389
  | .tern c t f phi, e, s =>
    let end_ := s.next
    let tB := s.next + 1
    let fB := s.next + 2
    let s1 := build c e s.newBlock.newBlock.newBlock
    let s1 := (s1.edge s1.cur tB).edge s1.cur fB
    let s2 := build t e (s1.setCur tB)
    let s2 := s2.edge s2.cur end_
    let s3 := build f e (s2.setCur fB)
    let s3 := s3.edge s3.cur end_
    (s3.push end_ (some phi)).setCur end_
  -- cfg.cpp:191-208
  | .while_ l c b, e, s =>
    let end_ := s.next
    let loopBegin := s.next + 1
    let s1 := ((s.newBlock.newBlock).setCur loopBegin).edge s.cur loopBegin
    let s2 := build c e s1
    let s2 := s2.edge s2.cur end_
    let body := s2.next
    let e' := { e with loops := e.loops ++ [⟨loopBegin, end_, l, e.tcs.length⟩] }
    let s4 := build b e' ((s2.newBlock.setCur body).edge loopBegin body)
    (s4.edge s4.cur loopBegin).setCur end_
  -- cfg.cpp:210-241; not modelled: the values of a parallel schedule
  | .for_ l _ a iter b, e, s =>
    let end_ := s.next
    let loopBegin := s.next + 1
    let s1 := ((s.newBlock.newBlock).setCur loopBegin).edge s.cur loopBegin
    let s2 := build iter e s1
    let check := s2.next
    let nxt := s2.next + 1
    let body := s2.next + 2
    let s2 := ((s2.newBlock.newBlock.newBlock.edge s2.cur check).edge check end_).edge check nxt
    let s2 := ((s2.push nxt (some a)).setCur body).edge nxt body
    let e' := { e with loops := e.loops ++ [⟨check, end_, l, e.tcs.length⟩] }
    let s4 := build b e' s2
    (s4.edge s4.cur check).setCur end_
  -- cfg.cpp:243-277; not modelled: the values of a parallel schedule
  | .impFor l start stop a upd b, e, s =>
    let end_ := s.next
    let loopBegin := s.next + 1
    let s1 := (((s.newBlock.newBlock).setCur loopBegin).edge s.cur loopBegin).push loopBegin (some a)
    let s2 := build stop e (build start e s1)
    let check := s2.next
    let nxt := s2.next + 1
    let body := s2.next + 2
    let s2 := ((s2.newBlock.newBlock.newBlock.edge s2.cur check).edge check end_).edge nxt check
    let s2 := ((s2.push nxt (some upd)).setCur body).edge check body
    let e' := { e with loops := e.loops ++ [⟨check, end_, l, e.tcs.length⟩] }
    let s4 := build b e' s2
    (s4.edge s4.cur check).setCur end_
  -- cfg.cpp:391-395
  | .brk l, e, s =>
    match e.find l with
    | some lp => (s.jump e (some lp.end) lp.tcLen).insert e none
    | none => s
  -- cfg.cpp:397-401
  | .cont l, e, s =>
    match e.find l with
    | some lp => (s.jump e (some lp.nextIt) lp.tcLen).insert e none
    | none => s
  -- cfg.cpp:403-408; the returned value is visited before
  | .ret, e, s => (s.jump e none 0).insert e none
  -- cfg.cpp:279-328
  | .tryc body handlers els fin, e, s =>
    let route := s.next
    let end_ := s.next + 1
    let elseB := s.next + 2
    let finB := if els.isSkip then s.next + 2 else s.next + 3
    let dst := if fin.isSkip then end_ else finB
    let e' : Env := { e with tcs := (route, if fin.isSkip then none else some finB) :: e.tcs, dst := dst }
    let s1 := build body e' (s.tryBlocks els.isSkip fin.isSkip)
    let s2 := build handlers e' (s1.edge s1.cur (if els.isSkip then dst else elseB))
    let s3 :=
      if els.isSkip then s2
      else
        let s := build els e' (s2.setCur elseB)
        s.edge s.cur dst
    let s4 :=
      if fin.isSkip then s3
      else
        let s := build fin e (s3.setCur finB)
        (s.edge s.cur end_).edge route finB
    (s4.toRoute e (if fin.isSkip then route else finB)).setCur end_
  -- cfg.cpp:295-303, one round and the remaining ones
  | .ctch v h rest, e, s =>
    let cB := s.next
    let s1 := build h e ((s.newBlock.setCur cB).push cB v)
    let s2 := s1.fromRoute e cB
    build rest e (s2.edge s2.cur e.dst)

def B.empty : B := ⟨fun _ => [], [], 1, 0⟩

/-- cfg.cpp:128-133, 151-158 `buildCFGraph`: the arguments are assigned in the entry block. -/
def buildCFGraph (args : List Instr) (body : Node) : B :=
  build body ⟨[], [], 0⟩ (args.foldl (fun s a => s.push 0 (some a)) B.empty)

/-- The graph as used by the analyses. -/
def B.toCfg (s : B) : Cfg where
  n := s.next
  preds b := (s.edges.filter (·.2 == b)).map (·.1)
  succs b := (s.edges.filter (·.1 == b)).map (·.2)
  code := s.code

end Codon.Flow
