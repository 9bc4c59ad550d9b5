import Verif.Flow.CfgModel
/-!
# What a function can execute

A big-step semantics of the node language, written without the graph.  A test may have any result, an operation may
raise, any `except` clause may fit an exception, so the semantics has at least the executions the compiled program
can have.  The list of operations executed is recorded.
-/
namespace Codon.Flow

/-- How a statement is left.  `stop` is the execution looked at in the middle (executions that do not end are covered
by their finite parts). -/
inductive Outc where
  | normal
  | brk (l : Nat)
  | cont (l : Nat)
  | ret
  | raise
  | stop
deriving DecidableEq, Repr

/-- What is executed: a statement, a loop from its test on, a `try` statement without its `finally` part, or the
clauses of a `try` after an exception. -/
inductive Mode where
  | node (n : Node)
  | whileAt (l : Nat) (c b : Node)
  | forAt (l : Nat) (mayRaise : Bool) (a : Instr) (b : Node)
  | impAt (l : Nat) (a upd : Instr) (b : Node)
  | core (body handlers els : Node)
  | clauses (handlers : Node)

/-- Does the loop `l` go on after its body was left this way? -/
def Outc.loops (l : Nat) (o : Outc) : Prop := o = .normal ∨ o = .cont l

/-- Does leaving the body this way leave the loop `l`, passing the outcome on? -/
def Outc.leaves (l : Nat) (o : Outc) : Prop := o ≠ .normal ∧ o ≠ .cont l ∧ o ≠ .brk l

inductive Exec : Mode → Outc → List Instr → Prop
  | stop (n) : Exec (.node n) .stop []
  | skip : Exec (.node .skip) .normal []
  | op (i) : Exec (.node (.op i)) .normal [i]
  | opRaise (i) : Exec (.node (.op i)) .raise [i]
  | seq {a b o t1 t2} : Exec (.node a) .normal t1 → Exec (.node b) o t2 → Exec (.node (.seq a b)) o (t1 ++ t2)
  | seqOut {a b o t1} : Exec (.node a) o t1 → o ≠ .normal → Exec (.node (.seq a b)) o t1
  | iteT {c t f o t1 t2} : Exec (.node c) .normal t1 → Exec (.node t) o t2 →
      Exec (.node (.ite c t f)) o (t1 ++ t2)
  | iteF {c t f o t1 t2} : Exec (.node c) .normal t1 → Exec (.node f) o t2 →
      Exec (.node (.ite c t f)) o (t1 ++ t2)
  | iteOut {c t f o t1} : Exec (.node c) o t1 → o ≠ .normal → Exec (.node (.ite c t f)) o t1
  | ternT {c t f phi t1 t2} : Exec (.node c) .normal t1 → Exec (.node t) .normal t2 →
      Exec (.node (.tern c t f phi)) .normal (t1 ++ t2 ++ [phi])
  | ternF {c t f phi t1 t2} : Exec (.node c) .normal t1 → Exec (.node f) .normal t2 →
      Exec (.node (.tern c t f phi)) .normal (t1 ++ t2 ++ [phi])
  | ternOut {c t f phi o t1} : Exec (.node c) o t1 → o ≠ .normal → Exec (.node (.tern c t f phi)) o t1
  | ternTOut {c t f phi o t1 t2} : Exec (.node c) .normal t1 → Exec (.node t) o t2 → o ≠ .normal →
      Exec (.node (.tern c t f phi)) o (t1 ++ t2)
  | ternFOut {c t f phi o t1 t2} : Exec (.node c) .normal t1 → Exec (.node f) o t2 → o ≠ .normal →
      Exec (.node (.tern c t f phi)) o (t1 ++ t2)
  | while_ {l c b o t} : Exec (.whileAt l c b) o t → Exec (.node (.while_ l c b)) o t
  | whileEnd {l c b t} : Exec (.node c) .normal t → Exec (.whileAt l c b) .normal t
  | whileOut {l c b o t} : Exec (.node c) o t → o ≠ .normal → Exec (.whileAt l c b) o t
  | whileLoop {l c b o1 o t1 t2 t3} : Exec (.node c) .normal t1 → Exec (.node b) o1 t2 → o1.loops l →
      Exec (.whileAt l c b) o t3 → Exec (.whileAt l c b) o (t1 ++ t2 ++ t3)
  | whileBrk {l c b t1 t2} : Exec (.node c) .normal t1 → Exec (.node b) (.brk l) t2 →
      Exec (.whileAt l c b) .normal (t1 ++ t2)
  | whileBody {l c b o t1 t2} : Exec (.node c) .normal t1 → Exec (.node b) o t2 → o.leaves l →
      Exec (.whileAt l c b) o (t1 ++ t2)
  | for_ {l mr a iter b o t1 t2} : Exec (.node iter) .normal t1 → Exec (.forAt l mr a b) o t2 →
      Exec (.node (.for_ l mr a iter b)) o (t1 ++ t2)
  | forOut {l mr a iter b o t1} : Exec (.node iter) o t1 → o ≠ .normal →
      Exec (.node (.for_ l mr a iter b)) o t1
  | forEnd {l mr a b} : Exec (.forAt l mr a b) .normal []
  /-- computing the next item raises -/
  | forRaise {l a b} : Exec (.forAt l true a b) .raise []
  | forLoop {l mr a b o1 o t2 t3} : Exec (.node b) o1 t2 → o1.loops l → Exec (.forAt l mr a b) o t3 →
      Exec (.forAt l mr a b) o ([a] ++ t2 ++ t3)
  | forBrk {l mr a b t2} : Exec (.node b) (.brk l) t2 → Exec (.forAt l mr a b) .normal ([a] ++ t2)
  | forBody {l mr a b o t2} : Exec (.node b) o t2 → o.leaves l → Exec (.forAt l mr a b) o ([a] ++ t2)
  /-- the bounds are evaluated; at the start of each round the variable is assigned, first by `a`, then by `upd`
  (llvisitor.cpp:2658-2701) -/
  | impFor {l start stop a upd b o t1 t2 t3} : Exec (.node start) .normal t1 → Exec (.node stop) .normal t2 →
      Exec (.impAt l a upd b) o t3 → Exec (.node (.impFor l start stop a upd b)) o (t1 ++ t2 ++ t3)
  | impStart {l start stop a upd b o t1} : Exec (.node start) o t1 → o ≠ .normal →
      Exec (.node (.impFor l start stop a upd b)) o t1
  | impStop {l start stop a upd b o t1 t2} : Exec (.node start) .normal t1 → Exec (.node stop) o t2 → o ≠ .normal →
      Exec (.node (.impFor l start stop a upd b)) o (t1 ++ t2)
  | impEnd {l a upd b} : Exec (.impAt l a upd b) .normal []
  | impLoop {l a upd b o1 o t2 t3} : Exec (.node b) o1 t2 → o1.loops l → Exec (.impAt l upd upd b) o t3 →
      Exec (.impAt l a upd b) o ([a] ++ t2 ++ t3)
  | impBrk {l a upd b t2} : Exec (.node b) (.brk l) t2 → Exec (.impAt l a upd b) .normal ([a] ++ t2)
  | impBody {l a upd b o t2} : Exec (.node b) o t2 → o.leaves l → Exec (.impAt l a upd b) o ([a] ++ t2)
  | brk (l) : Exec (.node (.brk l)) (.brk l) []
  | cont (l) : Exec (.node (.cont l)) (.cont l) []
  | ret : Exec (.node .ret) .ret []
  /-- the `finally` part is run however the rest was left; the statement is then left the same way -/
  | tryc {body hs els fin o t1 t2} : Exec (.core body hs els) o t1 → o ≠ .stop → Exec (.node fin) .normal t2 →
      Exec (.node (.tryc body hs els fin)) o (t1 ++ t2)
  | tryFin {body hs els fin o o' t1 t2} : Exec (.core body hs els) o t1 → o ≠ .stop → Exec (.node fin) o' t2 →
      o' ≠ .normal → Exec (.node (.tryc body hs els fin)) o' (t1 ++ t2)
  | tryStop {body hs els fin t1} : Exec (.core body hs els) .stop t1 →
      Exec (.node (.tryc body hs els fin)) .stop t1
  | coreElse {body hs els o t1 t2} : Exec (.node body) .normal t1 → Exec (.node els) o t2 →
      Exec (.core body hs els) o (t1 ++ t2)
  | coreCaught {body hs els o t1 t2} : Exec (.node body) .raise t1 → Exec (.clauses hs) o t2 →
      Exec (.core body hs els) o (t1 ++ t2)
  | coreUncaught {body hs els t1} : Exec (.node body) .raise t1 → Exec (.core body hs els) .raise t1
  | coreOut {body hs els o t1} : Exec (.node body) o t1 → o ≠ .normal → o ≠ .raise →
      Exec (.core body hs els) o t1
  | clause {v h rest o t} : Exec (.node h) o t → Exec (.clauses (.ctch v h rest)) o (v.toList ++ t)
  | clauseNext {v h rest o t} : Exec (.clauses rest) o t → Exec (.clauses (.ctch v h rest)) o t

/-- The operations on a path of the graph from the entry: the blocks `bs` in full, and the first `k` operations of
the block `b`. -/
inductive OnPath (s : B) : List Nat → Nat → Prop
  | entry : OnPath s [] 0
  | step {bs p b} : OnPath s bs p → (p, b) ∈ s.edges → OnPath s (bs ++ [p]) b

/-- The graph has a path on which exactly these operations are executed. -/
def Covers (s : B) (t : List Instr) : Prop :=
  ∃ bs b k, OnPath s bs b ∧ t = bs.flatMap s.code ++ (s.code b).take k

end Codon.Flow
