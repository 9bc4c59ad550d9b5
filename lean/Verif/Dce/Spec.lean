import Verif.Dce.Model
/-!
# C04: meaning of programs

Executions of IR nodes, written down independently of the analysis and of the pass.  The statuses recorded in
`cons` cells play no role.
-/
namespace Codon.Dce

/-- Run-time state: variables of the running function, global variables, what each generator object still
produces (with the effects of producing it), and the effects so far. -/
structure St where
  loc : Nat → Val
  glob : Nat → Val
  gens : Nat → List (List Ev × Val)
  trace : List Ev

/-- How the execution of a node ends. -/
inductive Res where
  | val (v : Val)
  | vals (vs : List Val)
  | brk
  | cont
  | ret (v : Val)
  | exc (e : Nat)
  deriving DecidableEq

def unit : Val := .int 0

/-- Control leaves the node other than by falling through. -/
def Res.abrupt : Res → Prop
  | .val _ | .vals _ => False
  | _ => True

/-- The loop goes on. -/
def Res.next : Res → Prop
  | .val _ | .cont => True
  | _ => False

/-- The loop is left by `return` or an exception. -/
def Res.leaves : Res → Prop
  | .ret _ | .exc _ => True
  | _ => False

def getVar (g : Nat → Bool) (s : St) (x : Nat) : Val := if g x then s.glob x else s.loc x

def setVar (g : Nat → Bool) (s : St) (x : Nat) (v : Val) : St :=
  if g x then { s with glob := fun y => if y = x then v else s.glob y }
  else { s with loc := fun y => if y = x then v else s.loc y }

def setOpt (g : Nat → Bool) (s : St) (x : Option Nat) (v : Val) : St :=
  match x with
  | none => s
  | some x => setVar g s x v

/-- The next element of something that is iterated over, what is left of it, and the state afterwards. -/
def nextItem (v : Val) (s : St) : Option (Val × Val × St) :=
  match v with
  | .seq (i :: is) => some (.int i, .seq is, s)
  | .obj h =>
    match s.gens h with
    | [] => none
    | (evs, v) :: rest =>
      some (v, .obj h, { s with gens := fun k => if k = h then rest else s.gens k, trace := s.trace ++ evs })
  | _ => none

/-- The variables of a function at its start. -/
def bindParams : List Nat → List Val → Nat → Val
  | p :: ps, v :: vs => fun x => if x = p then v else bindParams ps vs x
  | _, _ => fun _ => unit

/-- What is executed: a node, an argument list, the body of a loop for the remaining elements or numbers, the body,
clauses and `else` part of a `try`, the clauses for an exception, a function. -/
inductive Form where
  | node (n : Node)
  | args (n : Node)
  | loop (x : Nat) (v : Val) (body : Node)
  | count (x : Nat) (i step stop : I64) (body : Node)
  | core (body catches els : Node)
  | catches (n : Node) (e : Nat)
  | fn (f : Nat) (vs : List Val)

/-- A counted loop with step `step` at `i` is over. -/
def countDone (i step stop : I64) : Prop := if BitVec.slt 0 step then stop.sle i = true else i.sle stop = true

inductive Exec (M : Module) : Form → St → Res → St → Prop
  | int {v s} : Exec M (.node (.int v)) s (.val (.int v)) s
  | bool {b s} : Exec M (.node (.bool b)) s (.val (.bool b)) s
  | var {x s} : Exec M (.node (.var x)) s (.val (getVar M.isGlobal s x)) s
  | nil {s} : Exec M (.node .nil) s (.val unit) s
  | cons {st a b s v s1 r t} : Exec M (.node a) s (.val v) s1 → Exec M (.node b) s1 r t →
      Exec M (.node (.cons st a b)) s r t
  | consX {st a b s r t} : Exec M (.node a) s r t → r.abrupt → Exec M (.node (.cons st a b)) s r t
  | iteT {c a b s s1 r t} : Exec M (.node c) s (.val (.bool true)) s1 → Exec M (.node a) s1 r t →
      Exec M (.node (.ite c a b)) s r t
  | iteF {c a b s s1 r t} : Exec M (.node c) s (.val (.bool false)) s1 → Exec M (.node b) s1 r t →
      Exec M (.node (.ite c a b)) s r t
  | iteX {c a b s r t} : Exec M (.node c) s r t → r.abrupt → Exec M (.node (.ite c a b)) s r t
  | whileF {c b s t} : Exec M (.node c) s (.val (.bool false)) t → Exec M (.node (.while_ c b)) s (.val unit) t
  | whileX {c b s r t} : Exec M (.node c) s r t → r.abrupt → Exec M (.node (.while_ c b)) s r t
  | whileT {c b s s1 r1 s2 r t} : Exec M (.node c) s (.val (.bool true)) s1 → Exec M (.node b) s1 r1 s2 → r1.next →
      Exec M (.node (.while_ c b)) s2 r t → Exec M (.node (.while_ c b)) s r t
  | whileB {c b s s1 t} : Exec M (.node c) s (.val (.bool true)) s1 → Exec M (.node b) s1 .brk t →
      Exec M (.node (.while_ c b)) s (.val unit) t
  | whileR {c b s s1 r t} : Exec M (.node c) s (.val (.bool true)) s1 → Exec M (.node b) s1 r t → r.leaves →
      Exec M (.node (.while_ c b)) s r t
  | for_ {x it b s v s1 r t} : Exec M (.node it) s (.val v) s1 → Exec M (.loop x v b) s1 r t →
      Exec M (.node (.for_ x it b)) s r t
  | forX {x it b s r t} : Exec M (.node it) s r t → r.abrupt → Exec M (.node (.for_ x it b)) s r t
  | loopEnd {x v b s} : nextItem v s = none → Exec M (.loop x v b) s (.val unit) s
  | loopNext {x v b s i v' s' r1 s1 r t} : nextItem v s = some (i, v', s') →
      Exec M (.node b) (setVar M.isGlobal s' x i) r1 s1 → r1.next → Exec M (.loop x v' b) s1 r t →
      Exec M (.loop x v b) s r t
  | loopB {x v b s i v' s' t} : nextItem v s = some (i, v', s') →
      Exec M (.node b) (setVar M.isGlobal s' x i) .brk t → Exec M (.loop x v b) s (.val unit) t
  | loopR {x v b s i v' s' r t} : nextItem v s = some (i, v', s') →
      Exec M (.node b) (setVar M.isGlobal s' x i) r t → r.leaves → Exec M (.loop x v b) s r t
  | imp {x a d b c s i s1 j s2 r t} : Exec M (.node a) s (.val (.int i)) s1 → Exec M (.node b) s1 (.val (.int j)) s2 →
      Exec M (.count x i d j c) s2 r t → Exec M (.node (.imp x a d b c)) s r t
  | impX1 {x a d b c s r t} : Exec M (.node a) s r t → r.abrupt → Exec M (.node (.imp x a d b c)) s r t
  | impX2 {x a d b c s i s1 r t} : Exec M (.node a) s (.val (.int i)) s1 → Exec M (.node b) s1 r t → r.abrupt →
      Exec M (.node (.imp x a d b c)) s r t
  | countEnd {x i d j c s} : countDone i d j → Exec M (.count x i d j c) s (.val unit) s
  | countNext {x i d j c s r1 s1 r t} : ¬ countDone i d j →
      Exec M (.node c) (setVar M.isGlobal s x (.int i)) r1 s1 → r1.next → Exec M (.count x (i + d) d j c) s1 r t →
      Exec M (.count x i d j c) s r t
  | countB {x i d j c s t} : ¬ countDone i d j → Exec M (.node c) (setVar M.isGlobal s x (.int i)) .brk t →
      Exec M (.count x i d j c) s (.val unit) t
  | countR {x i d j c s r t} : ¬ countDone i d j → Exec M (.node c) (setVar M.isGlobal s x (.int i)) r t → r.leaves →
      Exec M (.count x i d j c) s r t
  | tryc {b cs e f s r s1 v t} : Exec M (.core b cs e) s r s1 → Exec M (.node f) s1 (.val v) t →
      Exec M (.node (.tryc b cs e f)) s r t
  | trycX {b cs e f s r0 s1 r t} : Exec M (.core b cs e) s r0 s1 → Exec M (.node f) s1 r t → r.abrupt →
      Exec M (.node (.tryc b cs e f)) s r t
  | coreElse {b cs e s v s1 r t} : Exec M (.node b) s (.val v) s1 → Exec M (.node e) s1 r t →
      Exec M (.core b cs e) s r t
  | coreExc {b cs e s k s1 r t} : Exec M (.node b) s (.exc k) s1 → Exec M (.catches cs k) s1 r t →
      Exec M (.core b cs e) s r t
  | coreX {b cs e s r t} : Exec M (.node b) s r t → r.abrupt → (∀ k, r ≠ .exc k) → Exec M (.core b cs e) s r t
  | catchNone {k s} : Exec M (.catches .nil k) s (.exc k) s
  | catchYes {ty x h rest k s r t} : ty = none ∨ ty = some k →
      Exec M (.node h) (setOpt M.isGlobal s x (.int (BitVec.ofNat 64 k))) r t →
      Exec M (.catches (.ctch ty x h rest) k) s r t
  | catchNo {ty x h rest k s r t} : ¬ (ty = none ∨ ty = some k) → Exec M (.catches rest k) s r t →
      Exec M (.catches (.ctch ty x h rest) k) s r t
  | assign {x a s v s1} : Exec M (.node a) s (.val v) s1 →
      Exec M (.node (.assign x a)) s (.val unit) (setVar M.isGlobal s1 x v)
  | assignX {x a s r t} : Exec M (.node a) s r t → r.abrupt → Exec M (.node (.assign x a)) s r t
  | call {f as s vs s1 r t} : Exec M (.args as) s (.vals vs) s1 → Exec M (.fn f vs) s1 r t →
      Exec M (.node (.call f as)) s r t
  | callX {f as s r t} : Exec M (.args as) s r t → r.abrupt → Exec M (.node (.call f as)) s r t
  | dyn {c as s f s1 vs s2 r t} : Exec M (.node c) s (.val (.fn f)) s1 → Exec M (.args as) s1 (.vals vs) s2 →
      Exec M (.fn f vs) s2 r t → Exec M (.node (.dyn c as)) s r t
  | dynX1 {c as s r t} : Exec M (.node c) s r t → r.abrupt → Exec M (.node (.dyn c as)) s r t
  | dynX2 {c as s f s1 r t} : Exec M (.node c) s (.val (.fn f)) s1 → Exec M (.args as) s1 r t → r.abrupt →
      Exec M (.node (.dyn c as)) s r t
  | argsNil {s} : Exec M (.args .nil) s (.vals []) s
  | argsCons {a b s v s1 vs t} : Exec M (.node a) s (.val v) s1 → Exec M (.args b) s1 (.vals vs) t →
      Exec M (.args (.arg a b)) s (.vals (v :: vs)) t
  | argsX1 {a b s r t} : Exec M (.node a) s r t → r.abrupt → Exec M (.args (.arg a b)) s r t
  | argsX2 {a b s v s1 r t} : Exec M (.node a) s (.val v) s1 → Exec M (.args b) s1 r t → r.abrupt →
      Exec M (.args (.arg a b)) s r t
  | fnRet {f attr ps body vs s v t} : M.funcs[f]? = some (.bodied attr ps body) →
      Exec M (.node body) { s with loc := bindParams ps vs } (.ret v) t →
      Exec M (.fn f vs) s (.val v) { t with loc := s.loc }
  | fnEnd {f attr ps body vs s v t} : M.funcs[f]? = some (.bodied attr ps body) →
      Exec M (.node body) { s with loc := bindParams ps vs } (.val v) t →
      Exec M (.fn f vs) s (.val unit) { t with loc := s.loc }
  | fnExc {f attr ps body vs s k t} : M.funcs[f]? = some (.bodied attr ps body) →
      Exec M (.node body) { s with loc := bindParams ps vs } (.exc k) t →
      Exec M (.fn f vs) s (.exc k) { t with loc := s.loc }
  | fnExt {f attr sem vs s evs v} : M.funcs[f]? = some (.ext attr sem) → sem s.trace vs = (evs, .inl v) →
      Exec M (.fn f vs) s (.val v) { s with trace := s.trace ++ evs }
  | fnExtX {f attr sem vs s evs k} : M.funcs[f]? = some (.ext attr sem) → sem s.trace vs = (evs, .inr k) →
      Exec M (.fn f vs) s (.exc k) { s with trace := s.trace ++ evs }
  | fnInternal {f sem vs s} : M.funcs[f]? = some (.internal sem) → Exec M (.fn f vs) s (.val (sem vs)) s
  | ternaryT {c a b s s1 r t} : Exec M (.node c) s (.val (.bool true)) s1 → Exec M (.node a) s1 r t →
      Exec M (.node (.ternary c a b)) s r t
  | ternaryF {c a b s s1 r t} : Exec M (.node c) s (.val (.bool false)) s1 → Exec M (.node b) s1 r t →
      Exec M (.node (.ternary c a b)) s r t
  | ternaryX {c a b s r t} : Exec M (.node c) s r t → r.abrupt → Exec M (.node (.ternary c a b)) s r t
  | brk {s} : Exec M (.node .brk) s .brk s
  | cont {s} : Exec M (.node .cont) s .cont s
  | ret {a s v t} : Exec M (.node a) s (.val v) t → Exec M (.node (.ret a)) s (.ret v) t
  | retX {a s r t} : Exec M (.node a) s r t → r.abrupt → Exec M (.node (.ret a)) s r t
  | throw_ {a s k t} : Exec M (.node a) s (.val (.int k)) t → Exec M (.node (.throw_ a)) s (.exc k.toNat) t
  | throwX {a s r t} : Exec M (.node a) s r t → r.abrupt → Exec M (.node (.throw_ a)) s r t
  | flow {f a s v s1 r t} : Exec M (.node f) s (.val v) s1 → Exec M (.node a) s1 r t →
      Exec M (.node (.flow f a)) s r t
  | flowX {f a s r t} : Exec M (.node f) s r t → r.abrupt → Exec M (.node (.flow f a)) s r t

/-- The variable is read in the node. -/
def Node.reads (x : Nat) : Node → Prop
  | .int _ | .bool _ | .nil | .brk | .cont => False
  | .var y => y = x
  | .cons _ a b | .while_ a b | .dyn a b | .arg a b | .flow a b => a.reads x ∨ b.reads x
  | .ite a b c | .ternary a b c => a.reads x ∨ b.reads x ∨ c.reads x
  | .for_ _ a b => a.reads x ∨ b.reads x
  | .imp _ a _ b c => a.reads x ∨ b.reads x ∨ c.reads x
  | .tryc a b c d => a.reads x ∨ b.reads x ∨ c.reads x ∨ d.reads x
  | .ctch _ _ a b => a.reads x ∨ b.reads x
  | .assign _ a => a.reads x
  | .call _ a | .ret a | .throw_ a => a.reads x

/-- Variables whose final value matters: those read anywhere, and global variables that are visible from outside (or
all of them, `gash`). -/
def Observable (gash : Bool) (M : Module) (x : Nat) : Prop :=
  (∃ f ∈ M.funcs, ∃ b, f.body? = some b ∧ b.reads x) ∨ (M.isGlobal x = true ∧ (gash = true ∨ M.isExternal x = true))

/-- Two states that no continuation of the program and no observer can tell apart. -/
structure SameObs (gash : Bool) (M : Module) (s t : St) : Prop where
  glob : ∀ x, Observable gash M x → s.glob x = t.glob x
  loc : ∀ x, Observable gash M x → s.loc x = t.loc x
  gens : s.gens = t.gens
  trace : s.trace = t.trace

/-- Functions declared pure are pure: they end with a value, and change nothing that matters. -/
def AttrsOk (gash : Bool) (M : Module) : Prop :=
  (∀ (f : Nat) attr sem, M.funcs[f]? = some (.ext attr sem) → attr = some 0 →
    ∀ tr vs, ∃ v, sem tr vs = ([], .inl v)) ∧
  (∀ (f : Nat) attr ps body, M.funcs[f]? = some (.bodied attr ps body) → attr = some 0 →
    ∀ vs s r t, Exec M (.fn f vs) s r t → (∃ v, r = .val v) ∧ SameObs gash M s t)

end Codon.Dce
