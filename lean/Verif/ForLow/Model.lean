import Verif.Omp.Model
/-!
# Loops: the iterator protocol, counted loops, and the lowering of one to the other

Models `ImperativeForFlowLowering` (codon/cir/transform/lowering/imperative.cpp:16-144) on programs of an IR like Codon's, and what
the loops mean according to code generation (codon/cir/llvm/llvisitor.cpp:2600-2702) and to the generators
`range.__iter__` (stdlib/internal/types/range.codon:69-79) and `List.__iter__` (stdlib/internal/types/collections/list.codon:193-199).

Everything else a program does (calls, memory, other generators) is left open: `World` says what it does, and the theorems hold for
every `World`.  Simplifications: local variables hold values and are not shared with other functions (variables that are shared live
in the heap of the `World`); `break` and `continue` mean the innermost loop; no `finally`; parallel loops are left out (see C47).
-/
namespace Codon.ForLow
open Codon.Omp (w)

inductive Val where
  | unit
  | int (i : Int)
  | lst (r : Nat)     -- reference to a list
  | ptr (b : Nat)     -- pointer to the elements of a list
  | gen (g : Nat)     -- any other generator
  | pair (a b : Val)
  deriving DecidableEq, Repr

/-- How the evaluation of a term ends.  `cut`: it has not ended yet; with `cut` the semantics also describes what happens in runs that
    never end. -/
inductive Res where
  | val (v : Val)
  | brk
  | cont
  | ret (v : Val)
  | exc (e : Nat)
  | ub
  | cut
  deriving DecidableEq, Repr

/-- What resuming a generator does: it yields a value, is done, or ends otherwise (never `val`, see `Ev`). -/
inductive Resume (γ H : Type) where
  | yield (v : Val) (g : γ) (h : H)
  | done (h : H)
  | stop (r : Res) (h : H)

/-- The part of the program that is left open.  `call`: what calling function `k` with an argument can do; `len`, `ptr`, `load`:
    the length of a list, the address of its elements, and the elements (`none`: invalid access); `resume`: what other generators can
    do, `Nat` being the generator. -/
structure World where
  H : Type
  call : Nat → Val → H → Res → H → Prop
  len : H → Nat → Option Int
  ptr : H → Nat → Option Nat
  load : H → Nat → Int → Option Val
  resume : Nat → H → Resume Nat H → Prop
  destroy : Nat → H → H
  truth : Val → Bool

/-- `range.__iter__` (range.codon:69-79) before the first `resume`, or suspended at the `yield`. -/
inductive RangeGen where
  | fresh (start stop step : Int)
  | yielded (i stop step : Int)
  deriving DecidableEq, Repr

/-- The tests of the two loops (range.codon:72-79): the value of `i` if the loop goes on. -/
def RangeGen.check (i stop step : Int) : Option (Int × RangeGen) :=
  if step > 0 then
    if i < stop then some (i, .yielded i stop step) else none
  else
    if i > stop then some (i, .yielded i stop step) else none

/-- `range.__iter__` (range.codon:69-79): run to the next `yield`; `none`: done.  `i += step` wraps (int.codon `__add__`). -/
def RangeGen.resume : RangeGen → Option (Int × RangeGen)
  | .fresh start stop step => check start stop step
  | .yielded i stop step => check (w (i + step)) stop step

/-- `List.__iter__` (list.codon:193-199) before the first `resume`, or suspended at the `yield`. -/
inductive ListGen where
  | fresh (r : Nat)
  | yielded (i N : Int) (p : Nat)
  deriving DecidableEq, Repr

/-- The test and the `yield` (list.codon:197-198). -/
def ListGen.check (W : World) (h : W.H) (i N : Int) (p : Nat) : Resume ListGen W.H :=
  if i < N then
    match W.load h p i with
    | some v => .yield v (.yielded i N p) h
    | none => .stop .ub h
  else .done h

/-- `List.__iter__` (list.codon:193-199): run to the next `yield`. -/
def ListGen.resume (W : World) (h : W.H) : ListGen → Resume ListGen W.H
  | .fresh r =>
    match W.len h r with
    | none => .stop .ub h
    | some N =>
      match W.ptr h r with
      | none => .stop .ub h
      | some p => check W h 0 N p
  | .yielded i N p => check W h (w (i + 1)) N p

inductive Gen where
  | range (g : RangeGen)
  | list (g : ListGen)
  | other (g : Nat)
  deriving DecidableEq, Repr

/-- `coro.resume`, `coro.done` and `coro.promise` (llvisitor.cpp:2627-2641) of any generator. -/
inductive Resumes (W : World) : Gen → W.H → Resume Gen W.H → Prop where
  | rangeYield (g h i g') : g.resume = some (i, g') → Resumes W (.range g) h (.yield (.int i) (.range g') h)
  | rangeDone (g h) : g.resume = none → Resumes W (.range g) h (.done h)
  | listYield (g h v g') : g.resume W h = .yield v g' h → Resumes W (.list g) h (.yield v (.list g') h)
  | listDone (g h) : g.resume W h = .done h → Resumes W (.list g) h (.done h)
  | listStop (g h r) : g.resume W h = .stop r h → Resumes W (.list g) h (.stop r h)
  | otherYield (g h v g' h') : W.resume g h (.yield v g' h') → Resumes W (.other g) h (.yield v (.other g') h')
  | otherDone (g h h') : W.resume g h (.done h') → Resumes W (.other g) h (.done (W.destroy g h'))
  | otherStop (g h e h') : W.resume g h (.stop (.exc e) h') → Resumes W (.other g) h (.stop (.exc e) h')
  | otherCut (g h h') : W.resume g h (.stop .cut h') → Resumes W (.other g) h (.stop .cut h')

/-- What is iterated over: `range` with one, two or three arguments, a list, or any other generator. -/
inductive Iter where
  | range1
  | range2
  | range3
  | list
  | other
  deriving DecidableEq, Repr

/-- The iterator made of the arguments: `range.__new__` (range.codon:11-23; error 0 stands for `ValueError`) or the list, and
    `__iter__`, which runs nothing before the first `resume`.  Values of other types are excluded by type checking. -/
def mkIter : Iter → Val → Gen ⊕ Res
  | .range1, .int b => .inl (.range (.fresh 0 b 1))
  | .range2, .pair (.int a) (.int b) => .inl (.range (.fresh a b 1))
  | .range3, .pair (.int a) (.pair (.int b) (.int c)) => if c = 0 then .inr (.exc 0) else .inl (.range (.fresh a b c))
  | .list, .lst r => .inl (.list (.fresh r))
  | .other, .gen g => .inl (.other g)
  | _, _ => .inr .ub

/-- Operations on the value of a term: assignment, call, `return`, and the three operations used by the lowered loop over a list. -/
inductive Op where
  | assign (x : Nat)
  | call (k : Nat)
  | ret
  | len
  | ptr
  | index
  deriving DecidableEq, Repr

/-- Terms.  The last three are loops in progress: they appear in the semantics only. -/
inductive Term where
  | const (v : Val)
  | var (x : Nat)
  | pair (a b : Term)
  | op (f : Op) (a : Term)
  | seq (a b : Term)                                -- SeriesFlow, FlowInstr
  | ite (c a b : Term)                              -- IfFlow, TernaryInstr
  | while (c a : Term)                              -- WhileFlow
  | brk
  | cont
  | try (a : Term) (x : Nat) (b : Term)             -- TryCatchFlow with one handler
  | for (x : Nat) (k : Iter) (a body : Term)        -- ForFlow
  | impFor (x : Nat) (a : Term) (step : Int) (body : Term)   -- ImperativeForFlow, `a`: start and end
  | genLoop (x : Nat) (g : Gen) (body : Term)
  | impLoop (x : Nat) (i step stop : Int) (body : Term)
  deriving Repr

structure St (W : World) where
  vars : Nat → Val
  heap : W.H

def St.set {W : World} (s : St W) (x : Nat) (v : Val) : St W := { s with vars := fun y => if y = x then v else s.vars y }

/-- The test of a counted loop (llvisitor.cpp:2682-2684). -/
def impDone (i step stop : Int) : Bool := if step > 0 then decide (stop ≤ i) else decide (i ≤ stop)

/-- Effect of an operation. -/
inductive OpEv (W : World) : Op → Val → St W → Res → St W → Prop where
  | assign (x v s) : OpEv W (.assign x) v s (.val .unit) (s.set x v)
  | call (k v s u h) : W.call k v s.heap (.val u) h → OpEv W (.call k) v s (.val u) { s with heap := h }
  | callExc (k v s e h) : W.call k v s.heap (.exc e) h → OpEv W (.call k) v s (.exc e) { s with heap := h }
  | callCut (k v s h) : W.call k v s.heap .cut h → OpEv W (.call k) v s .cut { s with heap := h }
  | callUb (k v s h) : W.call k v s.heap .ub h → OpEv W (.call k) v s .ub { s with heap := h }
  | ret (v s) : OpEv W .ret v s (.ret v) s
  | len (r s n) : W.len s.heap r = some n → OpEv W .len (.lst r) s (.val (.int n)) s
  | lenUb (r s) : W.len s.heap r = none → OpEv W .len (.lst r) s .ub s
  | lenType (v s) : (∀ r, v ≠ .lst r) → OpEv W .len v s .ub s
  | ptr (r s p) : W.ptr s.heap r = some p → OpEv W .ptr (.lst r) s (.val (.ptr p)) s
  | ptrUb (r s) : W.ptr s.heap r = none → OpEv W .ptr (.lst r) s .ub s
  | ptrType (v s) : (∀ r, v ≠ .lst r) → OpEv W .ptr v s .ub s
  | index (p i s v) : W.load s.heap p i = some v → OpEv W .index (.pair (.ptr p) (.int i)) s (.val v) s
  | indexUb (p i s) : W.load s.heap p i = none → OpEv W .index (.pair (.ptr p) (.int i)) s .ub s
  | indexType (v s) : (∀ p i, v ≠ .pair (.ptr p) (.int i)) → OpEv W .index v s .ub s

/-- The body of a loop lets the loop go on. -/
def Res.goesOn : Res → Prop
  | .val _ => True
  | .cont => True
  | _ => False

/-- The result of a loop whose body ended so, unless it goes on. -/
def Res.leave : Res → Res
  | .brk => .val .unit
  | r => r

def Res.isVal : Res → Prop
  | .val _ => True
  | _ => False

/-- Evaluation.  `ForFlow`: llvisitor.cpp:2600-2656; `ImperativeForFlow`: 2658-2702; `WhileFlow`: 2563-2598; `break`, `continue`:
    3351-3386. -/
inductive Ev (W : World) : Term → St W → Res → St W → Prop where
  | cut (t s) : Ev W t s .cut s
  | const (v s) : Ev W (.const v) s (.val v) s
  | var (x s) : Ev W (.var x) s (.val (s.vars x)) s
  | pair {a b s v s1 u s2} : Ev W a s (.val v) s1 → Ev W b s1 (.val u) s2 → Ev W (.pair a b) s (.val (.pair v u)) s2
  | pairL {a b s r s1} : Ev W a s r s1 → ¬ r.isVal → Ev W (.pair a b) s r s1
  | pairR {a b s v s1 r s2} : Ev W a s (.val v) s1 → Ev W b s1 r s2 → ¬ r.isVal → Ev W (.pair a b) s r s2
  | op {f a s v s1 r s2} : Ev W a s (.val v) s1 → OpEv W f v s1 r s2 → Ev W (.op f a) s r s2
  | opL {f a s r s1} : Ev W a s r s1 → ¬ r.isVal → Ev W (.op f a) s r s1
  | seq {a b s v s1 r s2} : Ev W a s (.val v) s1 → Ev W b s1 r s2 → Ev W (.seq a b) s r s2
  | seqL {a b s r s1} : Ev W a s r s1 → ¬ r.isVal → Ev W (.seq a b) s r s1
  | iteT {c a b s v s1 r s2} : Ev W c s (.val v) s1 → W.truth v = true → Ev W a s1 r s2 → Ev W (.ite c a b) s r s2
  | iteF {c a b s v s1 r s2} : Ev W c s (.val v) s1 → W.truth v = false → Ev W b s1 r s2 → Ev W (.ite c a b) s r s2
  | iteL {c a b s r s1} : Ev W c s r s1 → ¬ r.isVal → Ev W (.ite c a b) s r s1
  | whileEnd {c a s v s1} : Ev W c s (.val v) s1 → W.truth v = false → Ev W (.while c a) s (.val .unit) s1
  | whileL {c a s r s1} : Ev W c s r s1 → ¬ r.isVal → Ev W (.while c a) s r s1
  | whileLeave {c a s v s1 r s2} : Ev W c s (.val v) s1 → W.truth v = true → Ev W a s1 r s2 → ¬ r.goesOn → Ev W (.while c a) s r.leave s2
  | whileNext {c a s v s1 r s2 q s3} : Ev W c s (.val v) s1 → W.truth v = true → Ev W a s1 r s2 → r.goesOn → Ev W (.while c a) s2 q s3 →
      Ev W (.while c a) s q s3
  | brk (s) : Ev W .brk s .brk s
  | cont (s) : Ev W .cont s .cont s
  | tryExc {a x b s e s1 r s2} : Ev W a s (.exc e) s1 → Ev W b (s1.set x (.int e)) r s2 → Ev W (.try a x b) s r s2
  | tryOk {a x b s r s1} : Ev W a s r s1 → (∀ e, r ≠ .exc e) → Ev W (.try a x b) s r s1
  | for {x k a body s v s1 g r s2} : Ev W a s (.val v) s1 → mkIter k v = .inl g → Ev W (.genLoop x g body) s1 r s2 →
      Ev W (.for x k a body) s r s2
  | forErr {x k a body s v s1 r} : Ev W a s (.val v) s1 → mkIter k v = .inr r → Ev W (.for x k a body) s r s1
  | forCut {x k a body s v s1} : Ev W a s (.val v) s1 → Ev W (.for x k a body) s .cut s1
  | forL {x k a body s r s1} : Ev W a s r s1 → ¬ r.isVal → Ev W (.for x k a body) s r s1
  | genDone {x g body s h} : Resumes W g s.heap (.done h) → Ev W (.genLoop x g body) s (.val .unit) { s with heap := h }
  | genStop {x g body s r h} : Resumes W g s.heap (.stop r h) → Ev W (.genLoop x g body) s r { s with heap := h }
  | genLeave {x g body s v g' h r s1} : Resumes W g s.heap (.yield v g' h) → Ev W body (St.set { s with heap := h } x v) r s1 → ¬ r.goesOn →
      Ev W (.genLoop x g body) s r.leave s1
  | genNext {x g body s v g' h r s1 q s2} : Resumes W g s.heap (.yield v g' h) → Ev W body (St.set { s with heap := h } x v) r s1 →
      r.goesOn → Ev W (.genLoop x g' body) s1 q s2 → Ev W (.genLoop x g body) s q s2
  | impFor {x a step body s i stop s1 r s2} : Ev W a s (.val (.pair (.int i) (.int stop))) s1 → Ev W (.impLoop x i step stop body) s1 r s2 →
      Ev W (.impFor x a step body) s r s2
  | impForType {x a step body s v s1} : Ev W a s (.val v) s1 → (∀ i n, v ≠ .pair (.int i) (.int n)) → Ev W (.impFor x a step body) s .ub s1
  | impForCut {x a step body s v s1} : Ev W a s (.val v) s1 → Ev W (.impFor x a step body) s .cut s1
  | impForL {x a step body s r s1} : Ev W a s r s1 → ¬ r.isVal → Ev W (.impFor x a step body) s r s1
  | impDone {x i step stop body s} : impDone i step stop = true → Ev W (.impLoop x i step stop body) s (.val .unit) s
  | impLeave {x i step stop body s r s1} : impDone i step stop = false → Ev W body (s.set x (.int i)) r s1 → ¬ r.goesOn →
      Ev W (.impLoop x i step stop body) s r.leave s1
  | impNext {x i step stop body s r s1 q s2} : impDone i step stop = false → Ev W body (s.set x (.int i)) r s1 → r.goesOn →
      Ev W (.impLoop x (w (i + step)) step stop body) s1 q s2 → Ev W (.impLoop x i step stop body) s q s2

/-! ### The pass -/

/-- `ImperativeForFlowLowering::handle` (imperative.cpp:64-144) on a loop with lowered parts; `k`, `k + 1`, … are new variables
    (`util::makeVar`, imperative.cpp:122-133).  A loop over a range is replaced if its step is known and not zero (82-108), a loop over
    a list by a counted loop over its elements (109-143), any other left. -/
def handle (x : Nat) (it : Iter) (a body : Term) (k : Nat) : Term × Nat :=
  match it, a with
  | .range1, a => (.impFor x (.pair (.const (.int 0)) a) 1 body, k)
  | .range2, .pair a b => (.impFor x (.pair a b) 1 body, k)
  | .range3, .pair a (.pair b (.const (.int c))) =>
    if c = 0 then (.for x .range3 (.pair a (.pair b (.const (.int c)))) body, k) else (.impFor x (.pair a b) c body, k)
  | .list, a =>
    (.seq (.op (.assign k) a)
      (.seq (.op (.assign (k + 1)) (.op .len (.var k)))
        (.seq (.op (.assign (k + 2)) (.op .ptr (.var k)))
          (.impFor (k + 3) (.pair (.const (.int 0)) (.var (k + 1))) 1
            (.seq (.op (.assign x) (.op .index (.pair (.var (k + 2)) (.var (k + 3))))) body)))), k + 4)
  | it, a => (.for x it a body, k)

/-- The pass over a whole program (`OperatorPass`, codon/cir/transform/pass.h); `k` is the first unused variable.  The real pass visits
    a loop before its parts; the parts of a loop are used as they are in what replaces it, so the order only changes the numbers of the
    new variables. -/
def lower : Term → Nat → Term × Nat
  | .const v, k => (.const v, k)
  | .var x, k => (.var x, k)
  | .pair a b, k => (.pair (lower a k).1 (lower b (lower a k).2).1, (lower b (lower a k).2).2)
  | .op f a, k => (.op f (lower a k).1, (lower a k).2)
  | .seq a b, k => (.seq (lower a k).1 (lower b (lower a k).2).1, (lower b (lower a k).2).2)
  | .ite c a b, k =>
    (.ite (lower c k).1 (lower a (lower c k).2).1 (lower b (lower a (lower c k).2).2).1, (lower b (lower a (lower c k).2).2).2)
  | .while c a, k => (.while (lower c k).1 (lower a (lower c k).2).1, (lower a (lower c k).2).2)
  | .brk, k => (.brk, k)
  | .cont, k => (.cont, k)
  | .try a x b, k => (.try (lower a k).1 x (lower b (lower a k).2).1, (lower b (lower a k).2).2)
  | .for x it a body, k => handle x it (lower a k).1 (lower body (lower a k).2).1 (lower body (lower a k).2).2
  | .impFor x a step body, k => (.impFor x (lower a k).1 step (lower body (lower a k).2).1, (lower body (lower a k).2).2)
  | .genLoop x g body, k => (.genLoop x g (lower body k).1, (lower body k).2)
  | .impLoop x i step stop body, k => (.impLoop x i step stop (lower body k).1, (lower body k).2)

end Codon.ForLow
