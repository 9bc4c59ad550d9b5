/-!
# Model of generators consumed by `sum`, `any`, `all`, and of their fusion

`codon/cir/transform/pythonic/generator.cpp` replaces `sum(g(…), start)`, `any(g(…))` and `all(g(…))`,
where `g` is a generator function, by a call of a plain function: the body of `g` with every `yield`
replaced by the work of the consumer.

A body is a structured statement over a state `S` (the variables of the generator and everything
else: heap, input, output).  Primitive statements and conditions are arbitrary functions on the state
that may raise.  Bodies are executed by a small-step machine with a stack of enclosing constructs, so
that a generator can be suspended in the middle of loops and `try` statements and be resumed later.
Not modelled: `yield` as an expression (the pass gives up on it, generator.cpp:73, 114), final yields
of coroutines.
-/

namespace Codon.Gen

/-- A computation that gives a value or raises. -/
inductive Eff (S E α : Type) where
  | ok (a : α) (s : S)
  | raise (e : E) (s : S)
deriving DecidableEq

/-- Statements (codon/cir/flow.h, codon/cir/instr.h).  `S` states, `E` exceptions, `V` yielded values,
`R` returned values.  A loop has a condition with effects: a `for` loop over an iterator has "resume it
and tell whether there is an item". -/
inductive Stmt (S E V R : Type) where
  | skip
  | act (f : S → Eff S E Unit)
  | seq (a b : Stmt S E V R)
  | ite (c : S → Eff S E Bool) (a b : Stmt S E V R)
  | loop (c : S → Eff S E Bool) (b : Stmt S E V R)
  | brk
  | cont
  | ret (f : S → Eff S E R)
  | yld (f : S → Eff S E V)
  /-- `try: b except: h` for the exceptions for which `p` holds; `bind` stores the exception. -/
  | catch (b : Stmt S E V R) (p : E → Bool) (bind : E → S → S) (h : Stmt S E V R)
  /-- `try: b finally: f`. -/
  | fin (b f : Stmt S E V R)

/-- How a statement completes. -/
inductive Cmpl (E R : Type) where
  | normal
  | brk
  | cont
  | ret (r : R)
  | exc (e : E)
deriving DecidableEq

/-- What encloses the statement being executed. -/
inductive Frame (S E V R : Type) where
  | seq (b : Stmt S E V R)
  | loop (c : S → Eff S E Bool) (b : Stmt S E V R)
  | catch (p : E → Bool) (bind : E → S → S) (h : Stmt S E V R)
  | fin (f : Stmt S E V R)
  /-- A `finally` block is being executed; `c` is how the `try` block completed. -/
  | after (c : Cmpl E R)

inductive Conf (S E V R : Type) where
  | run (st : Stmt S E V R) (k : List (Frame S E V R)) (s : S)
  | unwind (c : Cmpl E R) (k : List (Frame S E V R)) (s : S)
  /-- Suspended at a `yield` of `v` (`makeYield`, codon/cir/llvm/llvisitor.cpp:1695-1712). -/
  | susp (v : V) (k : List (Frame S E V R)) (s : S)

variable {S E V R A : Type}

/-- Execution of a statement. -/
def exec (st : Stmt S E V R) (k : List (Frame S E V R)) (s : S) : Conf S E V R :=
  match st with
  | .skip => .unwind .normal k s
  | .act f =>
    match f s with
    | .ok _ s => .unwind .normal k s
    | .raise e s => .unwind (.exc e) k s
  | .seq a b => .run a (.seq b :: k) s
  | .ite c a b =>
    match c s with
    | .ok true s => .run a k s
    | .ok false s => .run b k s
    | .raise e s => .unwind (.exc e) k s
  | .loop c b =>
    match c s with
    | .ok true s => .run b (.loop c b :: k) s
    | .ok false s => .unwind .normal k s
    | .raise e s => .unwind (.exc e) k s
  | .brk => .unwind .brk k s
  | .cont => .unwind .cont k s
  | .ret f =>
    match f s with
    | .ok r s => .unwind (.ret r) k s
    | .raise e s => .unwind (.exc e) k s
  | .yld f =>
    match f s with
    | .ok v s => .susp v k s
    | .raise e s => .unwind (.exc e) k s
  | .catch b p bind h => .run b (.catch p bind h :: k) s
  | .fin b f => .run b (.fin f :: k) s

/-- Completion `c` reaches an enclosing construct.  The value of a `return` is stored before the
`finally` blocks run (llvisitor.cpp:3406-3412); a `finally` block that completes abruptly replaces the
completion it interrupted. -/
def pop (c : Cmpl E R) (fr : Frame S E V R) (k : List (Frame S E V R)) (s : S) : Conf S E V R :=
  match fr with
  | .seq b =>
    match c with
    | .normal => .run b k s
    | c => .unwind c k s
  | .loop d b =>
    match c with
    | .normal => .run (.loop d b) k s
    | .cont => .run (.loop d b) k s
    | .brk => .unwind .normal k s
    | c => .unwind c k s
  | .catch p bind h =>
    match c with
    | .exc e => if p e then .run h k (bind e s) else .unwind (.exc e) k s
    | c => .unwind c k s
  | .fin f => .run f (.after c :: k) s
  | .after d =>
    match c with
    | .normal => .unwind d k s
    | c => .unwind c k s

/-! ### A consumer and its generator -/

/-- What a consumer does with an item: go on with a new accumulator, stop with a result. -/
inductive Next (A R : Type) where
  | more (a : A)
  | stop (r : R)
deriving DecidableEq

/-- A consumer: `for v in x:` with a body that updates an accumulator or returns, and a final
`return`. -/
structure Consumer (S E V A R : Type) where
  item : A → V → S → Eff S E (Next A R)
  finish : A → R

/-- How a call ends; `bad`: a `break` or `continue` outside of a loop, or a plain function that ends
without `return` (excluded by the parser and type checker). -/
inductive Outcome (S E R : Type) where
  | returned (r : R) (s : S)
  | raised (e : E) (s : S)
  | bad
deriving DecidableEq

inductive OState (S E V A R : Type) where
  | go (c : Conf S E V Unit) (a : A)
  | done (o : Outcome S E R)

/-- One step of the consumer with its generator.  At an item the body of the `for` loop runs and the
generator is resumed; a consumer that returns or raises leaves the generator suspended for ever
(`ForFlow`, llvisitor.cpp:2621-2655: neither `return` nor an exception goes through `for.cleanup`, and
`coro.destroy` would go to `coro.cleanup`, past all `finally` blocks, 1708-1711).  A generator that
returns ends the loop. -/
def Consumer.step (q : Consumer S E V A R) : OState S E V A R → OState S E V A R
  | .done o => .done o
  | .go (.run st k s) a => .go (exec st k s) a
  | .go (.unwind c (fr :: k) s) a => .go (pop c fr k s) a
  | .go (.unwind c [] s) a =>
    match c with
    | .normal => .done (.returned (q.finish a) s)
    | .ret _ => .done (.returned (q.finish a) s)
    | .exc e => .done (.raised e s)
    | _ => .done .bad
  | .go (.susp v k s) a =>
    match q.item a v s with
    | .ok (.more a) s => .go (.unwind .normal k s) a
    | .ok (.stop r) s => .done (.returned r s)
    | .raise e s => .done (.raised e s)

/-- `stdlib/internal/builtin.codon:276-306` `sum` of a generator: `s = s + a`.  `plus` is that
operator: it may have effects and raise. -/
def sumConsumer (plus : A → V → S → Eff S E A) : Consumer S E V A A where
  item a v s :=
    match plus a v s with
    | .ok a s => .ok (.more a) s
    | .raise e s => .raise e s
  finish a := a

/-- `stdlib/internal/builtin.codon:183-193` `any` (`isAny = true`) and `all` of a generator; `truth` is
`bool(a)`. -/
def anyAllConsumer (isAny : Bool) (truth : V → S → Eff S E Bool) : Consumer S E V Unit Bool where
  item _ v s :=
    match truth v s with
    | .ok b s => if b = isAny then .ok (.stop isAny) s else .ok (.more ()) s
    | .raise e s => .raise e s
  finish _ := !isAny

/-! ### The fused function -/

inductive FState (S E R : Type) where
  | go (c : Conf S E Empty R)
  | done (o : Outcome S E R)

/-- One step of a plain function. -/
def FState.step : FState S E R → FState S E R
  | .done o => .done o
  | .go (.run st k s) => .go (exec st k s)
  | .go (.unwind c (fr :: k) s) => .go (pop c fr k s)
  | .go (.unwind c [] s) =>
    match c with
    | .ret r => .done (.returned r s)
    | .exc e => .done (.raised e s)
    | _ => .done .bad
  | .go (.susp v _ _) => nomatch v

/-- The code of the generator does not touch the accumulator. -/
def keep {α : Type} (f : S → Eff S E α) : S × A → Eff (S × A) E α := fun (s, a) =>
  match f s with
  | .ok v s => .ok v (s, a)
  | .raise e s => .raise e (s, a)

/-- The two visitors (generator.cpp:31-115), cloning everything but yields and returns: `Y` replaces
a yield; a return gets the value `fin` of the accumulator, after its own value has been evaluated
(generator.cpp:62-71, 101-112). -/
def Stmt.fuse (Y : (S → Eff S E V) → Stmt (S × A) E Empty R) (fin : A → R) :
    Stmt S E V Unit → Stmt (S × A) E Empty R
  | .skip => .skip
  | .act f => .act (keep f)
  | .seq a b => .seq (a.fuse Y fin) (b.fuse Y fin)
  | .ite c a b => .ite (keep c) (a.fuse Y fin) (b.fuse Y fin)
  | .loop c b => .loop (keep c) (b.fuse Y fin)
  | .brk => .brk
  | .cont => .cont
  | .ret f => .seq (.act (keep f)) (.ret fun (s, a) => .ok (fin a) (s, a))
  | .yld f => Y f
  | .catch b p bind h => .catch (b.fuse Y fin) p (fun e (s, a) => (bind e s, a)) (h.fuse Y fin)
  | .fin b f => .fin (b.fuse Y fin) (f.fuse Y fin)

/-- `GeneratorSumTransformer::handle(YieldInstr *)` (generator.cpp:39-60): `acc = acc + value`. -/
def sumYield (plus : A → V → S → Eff S E A) (f : S → Eff S E V) : Stmt (S × A) E Empty A :=
  .act fun (s, a) =>
    match f s with
    | .raise e s => .raise e (s, a)
    | .ok v s =>
      match plus a v s with
      | .raise e s => .raise e (s, a)
      | .ok a s => .ok () (s, a)

/-- `GeneratorAnyAllTransformer::handle(YieldInstr *)` (generator.cpp:84-99):
`if bool(value): return True`, or `if (False if bool(value) else True): return False`. -/
def anyAllYield (isAny : Bool) (truth : V → S → Eff S E Bool) (f : S → Eff S E V) :
    Stmt (S × Unit) E Empty Bool :=
  .ite (keep fun s =>
      match f s with
      | .raise e s => .raise e s
      | .ok v s =>
        match truth v s with
        | .raise e s => .raise e s
        | .ok b s => .ok (if isAny then b else if b then false else true) s)
    (.ret fun s => .ok isAny s) .skip

/-- `genToSum` (generator.cpp:117-169): the transformed body, then `return acc`; the accumulator is
initialised before (the initial value is part of the initial state). -/
def sumBody (plus : A → V → S → Eff S E A) (b : Stmt S E V Unit) : Stmt (S × A) E Empty A :=
  .seq (b.fuse (sumYield plus) id) (.ret fun (s, a) => .ok a (s, a))

/-- `genToAnyAll` (generator.cpp:171-208). -/
def anyAllBody (isAny : Bool) (truth : V → S → Eff S E Bool) (b : Stmt S E V Unit) :
    Stmt (S × Unit) E Empty Bool :=
  .seq (b.fuse (anyAllYield isAny truth) fun _ => !isAny) (.ret fun s => .ok (!isAny) s)

end Codon.Gen
