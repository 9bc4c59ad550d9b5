import Verif.Bounds.Model
/-!
# Executions that come to an access in a counting loop

Written without the terms of the pass.  An execution is the list of what was assigned and what was read, in order.
-/
namespace Codon.Bounds

/-- Values: integers, and arrays, of which only the shape matters. -/
inductive Val where
  | int (v : Int)
  | arr (shape : List Int)
deriving DecidableEq, Repr

inductive Event where
  /-- the assignment `d` sets `x` -/
  | write (d : RDef) (x : Nat) (v : Val)
  /-- the variable `x` is read at `loc` -/
  | read (loc x : Nat)
deriving DecidableEq, Repr

/-- The last assignment of `x`, with the value. -/
def last (x : Nat) (t : List Event) : Option (RDef × Val) :=
  t.foldl (fun acc e => match e with
    | .write d y v => if y = x then some (d, v) else acc
    | .read _ _ => acc) none

/-- The variables an expression reads, in order. -/
def E.reads : E → List Event
  | .const _ => []
  | .var loc x => [.read loc x]
  | .len loc x => [.read loc x]
  | .size loc x => [.read loc x]
  | .add a b => a.reads ++ b.reads
  | .sub a b => a.reads ++ b.reads
  | .other => []

/-- Arithmetic of 64 bit integers. -/
def wrap (v : Int) : Int := v.bmod (2 ^ 64)

/-- The value of an expression after `t`, with `f` applied to the result of each operation.  `len` is the length of the
first axis, `size` the number of elements. -/
def E.evalWith (f : Int → Int) (t : List Event) : E → Option Int
  | .const v => some v
  | .var _ x =>
    match last x t with
    | some (_, .int v) => some v
    | _ => none
  | .len _ x =>
    match last x t with
    | some (_, .arr (n :: _)) => some n
    | _ => none
  | .size _ x =>
    match last x t with
    | some (_, .arr sh) => some (sh.foldr (· * ·) 1)
    | _ => none
  | .add a b => do
    let v ← a.evalWith f t
    let w ← b.evalWith f t
    pure (f (v + w))
  | .sub a b => do
    let v ← a.evalWith f t
    let w ← b.evalWith f t
    pure (f (v - w))
  | .other => none

/-- What the program computes. -/
def E.eval (t : List Event) (e : E) : Option Int := e.evalWith wrap t
/-- The value if there were no overflow. -/
def E.exact (t : List Event) (e : E) : Option Int := e.evalWith id t

/-- Is there another round with the counter at `c`? (llvisitor.cpp:2680-2682) -/
def goesOn (step e c : Int) : Prop := if step > 0 then c < e else e < c

/-- The values the loop variable gets (llvisitor.cpp:2658-2701). -/
inductive Counter (step s e : Int) : Int → Prop
  | first : goesOn step e s → Counter step s e s
  | next {c} : Counter step s e c → goesOn step e (wrap (c + step)) → Counter step s e (wrap (c + step))

/-- `P` holds at each event, with what came before it. -/
def AllSplits (P : List Event → Event → Prop) : List Event → List Event → Prop
  | _, [] => True
  | p, e :: r => P p e ∧ AllSplits P (p ++ [e]) r

def wrote (t : List Event) : List Nat :=
  t.filterMap fun
    | .write _ x _ => some x
    | .read _ _ => none

/-- The answers of the analysis are right for this execution: when something is read at `loc`, the last assignment of
each variable is among the answers for it at `loc`.  No answers mean that it does not know. -/
def Sound (rd : RD) : List Event → List Event → Prop :=
  AllSplits fun p e => match e with
    | .read loc _ => ∀ y ∈ wrote p, rd y loc = [] ∨ (last y p).all fun q => q.1 ∈ rd y loc
    | .write _ _ _ => True

/-- No variable is read before it is assigned. -/
def Assigned : List Event → List Event → Prop :=
  AllSplits fun p e => match e with
    | .read _ x => x ∈ wrote p
    | .write _ _ _ => True

/-- The assignments `defs` in the loop are only reached by evaluating its bounds first. -/
def SingleEntry (L : Loop) (defs : List Nat) : List Event → List Event → Prop :=
  AllSplits fun p e => match e with
    | .read _ _ => True
    | .write d _ _ => d.id ∈ defs → ∀ b ∈ L.start.reads ++ L.stop.reads, b ∈ p

/-- An assignment of a variable to a variable copies its value. -/
def Copies : List Event → List Event → Prop :=
  AllSplits fun p e => match e with
    | .read _ _ => True
    | .write d _ v => ∀ x ∈ wrote p, d.assignee = some (some x) → (last x p).map Prod.snd = some v

/-- Values that fit in 64 bits. -/
def Fits (v : Int) : Prop := -2 ^ 63 ≤ v ∧ v < 2 ^ 63

instance (v : Int) : Decidable (Fits v) := by unfold Fits; infer_instance

def Val.Ok : Val → Prop
  | .int v => Fits v
  | .arr sh => ∀ n ∈ sh, 0 ≤ n ∧ n < 2 ^ 63

/-- An execution that comes to the access `ix` in the body of `L`: `pre` is executed before this run of the loop, then the
bounds are evaluated (to `s` and `e`), then there are complete rounds (`m0`), the assignment `d` that sets the loop variable
to `c`, and `m1` in the current round. -/
structure Run where
  pre : List Event
  m0 : List Event
  m1 : List Event
  d : RDef
  c : Int
  s : Int
  e : Int

/-- The execution until the bounds are evaluated. -/
def Run.entry (r : Run) (L : Loop) : List Event := r.pre ++ (L.start.reads ++ L.stop.reads)
/-- What is executed of the loop before the access. -/
def Run.mid (r : Run) (L : Loop) : List Event := r.m0 ++ .write r.d L.var (.int r.c) :: r.m1
/-- The execution until the access has its operands. -/
def Run.trace (r : Run) (L : Loop) (ix : Index) : List Event :=
  r.entry L ++ (r.mid L ++ .read ix.loc ix.arr :: ix.idx.reads)

/-- Is `d` one of the two assignments the loop itself makes to its variable? -/
def RDef.own (d : RDef) (L : Loop) : Bool := d.synth == some (.known, L.id) || d.synth == some (.add, L.id)

structure Run.Ok (r : Run) (L : Loop) (ix : Index) (rd : RD) (defs : List Nat) : Prop where
  start : L.start.eval r.pre = some r.s
  stop : L.stop.eval r.pre = some r.e
  counter : Counter L.step r.s r.e r.c
  own : r.d.own L = true
  /-- `m1` belongs to the round that `d` began -/
  round : ∀ ev ∈ r.m1, ∀ d' v, ev = .write d' L.var v → d'.own L = false
  inside : ∀ ev ∈ r.mid L, ∀ d' x v, ev = .write d' x v → d'.id ∈ defs
  entry : SingleEntry L defs [] (r.trace L ix)
  assigned : Assigned [] (r.trace L ix)
  copies : Copies [] (r.trace L ix)
  sound : Sound rd [] (r.trace L ix)
  bounds : Fits r.s ∧ Fits r.e
  values : ∀ ev ∈ r.trace L ix, ∀ d' x v, ev = .write d' x v → v.Ok

/-! These conditions can be decided for a given execution. -/

instance AllSplits.dec {P : List Event → Event → Prop} [d : ∀ p e, Decidable (P p e)] : ∀ p t, Decidable (AllSplits P p t)
  | _, [] => .isTrue trivial
  | p, e :: r =>
    have := AllSplits.dec (P := P) (p ++ [e]) r
    inferInstanceAs (Decidable (P p e ∧ AllSplits P (p ++ [e]) r))

instance (rd : RD) (p t : List Event) : Decidable (Sound rd p t) :=
  @AllSplits.dec _ (fun p e => by cases e <;> infer_instance) p t
instance (p t : List Event) : Decidable (Assigned p t) :=
  @AllSplits.dec _ (fun p e => by cases e <;> infer_instance) p t
instance (L : Loop) (defs : List Nat) (p t : List Event) : Decidable (SingleEntry L defs p t) :=
  @AllSplits.dec _ (fun p e => by cases e <;> infer_instance) p t
instance (p t : List Event) : Decidable (Copies p t) :=
  @AllSplits.dec _ (fun p e => by
    cases e with
    | read => infer_instance
    | write d _ v =>
      exact inferInstanceAs (Decidable (∀ x ∈ wrote p, d.assignee = some (some x) → (last x p).map Prod.snd = some v))) p t

/-- How often (counted with sign) variables that fulfil `p` are added in an expression. -/
def E.varCoef (p : Nat → Nat → Bool) : E → Int
  | .var loc x => if p loc x then 1 else 0
  | .add a b => a.varCoef p + b.varCoef p
  | .sub a b => a.varCoef p - b.varCoef p
  | _ => 0

/-- How often (counted with sign) the length of the array `y` is added. -/
def E.lenCoef (y : Nat) : E → Int
  | .len _ x => if x = y then 1 else 0
  | .size _ x => if x = y then 1 else 0
  | .add a b => a.lenCoef y + b.lenCoef y
  | .sub a b => a.lenCoef y - b.lenCoef y
  | _ => 0

/-- The arrays whose `size` is used. -/
def E.sizes : E → List Nat
  | .size _ x => [x]
  | .add a b => a.sizes ++ b.sizes
  | .sub a b => a.sizes ++ b.sizes
  | _ => []

/-- The integer variables that are read, with their places. -/
def E.vars : E → List (Nat × Nat)
  | .var loc x => [(loc, x)]
  | .add a b => a.vars ++ b.vars
  | .sub a b => a.vars ++ b.vars
  | _ => []

end Codon.Bounds
