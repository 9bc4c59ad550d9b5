import Verif.CallArgs.Model
import Mathlib.Data.List.Sort
/-!
# The order in which the arguments of a call are evaluated

`TypecheckVisitor::callReorderArguments` (codon/parser/visitors/typecheck/call.cpp:444-743) puts the arguments into the order of the parameters;
the emitted code evaluates them in that order (codon/cir/llvm/llvisitor.cpp:3253-3258).  Left out: partial calls, default values and captured names
(reads of variables of the compiler).
-/
namespace Codon.CallArgs
universe u v w

/-- The kinds of expressions `hasSideEffect` tells apart (typecheck.cpp:1309-1313). -/
inductive Kind where
  | id | dotId | instantiate | bool | int | string | none_ | float | ellipsis | yield_
  | other
  deriving DecidableEq, Repr

/-- `TypecheckVisitor::hasSideEffect` (typecheck.cpp:1309-1313). -/
def hasSideEffect : Kind → Bool
  | .other => true
  | _ => false

/-- The expression of an argument: its kind, and its evaluation, which may raise an exception. -/
structure ArgExpr (S : Type u) (E : Type v) (V : Type w) where
  kind : Kind
  run : S → S × Except E V

variable {S : Type u} {E : Type v} {V : Type w}

/-- Evaluation of some expressions one after the other. -/
def evalEach (run : Nat → S → S × Except E V) : List Nat → S → S × Except E (List V)
  | [], s => (s, .ok [])
  | i :: is, s =>
    match run i s with
    | (s, .error e) => (s, .error e)
    | (s, .ok v) =>
      match evalEach run is s with
      | (s, .error e) => (s, .error e)
      | (s, .ok vs) => (s, .ok (v :: vs))

/-- The arguments of the reordered call, parameter by parameter: a starred parameter gets a tuple of the values. -/
def evalSlots (run : Nat → S → S × Except E V) : List (List Nat) → S → S × Except E (List (List V))
  | [], s => (s, .ok [])
  | l :: ls, s =>
    match evalEach run l s with
    | (s, .error e) => (s, .error e)
    | (s, .ok v) =>
      match evalSlots run ls s with
      | (s, .error e) => (s, .error e)
      | (s, .ok vs) => (s, .ok (v :: vs))

/-- `inOrder` and `ordered` (call.cpp:449-450). -/
structure Ordering_ where
  inOrder : Bool
  ordered : List Nat
  deriving DecidableEq, Repr

/-- `ordered.empty() || i >= ordered.back().first` (call.cpp:473). -/
def notBefore (ordered : List Nat) (i : Nat) : Bool :=
  match ordered.getLast? with
  | some j => !decide (i < j)
  | none => true

/-- `addReordered` (call.cpp:470-479); for type arguments `inOrder` becomes false if it returns true (call.cpp:509-510, 519-520). -/
def addReordered (side : Nat → Bool) (generic : Bool) (st : Ordering_) (i : Nat) : Ordering_ :=
  if side i then
    ⟨st.inOrder && !generic && notBefore st.ordered i, st.ordered ++ [i]⟩
  else st

/-- The loop over the slots (call.cpp:488-641).  `true`: a type parameter. -/
def orderLoop (side : Nat → Bool) : Ordering_ → List (Bool × List Nat) → Ordering_
  | st, [] => st
  | st, (g, l) :: rest => orderLoop side (l.foldl (addReordered side g) st) rest

/-- `std::ranges::sort` of `ordered` by position (call.cpp:664-665); the positions are distinct. -/
def sortPos (l : List Nat) : List Nat := l.insertionSort (· ≤ ·)

/-- An argument of the transformed call: a variable, or what it was (call.cpp:669-673). -/
def readVar (vars : List Nat) (vs : List V) (run : Nat → S → S × Except E V) (i : Nat) (s : S) : S × Except E V :=
  match (vars.zip vs).lookup i with
  | some v => (s, .ok v)
  | none => run i s

/-- The arguments of the call as run (call.cpp:449-743); argument `i` of the call is `arg i`.  If the arguments with side effects are not in order,
    they are first assigned to variables, in the order in which they are written (call.cpp:662-675); the transformed call is reordered again, and now only
    reads those variables.  Type arguments are not evaluated. -/
def runCall (arg : Nat → ArgExpr S E V) (slots : List (Bool × List Nat)) (s : S) : S × Except E (List (List V)) :=
  let side : Nat → Bool := fun i => hasSideEffect (arg i).kind
  let st := orderLoop side ⟨true, []⟩ slots
  let values := (slots.filter fun sl => !sl.1).map (·.2)
  if st.inOrder then evalSlots (fun i => (arg i).run) values s
  else
    let vars := sortPos st.ordered
    match evalEach (fun i => (arg i).run) vars s with
    | (s, .error e) => (s, .error e)
    | (s, .ok vs) => evalSlots (readVar vars vs fun i => (arg i).run) values s

/-! ## Unpacking in calls -/

/-- The argument `**e` for a record `e` (call.cpp:311-320): one keyword argument for each field; the first one assigns `e` to a variable, the others read that variable.
    `var` reads the variable from the state (`none`: not yet assigned), `set` assigns it; `fields` are the names and the projections. -/
def unpackRecord {R : Type w} (var : S → Option R) (set : S → R → S) (e : S → S × Except E R) (undef : S → V) :
    Nat → List (String × (R → V)) → List (String × ArgExpr S E V)
  | _, [] => []
  | i, (n, f) :: rest =>
    (n, if i = 0 then ⟨.other, fun s => match e s with
          | (s, .error x) => (s, .error x)
          | (s, .ok r) => (set s r, .ok (f r))⟩
        else ⟨.dotId, fun s => (s, .ok (match var s with
          | some r => f r
          | none => undef s))⟩) :: unpackRecord var set e undef (i + 1) rest

end Codon.CallArgs
