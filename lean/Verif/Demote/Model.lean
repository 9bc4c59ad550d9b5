/-!
# Model of the demotion of global variables

`codon/cir/transform/cleanup/global_demote.cpp`: a global variable used in one function only becomes a local variable
of that function.

Programs are functions over variables with assignments, output, calls, branches, loops and returns; calls are direct
and without exceptions.  Operators are arbitrary functions of their operands.  Global storage exists once
(`llvisitor.cpp:140-160`), local storage is new in each call and has no initial value (`llvisitor.cpp:2000-2006`).
Reading a variable that has no value is an outcome of its own.
-/

namespace Codon.Demote

inductive Stmt
  | skip
  | assign (x : Nat) (op : Nat) (args : List Nat)
  | emit (args : List Nat)
  | call (x : Nat) (f : Nat) (args : List Nat)
  | seq (a b : Stmt)
  | ite (c : Nat) (a b : Stmt)
  | loop (c : Nat) (a : Stmt)
  | ret (x : Nat)

structure Func where
  params : List Nat
  body : Stmt

/-- A program: its functions, the number of functions (0 is `main`), and the attributes of variables. -/
structure Prog where
  func : Nat → Func
  count : Nat
  isGlobal : Nat → Bool
  /-- thread-local -/
  tls : Nat → Bool
  /-- external, or the variable of the program's arguments -/
  fixed : Nat → Bool

/-! ## Meaning -/

structure St where
  glob : Nat → Option Nat
  loc : Nat → Option Nat
  out : List (List Nat)

inductive Res
  | normal
  | ret (v : Nat)
  /-- a variable without a value was read -/
  | unset
  deriving DecidableEq

def read (P : Prog) (st : St) (x : Nat) : Option Nat := if P.isGlobal x then st.glob x else st.loc x

def readAll (P : Prog) (st : St) : List Nat → Option (List Nat)
  | [] => some []
  | x :: l =>
    match read P st x, readAll P st l with
    | some v, some vs => some (v :: vs)
    | _, _ => none

def upd (m : Nat → Option Nat) (x v : Nat) : Nat → Option Nat := fun y => if y = x then some v else m y

def write (P : Prog) (st : St) (x v : Nat) : St :=
  if P.isGlobal x then { st with glob := upd st.glob x v } else { st with loc := upd st.loc x v }

/-- The local variables at the start of a call. -/
def frame : List Nat → List Nat → (Nat → Option Nat)
  | p :: ps, v :: vs => upd (frame ps vs) p v
  | _, _ => fun _ => none

/-- The value of a call. -/
def Res.value : Res → Option Nat
  | .normal => some 0
  | .ret v => some v
  | .unset => none

/-- Execution with a bound on its depth (`none`: bound reached). -/
def exec (P : Prog) (op : Nat → List Nat → Nat) : Nat → Stmt → St → Option (Res × St)
  | 0, _, _ => none
  | _ + 1, .skip, st => some (.normal, st)
  | _ + 1, .assign x o args, st =>
    match readAll P st args with
    | some vs => some (.normal, write P st x (op o vs))
    | none => some (.unset, st)
  | _ + 1, .emit args, st =>
    match readAll P st args with
    | some vs => some (.normal, { st with out := st.out ++ [vs] })
    | none => some (.unset, st)
  | n + 1, .call x f args, st =>
    match readAll P st args with
    | none => some (.unset, st)
    | some vs =>
      match exec P op n (P.func f).body { st with loc := frame (P.func f).params vs } with
      | none => none
      | some (r, st') =>
        match r.value with
        | some v => some (.normal, write P { st' with loc := st.loc } x v)
        | none => some (.unset, { st' with loc := st.loc })
  | n + 1, .seq a b, st =>
    match exec P op n a st with
    | some (.normal, st) => exec P op n b st
    | r => r
  | n + 1, .ite c a b, st =>
    match read P st c with
    | some v => exec P op n (if v ≠ 0 then a else b) st
    | none => some (.unset, st)
  | n + 1, .loop c a, st =>
    match read P st c with
    | some v =>
      if v ≠ 0 then
        match exec P op n a st with
        | some (.normal, st) => exec P op n (.loop c a) st
        | r => r
      else some (.normal, st)
    | none => some (.unset, st)
  | _ + 1, .ret x, st =>
    match read P st x with
    | some v => some (.ret v, st)
    | none => some (.unset, st)

/-- Running `main`. -/
def run (P : Prog) (op : Nat → List Nat → Nat) (n : Nat) : Option (Res × St) :=
  exec P op n (P.func 0).body ⟨fun _ => none, fun _ => none, []⟩

/-! ## The pass -/

/-- The variables mentioned by a statement. -/
def used : Stmt → List Nat
  | .skip => []
  | .assign x _ args => x :: args
  | .emit args => args
  | .call x _ args => x :: args
  | .seq a b => used a ++ used b
  | .ite c a b => c :: (used a ++ used b)
  | .loop c a => c :: used a
  | .ret x => [x]

/-- global_demote.cpp:10-18 `GetUsedGlobals` -/
def usedGlobals (P : Prog) (f : Nat) : List Nat :=
  (used (P.func f).body).filter fun x => P.isGlobal x && !P.tls x

/-- The map `localGlobals`: for a variable found so far, its function or (`some none`) the null pointer. -/
abbrev Owners := Nat → Option (Option Nat)

/-- global_demote.cpp:40-45: one use of `g` in `f`. -/
def note (f : Nat) (m : Owners) (g : Nat) : Owners :=
  match m g with
  | none => fun y => if y = g then some (some f) else m y
  | some (some f') => if f' ≠ f then fun y => if y = g then some none else m y else m
  | some none => m

/-- global_demote.cpp:34-47: the loop over the functions. -/
def scan (P : Prog) (fs : List Nat) : Owners :=
  fs.foldl (fun m f => (usedGlobals P f).foldl (note f) m) fun _ => none

/-- global_demote.cpp:28-32: `main`, then all functions of the module. -/
def worklist (P : Prog) : List Nat := 0 :: List.range P.count

/-- The function that a variable is moved to (50-53). -/
def owner (P : Prog) (x : Nat) : Option Nat :=
  match scan P (worklist P) x with
  | some (some f) => if P.fixed x then none else some f
  | _ => none

/-- global_demote.cpp:23-61 `run`: the demoted variables are no longer global.  The list of variables of the function
(57) only tells where storage is made. -/
def demote (P : Prog) : Prog := { P with isGlobal := fun x => P.isGlobal x && (owner P x).isNone }

end Codon.Demote
