/-!
# Model of function inlining

`codon/cir/util/inlining.cpp`, on a small version of the IR: expressions with effects, assignments, series, `if`, `while`,
`break` and `continue` (which name their loop, as in the IR), `return`, `try … except` and `try … finally`.

`V` are the values, `W` the state of the world outside the variables, `X` the exceptions.
-/

namespace Codon.Inl

variable {V W X : Type}

/-- Expressions. `prim` stands for calls and operators of any kind; two operands are enough. -/
inductive E (V : Type) where
  | var (x : Nat)
  | con (v : V)
  | prim (p : Nat) (a b : E V)

mutual
/-- Instructions and flows. -/
inductive S (V : Type) where
  | expr (e : E V)
  | assign (x : Nat) (e : E V)
  | series (l : SL V)
  | ite (c : E V) (a b : S V)
  | loop (id : Nat) (c : E V) (body : S V)
  | brk (id : Nat)
  | cont (id : Nat)
  | ret (e : Option (E V))
  | catch (a h : S V)
  | fin (a f : S V)
inductive SL (V : Type) where
  | nil
  | cons (s : S V) (l : SL V)
end

/-- What the primitives do. -/
structure Sem (V W X : Type) where
  prim : Nat → V → V → W → Except X V × W
  truth : V → Bool
  /-- the null value of a type (`llvisitor.cpp:2119`) -/
  null : V

/-- A variable that was not set yet has no value. -/
abbrev Store (V : Type) := Nat → Option V

def Store.set (σ : Store V) (x : Nat) (v : V) : Store V := fun y => if y = x then some v else σ y

/-- `ub` is a read of a variable that was not set. -/
inductive R (V X : Type) where
  | ok (v : V)
  | exc (x : X)
  | ub

def eval (M : Sem V W X) (σ : Store V) : E V → W → R V X × W
  | .var x, w => match σ x with | some v => (.ok v, w) | none => (.ub, w)
  | .con v, w => (.ok v, w)
  | .prim p a b, w =>
    match eval M σ a w with
    | (.ok u, w) =>
      match eval M σ b w with
      | (.ok v, w) => match M.prim p u v w with | (.ok r, w) => (.ok r, w) | (.error x, w) => (.exc x, w)
      | r => r
    | r => r

/-- How an instruction ends. -/
inductive Flow (V X : Type) where
  | normal
  | brk (id : Nat)
  | cont (id : Nat)
  | ret (v : Option V)
  | exc (x : X)
  | ub

/-- Run; `none`: the number of steps is used up. -/
def exec (M : Sem V W X) : Nat → S V → Store V → W → Option (Flow V X × Store V × W)
  | 0, _, _, _ => none
  | n + 1, s, σ, w =>
    match s with
    | .expr e =>
      match eval M σ e w with
      | (.ok _, w) => some (.normal, σ, w)
      | (.exc x, w) => some (.exc x, σ, w)
      | (.ub, w) => some (.ub, σ, w)
    | .assign x e =>
      match eval M σ e w with
      | (.ok v, w) => some (.normal, σ.set x v, w)
      | (.exc x, w) => some (.exc x, σ, w)
      | (.ub, w) => some (.ub, σ, w)
    | .series .nil => some (.normal, σ, w)
    | .series (.cons s l) =>
      match exec M n s σ w with
      | some (.normal, σ, w) => exec M n (.series l) σ w
      | r => r
    | .ite c a b =>
      match eval M σ c w with
      | (.ok v, w) => exec M n (if M.truth v then a else b) σ w
      | (.exc x, w) => some (.exc x, σ, w)
      | (.ub, w) => some (.ub, σ, w)
    | .loop id c body =>
      match eval M σ c w with
      | (.ok v, w) =>
        if M.truth v then
          match exec M n body σ w with
          | some (.normal, σ, w) => exec M n (.loop id c body) σ w
          | some (.brk i, σ, w) => if i = id then some (.normal, σ, w) else some (.brk i, σ, w)
          | some (.cont i, σ, w) => if i = id then exec M n (.loop id c body) σ w else some (.cont i, σ, w)
          | r => r
        else some (.normal, σ, w)
      | (.exc x, w) => some (.exc x, σ, w)
      | (.ub, w) => some (.ub, σ, w)
    | .brk id => some (.brk id, σ, w)
    | .cont id => some (.cont id, σ, w)
    | .ret none => some (.ret none, σ, w)
    | .ret (some e) =>
      match eval M σ e w with
      | (.ok v, w) => some (.ret (some v), σ, w)
      | (.exc x, w) => some (.exc x, σ, w)
      | (.ub, w) => some (.ub, σ, w)
    | .catch a h =>
      match exec M n a σ w with
      | some (.exc _, σ, w) => exec M n h σ w
      | r => r
    | .fin a f =>
      match exec M n a σ w with
      | none => none
      | some (.ub, σ, w) => some (.ub, σ, w)
      | some (o, σ, w) =>
        match exec M n f σ w with
        | some (.normal, σ, w) => some (o, σ, w)
        | r => r

/-! ## Calls -/

/-- A `BodiedFunc`; `void`: its return type is `void` or `NoneType`. -/
structure Fn (V : Type) where
  params : List Nat
  body : SL V
  void : Bool

/-- Evaluate the arguments from left to right. -/
def evalArgs (M : Sem V W X) (σ : Store V) : List (E V) → W → R (List V) X × W
  | [], w => (.ok [], w)
  | a :: l, w =>
    match eval M σ a w with
    | (.ok v, w) =>
      match evalArgs M σ l w with
      | (.ok vs, w) => (.ok (v :: vs), w)
      | r => r
    | (.exc x, w) => (.exc x, w)
    | (.ub, w) => (.ub, w)

/-- The variables of a new activation: only the parameters are set. -/
def frame : List Nat → List V → Store V
  | p :: ps, v :: vs => (frame ps vs).set p v
  | _, _ => fun _ => none

/-- A call of `f`, and its value. -/
def callFn (M : Sem V W X) (n : Nat) (f : Fn V) (args : List (E V)) (σ : Store V) (w : W) : Option (R V X × W) :=
  match evalArgs M σ args w with
  | (.ok vs, w) =>
    match exec M n (.series f.body) (frame f.params vs) w with
    | none => none
    | some (.ret (some v), _, w) => some (.ok v, w)
    | some (.ret none, _, w) => some (.ok M.null, w)
    | some (.normal, _, w) => some (.ok M.null, w)
    | some (.exc x, _, w) => some (.exc x, w)
    | some (_, _, w) => some (.ub, w)
  | (.exc x, w) => some (.exc x, w)
  | (.ub, w) => some (.ub, w)

/-! ## Inlining -/

/-- `CloneVisitor` on expressions: variables that were cloned are replaced (`cloning.cpp:64-72`). -/
def E.ren (ρ : Nat → Nat) : E V → E V
  | .var x => .var (ρ x)
  | .con v => .con v
  | .prim p a b => .prim p (a.ren ρ) (b.ren ρ)

mutual
/-- `CloneVisitor` on flows. Cloned loops get new identities in the IR; here they keep their number. -/
def S.ren (ρ : Nat → Nat) : S V → S V
  | .expr e => .expr (e.ren ρ)
  | .assign x e => .assign (ρ x) (e.ren ρ)
  | .series l => .series (l.ren ρ)
  | .ite c a b => .ite (c.ren ρ) (a.ren ρ) (b.ren ρ)
  | .loop id c b => .loop id (c.ren ρ) (b.ren ρ)
  | .brk id => .brk id
  | .cont id => .cont id
  | .ret none => .ret none
  | .ret (some e) => .ret (some (e.ren ρ))
  | .catch a h => .catch (a.ren ρ) (h.ren ρ)
  | .fin a f => .fin (a.ren ρ) (f.ren ρ)
def SL.ren (ρ : Nat → Nat) : SL V → SL V
  | .nil => .nil
  | .cons s l => .cons (s.ren ρ) (l.ren ρ)
end

mutual
/-- `inlining.cpp:17-45` `ReturnVerifier`: some `return` is not the last thing the body does. `tail`: all parents are series,
each the last part of the one around it, and so is this. -/
def S.need (tail : Bool) : S V → Bool
  | .ret _ => !tail
  | .series l => l.need tail
  | .ite _ a b => a.need false || b.need false
  | .loop _ _ b => b.need false
  | .catch a h => a.need false || h.need false
  | .fin a f => a.need false || f.need false
  | _ => false
def SL.need (tail : Bool) : SL V → Bool
  | .nil => false
  | .cons s .nil => s.need tail
  | .cons s l => s.need false || l.need tail
end

/-- `inlining.cpp:57-67` `ReturnReplacer::handle`: `ret` is the result variable (none for `void`), `lid` the implicit loop
if there is one. -/
def replRet (ret lid : Option Nat) (e : Option (E V)) : S V :=
  let b : SL V := match lid with | some id => .cons (.brk id) .nil | none => .nil
  match ret, e with
  | some r, some e => .series (.cons (.assign r e) b)
  | _, _ => .series b

mutual
/-- `ReturnReplacer` on all of the body. -/
def S.repl (ret lid : Option Nat) : S V → S V
  | .ret e => replRet ret lid e
  | .series l => .series (l.repl ret lid)
  | .ite c a b => .ite c (a.repl ret lid) (b.repl ret lid)
  | .loop id c b => .loop id c (b.repl ret lid)
  | .catch a h => .catch (a.repl ret lid) (h.repl ret lid)
  | .fin a f => .fin (a.repl ret lid) (f.repl ret lid)
  | s => s
def SL.repl (ret lid : Option Nat) : SL V → SL V
  | .nil => .nil
  | .cons s l => .cons (s.repl ret lid) (l.repl ret lid)
end

/-- The cloning map after the parameters in `done` were cloned. -/
def partMap (ρ : Nat → Nat) (done : List Nat) (x : Nat) : Nat := if x ∈ done then ρ x else x

/-- `inlining.cpp:84-90`: clone a parameter, assign the (cloned) argument to it. -/
def bindArgs (ρ : Nat → Nat) : List Nat → List Nat → List (E V) → SL V → SL V
  | done, p :: ps, a :: as, rest =>
    .cons (.assign (ρ p) (a.ren (partMap ρ (p :: done)))) (bindArgs ρ (p :: done) ps as rest)
  | _, _, _, rest => rest

/-- `inlining.cpp:72-128` `inlineFunction`: the flow; its value is the variable `r` unless the function is `void`. `ρ` gives
the clones of the variables of the function, `r` is the result variable, `lid` the implicit loop, `true` the constant. -/
def inlineFn (ρ : Nat → Nat) (r lid : Nat) (true_ : V) (aggressive : Bool) (f : Fn V) (args : List (E V)) : Option (S V) :=
  if args.length ≠ f.params.length then none
  else
    let ret := if f.void then none else some r
    let body := f.body.ren ρ
    let need := body.need true
    if !aggressive && need then none
    else if need then
      let inner : S V := .series (body.repl ret (some lid))
      let tail : SL V := if f.void then .cons (.brk lid) .nil else .nil
      some (.series (bindArgs ρ [] f.params args (.cons (.loop lid (.con true_) (.series (.cons inner tail))) .nil)))
    else some (.series (bindArgs ρ [] f.params args (.cons (.series (body.repl ret none)) .nil)))

end Codon.Inl
