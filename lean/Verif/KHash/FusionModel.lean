import Verif.KHash.Model

/-!
# The `d[k] = op(d.get(k, c), v)` fusion

`codon/cir/transform/pythonic/dict.cpp`.  The state is the dict named in the statement together with
an arbitrary rest of the world `W`.  Expressions are state transformers that may raise.  As the pass
checks, the dict and key expressions are not calls and are the same on both sides; they are modelled
as already evaluated (`t`, `key`).
-/

namespace Codon.KHash.Fusion

section
variable {K V Z W X : Type} [DecidableEq K] (h : K → BitVec 64)

/-- Result of evaluating an expression: a value or an exception, with the state reached. -/
inductive Res (σ X α : Type) where
  | ok (s : σ) (a : α)
  | exc (s : σ) (e : X)
deriving DecidableEq

abbrev St (K V W : Type) := Tbl K V × W

/-- An expression (`none`: undefined behaviour). -/
abbrev Expr (K V W X α : Type) := St K V W → Option (Res (St K V W) X α)

def Expr.bind {α β : Type} (e : Expr K V W X α) (f : α → Expr K V W X β) : Expr K V W X β :=
  fun s => match e s with
    | none => none
    | some (.exc s x) => some (.exc s x)
    | some (.ok s a) => f a s

def pureE {α : Type} (a : α) : Expr K V W X α := fun s => some (.ok s a)

/-- The default argument of `d.get`: a constant node or another expression. -/
inductive Dflt (K V W X : Type) where
  | const (c : V)
  | expr (e : Expr K V W X V)

def Dflt.eval : Dflt K V W X → Expr K V W X V
  | .const c => pureE c
  | .expr e => e

/-- The first operand of the operator: `d[k]` or `d.get(k, dflt)`. -/
inductive Read (K V W X : Type) where
  | getitem
  | get (d : Dflt K V W X)

/-- `d[k]` (`dict.codon:70-74`). -/
def getitemE (keyError : X) (key : K) : Expr K V W X V := fun s =>
  (getitem h s.1 key).map fun r => match r with
    | some v => .ok s v
    | none => .exc s keyError

/-- `d.get(k, dflt)`: arguments first, then the lookup (`dict.codon:167-169`). -/
def getE (key : K) (d : Dflt K V W X) : Expr K V W X V :=
  Expr.bind d.eval fun v s => (getD h s.1 key v).map fun r => .ok s r

def Read.eval (keyError : X) (key : K) : Read K V W X → Expr K V W X V
  | .getitem => getitemE h keyError key
  | .get d => getE h key d

/-- `d[k] = v` (`dict.codon:76-78`). -/
def setitemE (key : K) (v : V) : Expr K V W X Unit := fun s =>
  (setitem h s.1 key v).map fun t => .ok (t, s.2) ()

/-- The operator, which may raise. -/
def opE (op : V → Z → Except X V) (v : V) (z : Z) : Expr K V W X V := fun s =>
  match op v z with
  | .ok r => some (.ok s r)
  | .error e => some (.exc s e)

/-- The statement before the pass: `__setitem__(d, k, op(<read>, second))`, arguments left to
right. -/
def original (keyError : X) (key : K) (rd : Read K V W X) (second : Expr K V W X Z)
    (op : V → Z → Except X V) : Expr K V W X Unit :=
  Expr.bind (rd.eval h keyError key) fun v =>
    Expr.bind second fun z => Expr.bind (opE op v z) fun r => setitemE h key r

/-- `dict.codon:189-194` `__dict_do_op_throws__` with an operator that may raise. -/
def doOpThrowsE (keyError : X) (key : K) (z : Z) (op : V → Z → Except X V) : Expr K V W X Unit :=
  fun s => do
    let x ← kget h s.1 key
    if x = s.1.nb then return .exc s keyError
    else
      let v ← rd s.1.vals x
      match op v z with
      | .error e => return .exc s e
      | .ok r =>
        let vals ← wr s.1.vals x (some r)
        return .ok ({ s.1 with vals := vals }, s.2) ()

/-- `dict.codon:196-198` `__dict_do_op__` with an operator that may raise: the key is in the table
before the operator runs. -/
def doOpE (key : K) (z : Z) (dflt : V) (op : V → Z → Except X V) : Expr K V W X Unit :=
  fun s => do
    let (t, ret, x) ← kput h s.1 key
    let v ← if ret ≠ 0 then some dflt else rd t.vals x
    match op v z with
    | .error e => return .exc (t, s.2) e
    | .ok r =>
      let vals ← wr t.vals x (some r)
      return .ok ({ t with vals := vals }, s.2) ()

/-- `dict.cpp:34-62, 68-140` the statement after the pass: `__dict_do_op__` when the default is a
constant, otherwise (also for `d.get(k, e)` with `e` not a constant: `cast<Const>` is null)
`__dict_do_op_throws__`; the arguments are evaluated before the call. -/
def fused (keyError : X) (key : K) (rd : Read K V W X) (second : Expr K V W X Z)
    (op : V → Z → Except X V) : Expr K V W X Unit :=
  Expr.bind second fun z =>
    match rd with
    | .get (.const c) => doOpE h key z c op
    | _ => doOpThrowsE h keyError key z op

end

end Codon.KHash.Fusion
