import Verif.Str.SplitModel

/-!
# Model of the optimisations of string concatenation

`codon/cir/transform/pythonic/str.cpp` (a sum of strings becomes one `str.cat`) and
`codon/cir/transform/pythonic/io.cpp` (printing or writing a `str.cat` becomes printing or writing its parts), with
a semantics of the IR values they rewrite.

A program may do anything between: leaves (variables, constants, any other instruction) and calls of other
functions are arbitrary functions of the world.  The world is the text written so far to each file (0 is the
standard output), which files are closed, and the rest of the state.  Input/output errors other than the use of a
closed file are not modelled.
-/

namespace Codon.CatOpt

open Codon.Str (Str len emit finish)

/-- The types that the passes tell apart. -/
inductive Ty
  | str | tuple | other
  deriving DecidableEq, Repr

/-- Values: strings, tuples, lists (or other iterables) of strings, files, anything else. -/
inductive Val
  | str (s : Str)
  | tuple (vs : List Val)
  | list (ss : List Str)
  | file (n : Nat)
  | other (n : Nat)

/-- The functions called: `str.__add__`, `str.cat`, `Tuple.__new__`, `print`, `File.write`,
`File.__file_write_gen__`, and all others with the name the user gave them. -/
inductive Fn
  | strAdd | strCat | tupleNew | print | write | writeGen
  | user (n : Nat) (name : String)
  deriving DecidableEq

/-- `getUnmangledName` -/
def Fn.name : Fn → String
  | .strAdd => "__add__"
  | .strCat => "cat"
  | .tupleNew => "__new__"
  | .print => "print"
  | .write => "write"
  | .writeGen => "__file_write_gen__"
  | .user _ name => name

mutual
/-- IR values: calls of known functions, and everything else. -/
inductive E
  | leaf (n : Nat) (ty : Ty)
  | call (f : Fn) (ty : Ty) (args : EL)
/-- Lists of IR values. -/
inductive EL
  | nil
  | cons (e : E) (l : EL)
end

def EL.ofList : List E → EL
  | [] => .nil
  | e :: l => .cons e (EL.ofList l)

/-! ## Semantics -/

structure World where
  out : Nat → Str
  closed : Nat → Bool
  rest : Nat

/-- A raised exception (its number) or a value, and the world after. -/
abbrev Res (α : Type) := Except Nat α × World

def bindR {α β : Type} (r : Res α) (k : α → World → Res β) : Res β :=
  match r with
  | (.ok a, w) => k a w
  | (.error x, w) => (.error x, w)

/-- What the rest of the program does: leaves, other functions, and `str(v)` of values that are not strings. -/
structure Sem where
  leaf : Nat → Ty → World → Res Val
  fn : Nat → String → Ty → List Val → World → Res Val
  show_ : Val → Str

/-- The exception of `_ensure_open`. -/
def closedError : Nat := 0
/-- A call that the type checker would have refused. -/
def typeError : Nat := 1

def World.print (w : World) (f : Nat) (s : Str) : World :=
  { w with out := fun g => if g = f then w.out g ++ s else w.out g }

/-- types/str.codon:76-83 `__add__` -/
def addStr (a b : Str) : Option Str := do
  let len3 := len a + len b
  finish len3 (← emit len3 (← emit len3 [] a) b)

/-- `str(v)` -/
def toStr (S : Sem) : Val → Str
  | .str s => s
  | v => S.show_ v

/-- All values of a tuple as strings. -/
def strings : List Val → Option (List Str)
  | [] => some []
  | .str s :: l => (strings l).map (s :: ·)
  | _ :: _ => none

/-- types/str.codon:114-157 `cat`: of one iterable its elements are concatenated (a single string is an iterable of
its characters, with itself as result), otherwise the arguments, which must be strings.  The loops of the three
branches are those of `Verif.Str.cat`. -/
def catVals : List Val → Option Str
  | [.list ss] => Str.cat ss
  | vs => (strings vs).bind Str.cat

/-- builtin.codon:25-29: the loop of `print`. -/
def printLoop (S : Sem) (sep : Str) (f : Nat) : List Val → Nat → World → World
  | [], _, w => w
  | a :: l, i, w =>
    let w := if i ≠ 0 ∧ sep ≠ [] then w.print f sep else w
    printLoop S sep f l (i + 1) (w.print f (toStr S a))

/-- file.codon:44-47 `write` -/
def writeStr (f : Nat) (s : Str) (w : World) : Res Val :=
  if w.closed f then (.error closedError, w) else (.ok (.other 0), w.print f s)

/-- file.codon:49-51 `__file_write_gen__` of the generator over the tuple. -/
def writeLoop (S : Sem) (f : Nat) : List Val → World → Res Val
  | [], w => (.ok (.other 0), w)
  | v :: l, w => bindR (writeStr f (toStr S v) w) fun _ w => writeLoop S f l w

/-- A string result. -/
def strRes (r : Option Str) (w : World) : Res Val :=
  match r with
  | some c => (.ok (.str c), w)
  | none => (.error typeError, w)

def applyAdd (vs : List Val) (w : World) : Res Val :=
  match vs with
  | [.str a, .str b] => strRes (addStr a b) w
  | _ => (.error typeError, w)

def applyCat (vs : List Val) (w : World) : Res Val :=
  match vs with
  | [.tuple l] => strRes (catVals l) w
  | _ => (.error typeError, w)

/-- builtin.codon:18-32 `print`; flushing is not visible here. -/
def applyPrint (S : Sem) (vs : List Val) (w : World) : Res Val :=
  match vs with
  | [.tuple l, .str sep, .str end_, .file f, _] => (.ok (.other 0), (printLoop S sep f l 0 w).print f end_)
  | _ => (.error typeError, w)

def applyWrite (vs : List Val) (w : World) : Res Val :=
  match vs with
  | [.file f, .str s] => writeStr f s w
  | _ => (.error typeError, w)

def applyWriteGen (S : Sem) (vs : List Val) (w : World) : Res Val :=
  match vs with
  | [.file f, .tuple l] => writeLoop S f l w
  | _ => (.error typeError, w)

/-- The call of a function on evaluated arguments. -/
def apply (S : Sem) (f : Fn) (ty : Ty) (vs : List Val) (w : World) : Res Val :=
  match f with
  | .strAdd => applyAdd vs w
  | .strCat => applyCat vs w
  | .tupleNew => (.ok (.tuple vs), w)
  | .print => applyPrint S vs w
  | .write => applyWrite vs w
  | .writeGen => applyWriteGen S vs w
  | .user n name => S.fn n name ty vs w

mutual
/-- Evaluation, arguments from left to right. -/
def eval (S : Sem) : E → World → Res Val
  | .leaf n ty, w => S.leaf n ty w
  | .call f ty args, w => bindR (evalL S args w) fun vs w => apply S f ty vs w
def evalL (S : Sem) : EL → World → Res (List Val)
  | .nil, w => (.ok [], w)
  | .cons e l, w => bindR (eval S e w) fun v w => bindR (evalL S l w) fun vs w => (.ok (v :: vs), w)
end

/-! ## The passes -/

def E.ty : E → Ty
  | .leaf _ ty => ty
  | .call _ ty _ => ty

/-- str.cpp:20-23 `isString` -/
def isString (e : E) : Bool := decide (e.ty = .str)

/-- str.cpp:25-42 `inspect`: the list of the operands, `none` if invalid. -/
def inspect : E → Option (List E)
  | .call f ty (.cons a (.cons b .nil)) =>
    if ty = .str then
      if f.name = "__add__" ∧ isString a ∧ isString b then do
        return (← inspect a) ++ (← inspect b)
      else some [.call f ty (.cons a (.cons b .nil))]
    else none
  | e => if isString e then some [e] else none

/-- `str.cat` of a tuple -/
def mkCat (args : List E) : E :=
  .call .strCat .str (.cons (.call .tupleNew .tuple (EL.ofList args)) .nil)

/-- str.cpp:47-71 `StrAdditionOptimization::handle` -/
def handleAdd : E → E
  | .call f ty args =>
    if f.name ≠ "__add__" then .call f ty args
    else match inspect (.call f ty args) with
      | some l => if l.length > 2 then mkCat l else .call f ty args
      | none => .call f ty args
  | e => e

/-- io.cpp:14-56 `optimizePrint`: of `print` with the arguments tuple, sep, end, file, flush.  The comparison of
the realised functions (37-40) always holds for `str.cat`. `empty` is the constant `""`. -/
def handlePrint (empty : E) : E → E
  | .call .print ty (.cons (.call g gty (.cons (.call .strCat cty (.cons tup .nil)) .nil)) (.cons sep rest)) =>
    if g.name = "__new__" then .call .print ty (.cons tup (.cons empty rest))
    else .call .print ty (.cons (.call g gty (.cons (.call .strCat cty (.cons tup .nil)) .nil)) (.cons sep rest))
  | e => e

/-- io.cpp:58-87 `optimizeWrite` on a `File`. The generator made from the tuple (77) is the tuple here. -/
def handleWrite : E → E
  | .call .write ty (.cons file (.cons (.call .strCat _ (.cons tup .nil)) .nil)) =>
    .call .writeGen ty (.cons file (.cons tup .nil))
  | e => e

end Codon.CatOpt
