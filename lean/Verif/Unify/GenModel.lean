import Verif.Unify.Model
/-!
# Generalising a type

`LinkType::generalize`, `ClassType::generalize` of `codon/parser/ast/types/{link,class}.cpp`.
-/
namespace Codon.Unify

/-- A generalised type: `gen` is a generic with its number, `var` a variable that was kept. -/
inductive Scheme where
  | var (a : Nat)
  | gen (id : Int)
  | lit (v : Lit)
  | cls (name : String) (gs hs : Scheme)
  | nil
  | cons (t ts : Scheme)
deriving DecidableEq

/-- link.cpp:96-117 `LinkType::generalize`, class.cpp:160-171 `ClassType::generalize`.  Not modelled: the
generalised trait and default type of a new generic, and the replacement of a literal type by its class when
the parameter is not a static one (class.cpp:24-31). -/
def generalize (lvl : Int) : Nat → Heap → Ty → Option Scheme
  | 0, _, _ => none
  | f + 1, h, .link a =>
    match (h a).kind with
    | .generic => some (.gen (h a).id)
    | .unbound => if (h a).level ≥ lvl then some (.gen (h a).id) else some (.var a)
    | .link t => generalize lvl f h t
  | _ + 1, _, .lit v => some (.lit v)
  | f + 1, h, .cls n gs hs =>
    match generalize lvl f h gs, generalize lvl f h hs with
    | some g, some k => some (.cls n g k)
    | _, _ => none
  | _ + 1, _, .nil => some .nil
  | f + 1, h, .cons t ts =>
    match generalize lvl f h t, generalize lvl f h ts with
    | some g, some k => some (.cons g k)
    | _, _ => none

end Codon.Unify
