/-!
# Unification of types

Model of `LinkType::unify`, `LinkType::occurs`, `ClassType::unify`, the `unify` of the literal types and
of `TypeTrait`, and `Type::Unification::undo` (/repo/codon/parser/ast/types/{link,class,static,traits,type}.cpp).

`LinkType` objects are mutable and shared; they are cells of a heap.  Class types are immutable; their
vectors of generics are written with `nil` and `cons`.

Not modelled: `FuncType`, `UnionType`, `CallableTrait`, and the classes `unrealized_type` and
`__NTuple__` (class.cpp:61-69, 72-130), for which the model gives no outcome.  `none` is also the outcome
of undefined behaviour, of failed assertions and of exhausted fuel.
-/
namespace Codon.Unify

/-- /repo/codon/parser/ast/types/type.h:30 `LiteralKind` -/
inductive LitKind where
  | runtime | int | string | bool
  deriving DecidableEq, Repr

/-- The values of `IntStaticType`, `StrStaticType` and `BoolStaticType` (static.h). -/
inductive Lit where
  | int (v : Int)
  | str (s : String)
  | bool (b : Bool)
  deriving DecidableEq, Repr

/-- static.h:38, 55, 72 `getStaticKind` -/
def Lit.kind : Lit → LitKind
  | .int _ => .int
  | .str _ => .string
  | .bool _ => .bool

/-- static.cpp:28, 64, 101: the class name of a literal type. -/
def Lit.name : Lit → String
  | .int _ => "int"
  | .str _ => "str"
  | .bool _ => "bool"

/-- Types.  `link a` is the `LinkType` object at address `a`; `cls n gs hs` a `ClassType` with its
generics and hidden generics, which are lists made of `nil` and `cons`. -/
inductive Ty where
  | link (a : Nat)
  | lit (v : Lit)
  | cls (name : String) (gs hs : Ty)
  | nil
  | cons (t ts : Ty)
  deriving DecidableEq, Repr

/-- link.h: `kind` and `type` of a `LinkType`. -/
inductive Kind where
  | unbound
  | generic
  | link (t : Ty)
  deriving DecidableEq, Repr

/-- link.h: a `LinkType` object.  `trait` is the type of its `TypeTrait`. -/
structure Cell where
  kind : Kind
  id : Int
  level : Int
  sk : LitKind
  trait : Option Ty
  deriving DecidableEq, Repr

abbrev Heap := Nat → Cell

/-- `h[a] := c` -/
def Heap.set (h : Heap) (a : Nat) (c : Cell) : Heap := fun b => if b = a then c else h b

/-- type.h:43-56 `Unification` -/
structure Undo where
  linked : List Nat
  leveled : List (Nat × Int)
  traits : List Nat
  statics : List Nat
  deriving DecidableEq, Repr

structure St where
  heap : Heap
  undo : Undo

/-- type.cpp:14-28 `Unification::undo`: the four loops, the first two from the end. -/
def Undo.run (u : Undo) (h : Heap) : Heap :=
  let h := u.linked.reverse.foldl (fun h a => h.set a { h a with kind := .unbound }) h
  let h := u.leveled.reverse.foldl (fun h p => h.set p.1 { h p.1 with level := p.2 }) h
  let h := u.traits.foldl (fun h a => h.set a { h a with trait := none }) h
  u.statics.foldl (fun h a => h.set a { h a with sk := .runtime }) h

/-- type.cpp:36, link.cpp:146-151 `follow` -/
def follow : Nat → Heap → Ty → Option Ty
  | 0, _, _ => none
  | f + 1, h, .link a =>
    match (h a).kind with
    | .link t => follow f h t
    | _ => some (.link a)
  | _ + 1, _, t => some t

/-- type.cpp:48-54 `getStaticKind` -/
def staticKind (f : Nat) (h : Heap) (t : Ty) : Option LitKind :=
  match follow f h t with
  | none => none
  | some (.lit v) => some v.kind
  | some (.link a) => some (h a).sk
  | some _ => some .runtime

/-- link.cpp:240-267 `occurs`.  A trait has neither link, class nor literal (type.h:110-119, traits.h), so
line 245 never finds anything. -/
def occurs (destr : Bool) : Nat → St → Nat → Ty → Option (Bool × St)
  | 0, _, _, _ => none
  | f + 1, st, a, .link b =>
    match (st.heap b).kind with
    | .unbound =>
      if (st.heap b).id = (st.heap a).id then some (true, st)
      else if destr && decide ((st.heap b).level > (st.heap a).level) then
        some (false, { heap := st.heap.set b { st.heap b with level := (st.heap a).level },
                       undo := { st.undo with
                         leveled := st.undo.leveled ++ [(b, (st.heap b).level)] } })
      else some (false, st)
    | .link t => occurs destr f st a t
    | .generic => some (false, st)
  | _ + 1, st, _, .lit _ => some (false, st)
  | f + 1, st, a, .cls _ gs _ => occurs destr f st a gs
  | _ + 1, st, _, .nil => some (false, st)
  | f + 1, st, a, .cons t ts =>
    match occurs destr f st a t with
    | none => none
    | some (true, st) => some (true, st)
    | some (false, st) => occurs destr f st a ts

/-- traits.cpp:215-223 `TypeTrait::unify` -/
def traitUnify (rec : St → Ty → Ty → Option (Int × St)) (f : Nat) (st : St) (tr t : Ty) :
    Option (Int × St) :=
  match follow f st.heap t with
  | none => none
  | some (.link b) =>
    match (st.heap b).kind with
    | .unbound => some (0, st)
    | _ => some (-1, st)
  | some _ => rec st t tr

/-- link.cpp:37-47: adjust or compare the static kinds; `false` is the failure of line 45. -/
def adjustStatic (destr : Bool) (f : Nat) (st : St) (a : Nat) (t : Ty) : Option (Bool × St) :=
  match staticKind f st.heap t with
  | none => none
  | some k =>
    if (st.heap a).sk = k then some (true, st)
    else if (st.heap a).sk = .runtime then
      if destr then
        some (true, { heap := st.heap.set a { st.heap a with sk := k },
                      undo := { st.undo with statics := st.undo.statics ++ [a] } })
      else some (true, st)
    else some (false, st)

/-- link.cpp:87-90: the variable `t` takes over the trait of `a`. -/
def passTrait (st : St) (a : Nat) (t : Ty) : St :=
  match t with
  | .link b =>
    if (st.heap b).kind = .unbound ∧ (st.heap a).trait ≠ none ∧ (st.heap b).trait = none then
      { heap := st.heap.set b { st.heap b with trait := (st.heap a).trait },
        undo := { st.undo with traits := st.undo.traits ++ [b] } }
    else st
  | _ => st

/-- link.cpp:75-92: the destructive part. -/
def setLink (destr : Bool) (f : Nat) (st : St) (a : Nat) (t : Ty) : Option (Int × St) :=
  if destr then
    match follow f st.heap t with
    | none => none
    | some t' =>
      some (0, passTrait
        { heap := st.heap.set a { st.heap a with kind := .link t' },
          undo := { st.undo with linked := st.undo.linked ++ [a] } } a t')
  else some (0, st)

/-- link.cpp:69-92: bind the unbound `a` to `t`. -/
def bindVar (rec : St → Ty → Ty → Option (Int × St)) (destr : Bool) (f : Nat) (st : St) (a : Nat)
    (t : Ty) : Option (Int × St) :=
  match occurs destr f st a t with
  | none => none
  | some (true, st) => some (-1, st)
  | some (false, st) =>
    match (match (st.heap a).trait with
      | none => some (0, st)
      | some tr => traitUnify rec f st tr t) with
    | none => none
    | some (s, st) =>
      if s = -1 then some (-1, st)
      else if (st.heap a).kind ≠ .unbound then none   -- assertion of line 76
      else setLink destr f st a t

/-- link.cpp:31-94 `LinkType::unify`, case 3 (the cell `a` is unbound or generic). -/
def unifyVar (rec : St → Ty → Ty → Option (Int × St)) (destr : Bool) (f : Nat) (st : St) (a : Nat)
    (t : Ty) : Option (Int × St) :=
  match adjustStatic destr f st a t with
  | none => none
  | some (false, st) => some (-1, st)
  | some (true, st) =>
    match t with
    | .link b =>
      match (st.heap b).kind with
      | .link t2 => rec st t2 (.link a)
      | kb =>
        if (st.heap a).kind ≠ kb then some (-1, st)
        else if (st.heap a).id = (st.heap b).id then some (1, st)
        else if kb = .generic then some (if destr then -1 else 1, st)
        else if (st.heap a).id < (st.heap b).id then rec st (.link b) (.link a)
        else bindVar rec destr f st a t
    | _ => if (st.heap a).kind = .generic then some (-1, st) else bindVar rec destr f st a t

/-- Length of a list of generics. -/
def Ty.size : Ty → Nat
  | .cons _ ts => ts.size + 1
  | _ => 0

/-- class.cpp:53-58, 132-152: `ClassType::unify` of two classes; `this` and `that` are the two types
(a literal type is a class without generics). -/
def unifyClass (rec : St → Ty → Ty → Option (Int × St)) (st : St) (this that : Ty)
    (n : String) (gs hs : Ty) (n2 : String) (gs2 hs2 : Ty) : Option (Int × St) :=
  if n = "int" ∧ n2 = "Int" then rec st that this
  else if n2 = "int" ∧ n = "Int" then
    match gs with
    | .cons g _ => rec st g (.lit (.int 64))
    | _ => none
  else if (n = "unrealized_type" ∧ n2 = n) ∨ n = "__NTuple__" ∨ n2 = "__NTuple__" then none
  else if n ≠ n2 then some (-1, st)
  else if gs.size ≠ gs2.size then some (-1, st)
  else
    match rec st gs gs2 with
    | none => none
    | some (s, st) =>
      if s = -1 then some (-1, st)
      else
        match rec st hs hs2 with
        | none => none
        | some (s2, st) => if s2 = -1 then some (-1, st) else some (3 + s + s2, st)

/-- `LinkType::unify` (link.cpp:31-94), `ClassType::unify` (class.cpp:53-158) and the `unify` of literal
types (static.cpp:30-40, 66-76, 103-113); on lists of generics the loops of class.cpp:139-151.
`destr` says whether an `undo` object is passed.  The score is -1 for failure. -/
def unify (destr : Bool) : Nat → St → Ty → Ty → Option (Int × St)
  | 0, _, _, _ => none
  | f + 1, st, .link a, t =>
    match (st.heap a).kind with
    | .link t1 => unify destr f st t1 t
    | _ => unifyVar (unify destr f) destr f st a t
  | f + 1, st, .lit v, t =>
    match follow f st.heap t with
    | none => none
    | some (.lit w) =>
      if v.kind = w.kind then some (if v = w then 1 else -1, st)
      else unifyClass (unify destr f) st (.lit v) (.lit w) v.name .nil .nil w.name .nil .nil
    | some (.cls n gs hs) =>
      unifyClass (unify destr f) st (.lit v) (.cls n gs hs) v.name .nil .nil n gs hs
    | some (.link _) => unify destr f st t (.lit v)
    | some _ => none
  | f + 1, st, .cls n gs hs, t =>
    match follow f st.heap t with
    | none => none
    | some (.lit w) => unifyClass (unify destr f) st (.cls n gs hs) (.lit w) n gs hs w.name .nil .nil
    | some (.cls n2 gs2 hs2) =>
      unifyClass (unify destr f) st (.cls n gs hs) (.cls n2 gs2 hs2) n gs hs n2 gs2 hs2
    | some (.link _) => unify destr f st t (.cls n gs hs)
    | some _ => none
  -- The loops over the generics.  Classes of one name have equally many hidden generics (the source reads
  -- `tc->hiddenGenerics[i]` without a check).
  | _ + 1, st, .nil, .nil => some (0, st)
  | f + 1, st, .cons t ts, .cons u us =>
    match unify destr f st t u with
    | none => none
    | some (s, st) =>
      if s = -1 then some (-1, st)
      else
        match unify destr f st ts us with
        | none => none
        | some (s2, st) => if s2 = -1 then some (-1, st) else some (s + s2, st)
  | _ + 1, _, .nil, _ => none
  | _ + 1, _, .cons _ _, _ => none

/-- type.cpp:76-85 `operator<<`: unify, and undo on failure. -/
def unifyOrUndo (f : Nat) (h : Heap) (t u : Ty) : Option (Bool × Heap) :=
  match unify true f ⟨h, ⟨[], [], [], []⟩⟩ t u with
  | none => none
  | some (s, st) => if s ≥ 0 then some (true, st.heap) else some (false, st.undo.run st.heap)

end Codon.Unify
