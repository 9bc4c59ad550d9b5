/-!
# Model of the method resolution order

Classes are represented by their canonical names: `mergeC3` compares classes only by
`Type::is(name)` (codon/parser/ast/types/type.cpp:46).
-/
namespace Codon.C3

variable {α : Type} [DecidableEq α]

/-- codon/parser/cache.cpp:236-248: does `x` occur in the tail of one of the sequences? -/
def notHead (seqs : List (List α)) (x : α) : Bool :=
  seqs.any fun s => s.tail.any fun y => x == y

/-- codon/parser/cache.cpp:231-253: the first head that is in no tail. -/
def findCand (all : List (List α)) : List (List α) → Option α
  | [] => none
  | [] :: rest => findCand all rest
  | (x :: _) :: rest => if notHead all x then findCand all rest else some x

/-- codon/parser/cache.cpp:259-262: remove the candidate from the front of a sequence. -/
def dropHead (c : α) : List α → List α
  | [] => []
  | x :: s => if c = x then s else x :: s

/-- codon/parser/cache.cpp:229-263: the `for (;;)` loop; the outer `none` means that `fuel` rounds
were not enough. -/
def mergeLoop : Nat → List (List α) → List α → Option (List α)
  | 0, _, _ => none
  | fuel + 1, seqs, result =>
    if seqs.all (fun s => s.isEmpty) then some result
    else
      match findCand seqs seqs with
      | none => some []
      | some c => mergeLoop fuel (seqs.map (dropHead c)) (result ++ [c])

/-- codon/parser/cache.cpp:225-265 `Cache::mergeC3`; the empty result is the error value. -/
def mergeC3 (seqs : List (List α)) : Option (List α) :=
  mergeLoop ((seqs.map List.length).sum + 1) seqs []

/-- The classes declared so far with their `mro`, latest first. -/
abbrev Env (α : Type) := List (α × List α)

/-- `Cache::Class::mro` of a declared class. -/
def Env.mro (env : Env α) (c : α) : Option (List α) := env.lookup c

/-- Outcome of a class declaration. -/
inductive Declared (α : Type) where
  | ok (env : Env α)
  | unknownBase
  | badMro
  deriving DecidableEq, Repr

/-- The order-related part of codon/parser/visitors/typecheck/class.cpp:400-507 `parseBaseClasses`
for a class with dynamic inheritance (`typeAst` set): the sequences are the class itself (line 407),
the order of each base (lines 422-425) and the list of bases (lines 496-500); they are merged and
an empty result is `CLASS_BAD_MRO` (lines 501-504).  Generic arguments are not modelled
(`instantiateType` does not change the class name). -/
def declare (env : Env α) (c : α) (bases : List α) : Declared α :=
  match bases.mapM (Env.mro env) with
  | none => .unknownBase
  | some rootMros =>
    let seqs := [c] :: rootMros
    let seqs := if bases = [] then seqs else seqs ++ [bases]
    match mergeC3 seqs with
    | none => .badMro
    | some [] => .badMro
    | some (x :: r) => .ok ((c, x :: r) :: env)

/-- A sequence of class declarations. -/
def declareAll : Env α → List (α × List α) → Declared α
  | env, [] => .ok env
  | env, (c, bases) :: rest =>
    match declare env c bases with
    | .ok env' => declareAll env' rest
    | e => e

end Codon.C3
