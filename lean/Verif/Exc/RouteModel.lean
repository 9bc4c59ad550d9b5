import Verif.Exc.Props

/-!
# Routing of a caught exception between nested `try` statements

Model of the dispatch code that the compiler emits for a `try` statement
(`LLVMVisitor::visit(const TryCatchFlow *)`, /repo/codon/cir/llvm/llvisitor.cpp:2721-3086): the table of handled types
including those of the enclosing `try` statements, the switch on the selector, and the way through the `finally` blocks by
the counter `delegateDepth`.

Modelled: an exception raised in the body of the innermost `try`.  Not modelled: exceptions raised in handlers, `else` or
`finally` parts (`finallyExceptionBlock`), `return`/`break`/`continue` through `finally`.  A clause is the type number it
names, `none` for a catch-all.
-/

namespace Codon.Exc

abbrev Types := List (Option Nat)

/-- Adding the clauses of one enclosing `try` (llvisitor.cpp:2953-2971). -/
def addTypes (depth : Nat) : Types → List (Option Nat × Nat) → List (Option Nat × Nat)
  | [], acc => acc
  | t :: ts, acc => if acc.any (fun e => e.1 == t) then addTypes depth ts acc else addTypes depth ts (acc ++ [(t, depth)])

/-- The loop over the enclosing `try` statements, ending at a catch-all (llvisitor.cpp:2948-2973). -/
def addParents : List Types → Nat → List (Option Nat × Nat) → List (Option Nat × Nat)
  | [], _, acc => acc
  | p :: ps, depth, acc =>
    if acc.any (fun e => e.1 == none) then acc else addParents ps (depth + 1) (addTypes depth p acc)

/-- `catchTypesFull` with `depths` (llvisitor.cpp:2942-2973). -/
def table (own : Types) (parents : List Types) : List (Option Nat × Nat) := addParents parents 1 (own.map fun t => (t, 0))

/-- What happens. -/
inductive Ev where
  | fin (level : Nat)
  | handler (level clause : Nat)
  | resume (level : Nat)
deriving DecidableEq, Repr

/-- The switch of `exceptionRouteBlock` (llvisitor.cpp:3021-3043): a handler of this `try`, or its `finally` with a new
`delegateDepth`. -/
def dispatch (own : Types) (parents : List Types) (sel depth : Nat) : Nat ⊕ Nat :=
  let tab := table own parents
  match tab.findIdx? (fun e => e.1 == some sel) with
  | some i => if i < own.length then .inl i else .inr ((tab[i]?.map (·.2)).getD 0)
  | none =>
    match tab.find? (fun e => e.1 == none) with
    | some (_, d) => if d > 0 then .inr d else .inl (own.findIdx (· == none))
    | none => .inr depth

/-- Control flow from `exceptionRouteBlock` (or from the `finally` block, if `atFinally`) of the innermost remaining `try`
(llvisitor.cpp:2784-2842, 2933-2939, 3014-3043). -/
def go (sel : Nat) : Bool → Nat → Nat → List Types → List Ev
  | _, _, _, [] => []
  | atFinally, level, depth, own :: parents =>
    match (if atFinally then .inr depth else dispatch own parents sel depth) with
    | .inl i => [.handler level i]
    | .inr depth =>
      .fin level :: (if parents = [] then [.resume level]
        else if depth > 0 then go sel (decide (depth - 1 > 0)) (level + 1) (depth - 1) parents
        else [.resume level])

/-- An exception arrives at the landing pad of the innermost `try` (llvisitor.cpp:2975-3008).  The selector is what the
personality function delivers for the clauses of the landing pad (`c18_personality`). -/
def raise (id : Nat) (bases : List Nat) (stack : List Types) : List Ev :=
  match stack with
  | [] => []
  | own :: parents =>
    let sel := (firstClause id bases ((table own parents).map fun e => some (e.1.getD 0))).getD 0
    go sel false 0 parents.length stack

end Codon.Exc
