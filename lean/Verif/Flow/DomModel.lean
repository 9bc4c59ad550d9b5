/-!
# Dominators

`DominatorInspector` of `codon/cir/analyze/dataflow/dominator.cpp`.
-/
namespace Codon.Flow

/-- A control-flow graph as the analysis sees it: `n` blocks, numbered in list order (the renumbering of
dominator.cpp:18-25); block 0 is the entry (cfg.h `getEntryBlock`).  The predecessors are a set in the source;
here they are a list, whose order and repetitions make no difference to the loop of lines 50-59. -/
structure Graph where
  n : Nat
  preds : Nat → List Nat

/-- `bitvecs`: `D b x` says that bit `x` of the vector of block `b` is set. -/
abbrev Doms := Nat → Nat → Bool

/-- dominator.cpp:28-36: all ones, but only itself for the entry block. -/
def initDoms : Doms := fun b x => if b = 0 then x == 0 else true

/-- dominator.cpp:50-59: the intersection of the vectors of the predecessors, from left to right. -/
def meet (D : Doms) : List Nat → Nat → Bool
  | [] => fun _ => false                       -- lines 47-48
  | p :: ps => fun x => ps.foldl (fun acc q => acc && D q x) (D p x)

/-- dominator.cpp:43-61: `newSet` -/
def newSet (g : Graph) (D : Doms) (b : Nat) : Nat → Bool :=
  fun x => x == b || meet D (g.preds b) x

/-- dominator.cpp:63-66: one block of the `for` loop of line 42. -/
def domStep (g : Graph) (s : Doms × Bool) (b : Nat) : Doms × Bool :=
  if (List.range g.n).all (fun x => newSet g s.1 b x == s.1 b x) then s
  else (fun c => if c = b then newSet g s.1 b else s.1 c, true)

/-- dominator.cpp:40-68: the body of the `while` loop. -/
def domPass (g : Graph) (D : Doms) : Doms × Bool :=
  (List.range g.n).foldl (domStep g) (D, false)

/-- dominator.cpp:39-69: the `while` loop; `none` when the fuel runs out. -/
def domLoop (g : Graph) : Nat → Doms → Option Doms
  | 0, _ => none
  | f + 1, D =>
    let r := domPass g D
    if r.2 then domLoop g f r.1 else some r.1

/-- dominator.cpp:12-80 `analyze` -/
def dominators (g : Graph) : Option Doms := domLoop g (g.n * g.n + 1) initDoms

/-- dominator.cpp:82-96 `isDominated`.  A value is given by its block and its place in the block (the
results of `getBlock` and `std::distance`). -/
def isDominated (D : Doms) (v d : Nat × Nat) : Bool :=
  if v.1 = d.1 then decide (d.2 ≤ v.2) else D v.1 d.1

end Codon.Flow
