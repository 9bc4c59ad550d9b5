/-!
# Reaching definitions and constant propagation

`RDInspector` of `codon/cir/analyze/dataflow/reaching.cpp` and `ConstPropPass::handle(VarValue *)` of
`codon/cir/transform/folding/const_prop.cpp`.
-/
namespace Codon.Flow

/-- What a block is made of.  `assign id var val` is an `AssignInstr` or a `SyntheticAssignInstr` with number
`id`; `val` is the number of the assigned value, if the source knows it (reaching.cpp:23-35, `KNOWN`). -/
inductive Instr where
  | assign (id var : Nat) (val : Option Nat)
  | pointer (id var : Nat)
  | other (id : Nat)
deriving DecidableEq, Repr

/-- The blocks of a function; block 0 is the entry. -/
structure Cfg where
  n : Nat
  preds : Nat → List Nat
  succs : Nat → List Nat
  code : Nat → List Instr

/-- reaching.h:16-42 `ReachingDef`, up to its `operator==`: by assigned value if known, else by the number
of the assignment. -/
inductive Def where
  | known (val : Nat)
  | unknown (assignment : Nat)
deriving DecidableEq, Repr

/-- reaching.cpp:23-35 `getGenerated`, the definition -/
def Instr.def : Instr → Option Def
  | .assign _ _ (some v) => some (.known v)
  | .assign i _ none => some (.unknown i)
  | _ => none

/-- reaching.cpp:14-21 `getKilled` (`-1` is `none`) -/
def Instr.kills : Instr → Option Nat
  | .assign _ x _ => some x
  | _ => none

def Instr.id : Instr → Nat
  | .assign i _ _ => i
  | .pointer i _ => i
  | .other i => i

/-- reaching.cpp:137-146 `ordering`: the assignments of the function in order.  The source numbers the bits of its
bit sets by the place in this list; here the number of the assignment itself is used. -/
def Cfg.ordering (g : Cfg) : List Instr :=
  ((List.range g.n).flatMap g.code).filter fun i => i.kills.isSome

/-- A bit set (reaching.cpp:65-119). -/
abbrev Bits := Nat → Bool

/-- reaching.cpp:157-169: `generated`, the last assignment of each variable in a block. -/
def generated (code : List Instr) : Nat → Option Nat :=
  code.foldl (fun m i => match i with
    | .assign id x _ => fun y => if y = x then some id else m y
    | _ => m) fun _ => none

/-- reaching.cpp:181-184: `gen` -/
def genSet (code : List Instr) : Bits := fun b =>
  code.any fun i => match i.kills with
    | some x => generated code x == some b
    | none => false

/-- reaching.cpp:171-178: `kill`, all other assignments of an assigned variable -/
def killSet (g : Cfg) (code : List Instr) : Bits := fun b =>
  code.any fun i => match i with
    | .assign id x _ => g.ordering.any fun a => a.kills == some x && a.id != id && a.id == b
    | _ => false

/-- The `in` and `out` sets of all blocks, and the queue of the work list. -/
structure RDState where
  ins : Nat → Bits
  out : Nat → Bits
  queue : List Nat

/-- reaching.cpp:41-47 `WorkList::push`; `have` contains what is in the queue. -/
def push (q : List Nat) (b : Nat) : List Nat := if b ∈ q then q else q ++ [b]

/-- reaching.cpp:186-191, 56-61: the start. -/
def rdInit (g : Cfg) : RDState :=
  { ins := fun _ _ => false, out := fun b => genSet (g.code b), queue := (List.range g.n).foldl push [] }

/-- reaching.cpp:199-202: the union of the `out` sets of the predecessors -/
def unionOut (out : Nat → Bits) (ps : List Nat) : Bits :=
  ps.foldl (fun acc p => fun b => acc b || out p b) fun _ => false

/-- reaching.cpp:204-208: the new `out` set -/
def newOut (g : Cfg) (b : Nat) (i : Bits) : Bits :=
  fun x => (i x && !killSet g (g.code b) x) || genSet (g.code b) x

/-- reaching.cpp:195-215: the loop over the work list; `none` when the fuel runs out. -/
def rdLoop (g : Cfg) : Nat → RDState → Option RDState
  | 0, _ => none
  | f + 1, s =>
    match s.queue with
    | [] => some s
    | b :: q =>
      let i := unionOut s.out (g.preds b)
      let o := newOut g b i
      let changed := g.ordering.any fun a => o a.id != s.out b a.id
      rdLoop g f
        { ins := fun c => if c = b then i else s.ins c
          out := fun c => if c = b then o else s.out c
          queue := if changed then (g.succs b).foldl push q else q }

/-- Fuel for the loop. -/
def rdFuel (g : Cfg) : Nat := (g.n * g.ordering.length + 1) * (g.n + 1) + 1

/-- reaching.cpp:132-229 `analyze`: the `in` sets of the blocks -/
def rdAnalyze (g : Cfg) : Option (Nat → Bits) := (rdLoop g (rdFuel g) (rdInit g)).map (·.ins)

/-- reaching.cpp:160-163: variables whose address is taken -/
def invalidVar (g : Cfg) (x : Nat) : Bool :=
  (List.range g.n).any fun b => (g.code b).any fun i => match i with
    | .pointer _ y => y == x
    | _ => false

/-- `unordered_set::insert` -/
def insertDef (l : List Def) (d : Def) : List Def := if d ∈ l then l else l ++ [d]

/-- reaching.cpp:222-226: one assignment -/
def addDef (ins : Nat → Bits) (b x : Nat) (l : List Def) (a : Instr) : List Def :=
  if ins b a.id && a.kills == some x then
    match a.def with
    | some d => insertDef l d
    | none => l
  else l

/-- reaching.cpp:217-228: the definitions of `x` that come into block `b` -/
def inDefs (g : Cfg) (ins : Nat → Bits) (b x : Nat) : List Def :=
  g.ordering.foldl (addDef ins b x) []

/-- reaching.cpp:243-256: the walk to the place asked for -/
def walk (x : Nat) (s : List Def × Bool) (i : Instr) : List Def × Bool :=
  if i.kills = some x then
    match i.def with
    | some d => ([d], true)
    | none => ([], true)
  else s

/-- reaching.cpp:231-262 `getReachingDefinitions`, of variable `x` at place `pos` of block `b`; the empty list
stands for "don't know".  `global` says whether the variable is a global one. -/
def reachingDefs (g : Cfg) (ins : Nat → Bits) (global : Nat → Bool) (x b pos : Nat) : List Def :=
  if invalidVar g x || global x then []
  else
    let r := ((g.code b).take (pos + 1)).foldl (walk x) (inDefs g ins b x, false)
    if b = 0 ∧ r.2 = false then [] else r.1

/-- const_prop.cpp:22-68 `handle(VarValue *)`, for variables that are neither thread local nor global: the
constant that replaces the read of `x`.  `lit` gives the constant that a value is (`okConst`). -/
def constProp {κ : Type} (g : Cfg) (ins : Nat → Bits) (global : Nat → Bool) (lit : Nat → Option κ)
    (x b pos : Nat) : Option κ :=
  match reachingDefs g ins global x b pos with
  | [.known v] => lit v
  | _ => none

end Codon.Flow
