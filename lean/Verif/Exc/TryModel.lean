import Verif.Exc.RouteModel
/-!
# The code emitted for `try` statements

Models `LLVMVisitor::visit(const TryCatchFlow *)` (/repo/codon/cir/llvm/llvisitor.cpp:2721-3086) with the `raise`, `return`, `break` and
`continue` statements inside it: which blocks are emitted, in which order they are run, and the variables they share
(`excFlag`, `catchStore`, `delegateDepth`, `retStore`, `loopSequence`).

A block is named by the position of its `try` statement or loop among the statements that enclose the current one; the jumps out of a statement
are its results.  Everything that is not control flow is abstract: an action changes the memory `S` and may raise an exception.  Left
out: coroutines, `DisableExceptions`, foreign exceptions.  Uncaught exceptions: the unwinder enters the landing pads of a function
only if some caller handles the exception; here that is assumed.
-/
namespace Codon.Exc.Try

universe u v

/-- An exception: its type and the types it derives from. -/
structure Exn where
  id : Nat
  bases : List Nat
  deriving DecidableEq, Repr

/-- Statements.  A handler has its type (`none`: all), the assignment of the exception to the variable of the clause, and its body.  `node` names the statement.  No `finally`
    part is `none`; an absent `else` part is a series of nothing. -/
inductive Stmt (S : Type u) (V : Type v) where
  | act (f : S → S × Option Exn)
  | skip
  | seq (a b : Stmt S V)
  | ite (c : S → Bool) (a b : Stmt S V)
  | loop (c : S → Bool) (b : Stmt S V)
  | brk
  | cont
  | ret (v : S → V)
  | try_ (node : Nat) (body : Stmt S V) (handlers : List (Option Nat × (Exn → S → S) × Stmt S V)) (els : Stmt S V) (fin : Option (Stmt S V))

variable {S : Type u} {V : Type v}

/-- `TryCatchData::State`. -/
inductive Flag where
  | notThrown | thrown | caught | ret | brk | cont | rethrow
  deriving DecidableEq, Repr

/-- The variables a root `try` allocates (llvisitor.cpp:2757-2769); `store`: exception and selector. -/
structure Regs (V : Type v) where
  flag : Flag
  store : Option (Exn × Nat)
  depth : Nat
  retStore : Option V
  loopSeq : Option Nat

/-- llvisitor.cpp:2765-2768. -/
def Regs.init : Regs V := ⟨.notThrown, none, 0, none, none⟩

structure St (S : Type u) (V : Type v) where
  mem : S
  regs : Nat → Regs V

/-- An enclosing statement: a loop; a `try` in whose body we are (`key`: the root `try` whose variables it shares; whether it has a `finally`
    part; its types); a `try` with a `finally` part in one of whose handlers or `else` part we are.  The innermost is first; its position is the
    number of statements around it.  The stacks `loops`, `trycatch` and `finally` of the visitor are parts of this list
    (llvisitor.cpp:1440-1467, 2917-2922, 3070-3071), and sequence numbers are in the order of positions, where the number of the entry of a
    `try` in `trycatch` is above that of its entry in `finally` (llvisitor.cpp:2917-2919). -/
inductive Frame where
  | loop
  | body (key : Nat) (fin : Bool) (types : Types)
  | part (key : Nat)

abbrev Ctx := List Frame

/-- `trycatch.back()`: its position and key. -/
def innerTry : Ctx → Option (Nat × Nat)
  | [] => none
  | .body k _ _ :: c => some (c.length, k)
  | _ :: c => innerTry c

/-- `finally.back()`. -/
def innerFin : Ctx → Option (Nat × Nat)
  | [] => none
  | .body k true _ :: c => some (c.length, k)
  | .part k :: c => some (c.length, k)
  | _ :: c => innerFin c

/-- `loops.back()`. -/
def innerLoop : Ctx → Option Nat
  | [] => none
  | .loop :: c => some c.length
  | _ :: c => innerLoop c

/-- The handled types of `trycatch`, innermost first. -/
def tryStack : Ctx → List Types
  | [] => []
  | .body _ _ ts :: c => ts :: tryStack c
  | _ :: c => tryStack c

/-- Whether there is a loop at this position (llvisitor.cpp:2868). -/
def isLoop : Ctx → Nat → Bool
  | [], _ => false
  | .loop :: c, p => p == c.length || isLoop c p
  | _ :: c, p => isLoop c p

/-- Where control goes.  `exc` and `finExc` are landing pads. -/
inductive Jump (V : Type v) where
  | brk (p : Nat)
  | cont (p : Nat)
  | fin (p : Nat)
  | route (p : Nat)
  | exc (p : Nat) (e : Exn)
  | finExc (p : Nat) (e : Exn)
  | ret (v : V)
  /-- The exception leaves the function. -/
  | resume (e : Exn)
  /-- `unreachable`, or the use of a variable that was not set. -/
  | stuck
  deriving DecidableEq, Repr

inductive Out (V : Type v) where
  | fall
  | jump (j : Jump V)
  deriving DecidableEq, Repr

/-- Where an exception raised by a call lands (llvisitor.cpp:1414-1435). -/
def landing (c : Ctx) (e : Exn) : Jump V :=
  match innerFin c, innerTry c with
  | none, none => .resume e
  | none, some (p, _) => .exc p e
  | some (q, _), none => .finExc q e
  | some (q, _), some (p, _) => if p ≥ q then .exc p e else .finExc q e

def setRegs (st : St S V) (k : Nat) (f : Regs V → Regs V) : St S V :=
  { st with regs := fun x => if x = k then f (st.regs k) else st.regs x }

/-- `break` and `continue` (llvisitor.cpp:3351-3386). -/
def leaveLoop (c : Ctx) (st : St S V) (flag : Flag) (direct : Nat → Jump V) : Jump V × St S V :=
  match innerLoop c with
  | none => (.stuck, st)
  | some l =>
    match innerFin c with
    | none => (direct l, st)
    | some (q, k) => if q < l then (direct l, st) else (.fin q, setRegs st k fun r => { r with flag := flag, loopSeq := some l })

/-- `return` (llvisitor.cpp:3388-3422). -/
def leaveFun (c : Ctx) (st : St S V) (v : V) : Jump V × St S V :=
  match innerTry c with
  | none => (.ret v, st)
  | some (p, k) => (.fin p, setRegs st k fun r => { r with flag := .ret, retStore := some v })

/-- The switch for `break` and `continue` after the `finally` part (llvisitor.cpp:2844-2884). -/
def switchLoop (c : Ctx) (key : Nat) (st : St S V) (direct : Nat → Jump V) : Out V × St S V :=
  match (st.regs key).loopSeq with
  | none => (.fall, st)
  | some l =>
    if isLoop c l then
      match innerTry c with
      | some (p, _) => if l < p then (.jump (.fin p), st) else (.jump (direct l), setRegs st key fun r => { r with flag := .notThrown })
      | none => (.jump (direct l), setRegs st key fun r => { r with flag := .notThrown })
    else (.fall, st)

/-- After the `finally` part (llvisitor.cpp:2776-2799, 2817-2842, 2933-2939, 3073-3085).  `c` is what encloses the `try`. -/
def finish (c : Ctx) (key : Nat) (haveFin : Bool) (st : St S V) : Out V × St S V :=
  let r := st.regs key
  let go : Out V × St S V :=
    match r.flag with
    | .notThrown => (.fall, st)
    | .caught => (.fall, st)
    | .thrown =>
      match r.store with
      | some (e, _) => (.jump (.resume e), st)
      | none => (.jump .stuck, st)
    | .rethrow =>
      if haveFin then
        match r.store with
        | some (e, _) => (.jump (landing c e), st)
        | none => (.jump .stuck, st)
      else (.jump .stuck, st)
    | .ret =>
      match innerTry c with
      | some (p, _) => (.jump (.fin p), st)
      | none =>
        match r.retStore with
        | some v => (.jump (.ret v), st)
        | none => (.jump .stuck, st)
    | .brk => switchLoop c key st .brk
    | .cont => switchLoop c key st .cont
  match innerTry c with
  | none => go
  | some (p, _) =>
    if r.depth > 0 then
      (.jump (if r.depth - 1 > 0 then .fin p else .route p), setRegs st key fun r => { r with depth := r.depth - 1 })
    else go

/-- The selector the personality function delivers at the landing pad of a `try` (llvisitor.cpp:2975-2994; `c18_personality`). -/
def selector (e : Exn) (own : Types) (parents : List Types) : Nat :=
  (firstClause e.id e.bases ((table own parents).map fun t => some (t.1.getD 0))).getD 0

/-- The emitted code, run.  `none`: more than `fuel` nested steps. -/
def run : Nat → Ctx → Stmt S V → St S V → Option (Out V × St S V)
  | 0, _, _, _ => none
  | _ + 1, c, .act f, st =>
    match f st.mem with
    | (m, none) => some (.fall, { st with mem := m })
    | (m, some e) => some (.jump (landing c e), { st with mem := m })
  | _ + 1, _, .skip, st => some (.fall, st)
  | n + 1, c, .seq a b, st =>
    match run n c a st with
    | some (.fall, st) => run n c b st
    | r => r
  | n + 1, c, .ite t a b, st => if t st.mem then run n c a st else run n c b st
  | n + 1, c, .loop t b, st =>
    if t st.mem then
      match run n (.loop :: c) b st with
      | none => none
      | some (.fall, st) => run n c (.loop t b) st
      | some (.jump j, st) =>
        match j with
        | .cont p => if p = c.length then run n c (.loop t b) st else some (.jump j, st)
        | .brk p => if p = c.length then some (.fall, st) else some (.jump j, st)
        | _ => some (.jump j, st)
    else some (.fall, st)
  | _ + 1, c, .brk, st => let r := leaveLoop c st .brk .brk; some (.jump r.1, r.2)
  | _ + 1, c, .cont, st => let r := leaveLoop c st .cont .cont; some (.jump r.1, r.2)
  | _ + 1, c, .ret v, st => let r := leaveFun c st (v st.mem); some (.jump r.1, r.2)
  | n + 1, c, .try_ node body hs els fin, st =>
    let pos := c.length
    let key := match innerTry c with
      | none => node
      | some (_, k) => k
    let haveFin := fin.isSome
    let own : Types := hs.map (·.1)
    let parents := tryStack c
    let cPart : Ctx := if haveFin then .part key :: c else c
    -- llvisitor.cpp:2757-2769: the variables of a root `try` are set when the function is entered, which is the same as here unless we are in a loop
    let st := if (innerTry c).isNone && (innerLoop c).isNone then setRegs st key fun _ => Regs.init else st
    -- llvisitor.cpp:2911-2915
    let st := if (innerLoop c).isSome then setRegs st key fun r => { r with flag := .notThrown } else st
    -- `finallyBlock`
    let atFin : St S V → Option (Out V × St S V) := fun st =>
      match fin with
      | none => some (finish c key haveFin st)
      | some f =>
        match run n c f st with
        | some (.fall, st) => some (finish c key haveFin st)
        | r => r
    -- `finallyExceptionBlock` (llvisitor.cpp:2801-2815)
    let atFinExc : Exn → St S V → Option (Out V × St S V) := fun e st =>
      atFin (setRegs st key fun r => { r with store := some (e, 0), flag := .rethrow, depth := parents.length })
    -- the end of a handler or of the `else` part (llvisitor.cpp:2929-2931, 3064-3066)
    let after : Option (Out V × St S V) → Option (Out V × St S V) := fun r =>
      match r with
      | none => none
      | some (.fall, st) => atFin st
      | some (.jump j, st) =>
        match j with
        | .fin p => if haveFin && p == pos then atFin st else some (.jump j, st)
        | .finExc p e => if haveFin && p == pos then atFinExc e st else some (.jump j, st)
        | _ => some (.jump j, st)
    -- `exceptionRouteBlock` (llvisitor.cpp:3007-3066)
    let atRoute : St S V → Option (Out V × St S V) := fun st =>
      match (st.regs key).store with
      | none => some (.jump .stuck, st)
      | some (e, sel) =>
        match dispatch own parents sel (st.regs key).depth with
        | .inr d => atFin (setRegs st key fun r => { r with depth := d })
        | .inl i =>
          match hs[i]? with
          | none => some (.jump .stuck, st)
          | some (_, bind, h) =>
            let st := setRegs st key fun r => { r with depth := 0, flag := .caught }
            after (run n cPart h { st with mem := bind e st.mem })
    -- `exceptionBlock` (llvisitor.cpp:2991-3001)
    let atExc : Exn → St S V → Option (Out V × St S V) := fun e st =>
      atRoute (setRegs st key fun r => { r with store := some (e, selector e own parents), flag := .thrown, depth := parents.length })
    match run n (.body key haveFin own :: c) body st with
    | none => none
    | some (.fall, st) => after (run n cPart els st)
    | some (.jump j, st) =>
      match j with
      | .fin p => if p = pos then atFin st else some (.jump j, st)
      | .finExc p e => if p = pos then atFinExc e st else some (.jump j, st)
      | .exc p e => if p = pos then atExc e st else some (.jump j, st)
      | .route p => if p = pos then atRoute st else some (.jump j, st)
      | _ => some (.jump j, st)

/-- A function: its body, with nothing around it. -/
def runFun (fuel : Nat) (s : Stmt S V) (m : S) : Option (Out V × S) :=
  (run fuel [] s ⟨m, fun _ => Regs.init⟩).map fun r => (r.1, r.2.mem)

end Codon.Exc.Try
