import Mathlib.Order.Defs.LinearOrder
/-!
# The asyncio event loop

Models the scheduling part of `EventLoop` of stdlib/asyncio.codon: the doubly linked list of work, the heap of timers, the handles, and
`_step` up to the work it hands out.
-/
namespace Codon.Async

universe u v

/-- A `WorkNode` (asyncio.codon:27-38); no work: cancelled (`coro` is null, asyncio.codon:134-135). -/
structure WNode (W : Type u) where
  work : Option W
  prev : Option Nat
  next : Option Nat

/-- `EventLoop` (asyncio.codon:47-57, 177-188).  `nodes` and `timers` are the objects in memory, by address; the loop's array of timers is
    `heap` (`_timers_len` is its length), where the deadline, which never changes, is kept beside the reference to the timer; of a
    timer object only the work is left (`none`: cancelled).  The lock, `_running` and the work in progress are left out. -/
structure Loop (W : Type u) (K : Type v) where
  nodes : Nat → Option (WNode W)
  numNodes : Nat
  head : Option Nat
  tail : Option Nat
  timers : Nat → Option (Option W)
  numTimers : Nat
  heap : List (K × Nat)
  cap : Nat
  stop : Bool
  closed : Bool

inductive Err where
  | runtime
  | value
  deriving DecidableEq, Repr

variable {W : Type u} {K : Type v}

def upd {α : Type u} (f : Nat → Option α) (a : Nat) (v : α) : Nat → Option α := fun x => if x = a then some v else f x

/-- asyncio.codon:177-188. -/
def init : Loop W K := ⟨fun _ => none, 0, none, none, fun _ => none, 0, [], 8, false, false⟩

/-- `x.prev = p`. -/
def setPrev (s : Loop W K) (a : Nat) (p : Option Nat) : Option (Loop W K) :=
  match s.nodes a with
  | some n => some { s with nodes := upd s.nodes a { n with prev := p } }
  | none => none

/-- `x.next = p`. -/
def setNext (s : Loop W K) (a : Nat) (p : Option Nat) : Option (Loop W K) :=
  match s.nodes a with
  | some n => some { s with nodes := upd s.nodes a { n with next := p } }
  | none => none

/-- `_work_enqueue` (asyncio.codon:374-384).  Access to no object: `none`. -/
def enqueue (s : Loop W K) (w : W) : Option (Nat × Loop W K) :=
  let n := s.numNodes
  let s := { s with nodes := upd s.nodes n ⟨some w, none, none⟩, numNodes := n + 1 }
  match s.tail with
  | none => some (n, { s with head := some n, tail := some n })
  | some t =>
    match setPrev s n (some t) with
    | none => none
    | some s =>
      match setNext s t (some n) with
      | none => none
      | some s => some (n, { s with tail := some n })

/-- `_work_dequeue` (asyncio.codon:386-395); the node is returned too. -/
def dequeue (s : Loop W K) : Option (Nat × Option W × Loop W K) :=
  match s.head with
  | none => none
  | some h =>
    match s.nodes h with
    | none => none
    | some n =>
      match n.next with
      | none => some (h, n.work, { s with head := none, tail := none })
      | some x =>
        match setPrev { s with head := some x } x none with
        | none => none
        | some s =>
          match setNext s h none with
          | none => none
          | some s => some (h, n.work, s)

/-- The links after `node.work = WorkItem()` in `_cancel(node)` (asyncio.codon:400-422).  The error is that of `node.prev.next` where
    `node.prev` is `None`. -/
def unlink (s : Loop W K) (a : Nat) : Option (Option Err × Loop W K) :=
  match s.head, s.tail with
  | some h, some t =>
    match s.nodes a with
    | none => none
    | some n =>
      if a = h then
        match n.next with
        | none => some (none, { s with head := none, tail := none })
        | some x =>
          match setPrev { s with head := some x } x none with
          | none => none
          | some s =>
            match setNext s a none with
            | none => none
            | some s => some (none, s)
      else if a = t then
        match n.prev with
        | none => some (none, { s with head := none, tail := none })
        | some x =>
          match setNext { s with tail := some x } x none with
          | none => none
          | some s =>
            match setPrev s a none with
            | none => none
            | some s => some (none, s)
      else
        match n.prev with
        | none => some (some .value, s)
        | some p =>
          match setNext s p n.next with
          | none => none
          | some s =>
            match n.next with
            | none => some (some .value, s)
            | some x =>
              match setPrev s x n.prev with
              | none => none
              | some s => some (none, s)
  | _, _ => some (none, s)

/-- `Handle.cancel` (asyncio.codon:64-68, 397-398). -/
def cancelHandle (s : Loop W K) (a : Nat) : Option (Option Err × Loop W K) :=
  match s.nodes a with
  | none => none
  | some n =>
    match n.work with
    | none => some (none, s)
    | some _ => unlink { s with nodes := upd s.nodes a { n with work := none } } a

/-- `TimerHandle.cancel` (asyncio.codon:78-82, 424-425). -/
def cancelTimer (s : Loop W K) (t : Nat) : Option (Loop W K) :=
  match s.timers t with
  | none => none
  | some none => some s
  | some (some _) => some { s with timers := upd s.timers t none }

section
variable [LinearOrder K]

/-- The sift-up loop (asyncio.codon:454-459). -/
def siftUp (a : List (K × Nat)) (i : Nat) : Option (List (K × Nat)) :=
  if h : i = 0 then some a
  else
    let p := (i - 1) / 2
    match a[p]?, a[i]? with
    | some x, some y => if x.1 ≤ y.1 then some a else siftUp ((a.set p y).set i x) p
    | _, _ => none
termination_by i
decreasing_by omega

/-- `_timers_push` (asyncio.codon:444-459). -/
def timersPush (heap : List (K × Nat)) (cap : Nat) (t : K × Nat) : Option (List (K × Nat) × Nat) :=
  let cap := if heap.length = cap then cap * 2 else cap
  if heap.length < cap then
    match siftUp (heap ++ [t]) heap.length with
    | some a => some (a, cap)
    | none => none
  else none

/-- Which of `i` and its children has the earliest deadline (asyncio.codon:472-479). -/
def smallest (a : List (K × Nat)) (i : Nat) : Option Nat :=
  match a[i]? with
  | none => none
  | some x =>
    match a[2 * i + 1]? with
    | none => some i
    | some l =>
      match a[2 * i + 2]? with
      | none => some (if l.1 < x.1 then 2 * i + 1 else i)
      | some r =>
        if l.1 < x.1 then some (if r.1 < l.1 then 2 * i + 2 else 2 * i + 1)
        else some (if r.1 < x.1 then 2 * i + 2 else i)

/-- The sift-down loop (asyncio.codon:471-484).  The test holds exactly if `j ≠ i`. -/
def siftDown (a : List (K × Nat)) (i : Nat) : Option (List (K × Nat)) :=
  match smallest a i with
  | none => none
  | some j =>
    if i < j ∧ j < a.length then
      match a[i]?, a[j]? with
      | some x, some y => siftDown ((a.set i y).set j x) j
      | _, _ => none
    else some a
termination_by a.length - i
decreasing_by simp only [List.length_set]; omega

/-- `_timers_pop` (asyncio.codon:461-486). -/
def timersPop (heap : List (K × Nat)) : Option ((K × Nat) × List (K × Nat)) :=
  match heap with
  | [] => none
  | out :: rest =>
    match rest.getLast? with
    | none => some (out, [])
    | some l =>
      match siftDown (l :: rest.dropLast) 0 with
      | some a => some (out, a)
      | none => none

/-- `_enqueue_timers` (asyncio.codon:269-273); also the timers taken, with the node enqueued for each.  The loop ends because each round
    takes a timer: `fuel` is their number. -/
def enqueueTimers (fuel : Nat) (now : K) (s : Loop W K) : Option (List (K × Nat × Option Nat) × Loop W K) :=
  match s.heap with
  | [] => some ([], s)
  | x :: _ =>
    if x.1 ≤ now then
      match fuel with
      | 0 => none
      | fuel + 1 =>
        match timersPop s.heap with
        | none => none
        | some (t, heap) =>
          match s.timers t.2 with
          | none => none
          | some none =>
            match enqueueTimers fuel now { s with heap := heap } with
            | none => none
            | some (l, s) => some ((t.1, t.2, none) :: l, s)
          | some (some w) =>
            match enqueue { s with heap := heap } w with
            | none => none
            | some (n, s) =>
              match enqueueTimers fuel now s with
              | none => none
              | some (l, s) => some ((t.1, t.2, some n) :: l, s)
    else some ([], s)

/-- What `_step` does with the work it takes. -/
inductive Ran (W : Type u) where
  /-- Nothing to do: the loop sleeps. -/
  | idle
  /-- The coroutine of this node is resumed. -/
  | ran (n : Nat) (w : Option W)
  /-- The stop flag: nothing is run; the node taken, if any, is lost. -/
  | stopped (taken : Option (Nat × Option W))

/-- `_step` (asyncio.codon:275-341), without the bookkeeping for tasks. -/
def step (now : K) (s : Loop W K) : Option (List (K × Nat × Option Nat) × Ran W × Loop W K) :=
  match enqueueTimers s.heap.length now s with
  | none => none
  | some (fired, s) =>
    match s.tail with
    | none => some (fired, if s.stop then .stopped none else .idle, s)
    | some _ =>
      match dequeue s with
      | none => none
      | some (n, w, s) => some (fired, if s.stop then .stopped (some (n, w)) else .ran n w, s)

/-- What can happen to a loop: from outside, from a callback that is being run (between two steps), or by the loop itself. -/
inductive Op (W : Type u) (K : Type v) where
  | soon (w : W)
  | later (w : W) (when_ : K)
  | cancelHandle (n : Nat)
  | cancelTimer (t : Nat)
  | stop
  | run
  | close
  | step (now : K)

/-- What is seen of it. -/
inductive Ev (W : Type u) (K : Type v) where
  /-- `call_soon` returned a handle for the node. -/
  | scheduled (n : Nat) (w : W)
  | timer (t : Nat) (when_ : K) (w : W)
  | cancelledHandle (n : Nat)
  | cancelledTimer (t : Nat)
  | error (e : Err)
  | done
  | stepped (now : K) (fired : List (K × Nat × Option Nat)) (r : Ran W)

/-- One operation.  `call_soon` (asyncio.codon:224-229, 242-244), `call_later` (250-260; the deadline is given here), `stop` (214-216), the
    start of `run_forever` (343-347), `close` (198-209). -/
def doOp (o : Op W K) (s : Loop W K) : Option (Ev W K × Loop W K) :=
  match o with
  | .soon w =>
    if s.closed then some (.error .runtime, s)
    else match enqueue s w with
      | none => none
      | some (n, s) => some (.scheduled n w, s)
  | .later w k =>
    if s.closed then some (.error .runtime, s)
    else match timersPush s.heap s.cap (k, s.numTimers) with
      | none => none
      | some (heap, cap) => some (.timer s.numTimers k w,
          { s with timers := upd s.timers s.numTimers (some w), numTimers := s.numTimers + 1, heap := heap, cap := cap })
  | .cancelHandle n =>
    match cancelHandle s n with
    | none => none
    | some (none, s) => some (.cancelledHandle n, s)
    | some (some e, s) => some (.error e, s)
  | .cancelTimer t =>
    match cancelTimer s t with
    | none => none
    | some s => some (.cancelledTimer t, s)
  | .stop => some (.done, { s with stop := true })
  | .run => if s.closed then some (.error .runtime, s) else some (.done, { s with stop := false })
  | .close =>
    if s.closed then some (.done, s)
    else some (.done, { s with head := none, tail := none, heap := [], cap := 0, closed := true, stop := true })
  | .step now =>
    match step now s with
    | none => none
    | some (fired, r, s) => some (.stepped now fired r, s)

/-- `call_later` (asyncio.codon:250-260) at time `now`. -/
def callLater [Add K] (now : K) (delay : K) (w : W) : Op W K := .later w (now + delay)

/-- `call_at` (asyncio.codon:262-263). -/
def callAt [Add K] (now : K) (delay : K) (w : W) : Op W K := callLater now delay w

/-- `Lock.acquire` (threading.codon:18-21) on a lock that this thread holds or not; `none`: it waits for ever. -/
def acquire (held : Bool) : Option Bool := if held then none else some true

/-- `call_soon_threadsafe` (asyncio.codon:246-248) as far as the lock goes: it calls `call_soon` with the lock taken, which takes it
    again (asyncio.codon:224-227).  `held`: whether the lock is taken already. -/
def callSoonThreadsafe (held : Bool) (w : W) (s : Loop W K) : Option (Ev W K × Loop W K) :=
  match acquire held with
  | none => none
  | some held =>
    match acquire held with
    | none => none
    | some _ => doOp (.soon w) s

/-- A history. -/
def runOps : List (Op W K) → Loop W K → Option (List (Ev W K) × Loop W K)
  | [], s => some ([], s)
  | o :: os, s =>
    match doOp o s with
    | none => none
    | some (e, s) =>
      match runOps os s with
      | none => none
      | some (es, s) => some (e :: es, s)

end

end Codon.Async
