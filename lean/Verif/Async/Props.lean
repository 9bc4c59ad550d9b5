import Verif.Async.Lemmas
import Mathlib.Data.List.Sort
/-!
# C48: callbacks of an event loop run once each and in order, timers fire in order of their deadline, cancelled work never runs

A history is a list of operations on a fresh loop: `call_soon`, `call_later`, cancelling handles and timers, `stop`, `run_forever`, `close`,
and steps of the loop, each at some time, in any order; callbacks that schedule or cancel others are covered because between two steps
anything may happen.
-/
namespace Codon.Async
universe u v
variable {W : Type u} {K : Type v} [LinearOrder K]

/-- Callbacks run at most once each, in the order in which they were enqueued (by `call_soon`, or when their timer fired).
    Missing: a callback may be lost, see `c48_violation_stop` and `c48_drained_partial`. -/
theorem c48_fifo_partial {os : List (Op W K)} {es : List (Ev W K)} {s : Loop W K} (h : runOps os init = some (es, s)) :
    (enqueued es).Nodup ∧ (ranNodes es).Sublist (enqueued es) := by
  obtain ⟨⟨L, g⟩, -⟩ := runOps_G G.init h
  rw [List.nil_append] at g
  have ho := (List.pairwise_append.mp g.order).1
  rw [g.allocs]
  refine ⟨List.nodup_range, ?_⟩
  refine List.sublist_of_subperm_of_pairwise (r := (· < ·)) ?_ ho List.pairwise_lt_range
  exact List.subperm_of_subset (ho.imp (fun hab => Nat.ne_of_lt hab)) (fun n hn => List.mem_range.mpr (g.bound n hn))

/-- What runs is the work that was scheduled before: that given to `call_soon`, or to `call_later` for the timer that fired. -/
theorem c48_work {os : List (Op W K)} {a b : List (Ev W K)} {now : K} {f : List (K × Nat × Option Nat)} {n : Nat} {w : Option W} {s : Loop W K}
    (h : runOps os init = some (a ++ .stepped now f (.ran n w) :: b, s)) : ∃ w0, w = some w0 ∧ Gave (a ++ [.stepped now f (.ran n w)]) n w0 := by
  obtain ⟨_, _, _, _, _, _, -, -, -, q, -⟩ := at_step h
  exact q.ran n w rfl

/-- When the loop finds nothing to do, everything enqueued so far was run or cancelled, if nobody called `stop` or `close`. -/
theorem c48_drained_partial {os : List (Op W K)} {a b : List (Ev W K)} {now : K} {f : List (K × Nat × Option Nat)} {s : Loop W K}
    (h : runOps os init = some (a ++ .stepped now f .idle :: b, s)) (hs : .stop ∉ os) (hc : .close ∉ os) :
    ∀ n ∈ enqueued (a ++ [.stepped now f .idle]), n ∈ ranNodes a ∨ .cancelledHandle n ∈ a := by
  obtain ⟨os1, os2, sa, L, sb, L', rfl, g, g', q, k1, k2⟩ := at_step h
  simp only [List.mem_append, List.mem_cons, not_or] at hs hc
  have hcl : sb.closed = false := by
    rw [q.flags.1, k1.closed hc.1]; rfl
  intro n hn
  rw [g'.allocs, List.mem_range] at hn
  have hl : lostNodes (a ++ [.stepped now f .idle]) = [] := by
    rw [lostNodes_append, k1.lost hs.1 hc.1 rfl]; rfl
  have hr : ranNodes (a ++ [.stepped now f .idle]) = ranNodes a := by rw [ranNodes_append]; simp [ranNodes]
  rcases g'.acct hcl n hn with h1 | h1 | h1 | h1
  · rw [hr] at h1; exact Or.inl h1
  · rw [q.idle rfl] at h1; cases h1
  · exact Or.inr (by simpa using h1)
  · rw [hl] at h1; cases h1

/-- Even with `stop`: what was enqueued was run, cancelled, or taken by a step that found the stop flag set. -/
theorem c48_accounted_partial {os : List (Op W K)} {a b : List (Ev W K)} {now : K} {f : List (K × Nat × Option Nat)} {s : Loop W K}
    (h : runOps os init = some (a ++ .stepped now f .idle :: b, s)) (hc : .close ∉ os) :
    ∀ n ∈ enqueued (a ++ [.stepped now f .idle]), n ∈ ranNodes a ∨ .cancelledHandle n ∈ a ∨ n ∈ lostNodes a := by
  obtain ⟨os1, os2, sa, L, sb, L', rfl, g, g', q, k1, k2⟩ := at_step h
  simp only [List.mem_append, List.mem_cons, not_or] at hc
  have hcl : sb.closed = false := by
    rw [q.flags.1, k1.closed hc.1]; rfl
  intro n hn
  rw [g'.allocs, List.mem_range] at hn
  have hl : lostNodes (a ++ [.stepped now f .idle]) = lostNodes a := by rw [lostNodes_append]; simp [lostNodes]
  have hr : ranNodes (a ++ [.stepped now f .idle]) = ranNodes a := by rw [ranNodes_append]; simp [ranNodes]
  rcases g'.acct hcl n hn with h1 | h1 | h1 | h1
  · rw [hr] at h1; exact Or.inl h1
  · rw [q.idle rfl] at h1; cases h1
  · exact Or.inr (Or.inl (by simpa using h1))
  · rw [hl] at h1; exact Or.inr (Or.inr h1)

/-- A callback whose handle was cancelled does not run afterwards. -/
theorem c48_cancelled {os : List (Op W K)} {a b : List (Ev W K)} {n : Nat} {s : Loop W K}
    (h : runOps os init = some (a ++ .cancelledHandle n :: b, s)) : n ∉ ranNodes b := by
  obtain ⟨os1, o, os2, sa, sb, rfl, h1, h2, h3⟩ := runOps_split h
  obtain ⟨⟨L, g⟩, -⟩ := runOps_G G.init h1
  obtain ⟨⟨L', g'⟩, k⟩ := doOp_G g h2
  obtain ⟨nd, k1, k2⟩ := k.hcancel n rfl
  exact ((runOps_G g' h3).2.nodes n nd k1 k2).1

/-- Cancelling the handle of a callback that has neither been run nor been lost raises nothing. -/
theorem c48_cancel_queued_partial {os : List (Op W K)} {es : List (Ev W K)} {s : Loop W K} (h : runOps os init = some (es, s)) (hc : .close ∉ os) {n : Nat}
    (hn : n ∈ enqueued es) (hr : n ∉ ranNodes es) (hl : n ∉ lostNodes es) : ∃ s', doOp (.cancelHandle n) s = some (.cancelledHandle n, s') := by
  obtain ⟨⟨L, g⟩, k⟩ := runOps_G G.init h
  rw [List.nil_append] at g
  rw [g.allocs, List.mem_range] at hn
  obtain ⟨nd, hnd⟩ := Option.isSome_iff_exists.mp ((g.inv.alloc n).mpr hn)
  obtain ⟨e, s', L', q1, -, q2, q3, -⟩ := cancelHandle_ok g hnd
  rcases g.acct ((k.closed hc).trans rfl) n hn with h1 | h1 | h1 | h1
  · exact absurd h1 hr
  · exact ⟨s', by rw [q1, q3 h1]⟩
  · obtain ⟨nd', k1, k2⟩ := k.hcancel n h1
    exact ⟨s, by simp [doOp, cancelHandle, k1, k2]⟩
  · exact absurd h1 hl

/-- The timers that fire in a step do so in order of their deadline, which is not in the future; none fires twice. -/
theorem c48_timers_ordered {os : List (Op W K)} {a b : List (Ev W K)} {now : K} {f : List (K × Nat × Option Nat)} {r : Ran W} {s : Loop W K}
    (h : runOps os init = some (a ++ .stepped now f r :: b, s)) :
    f.Pairwise (fun x y => x.1 ≤ y.1) ∧ (∀ x ∈ f, x.1 ≤ now ∧ ∃ w, .timer x.2.1 x.1 w ∈ a) ∧
      ((fired (a ++ .stepped now f r :: b)).map (·.2.1)).Nodup := by
  obtain ⟨os1, os2, sa, L, sb, L', rfl, g, g', q, k1, k2⟩ := at_step h
  obtain ⟨⟨L2, g2⟩, -⟩ := runOps_G G.init h
  rw [List.nil_append] at g2
  have hf := g2.tnodup
  refine ⟨q.sorted, fun x hx => ⟨q.due x hx, ?_⟩, (List.nodup_append.mp hf).1⟩
  exact g.theap _ _ (q.pending x hx)

/-- A step leaves no timer whose deadline has come: it fired in this step or before. -/
theorem c48_timers_due {os : List (Op W K)} {a b : List (Ev W K)} {now : K} {f : List (K × Nat × Option Nat)} {r : Ran W} {s : Loop W K}
    (h : runOps os init = some (a ++ .stepped now f r :: b, s)) (hc : .close ∉ os) {t : Nat} {k : K} {w : W} (hm : .timer t k w ∈ a) (hk : k ≤ now) :
    ∃ o, (k, t, o) ∈ fired (a ++ [.stepped now f r]) := by
  obtain ⟨os1, os2, sa, L, sb, L', rfl, g, g', q, k1, k2⟩ := at_step h
  simp only [List.mem_append, List.mem_cons, not_or] at hc
  have hcl : sb.closed = false := by
    rw [q.flags.1, k1.closed hc.1]; rfl
  rcases g'.tacct hcl t k w (List.mem_append_left _ hm) with h1 | h1
  · exact absurd (q.rest _ h1) (not_lt.mpr hk)
  · exact h1

/-- Of two timers that were both set before a step, the one that fires in this step has an earlier deadline than one that fires later. -/
theorem c48_timers_across {os : List (Op W K)} {a b : List (Ev W K)} {now : K} {f : List (K × Nat × Option Nat)} {r : Ran W} {s : Loop W K}
    (h : runOps os init = some (a ++ .stepped now f r :: b, s)) (hc : .close ∉ os) {x y : K × Nat × Option Nat} (hx : x ∈ f) (hy : y ∈ fired b)
    {w : W} (hm : .timer y.2.1 y.1 w ∈ a) : x.1 < y.1 := by
  by_contra hlt
  obtain ⟨h1, h2, h3⟩ := c48_timers_ordered h
  obtain ⟨o, ho⟩ := c48_timers_due h hc hm ((not_lt.mp hlt).trans (h2 x hx).1)
  rw [show a ++ Ev.stepped now f r :: b = (a ++ [Ev.stepped now f r]) ++ b by simp, fired_append, List.map_append, List.nodup_append] at h3
  exact h3.2.2 _ (List.mem_map.mpr ⟨_, ho, rfl⟩) _ (List.mem_map.mpr ⟨y, hy, rfl⟩) rfl

/-- A timer that fires enqueues its callback, unless it was cancelled; and not if it was. -/
theorem c48_timer_cancelled {os : List (Op W K)} {a b : List (Ev W K)} {now : K} {f : List (K × Nat × Option Nat)} {r : Ran W} {s : Loop W K}
    (h : runOps os init = some (a ++ .stepped now f r :: b, s)) : ∀ x ∈ f, x.2.2 = none ↔ .cancelledTimer x.2.1 ∈ a := by
  obtain ⟨os1, os2, sa, L, sb, L', rfl, g, g', q, k1, k2⟩ := at_step h
  intro x hx
  constructor
  · intro hn
    rcases k1.tnew x.2.1 (q.dead x hx hn) with h1 | h1
    · cases h1
    · exact h1
  · intro hm
    cases ho : x.2.2 with
    | none => rfl
    | some n =>
      obtain ⟨w, hw⟩ := q.live x hx n ho
      rw [k1.tcancel _ hm] at hw
      cases hw

/-- Nothing is undefined: no access to an object that does not exist, no heap index out of bounds, in any history in which only handles and
    timers that were returned are cancelled. -/
theorem c48_defined {os : List (Op W K)} {es : List (Ev W K)} {s : Loop W K} (h : runOps os init = some (es, s)) (o : Op W K)
    (hn : ∀ n, o = .cancelHandle n → ∃ w, .scheduled n w ∈ es) (ht : ∀ t, o = .cancelTimer t → ∃ k w, .timer t k w ∈ es) :
    (doOp o s).isSome = true := by
  obtain ⟨⟨L, g⟩, -⟩ := runOps_G G.init h
  rw [List.nil_append] at g
  obtain ⟨e, s', L', q, -⟩ := doOp_ok g o (fun n hx => by
    obtain ⟨w, hw⟩ := hn n hx
    have : n ∈ enqueued es := List.mem_flatMap.mpr ⟨_, hw, List.mem_singleton.mpr rfl⟩
    rw [g.allocs, List.mem_range] at this
    exact this) (fun t hx => by
    obtain ⟨k, w, hw⟩ := ht t hx
    exact g.tmade t k w hw)
  rw [q]
  rfl

/-! ## Examples -/

/-- Two callbacks and two timers; the second timer is cancelled, and so is the first callback. -/
def demo : List (Op String Nat) :=
  [.soon "a", .later "late" 20, .soon "b", .later "never" 10, .later "early" 5, .cancelHandle 0, .cancelTimer 1, .step 7, .step 30, .step 31, .step 32]

/-- What the steps did: the work run by each. -/
def works (es : List (Ev String Nat)) : List (Option String) := es.flatMap fun
  | .stepped _ _ (.ran _ w) => [w]
  | _ => []

def isIdle : Ev String Nat → Bool
  | .stepped _ _ .idle => true
  | _ => false

example : (runOps demo init).map (fun x => (ranNodes x.1, enqueued x.1, (fired x.1).map (fun f => (f.1, f.2.1)), works x.1, x.1.map isIdle)) =
    some ([1, 2, 3], [0, 1, 2, 3], [(5, 2), (10, 1), (20, 0)], [some "b", some "early", some "late"],
      [false, false, false, false, false, false, false, false, false, false, true]) := by
  simp [demo, runOps, doOp, init, enqueue, timersPush, siftUp, cancelHandle, unlink, cancelTimer, step, enqueueTimers, timersPop, siftDown, smallest,
    dequeue, setPrev, setNext, upd, ranNodes, enqueued, fired, works, isIdle]

/-! ## Where the code departs from the property -/

/-- `stop` from a callback (or from another thread) loses work: the next step takes a callback from the queue, sees the flag and throws it
    away.  Here the callback of node 0 is never run, although the loop runs again afterwards until it has nothing to do. -/
theorem c48_violation_stop : (runOps [.soon "a", .stop, .step 0, .run, .step 1] (init : Loop String Nat)).map
    (fun x => (enqueued x.1, ranNodes x.1, lostNodes x.1, x.1.map isIdle)) = some ([0], [], [0], [false, false, false, false, true]) := by
  simp [runOps, doOp, init, enqueue, step, enqueueTimers, dequeue, upd, ranNodes, enqueued, lostNodes, isIdle]

/-- `Handle.cancel` after the callback has run raises `ValueError` when something else is queued behind another callback. -/
theorem c48_violation_cancel_after_run : (runOps [.soon "a", .soon "b", .step 0, .cancelHandle 0] (init : Loop String Nat)).map
    (fun x => (ranNodes x.1, x.1.getLast?)) = some ([0], some (.error .value)) := by
  simp [runOps, doOp, init, enqueue, step, enqueueTimers, dequeue, upd, ranNodes, setPrev, setNext, cancelHandle, unlink]

/-- A timer that has come due and waits in the queue can be cancelled, without error and with effect on `cancelled()`, but its callback runs. -/
theorem c48_violation_timer_cancel : (runOps [.soon "a", .later "b" 5, .step 6, .cancelTimer 0, .step 7] (init : Loop String Nat)).map
    (fun x => (x.2.timers 0, works x.1)) = some (some none, [some "a", some "b"]) := by
  simp [runOps, doOp, init, enqueue, step, enqueueTimers, dequeue, upd, works, setPrev, setNext, timersPush, siftUp, timersPop, cancelTimer]

/-- `call_at(when, …)` is `call_later(when, …)`: at time 100 a callback to be called at time 105 is not called at time 105. -/
theorem c48_violation_call_at : (runOps [callAt 100 105 "a", .step 105, .step 204, .step 205] (init : Loop String Nat)).map
    (fun x => (fired x.1, x.1.map isIdle)) = some ([(205, 0, some 0)], [false, true, true, false]) := by
  simp [callAt, callLater, runOps, doOp, init, enqueue, step, enqueueTimers, dequeue, upd, timersPush, siftUp, timersPop, fired, isIdle]

/-- `call_soon_threadsafe` never returns, whatever the loop: it waits for the lock it has taken itself. -/
theorem c48_violation_threadsafe (s : Loop W K) (held : Bool) (w : W) : callSoonThreadsafe held w s = none := by
  cases held <;> rfl

end Codon.Async
