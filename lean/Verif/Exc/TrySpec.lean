import Verif.Exc.TryModel
import Verif.Exc.Route
/-!
What `try` statements mean (The Python Language Reference, 8.4).
-/
namespace Codon.Exc.Try
universe u v
variable {S : Type u} {V : Type v}

/-- How a statement ends. -/
inductive Res (V : Type v) where
  | norm
  | brk
  | cont
  | ret (v : V)
  | exc (e : Exn)
  deriving DecidableEq, Repr

/-- The meaning of a statement; `none`: more than `fuel` nested steps.  However the body, the handler and the `else` part of a `try`
    end, the `finally` part is run once, and then the statement ends as they did, unless the `finally` part ends otherwise. -/
def eval : Nat → Stmt S V → S → Option (Res V × S)
  | 0, _, _ => none
  | _ + 1, .act f, m =>
    match f m with
    | (m, none) => some (.norm, m)
    | (m, some e) => some (.exc e, m)
  | _ + 1, .skip, m => some (.norm, m)
  | n + 1, .seq a b, m =>
    match eval n a m with
    | some (.norm, m) => eval n b m
    | r => r
  | n + 1, .ite t a b, m => if t m then eval n a m else eval n b m
  | n + 1, .loop t b, m =>
    if t m then
      match eval n b m with
      | none => none
      | some (.norm, m) => eval n (.loop t b) m
      | some (.cont, m) => eval n (.loop t b) m
      | some (.brk, m) => some (.norm, m)
      | some (r, m) => some (r, m)
    else some (.norm, m)
  | _ + 1, .brk, m => some (.brk, m)
  | _ + 1, .cont, m => some (.cont, m)
  | _ + 1, .ret v, m => some (.ret (v m), m)
  | n + 1, .try_ _ body hs els fin, m =>
    let inner : Option (Res V × S) :=
      match eval n body m with
      | none => none
      | some (.norm, m) => eval n els m
      | some (.exc e, m) =>
        match hs.find? (fun h => accepts e.id e.bases h.1) with
        | none => some (.exc e, m)
        | some (_, bind, h) => eval n h (bind e m)
      | some (r, m) => some (r, m)
    match fin with
    | none => inner
    | some f =>
      match inner with
      | none => none
      | some (r, m) =>
        match eval n f m with
        | some (.norm, m) => some (r, m)
        | r' => r'

/-- How a function ends, as seen by its caller. -/
def evalFun (fuel : Nat) (s : Stmt S V) (m : S) : Option (Out V × S) :=
  match eval fuel s m with
  | none => none
  | some (.norm, m) => some (.fall, m)
  | some (.ret v, m) => some (.jump (.ret v), m)
  | some (.exc e, m) => some (.jump (.resume e), m)
  | some (.brk, m) => some (.jump .stuck, m)
  | some (.cont, m) => some (.jump .stuck, m)

/-- No `try`, no `return`, and `break`/`continue` only for loops inside (`lp`: inside such a loop). -/
inductive Plain : Bool → Stmt S V → Prop where
  | act {lp f} : Plain lp (.act f)
  | skip {lp} : Plain lp .skip
  | seq {lp a b} : Plain lp a → Plain lp b → Plain lp (.seq a b)
  | ite {lp c a b} : Plain lp a → Plain lp b → Plain lp (.ite c a b)
  | loop {lp c b} : Plain true b → Plain lp (.loop c b)
  | brk : Plain true .brk
  | cont : Plain true .cont

/-- The statements for which the emitted code is right.  `par`: in the body of some `try`; `part`: in a handler or the `else` part of a `try`
    that has a `finally` part; `lp`: in a loop.
    In such a handler or `else` part there is no `try`, no `return`, and unless the `try` is outermost, no exception leaves it.
    `finally` parts are `Plain`. -/
inductive Good : Bool → Bool → Bool → Stmt S V → Prop where
  | act {par part lp f} : (part = true → par = true → ∀ m, (f m).2 = none) → Good par part lp (.act f)
  | skip {par part lp} : Good par part lp .skip
  | seq {par part lp a b} : Good par part lp a → Good par part lp b → Good par part lp (.seq a b)
  | ite {par part lp c a b} : Good par part lp a → Good par part lp b → Good par part lp (.ite c a b)
  | loop {par part lp c b} : Good par part true b → Good par part lp (.loop c b)
  | brk {par part} : Good par part true .brk
  | cont {par part} : Good par part true .cont
  | ret {par lp v} : Good par false lp (.ret v)
  | try_ {par lp node body hs els fin} : Good true false lp body → (∀ h ∈ hs, h.1 ≠ some 0) →
      (∀ h ∈ hs, Good par fin.isSome lp h.2.2) →
      Good par fin.isSome lp els → (∀ f, fin = some f → Plain false f) → Good par false lp (.try_ node body hs els fin)

end Codon.Exc.Try
