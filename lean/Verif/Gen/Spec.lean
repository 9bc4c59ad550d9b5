import Verif.Gen.Model

/-! Vocabulary for the claims about fused generators. -/

namespace Codon.Gen

variable {S E V R A : Type}

/-- The statement contains a `yield`. -/
def Stmt.yields : Stmt S E V R → Bool
  | .yld _ => true
  | .seq a b => a.yields || b.yields
  | .ite _ a b => a.yields || b.yields
  | .loop _ b => b.yields
  | .catch b _ _ h => b.yields || h.yields
  | .fin b f => b.yields || f.yields
  | _ => false

/-- The statement contains a `return`. -/
def Stmt.returns : Stmt S E V R → Bool
  | .ret _ => true
  | .seq a b => a.returns || b.returns
  | .ite _ a b => a.returns || b.returns
  | .loop _ b => b.returns
  | .catch b _ _ h => b.returns || h.returns
  | .fin b f => b.returns || f.returns
  | _ => false

/-- What must not occur in the body of a generator, depending on what its consumer does:
* no `yield` in the `try` block of a `try … except` if the consumer may raise at an item (`raises`);
* no `yield` in the `try` block of a `try … finally` if the consumer may raise or stop at an item
  (`stops`);
* no `return` in the `try` block of a `try … finally` with a `yield` in its `finally` block, if the
  result depends on the items so far (`varies`). -/
def Stmt.Fits (raises stops varies : Bool) : Stmt S E V R → Prop
  | .seq a b => a.Fits raises stops varies ∧ b.Fits raises stops varies
  | .ite _ a b => a.Fits raises stops varies ∧ b.Fits raises stops varies
  | .loop _ b => b.Fits raises stops varies
  | .catch b _ _ h => (raises = true → b.yields = false) ∧
      b.Fits raises stops varies ∧ h.Fits raises stops varies
  | .fin b f => (raises = true ∨ stops = true → b.yields = false) ∧
      (varies = true → b.returns = true → f.yields = false) ∧
      b.Fits raises stops varies ∧ f.Fits raises stops varies
  | _ => True

/-- The consumer, run on the generator with body `b` from state `s` with accumulator `a`, ends with
`o`. -/
def Consumer.Ends (q : Consumer S E V A R) (b : Stmt S E V Unit) (s : S) (a : A)
    (o : Outcome S E R) : Prop :=
  ∃ n : Nat, Nat.repeat q.step n (.go (.run b [] s) a) = .done o

/-- The outcome without the final value of the accumulator variable. -/
def Outcome.dropAcc : Outcome (S × A) E R → Outcome S E R
  | .returned r s => .returned r s.1
  | .raised e s => .raised e s.1
  | .bad => .bad

/-- A call of the plain function with body `b` from state `s` with the accumulator variable `a` ends
with `o`. -/
def Stmt.Ends (b : Stmt (S × A) E Empty R) (s : S) (a : A) (o : Outcome S E R) : Prop :=
  ∃ (n : Nat) (o' : Outcome (S × A) E R),
    Nat.repeat FState.step n (.go (.run b [] (s, a))) = .done o' ∧ o'.dropAcc = o

end Codon.Gen
