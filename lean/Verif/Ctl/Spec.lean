import Verif.Ctl.Model
/-!
# Specification: `match`, `break`, `continue` and loop `else` as in Python

A direct execution of the statements as written, which knows nothing of the lowering.

Python leaves it open which names a pattern that fails has bound ("do not rely on
bindings being made for a failed match, and do not rely on variables remaining
unchanged"): the parameter `J` says what state a failed match leaves, and `FailOk`
what it may do.
-/

namespace Verif.Ctl

mutual
/-- The names a pattern captures. -/
def Pat.caps : Pat → List Nat
  | .int _ | .bool _ | .str _ | .range _ _ | .wild => []
  | .tup ps | .lst ps => ps.caps
  | .lstE ps qs => ps.caps ++ qs.caps
  | .alt p q => p.caps ++ q.caps
  | .var x => [x]
  | .bind x p => x :: p.caps
def Pats.caps : Pats → List Nat
  | .nil => []
  | .cons p ps => p.caps ++ ps.caps
end

mutual
/-- Does the value match the pattern, and if so, what does it bind? -/
def matches? : Pat → Val → Option (List (Nat × Val))
  | .int i, .int j => if j = i then some [] else none
  | .bool b, .bool c => if c = b then some [] else none
  | .str s, .str t => if t = s then some [] else none
  | .range a b, .int j => if a ≤ j ∧ j ≤ b then some [] else none
  | .tup ps, .tup vs => matchAll ps vs
  | .lst ps, .lst vs => matchAll ps vs
  | .lstE ps qs, .lst vs =>
    if vs.length < ps.length + qs.length then none
    else
      match matchAll ps (vs.take ps.length), matchAll qs (vs.drop (vs.length - qs.length)) with
      | some a, some b => some (a ++ b)
      | _, _ => none
  | .alt p q, v =>
    match matches? p v with
    | some bs => some bs
    | none => matches? q v
  | .wild, _ => some []
  | .var x, v => some [(x, v)]
  | .bind x p, v =>
    match matches? p v with
    | some bs => some ((x, v) :: bs)
    | none => none
  | _, _ => none
/-- Patterns against values, one to one. -/
def matchAll : Pats → List Val → Option (List (Nat × Val))
  | .nil, [] => some []
  | .cons p ps, v :: vs =>
    match matches? p v, matchAll ps vs with
    | some a, some b => some (a ++ b)
    | _, _ => none
  | _, _ => none
end

def St.bindAll (s : St) : List (Nat × Val) → St
  | [] => s
  | (x, v) :: bs => (s.set x v).bindAll bs

/-- What a failed match leaves. -/
abbrev Fail := Pat → Val → St → St

/-- A failed match changes captured names at most. -/
def FailOk (J : Fail) : Prop :=
  ∀ p v s, (∀ x, x ∉ p.caps → (J p v s).vars x = s.vars x) ∧
    (J p v s).tups = s.tups ∧ (J p v s).out = s.out

/-- A loop: `norm` when its condition is false, `brk` when left by `break`. -/
def loopS (c : St → Bool × St) (body : St → St × Out) : Nat → St → St × Out
  | 0, s => (s, .fuel)
  | n + 1, s =>
    if (c s).1 then
      match body (c s).2 with
      | (s, .norm) | (s, .cont) => loopS c body n s
      | r => r
    else ((c s).2, .norm)

/-- A loop over given items. -/
def itemsS (x : Nat) (body : St → St × Out) : List Val → St → St × Out
  | [], s => (s, .norm)
  | v :: vs, s =>
    match body (s.set x v) with
    | (s, .norm) | (s, .cont) => itemsS x body vs s
    | r => r

/-- The components of the tuple and the state after it has been computed. -/
def TIter.eval (n : Nat) : TIter → St → List Val × St
  | .var y, s => ((List.range n).map (s.tups y), s)
  | .expr e, s => ((List.range n).map (e s).1, (e s).2)

mutual
def runS (J : Fail) (n : Nat) : Src → St → St × Out
  | .skip, s => (s, .norm)
  | .act f, s => ((f s).1, if (f s).2 then .leave else .norm)
  | .seq a b, s =>
    match runS J n a s with
    | (s, .norm) => runS J n b s
    | r => r
  | .ite c a b, s => if (c s).1 then runS J n a (c s).2 else runS J n b (c s).2
  | .loop c body, s =>
    match loopS c (runS J n body) n s with
    | (s, .brk) => (s, .norm)
    | r => r
  | .loopElse c body els, s =>
    match loopS c (runS J n body) n s with
    | (s, .norm) => runS J n els s
    | (s, .brk) => (s, .norm)
    | r => r
  | .tfor m it x body, s =>
    match itemsS x (runS J n body) (it.eval m s).1 (it.eval m s).2 with
    | (s, .brk) => (s, .norm)
    | r => r
  | .tforElse m it x body els, s =>
    match itemsS x (runS J n body) (it.eval m s).1 (it.eval m s).2 with
    | (s, .norm) => runS J n els s
    | (s, .brk) => (s, .norm)
    | r => r
  | .mtch e cs, s => runCases J n cs (e s).1 (e s).2
  | .brk, s => (s, .brk)
  | .cont, s => (s, .cont)
/-- The first case whose pattern matches and whose guard holds. -/
def runCases (J : Fail) (n : Nat) : Cases → Val → St → St × Out
  | .nil, _, s => (s, .norm)
  | .cons p g body rest, v, s =>
    match matches? p v with
    | none => runCases J n rest v (J p v s)
    | some bs =>
      match g with
      | none => runS J n body (s.bindAll bs)
      | some g =>
        if (g (s.bindAll bs)).1 then runS J n body (g (s.bindAll bs)).2
        else runCases J n rest v (g (s.bindAll bs)).2
end

/-! ## The statements for which the lowering is faithful -/

mutual
/-- The alternatives of a pattern bind the same names (a rule of Python). -/
def Pat.even : Pat → Prop
  | .int _ | .bool _ | .str _ | .range _ _ | .wild | .var _ => True
  | .tup ps | .lst ps => ps.even
  | .lstE ps qs => ps.even ∧ qs.even
  | .alt p q => p.even ∧ q.even ∧ ∀ x, x ∈ p.caps ↔ x ∈ q.caps
  | .bind _ p => p.even
def Pats.even : Pats → Prop
  | .nil => True
  | .cons p ps => p.even ∧ ps.even
end

mutual
/-- A pattern without alternatives. -/
def Pat.single : Pat → Prop
  | .int _ | .bool _ | .str _ | .range _ _ | .wild | .var _ => True
  | .tup ps | .lst ps => ps.single
  | .lstE ps qs => ps.single ∧ qs.single
  | .alt _ _ => False
  | .bind _ p => p.single
def Pats.single : Pats → Prop
  | .nil => True
  | .cons p ps => p.single ∧ ps.single
end

/-- A guard may follow a pattern without alternatives; or one that captures nothing,
if the guard has no effects. -/
def GuardOk (p : Pat) : Guard → Prop
  | none => True
  | some g => p.single ∨ (p.caps = [] ∧ ∀ s, (g s).2 = s)

mutual
/-- The statement never assigns the tuple variable `y`. -/
def Keeps (y : Nat) : Src → Prop
  | .skip | .brk | .cont => True
  | .act f => ∀ s, (f s).1.tups y = s.tups y
  | .seq a b => Keeps y a ∧ Keeps y b
  | .ite c a b => (∀ s, (c s).2.tups y = s.tups y) ∧ Keeps y a ∧ Keeps y b
  | .loop c a => (∀ s, (c s).2.tups y = s.tups y) ∧ Keeps y a
  | .loopElse c a b => (∀ s, (c s).2.tups y = s.tups y) ∧ Keeps y a ∧ Keeps y b
  | .tfor _ it _ a => (∀ n s, (it.eval n s).2.tups y = s.tups y) ∧ Keeps y a
  | .tforElse _ it _ a b =>
    (∀ n s, (it.eval n s).2.tups y = s.tups y) ∧ Keeps y a ∧ Keeps y b
  | .mtch e cs => (∀ s, (e s).2.tups y = s.tups y) ∧ KeepsC y cs
def KeepsC (y : Nat) : Cases → Prop
  | .nil => True
  | .cons _ g body rest =>
    (∀ f, g = some f → ∀ s, (f s).2.tups y = s.tups y) ∧ Keeps y body ∧ KeepsC y rest
end

/-- A tuple that is iterated by name is not assigned in the loop. -/
def IterOk (body : Src) : TIter → Prop
  | .var y => Keeps y body
  | .expr _ => True

mutual
/-- `Good b c he s`: in `s`, a `break` that concerns the loop around `s` occurs only
if `b`, a `continue` only if `c`; `he`: that loop has an `else`.

* no `break` and no `continue` in a `case` that concern a loop around the `match`;
* no `break` in the `else` of a loop that concerns a loop with an `else` of its own;
* no `else` on a loop over a tuple;
* patterns, guards and tuples as above. -/
def Good (b c he : Bool) : Src → Prop
  | .skip | .act _ => True
  | .seq x y => Good b c he x ∧ Good b c he y
  | .ite _ x y => Good b c he x ∧ Good b c he y
  | .loop _ x => Good true true false x
  | .loopElse _ x y => Good true true true x ∧ Good (b && !he) c false y
  | .tfor _ it _ x => Good true true false x ∧ IterOk x it
  | .tforElse _ _ _ _ _ => False
  | .mtch _ cs => GoodC cs
  | .brk => b = true
  | .cont => c = true
def GoodC : Cases → Prop
  | .nil => True
  | .cons p g body rest => p.even ∧ GuardOk p g ∧ Good false false false body ∧ GoodC rest
end

end Verif.Ctl
