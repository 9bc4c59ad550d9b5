import Verif.Assign.Model
/-!
# Assignment statements in Python

From the language reference, sections 6.16 (evaluation order), 7.2 (assignment statements) and 7.2.1 (augmented assignment): the right side is evaluated first, then the
targets from left to right, each of their subexpressions once; an augmented assignment evaluates its target once, and stores the result of the operation.
-/
namespace Codon.Assign
open Codon.Operator
variable {σ ε V : Type}

/-- Evaluating an expression as written (no temporary variables of the compiler). -/
def pyEx (m : Mem σ ε V) : Ex σ ε V → M σ ε V
  | .opnd run => run
  | .name x => fun s => some (s, .ok (m.var x s))
  | .tmp _ => fun s => some (s, .error .unassigned)
  | .item o i => andThen (pyEx m o) fun x => andThen (pyEx m i) fun y => m.getItem x y
  | .attr o k => andThen (pyEx m o) fun x => m.getAttr x k
  | .inpl op useI l r => andThen (pyEx m l) fun x => andThen (pyEx m r) fun y => if useI then m.iop op x y else m.bin op x y

/-- An expression as written. -/
def Ex.written : Ex σ ε V → Prop
  | .opnd _ => True
  | .name _ => True
  | .tmp _ => False
  | .item o i => o.written ∧ i.written
  | .attr o _ => o.written
  | .inpl _ _ l r => l.written ∧ r.written

/-- A target as written. -/
def Target.written : Target σ ε V → Prop
  | .name _ => True
  | .item o i => o.written ∧ i.written
  | .attr o _ => o.written

/-- Storing a value in a target. -/
def pyStore (m : Mem σ ε V) (t : Target σ ε V) (v : V) : M σ ε Unit :=
  match t with
  | .name x => fun s => some (m.setVar x v s, .ok ())
  | .item o i => andThen (pyEx m o) fun x => andThen (pyEx m i) fun y => m.setItem x y v
  | .attr o k => andThen (pyEx m o) fun x => m.setAttr x k v

/-- Storing a value in several targets, from left to right. -/
def pyStores (m : Mem σ ε V) (v : V) : List (Target σ ε V) → M σ ε Unit
  | [] => ret ()
  | t :: ts => andThen (pyStore m t v) fun _ => pyStores m v ts

/-- `t₁ = t₂ = … = e`. -/
def pyAssign (m : Mem σ ε V) (ts : List (Target σ ε V)) (e : Ex σ ε V) : M σ ε Unit :=
  andThen (pyEx m e) fun v => pyStores m v ts

/-- `t op= e`. -/
def pyAug (m : Mem σ ε V) (t : Target σ ε V) (op : Nat) (useI : Bool) (e : Ex σ ε V) : M σ ε Unit :=
  let f := fun x y => if useI then m.iop op x y else m.bin op x y
  match t with
  | .name n => andThen (pyEx m (.name n)) fun x => andThen (pyEx m e) fun y => andThen (f x y) fun z => pyStore m (.name n) z
  | .item o i => andThen (pyEx m o) fun a => andThen (pyEx m i) fun b => andThen (m.getItem a b) fun x => andThen (pyEx m e) fun y =>
      andThen (f x y) fun z => m.setItem a b z
  | .attr o k => andThen (pyEx m o) fun a => andThen (m.getAttr a k) fun x => andThen (pyEx m e) fun y =>
      andThen (f x y) fun z => m.setAttr a k z

/-- An expression that changes nothing and raises nothing (it may read the state). -/
def Reads (m : Mem σ ε V) (e : Ex σ ε V) : Prop := ∃ f : σ → V, pyEx m e = fun s => some (s, .ok (f s))

/-- An expression that does not even depend on the state. -/
def Const (m : Mem σ ε V) (e : Ex σ ε V) : Prop := ∃ v, pyEx m e = ret v

/-- Variables are independent cells. -/
structure Mem.Lawful (m : Mem σ ε V) : Prop where
  var_set : ∀ x v s, m.var x (m.setVar x v s) = v
  set_var : ∀ x s, m.setVar x (m.var x s) s = s
  set_comm : ∀ x y v w s, x ≠ y → m.setVar x v (m.setVar y w s) = m.setVar y w (m.setVar x v s)
  set_set : ∀ x v w s, m.setVar x v (m.setVar x w s) = m.setVar x v s

/-! ## Unpacking -/

/-- The values of the patterns, when the number of items fits: a starred pattern gets the list of those left over. -/
def distribute (q : Seqs σ ε V) : Pats σ ε V → List V → Option (List V)
  | .nil, [] => some []
  | .nil, _ :: _ => none
  | .cons false _ _, [] => none
  | .cons false _ ps, x :: l => (distribute q ps l).map (x :: ·)
  | .cons true _ ps, l =>
    if ps.size ≤ l.length then some (q.ofList (l.take (l.length - ps.size)) :: l.drop (l.length - ps.size)) else none

mutual
/-- Assigning a value to a pattern: all items are taken out and counted, then stored from left to right. -/
def pyUnpack (q : Seqs σ ε V) : Pat σ ε V → V → M σ ε Unit
  | .tgt store, v => store v
  | .seq ps, v => fun s =>
    match q.items v s with
    | none => some (s, .error (.exc q.typeError))
    | some l =>
      match distribute q ps l with
      | none => some (s, .error (.exc q.valueError))
      | some vals => pyUnpackAll q ps vals s
/-- Assigning values to patterns, from left to right. -/
def pyUnpackAll (q : Seqs σ ε V) : Pats σ ε V → List V → M σ ε Unit
  | .cons _ p ps, x :: xs => andThen (pyUnpack q p x) fun _ => pyUnpackAll q ps xs
  | _, _ => ret ()
end

/-- Evaluating the right side as written. -/
def pyRhs (r : Rhs σ ε V) : M σ ε V :=
  match r with
  | .id read => fun s => some (s, .ok (read s))
  | .expr run => run
  | _ => fun s => some (s, .error .unassigned)

/-- Some pattern is starred. -/
def Pats.hasStar : Pats σ ε V → Bool
  | .nil => false
  | .cons star _ ps => star || ps.hasStar

mutual
/-- The numbers of items fit, in a state `s`, and no tuple is split by a starred pattern. -/
def Fits (q : Seqs σ ε V) (s : σ) : Pat σ ε V → V → Prop
  | .tgt _, _ => True
  | .seq ps, v => ∃ l vals, q.items v s = some l ∧ distribute q ps l = some vals ∧ (ps.hasStar = true → q.isTuple v = false) ∧ FitsAll q s ps vals
/-- The same for several patterns and their values. -/
def FitsAll (q : Seqs σ ε V) (s : σ) : Pats σ ε V → List V → Prop
  | .cons _ p ps, x :: xs => Fits q s p x ∧ FitsAll q s ps xs
  | _, _ => True
end

/-- Two states with the same sequences and the same value of the right-hand variable. -/
def Same (q : Seqs σ ε V) (read : σ → V) (s s' : σ) : Prop := (∀ w, q.items w s' = q.items w s) ∧ read s' = read s

mutual
/-- Storing in the targets neither changes a sequence nor the variable on the right side. -/
def Pat.Keeps (q : Seqs σ ε V) (read : σ → V) : Pat σ ε V → Prop
  | .tgt store => ∀ v s s' r, store v s = some (s', r) → Same q read s s'
  | .seq ps => ps.Keeps q read
/-- The same for several patterns. -/
def Pats.Keeps (q : Seqs σ ε V) (read : σ → V) : Pats σ ε V → Prop
  | .nil => True
  | .cons _ p ps => p.Keeps q read ∧ ps.Keeps q read
end

mutual
/-- At most one starred pattern at every level. -/
def Pat.oneStar : Pat σ ε V → Bool
  | .tgt _ => true
  | .seq ps => ps.oneStar
/-- The same for the patterns of a tuple or list. -/
def Pats.oneStar : Pats σ ε V → Bool
  | .nil => true
  | .cons star p ps => p.oneStar && ps.oneStar && !(star && ps.hasStar)
end

end Codon.Assign
