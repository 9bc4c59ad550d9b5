import Verif.Canon.Lemmas
/-!
# C03: canonicalisation of `int` expressions preserves the value; C55: comparisons of classes
-/
namespace Codon.Canon
open Codon.Arith Codon.Fold

/-- **C03**: whatever is canonicalised in an expression, with any hashes and any order of the rules, the expression leaves the same state
and has the same result; where the original has undefined behaviour or does not return, so does the new one. -/
theorem c03_canonicalise {S : Type} {py : Bool} {ρ : Ext S} {E : Env} (hρ : Respects ρ E.isPure) {rs : List Rule} {e e' : Exp}
    (h : Canonicalises py E rs e e') (s : S) : Agree (eval py ρ e s) (eval py ρ e' s) := canonicalises_agree hρ h s

/-- The value is returned by the one iff by the other. -/
theorem c03_value {S : Type} {py : Bool} {ρ : Ext S} {E : Env} (hρ : Respects ρ E.isPure) {rs : List Rule} {e e' : Exp}
    (h : Canonicalises py E rs e e') (s s' : S) (v : I64) : eval py ρ e s = (s', .ret v) ↔ eval py ρ e' s = (s', .ret v) := by
  obtain ⟨h1, h2⟩ := canonicalises_agree hρ h s
  generalize eval py ρ e s = p at *
  generalize eval py ρ e' s = q at *
  rcases p with ⟨a, ra⟩
  rcases q with ⟨b, rb⟩
  simp only at h1 h2
  subst h1
  rcases h2 with h2 | ⟨h2, h3⟩
  · subst h2; rfl
  · cases ra <;> simp [Res.stuck] at h2 <;> cases rb <;> simp [Res.stuck] at h3 <;> simp

theorem cmp_swap {py : Bool} (o : Cmp) (a b : I64) : runBin py o.swap.toBin b a = runBin py o.toBin a b := by
  cases o <;> simp [Cmp.swap, Cmp.toBin, runBin]
  · exact eq_comm
  · show (!(b == a)) = !(a == b)
    rw [BEq.comm]

/-- **C03**: a comparison of pure `int` expressions with its sides swapped has the same value. -/
theorem c03_inequality {S : Type} {py : Bool} {ρ : Ext S} {E : Env} (hρ : Respects ρ E.isPure) {e e' : CmpExp}
    (hl : pureExp py E e.lhs = true) (hr : pureExp py E e.rhs = true) (h : inequality E.hash e = some e') (s : S) :
    evalCmp py ρ e' s = evalCmp py ρ e s := by
  unfold inequality at h
  split at h
  · split at h
    · cases h
    · cases h
      obtain ⟨h1, h2⟩ := pure_eval hρ e.lhs hl s
      obtain ⟨k1, k2⟩ := pure_eval hρ e.rhs hr s
      unfold evalCmp
      dsimp only
      rcases hx : eval py ρ e.lhs s with ⟨s', ra⟩
      rcases hy : eval py ρ e.rhs s with ⟨s'', rb⟩
      rw [hx] at h1 h2
      rw [hy] at k1 k2
      simp only at h1 k1
      subst h1
      subst k1
      cases ra <;> simp [Res.stuck] at h2 <;> cases rb <;> simp [Res.stuck] at k2 <;> simp [hx, hy, cmp_swap]
  · cases h

/-- What a comparison of two literals means. -/
theorem cmp_literals {S : Type} (py : Bool) (ρ : Ext S) (a b : I64) (s : S) :
    evalCmp py ρ ⟨.lt, .lit a, .lit b⟩ s = (s, some (decide (a.toInt < b.toInt))) ∧
    evalCmp py ρ ⟨.ge, .lit a, .lit b⟩ s = (s, some (decide (b.toInt ≤ a.toInt))) := by
  constructor <;> simp [evalCmp, eval, runBin, Cmp.toBin, BitVec.slt, BitVec.sle]

/-- **C03**: flattening nested series of statements keeps what is executed, in order, also when it is left early. -/
theorem c03_series {S : Type} (ρ : Nat → S → S × Bool) {n n' : Node} (h : Flattens n n') (s : S) : n'.exec ρ s = n.exec ρ s :=
  flattens_exec ρ h s

/-! ### C55 -/

/-- **C55** (part): if every pair of opposite methods of the class agrees, comparisons keep their results. -/
theorem c55_mirrored_partial {α : Type} (m : Methods α) (hm : ∀ o x y, m.run o.swap y x = m.run o x y) (swapped : Bool) :
    Faithful m (inequalityOn m swapped) := by
  intro o x y
  unfold inequalityOn
  split
  · exact hm o x y
  · rfl

/-- Comparisons with the sides in rank order keep the method. -/
theorem c55_in_order_partial {α : Type} (m : Methods α) : Faithful m (inequalityOn m false) := fun _ _ _ => rfl

/-- A class with `__lt__` comparing the first components and `__gt__` the second. -/
def skew : Methods (Int × Int) where
  run o x y := match o with
    | .eq => decide (x = y)
    | .ne => decide (x ≠ y)
    | .lt => decide (x.1 < y.1)
    | .le => decide (x.1 ≤ y.1)
    | .gt => decide (x.2 > y.2)
    | .ge => decide (x.2 ≥ y.2)

/-- The full statement fails: `(0, 5) < (1, 3)` becomes `(1, 3) > (0, 5)`, which is another method with another result. -/
theorem c55_violation_swap : ¬ ∀ (m : Methods (Int × Int)) (swapped : Bool), Faithful m (inequalityOn m swapped) := by
  intro h
  exact absurd (h skew true .lt (0, 5) (1, 3)) (by decide)

/-! ### Examples -/

/-- Insertion by rank. -/
def ins (hash : Exp → Nat) (a : Exp) : List Exp → List Exp
  | [] => [a]
  | b :: bs => if (getRank hash b).lt (getRank hash a) then b :: ins hash a bs else a :: b :: bs

theorem ins_perm (hash : Exp → Nat) (a : Exp) : ∀ xs, (ins hash a xs).Perm (a :: xs)
  | [] => List.Perm.refl _
  | b :: bs => by
    unfold ins
    split
    · exact ((ins_perm hash a bs).cons b).trans (List.Perm.swap a b bs)
    · exact List.Perm.refl _

theorem rank_trans {a b c : Rank} (h : b.lt a = false) (k : c.lt b = false) : c.lt a = false := by
  simp only [Rank.lt, Bool.or_eq_false_iff, Bool.and_eq_false_iff, decide_eq_false_iff_not] at *
  omega

theorem rank_asymm {a b : Rank} (h : b.lt a = true) : a.lt b = false := by
  simp only [Rank.lt, Bool.or_eq_false_iff, Bool.and_eq_false_iff, decide_eq_false_iff_not, Bool.or_eq_true, Bool.and_eq_true,
    decide_eq_true_eq] at *
  omega

theorem ins_ascending (hash : Exp → Nat) (a : Exp) : ∀ xs : List Exp, xs.Pairwise (fun a b => (getRank hash b).lt (getRank hash a) = false) →
    (ins hash a xs).Pairwise (fun a b => (getRank hash b).lt (getRank hash a) = false)
  | [], _ => List.pairwise_singleton _ _
  | b :: bs, h => by
    rw [List.pairwise_cons] at h
    unfold ins
    split
    · rename_i hb
      rw [List.pairwise_cons]
      refine ⟨fun x hx => ?_, ins_ascending hash a bs h.2⟩
      rcases List.mem_cons.mp ((ins_perm hash a bs).mem_iff.mp hx) with rfl | hx
      · exact rank_asymm hb
      · exact h.1 x hx
    · rename_i hb
      rw [List.pairwise_cons]
      refine ⟨fun x hx => ?_, List.pairwise_cons.mpr h⟩
      rcases List.mem_cons.mp hx with rfl | hx
      · simpa using hb
      · exact rank_trans (by simpa using hb) (h.1 x hx)

def isort (hash : Exp → Nat) : List Exp → List Exp
  | [] => []
  | a :: as => ins hash a (isort hash as)

theorem isort_sorts (hash : Exp → Nat) : Sorts hash (isort hash) where
  perm := by
    intro xs
    induction xs with
    | nil => exact List.Perm.refl _
    | cons a as ih => exact (ins_perm hash a _).trans (ih.cons a)
  ascending := by
    intro xs
    induction xs with
    | nil => exact List.Pairwise.nil
    | cons a as ih => exact ins_ascending hash a _ ih

def demoHash : Exp → Nat
  | .ext i => i
  | _ => 0

/-- Variables 0, 1, 2 and a pure call 3. -/
def demo : Env := ⟨demoHash, isort demoHash, isort_sorts demoHash, fun i => decide (i < 3), fun i => decide (i < 4)⟩

/-- `(5 + x2) + (x1 + x0)` becomes `((x0 + x1) + x2) + 5`. -/
example : rewrite demo [.opChain, .addMul, .constSub] (.bin .add (.bin .add (.lit 5) (.ext 2)) (.bin .add (.ext 1) (.ext 0))) =
    .bin .add (.bin .add (.bin .add (.ext 0) (.ext 1)) (.ext 2)) (.lit 5) := by decide

/-- `x0 * 3 + x0` becomes `(3 + 1) * x0`. -/
example : rewrite demo [.addMul, .constSub] (.bin .add (.bin .mul (.ext 0) (.lit 3)) (.ext 0)) =
    .bin .mul (.bin .add (.lit 3) (.lit 1)) (.ext 0) := by decide

/-- `x0 - 7` becomes `-7 + x0`, or `x0 + -7`. -/
example : rewrite demo [.constSub] (.bin .sub (.ext 0) (.lit 7)) = .bin .add (.ext 0) (.lit (-7)) := by decide

/-- The most negative constant is left alone. -/
example : rewrite demo [.constSub] (.bin .sub (.ext 0) (.lit (BitVec.intMin 64))) = .bin .sub (.ext 0) (.lit (BitVec.intMin 64)) := by decide

example : inequality demoHash ⟨.lt, .lit 3, .ext 0⟩ = some ⟨.gt, .ext 0, .lit 3⟩ := by decide

/-- A valuation that respects the flags: variables hold their index, 3 does not return, 4 changes the state and raises. -/
def demoρ : Ext Nat := fun i s => if i < 3 then (s, .ret (BitVec.ofNat 64 i)) else if i < 4 then (s, .diverges) else (s + 1, .raised 0)

example : Respects demoρ demo.isPure := by
  intro i hi s
  have hi : i < 4 := by simpa [demo] using hi
  unfold demoρ
  by_cases h : i < 3
  · rw [if_pos h]; exact ⟨rfl, Or.inl ⟨_, rfl⟩⟩
  · rw [if_neg h, if_pos hi]; exact ⟨rfl, Or.inr trivial⟩

/-- Something is rewritten below a call with effects. -/
example : Canonicalises false demo [.opChain] (.bin .sub (.bin .add (.ext 1) (.ext 0)) (.ext 4)) (.bin .sub (.bin .add (.ext 0) (.ext 1)) (.ext 4)) :=
  .bin (.here (rs := [.opChain]) (E := demo) (by decide)) (.refl _)

example : (flatten [.flow (.series [.leaf 0, .leaf 1]) (.leaf 2), .series [.leaf 3]]).length = 4 := by decide +kernel

end Codon.Canon
