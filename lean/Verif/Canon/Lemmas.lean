import Verif.Canon.Spec
import Mathlib.Data.List.Perm.Basic
import Mathlib.Tactic.SplitIfs
/-!
Canonicalisation: helper lemmas.
-/
namespace Codon.Canon
open Codon.Arith Codon.Fold

theorem Agree.refl {S : Type} (p : S × Res) : Agree p p := ⟨rfl, Or.inl rfl⟩

theorem Agree.trans {S : Type} {p q r : S × Res} (h : Agree p q) (k : Agree q r) : Agree p r := by
  refine ⟨h.1.trans k.1, ?_⟩
  rcases h.2 with h2 | ⟨h1, h2⟩ <;> rcases k.2 with k2 | ⟨k1, k2⟩
  · exact Or.inl (h2.trans k2)
  · exact Or.inr ⟨h2 ▸ k1, k2⟩
  · exact Or.inr ⟨h1, k2 ▸ h2⟩
  · exact Or.inr ⟨h1, k2⟩

/-- The value of an expression, if any. -/
def den {S : Type} (py : Bool) (ρ : Ext S) (e : Exp) (s : S) : Option I64 :=
  match (eval py ρ e s).2 with
  | .ret v => some v
  | _ => none

def opv (py : Bool) (o : Op) (a b : I64) : Option I64 :=
  match runBin py o.toBin a b with
  | .val (.int v) => some v
  | _ => none

theorem opv_res {py : Bool} {o : Op} (ho : (decide (o ≠ .floordiv ∧ o ≠ .mod) || !py) = true) (a b : I64) :
    (∃ v, ofOut (runBin py o.toBin a b) = .ret v ∧ opv py o a b = some v) ∨
      (Res.stuck (ofOut (runBin py o.toBin a b)) ∧ opv py o a b = none) := by
  unfold opv
  cases o <;> cases py <;> simp only [Op.toBin, runBin, Run.floordiv, Run.mod, Run.shl, Run.shr, Run.sdiv, Run.srem, if_false, if_true,
    Bool.false_eq_true] at ho ⊢ <;> first
    | exact Or.inl ⟨_, rfl, rfl⟩
    | (split_ifs
       · exact Or.inr ⟨trivial, rfl⟩
       · exact Or.inl ⟨_, rfl, rfl⟩)
    | (split_ifs
       · exact Or.inl ⟨_, rfl, rfl⟩
       · exact Or.inr ⟨trivial, rfl⟩)
    | (exact absurd ho (by decide))

theorem pure_eval {S : Type} {py : Bool} {ρ : Ext S} {E : Env} (hρ : Respects ρ E.isPure) : ∀ (e : Exp), pureExp py E e = true → ∀ s,
    (eval py ρ e s).1 = s ∧ ((∃ v, (eval py ρ e s).2 = .ret v ∧ den py ρ e s = some v) ∨
      (Res.stuck (eval py ρ e s).2 ∧ den py ρ e s = none))
  | .lit c, _, s => ⟨rfl, Or.inl ⟨c, rfl, rfl⟩⟩
  | .ext i, h, s => by
    obtain ⟨h1, h2⟩ := hρ i h s
    refine ⟨h1, ?_⟩
    rcases h2 with ⟨v, hv⟩ | hs
    · exact Or.inl ⟨v, hv, by simp [den, eval, hv]⟩
    · refine Or.inr ⟨hs, ?_⟩
      show (match (ρ i s).2 with | .ret v => some v | _ => none) = none
      revert hs
      cases (ρ i s).2 <;> simp [Res.stuck]
  | .un u e, h, s => by
    obtain ⟨h1, h2⟩ := pure_eval hρ e h s
    rcases hx : eval py ρ e s with ⟨s', r⟩
    rw [hx] at h1 h2
    rcases h2 with ⟨v, hv, _⟩ | ⟨hs, _⟩
    · simp only at h1 hv
      subst h1 hv
      simp [eval, hx, den]
    · simp only at h1 hs
      subst h1
      cases r <;> simp [Res.stuck] at hs <;> simp [eval, hx, den, Res.stuck]
  | .bin o l r, h, s => by
    simp only [pureExp, Bool.and_eq_true] at h
    obtain ⟨⟨ho, hl⟩, hr⟩ := h
    obtain ⟨h1, h2⟩ := pure_eval hρ l hl s
    obtain ⟨k1, k2⟩ := pure_eval hρ r hr s
    rcases hx : eval py ρ l s with ⟨s', ra⟩
    rcases hy : eval py ρ r s with ⟨s'', rb⟩
    rw [hx] at h1 h2
    rw [hy] at k1 k2
    simp only at h1 k1
    rw [h1] at hx
    rw [k1] at hy
    rcases h2 with ⟨v, hv, _⟩ | ⟨hs, _⟩
    · simp only at hv
      rw [hv] at hx
      rcases k2 with ⟨w, hw, _⟩ | ⟨ks, _⟩
      · simp only at hw
        rw [hw] at hy
        rcases opv_res ho v w with ⟨x, hx', _⟩ | ⟨hx', _⟩
        · simp [eval, hx, hy, den, hx']
        · revert hx'
          simp only [eval, hx, hy, den]
          cases ofOut (runBin py o.toBin v w) <;> simp [Res.stuck]
      · simp only at ks
        cases rb <;> simp [Res.stuck] at ks <;> simp [eval, hx, hy, den, Res.stuck]
    · simp only at hs
      cases ra <;> simp [Res.stuck] at hs <;> simp [eval, hx, den, Res.stuck]

theorem den_bin {S : Type} {py : Bool} {ρ : Ext S} {E : Env} (hρ : Respects ρ E.isPure) {o : Op} {l r : Exp}
    (h : pureExp py E (.bin o l r) = true) (s : S) :
    den py ρ (.bin o l r) s = (den py ρ l s).bind (fun a => (den py ρ r s).bind (opv py o a)) := by
  simp only [pureExp, Bool.and_eq_true] at h
  obtain ⟨⟨ho, hl⟩, hr⟩ := h
  obtain ⟨h1, h2⟩ := pure_eval hρ l hl s
  obtain ⟨k1, k2⟩ := pure_eval hρ r hr s
  rcases hx : eval py ρ l s with ⟨s', ra⟩
  rcases hy : eval py ρ r s with ⟨s'', rb⟩
  rw [hx] at h1 h2
  rw [hy] at k1 k2
  simp only at h1 k1
  rw [h1] at hx
  rw [k1] at hy
  rcases h2 with ⟨v, hv, hd⟩ | ⟨hs, hd⟩
  · simp only at hv
    rw [hv] at hx
    rcases k2 with ⟨w, hw, kd⟩ | ⟨ks, kd⟩
    · simp only at hw
      rw [hw] at hy
      rw [hd, kd]
      rcases opv_res ho v w with ⟨x, hx', hx2⟩ | ⟨hx', hx2⟩
      · simp [eval, hx, hy, den, hx', hx2]
      · revert hx'
        simp only [eval, hx, hy, den, Option.bind_some, hx2]
        cases ofOut (runBin py o.toBin v w) <;> simp [Res.stuck]
    · rw [hd, kd]
      simp only at ks
      cases rb <;> simp [Res.stuck] at ks <;> simp [eval, hx, hy, den]
  · rw [hd]
    simp only at hs
    cases ra <;> simp [Res.stuck] at hs <;> simp [eval, hx, den]

/-- Pure expressions with the same value agree. -/
theorem agree_of_den {S : Type} {py : Bool} {ρ : Ext S} {E : Env} (hρ : Respects ρ E.isPure) {e e' : Exp} (h : pureExp py E e = true)
    (h' : pureExp py E e' = true) (s : S) (hd : den py ρ e s = den py ρ e' s) : Agree (eval py ρ e s) (eval py ρ e' s) := by
  obtain ⟨h1, h2⟩ := pure_eval hρ e h s
  obtain ⟨k1, k2⟩ := pure_eval hρ e' h' s
  refine ⟨h1.trans k1.symm, ?_⟩
  rcases h2 with ⟨v, hv, hd1⟩ | ⟨hs, hd1⟩ <;> rcases k2 with ⟨w, hw, kd⟩ | ⟨ks, kd⟩
  · rw [hd1, kd] at hd
    rw [hv, hw, Option.some.inj hd]
    exact Or.inl rfl
  · rw [hd1, kd] at hd
    cases hd
  · rw [hd1, kd] at hd
    cases hd
  · exact Or.inr ⟨hs, ks⟩

/-! ### Chains -/

/-- The operation of an associative operator. -/
def g : Op → I64 → I64 → I64
  | .add, a, b => a + b
  | .mul, a, b => a * b
  | .and, a, b => a &&& b
  | .or, a, b => a ||| b
  | .xor, a, b => a ^^^ b
  | _, a, _ => a

def unit : Op → I64
  | .mul => 1
  | .and => -1
  | _ => 0

theorem opv_g {py : Bool} {o : Op} (h : isAssociative o = true) (a b : I64) : opv py o a b = some (g o a b) := by
  cases o <;> simp [isAssociative] at h <;> rfl

theorem g_comm {o : Op} (h : isAssociative o = true) (a b : I64) : g o a b = g o b a := by
  cases o <;> simp [isAssociative] at h <;> simp [g, BitVec.add_comm, BitVec.mul_comm, BitVec.and_comm, BitVec.or_comm, BitVec.xor_comm]

theorem g_assoc {o : Op} (h : isAssociative o = true) (a b c : I64) : g o (g o a b) c = g o a (g o b c) := by
  cases o <;> simp [isAssociative] at h <;> simp [g, BitVec.add_assoc, BitVec.mul_assoc, BitVec.and_assoc, BitVec.or_assoc, BitVec.xor_assoc]

theorem g_unit {o : Op} (h : isAssociative o = true) (a : I64) : g o (unit o) a = a := by
  have : (-1 : I64) = BitVec.allOnes 64 := by decide
  cases o <;> simp [isAssociative] at h <;> simp only [g, unit]
  · exact BitVec.zero_add a
  · exact BitVec.one_mul a
  · exact BitVec.zero_xor
  · exact BitVec.zero_or
  · rw [this]; exact BitVec.allOnes_and

/-- The operation on values that may be missing. -/
def L (o : Op) (x y : Option I64) : Option I64 := x.bind fun a => y.bind fun b => some (g o a b)

theorem L_comm {o : Op} (h : isAssociative o = true) (x y : Option I64) : L o x y = L o y x := by
  cases x <;> cases y <;> simp [L, g_comm h]

theorem L_assoc {o : Op} (h : isAssociative o = true) (x y z : Option I64) : L o (L o x y) z = L o x (L o y z) := by
  cases x <;> cases y <;> cases z <;> simp [L, g_assoc h]

theorem L_unit {o : Op} (h : isAssociative o = true) (x : Option I64) : L o (some (unit o)) x = x := by
  cases x <;> simp [L, g_unit h]

/-- The value of a list of operands. -/
def V (o : Op) (xs : List (Option I64)) : Option I64 := xs.foldl (L o) (some (unit o))

theorem V_from {o : Op} (h : isAssociative o = true) : ∀ (xs : List (Option I64)) (x : Option I64), xs.foldl (L o) x = L o x (V o xs)
  | [], x => by rw [L_comm h]; exact (L_unit h x).symm
  | y :: ys, x => by
    rw [V, List.foldl_cons, List.foldl_cons, V_from h ys, V_from h ys, L_assoc h, L_unit h]

theorem V_append {o : Op} (h : isAssociative o = true) (xs ys : List (Option I64)) : V o (xs ++ ys) = L o (V o xs) (V o ys) := by
  rw [V, List.foldl_append, V_from h ys]
  rfl

theorem V_perm {o : Op} (h : isAssociative o = true) {xs ys : List (Option I64)} (p : xs.Perm ys) : V o xs = V o ys := by
  have : RightCommutative (L o) := ⟨fun a b c => by rw [L_assoc h, L_comm h b c, ← L_assoc h]⟩
  exact p.foldl_eq _

theorem den_assoc {S : Type} {py : Bool} {ρ : Ext S} {E : Env} (hρ : Respects ρ E.isPure) {o : Op} (ha : isAssociative o = true) {l r : Exp}
    (h : pureExp py E (.bin o l r) = true) (s : S) : den py ρ (.bin o l r) s = L o (den py ρ l s) (den py ρ r s) := by
  rw [den_bin hρ h]
  cases den py ρ l s <;> cases den py ρ r s <;> simp [L, opv_g ha]

theorem chain_pure {py : Bool} {E : Env} {o : Op} : ∀ (e : Exp), pureExp py E e = true → ∀ x ∈ chain o e, pureExp py E x = true
  | .lit c, h, x, hx => by simp only [chain, List.mem_singleton] at hx; subst hx; exact h
  | .ext i, h, x, hx => by simp only [chain, List.mem_singleton] at hx; subst hx; exact h
  | .un u e, h, x, hx => by simp only [chain, List.mem_singleton] at hx; subst hx; exact h
  | .bin o' l r, h, x, hx => by
    by_cases ho : o' = o
    · simp only [chain, if_pos ho, List.mem_append] at hx
      simp only [pureExp, Bool.and_eq_true] at h
      rcases hx with hx | hx
      · exact chain_pure l h.1.2 x hx
      · exact chain_pure r h.2 x hx
    · simp only [chain, if_neg ho, List.mem_singleton] at hx
      subst hx
      exact h

theorem V_single {o : Op} (h : isAssociative o = true) (x : Option I64) : V o [x] = x := by
  show L o (some (unit o)) x = x
  exact L_unit h x

theorem chain_den {S : Type} {py : Bool} {ρ : Ext S} {E : Env} (hρ : Respects ρ E.isPure) {o : Op} (ha : isAssociative o = true) (s : S) :
    ∀ (e : Exp), pureExp py E e = true → V o ((chain o e).map (den py ρ · s)) = den py ρ e s
  | .lit c, _ => V_single ha _
  | .ext i, _ => V_single ha _
  | .un u e, _ => V_single ha _
  | .bin o' l r, h => by
    by_cases ho : o' = o
    · subst ho
      rw [den_assoc hρ ha h]
      simp only [pureExp, Bool.and_eq_true] at h
      simp only [chain, if_true, List.map_append]
      rw [V_append ha, chain_den hρ ha s l h.1.2, chain_den hρ ha s r h.2]
    · simp only [chain, if_neg ho]
      exact V_single ha _

theorem pureOp_of_assoc {py : Bool} {o : Op} (h : isAssociative o = true) : (decide (o ≠ .floordiv ∧ o ≠ .mod) || !py) = true := by
  cases o <;> simp [isAssociative] at h <;> simp

theorem rebuild_go {S : Type} {py : Bool} {ρ : Ext S} {E : Env} (hρ : Respects ρ E.isPure) {o : Op} (ha : isAssociative o = true) (s : S) :
    ∀ (xs : List Exp) (a : Exp), pureExp py E a = true → (∀ x ∈ xs, pureExp py E x = true) →
      pureExp py E (xs.foldl (fun acc e => .bin o acc e) a) = true ∧
      den py ρ (xs.foldl (fun acc e => .bin o acc e) a) s = (xs.map (den py ρ · s)).foldl (L o) (den py ρ a s)
  | [], a, h, _ => ⟨h, rfl⟩
  | x :: xs, a, h, hx => by
    have hp : pureExp py E (.bin o a x) = true := by
      simp only [pureExp, Bool.and_eq_true]
      exact ⟨⟨pureOp_of_assoc ha, h⟩, hx x (List.mem_cons_self ..)⟩
    obtain ⟨h1, h2⟩ := rebuild_go hρ ha s xs (.bin o a x) hp (fun y hy => hx y (List.mem_cons_of_mem _ hy))
    refine ⟨h1, ?_⟩
    rw [List.foldl_cons, h2, List.map_cons, List.foldl_cons, den_assoc hρ ha hp]

theorem rebuild_den {S : Type} {py : Bool} {ρ : Ext S} {E : Env} (hρ : Respects ρ E.isPure) {o : Op} (ha : isAssociative o = true) (s : S)
    {xs : List Exp} {e : Exp} (hx : ∀ x ∈ xs, pureExp py E x = true) (h : rebuild o xs = some e) :
    pureExp py E e = true ∧ den py ρ e s = V o (xs.map (den py ρ · s)) := by
  match xs, hx, h with
  | a :: b :: rest, hx, h =>
    simp only [rebuild, Option.some.injEq] at h
    subst h
    obtain ⟨h1, h2⟩ := rebuild_go hρ ha s (b :: rest) a (hx a (List.mem_cons_self ..)) (fun y hy => hx y (List.mem_cons_of_mem _ hy))
    refine ⟨h1, ?_⟩
    rw [List.foldl_cons] at h2
    rw [h2, V]
    simp only [List.map_cons, List.foldl_cons, L_unit ha]

theorem comm_eq_assoc (o : Op) : isCommutative o = isAssociative o := by cases o <;> rfl

theorem opChain_ok {S : Type} {py : Bool} {ρ : Ext S} {E : Env} (hρ : Respects ρ E.isPure) {e e' : Exp} (hp : pureExp py E e = true)
    (h : opChain E.sort e = some e') : pureExp py E e' = true ∧ ∀ s, den py ρ e s = den py ρ e' s := by
  match e, hp, h with
  | .bin o l r, hp, h =>
    simp only [opChain, comm_eq_assoc] at h
    by_cases ha : isAssociative o = true
    · simp only [ha, if_true] at h
      generalize hq : rebuild o (E.sort (chain o (.bin o l r))) = q at h
      match q, hq, h with
      | some x, hq, h =>
        simp only at h
        split_ifs at h
        cases h
        have hm : ∀ x ∈ E.sort (chain o (.bin o l r)), pureExp py E x = true :=
          fun x hx => chain_pure (.bin o l r) hp x ((E.sorts.perm _).mem_iff.mp hx)
        refine ⟨?_, fun s => ?_⟩
        · by_cases hS : Nonempty S
          · exact (rebuild_den hρ ha hS.some hm hq).1
          · exact (rebuild_den (S := Unit) (ρ := fun _ s => (s, .ub)) (fun i _ s => ⟨rfl, Or.inr trivial⟩) ha () hm hq).1
        · rw [(rebuild_den hρ ha s hm hq).2, V_perm ha ((E.sorts.perm _).map _), chain_den hρ ha s _ hp]
    · simp [ha, rebuild] at h

/-! ### The other rules -/

theorem varMatch_eq {isVar : Nat → Bool} {a b : Exp} (h : varMatch isVar a b = true) : a = b := by
  cases a <;> cases b <;> simp_all [varMatch]

theorem factors_ok {S : Type} {py : Bool} {ρ : Ext S} {E : Env} (hρ : Respects ρ E.isPure) {e : Exp} (hp : pureExp py E e = true) :
    pureExp py E (factors e).1 = true ∧ pureExp py E (factors e).2 = true ∧
      ∀ s, den py ρ e s = L .mul (den py ρ (factors e).1 s) (den py ρ (factors e).2 s) := by
  have one : ∀ (e : Exp) s, den py ρ e s = L .mul (den py ρ e s) (den py ρ (.lit 1) s) := fun e s => by
    rw [L_comm rfl]
    exact (L_unit (o := .mul) rfl _).symm
  unfold factors
  split
  · rename_i a b
    have hp' := hp
    simp only [pureExp, Bool.and_eq_true] at hp'
    exact ⟨hp'.1.2, hp'.2, fun s => den_assoc hρ rfl hp s⟩
  · exact ⟨hp, rfl, fun s => one _ s⟩

theorem distrib (x y z : Option I64) : L .add (L .mul x y) (L .mul x z) = L .mul (L .add y z) x := by
  cases x <;> cases y <;> cases z <;> simp [L, g]
  rw [BitVec.mul_comm (_ + _), BitVec.mul_add]

theorem addMulOf_ok {S : Type} {py : Bool} {ρ : Ext S} {E : Env} (hρ : Respects ρ E.isPure) {a b x : Exp} (ha : pureExp py E a = true)
    (hb : pureExp py E b = true) (hx : pureExp py E x = true) : pureExp py E (addMulOf a b x) = true ∧
      ∀ s, den py ρ (addMulOf a b x) s = L .mul (L .add (den py ρ a s) (den py ρ b s)) (den py ρ x s) := by
  have h1 : pureExp py E (.bin .add a b) = true := by simp [pureExp, ha, hb]
  have h2 : pureExp py E (addMulOf a b x) = true := by simp [addMulOf, pureExp, ha, hb, hx]
  refine ⟨h2, fun s => ?_⟩
  rw [addMulOf, den_assoc hρ rfl h2, den_assoc hρ rfl h1]

theorem addMul_ok {S : Type} {py : Bool} {ρ : Ext S} {E : Env} (hρ : Respects ρ E.isPure) {e e' : Exp} (hp : pureExp py E e = true)
    (h : addMul E.isVar e = some e') : pureExp py E e' = true ∧ ∀ s, den py ρ e s = den py ρ e' s := by
  unfold addMul at h
  split at h
  · rename_i l r
    have hp' := hp
    simp only [pureExp, Bool.and_eq_true] at hp'
    obtain ⟨l1, l2, l3⟩ := factors_ok hρ hp'.1.2
    obtain ⟨r1, r2, r3⟩ := factors_ok hρ hp'.2
    have key : ∀ s, den py ρ (.bin .add l r) s = L .add (den py ρ l s) (den py ρ r s) := fun s => den_assoc hρ rfl hp s
    have mc := fun x y => L_comm (o := .mul) rfl x y
    split_ifs at h with c1 c2 c3 c4 <;> cases h
    · obtain ⟨q1, q2⟩ := addMulOf_ok hρ l2 r2 l1
      refine ⟨q1, fun s => ?_⟩
      rw [key, q2, l3, r3, ← varMatch_eq c1, distrib]
    · obtain ⟨q1, q2⟩ := addMulOf_ok hρ l2 r1 l1
      refine ⟨q1, fun s => ?_⟩
      rw [key, q2, l3, r3, ← varMatch_eq c2, mc (den py ρ (factors r).1 s), distrib]
    · obtain ⟨q1, q2⟩ := addMulOf_ok hρ l1 r2 l2
      refine ⟨q1, fun s => ?_⟩
      rw [key, q2, l3, r3, ← varMatch_eq c3, mc (den py ρ (factors l).1 s), distrib]
    · obtain ⟨q1, q2⟩ := addMulOf_ok hρ l1 r1 l2
      refine ⟨q1, fun s => ?_⟩
      rw [key, q2, l3, r3, ← varMatch_eq c4, mc (den py ρ (factors l).1 s), mc (den py ρ (factors r).1 s), distrib]
  · cases h

theorem constSub_ok {S : Type} {py : Bool} {ρ : Ext S} {E : Env} (hρ : Respects ρ E.isPure) {e e' : Exp} (hp : pureExp py E e = true)
    (h : constSub e = some e') : pureExp py E e' = true ∧ ∀ s, den py ρ e s = den py ρ e' s := by
  unfold constSub at h
  split at h
  · rename_i l c
    split_ifs at h
    cases h
    have hp' := hp
    simp only [pureExp, Bool.and_eq_true] at hp'
    have q : pureExp py E (.bin .add l (.lit (-c))) = true := by simp [pureExp, hp'.1.2]
    refine ⟨q, fun s => ?_⟩
    rw [den_bin hρ hp, den_bin hρ q]
    cases den py ρ l s with
    | none => rfl
    | some a =>
      show opv py .sub a c = opv py .add a (-c)
      simp only [opv, Op.toBin, runBin]
      rw [BitVec.sub_eq_add_neg]
  · cases h

theorem rule_ok {S : Type} {py : Bool} {ρ : Ext S} {E : Env} (hρ : Respects ρ E.isPure) {e e' : Exp} (hp : pureExp py E e = true)
    (r : Rule) (h : r.apply E e = some e') : pureExp py E e' = true ∧ ∀ s, den py ρ e s = den py ρ e' s := by
  cases r with
  | opChain => exact opChain_ok hρ hp h
  | addMul => exact addMul_ok hρ hp h
  | constSub => exact constSub_ok hρ hp h

theorem rewrite_ok {S : Type} {py : Bool} {ρ : Ext S} {E : Env} (hρ : Respects ρ E.isPure) : ∀ (rs : List Rule) {e : Exp},
    pureExp py E e = true → pureExp py E (rewrite E rs e) = true ∧ ∀ s, den py ρ e s = den py ρ (rewrite E rs e) s
  | [], _, hp => ⟨hp, fun _ => rfl⟩
  | r :: rs, e, hp => by
    cases hr : r.apply E e with
    | none =>
      simp only [rewrite, hr]
      exact rewrite_ok hρ rs hp
    | some e1 =>
      simp only [rewrite, hr]
      obtain ⟨h1, h2⟩ := rule_ok hρ hp r hr
      obtain ⟨k1, k2⟩ := rewrite_ok hρ rs h1
      exact ⟨k1, fun s => (h2 s).trans (k2 s)⟩

/-! ### The whole expression -/

theorem agree_un {S : Type} {py : Bool} {ρ : Ext S} {u : UnOp} {e e' : Exp} (h : ∀ s, Agree (eval py ρ e s) (eval py ρ e' s)) (s : S) :
    Agree (eval py ρ (.un u e) s) (eval py ρ (.un u e') s) := by
  have h' := h s
  simp only [eval]
  generalize eval py ρ e s = p at h' ⊢
  generalize eval py ρ e' s = q at h' ⊢
  rcases p with ⟨a, ra⟩
  rcases q with ⟨b, rb⟩
  obtain ⟨h1, h2⟩ := h'
  simp only at h1 h2
  subst h1
  rcases h2 with h2 | ⟨h2, h3⟩
  · subst h2
    exact Agree.refl _
  · cases ra <;> simp [Res.stuck] at h2 <;> cases rb <;> simp [Res.stuck] at h3 <;> exact ⟨rfl, Or.inr ⟨trivial, trivial⟩⟩

theorem agree_bin {S : Type} {py : Bool} {ρ : Ext S} {o : Op} {l l' r r' : Exp} (h : ∀ s, Agree (eval py ρ l s) (eval py ρ l' s))
    (k : ∀ s, Agree (eval py ρ r s) (eval py ρ r' s)) (s : S) : Agree (eval py ρ (.bin o l r) s) (eval py ρ (.bin o l' r') s) := by
  have h' := h s
  simp only [eval]
  generalize eval py ρ l s = p at h' ⊢
  generalize eval py ρ l' s = q at h' ⊢
  rcases p with ⟨a, ra⟩
  rcases q with ⟨b, rb⟩
  obtain ⟨h1, h2⟩ := h'
  simp only at h1 h2
  subst h1
  rcases h2 with h2 | ⟨h2, h3⟩
  · subst h2
    cases ra with
    | ret v =>
      have k' := k a
      simp only
      generalize eval py ρ r a = p at k' ⊢
      generalize eval py ρ r' a = q at k' ⊢
      rcases p with ⟨c, rc⟩
      rcases q with ⟨d, rd⟩
      obtain ⟨k1, k2⟩ := k'
      simp only at k1 k2
      subst k1
      rcases k2 with k2 | ⟨k2, k3⟩
      · subst k2
        exact Agree.refl _
      · cases rc <;> simp [Res.stuck] at k2 <;> cases rd <;> simp [Res.stuck] at k3 <;> exact ⟨rfl, Or.inr ⟨trivial, trivial⟩⟩
    | _ => exact Agree.refl _
  · cases ra <;> simp [Res.stuck] at h2 <;> cases rb <;> simp [Res.stuck] at h3 <;> exact ⟨rfl, Or.inr ⟨trivial, trivial⟩⟩

theorem canonicalises_agree {S : Type} {py : Bool} {ρ : Ext S} {E : Env} (hρ : Respects ρ E.isPure) {rs : List Rule} {e e' : Exp}
    (h : Canonicalises py E rs e e') : ∀ s, Agree (eval py ρ e s) (eval py ρ e' s) := by
  induction h with
  | refl e => exact fun s => Agree.refl _
  | here hp =>
    obtain ⟨h1, h2⟩ := rewrite_ok hρ rs hp
    exact fun s => agree_of_den hρ hp h1 s (h2 s)
  | un _ ih => exact agree_un ih
  | bin _ _ ih1 ih2 => exact agree_bin ih1 ih2
  | trans _ _ ih1 ih2 => exact fun s => (ih1 s).trans (ih2 s)

/-! ### Series -/

theorem execs_append {S : Type} (ρ : Nat → S → S × Bool) : ∀ (xs ys : List Node) (s : S),
    execs ρ (xs ++ ys) s = match execs ρ xs s with
      | (s', true) => (s', true)
      | (s', false) => execs ρ ys s'
  | [], ys, s => by simp [execs]
  | x :: xs, ys, s => by
    simp only [List.cons_append, execs]
    rcases x.exec ρ s with ⟨s', b⟩
    cases b
    · exact execs_append ρ xs ys s'
    · rfl

theorem flatten_exec {S : Type} (ρ : Nat → S → S × Bool) (xs : List Node) (s : S) : execs ρ (flatten xs) s = execs ρ xs s := by
  induction xs using flatten.induct generalizing s with
  | case1 => simp [flatten]
  | case2 xs rest ih =>
    rw [flatten, execs_append]
    simp only [execs, Node.exec]
    rcases execs ρ xs s with ⟨s', b⟩
    cases b
    · exact ih s'
    · rfl
  | case3 f v rest ih =>
    rw [flatten, ih]
    simp only [execs, Node.exec]
    rcases f.exec ρ s with ⟨s', b⟩
    cases b <;> simp
  | case4 i rest ih =>
    rw [flatten]
    simp only [execs, Node.exec]
    rcases ρ i s with ⟨s', b⟩
    cases b
    · exact ih s'
    · rfl

theorem flattens_exec {S : Type} (ρ : Nat → S → S × Bool) {n n' : Node} (h : Flattens n n') : ∀ s, n'.exec ρ s = n.exec ρ s := by
  induction h with
  | refl => exact fun _ => rfl
  | here xs => exact fun s => by simp only [Node.exec]; exact flatten_exec ρ xs s
  | elem _ ih =>
    intro s
    simp only [Node.exec, execs_append, execs, ih]
  | flow _ _ ih1 ih2 =>
    intro s
    simp only [Node.exec, ih1]
    rcases Node.exec ρ _ s with ⟨s', b⟩
    cases b
    · exact ih2 s'
    · rfl
  | trans _ _ ih1 ih2 => exact fun s => (ih2 s).trans (ih1 s)

end Codon.Canon
