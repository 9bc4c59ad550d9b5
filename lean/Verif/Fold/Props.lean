import Verif.Fold.Model
import Verif.Arith.Props

/-!
C02: replacing an expression by the result of the folding pass does not change what the program
does: same value, same side effects in the same order, same exception, same non-termination.
-/
namespace Codon.Fold
open Codon.Arith

/-- `e'` may replace `e` at operand behaviour `ρ`: from every state, either `e` was undefined
behaviour, or both have exactly the same final state and outcome. -/
def Refines {S : Type} (py : Bool) (ρ : Ext S) (e' e : Exp) : Prop :=
  ∀ s, (eval py ρ e s).2 = .ub ∨ eval py ρ e' s = eval py ρ e s

variable {S : Type} {py : Bool} {ρ : Ext S}

theorem Refines.refl (e : Exp) : Refines py ρ e e := fun _ => Or.inr rfl

theorem Refines.trans {e₁ e₂ e₃ : Exp} (h₁ : Refines py ρ e₁ e₂) (h₂ : Refines py ρ e₂ e₃) :
    Refines py ρ e₁ e₃ := by
  intro s
  rcases h₂ s with h | h
  · exact Or.inl h
  · rcases h₁ s with h' | h'
    · rw [h] at h'; exact Or.inl h'
    · exact Or.inr (h'.trans h)

theorem Refines.un {e' e : Exp} (o : UnOp) (h : Refines py ρ e' e) :
    Refines py ρ (.un o e') (.un o e) := by
  intro s
  rcases h s with h | h
  · left
    simp only [eval]
    split
    · rename_i heq; rw [heq] at h; cases h
    · exact h
  · right; simp only [eval, h]

theorem Refines.bin {l' l r' r : Exp} (o : Op) (hl : Refines py ρ l' l) (hr : Refines py ρ r' r) :
    Refines py ρ (.bin o l' r') (.bin o l r) := by
  intro s
  rcases hl s with h | h
  · left
    simp only [eval]
    split
    · rename_i heq; rw [heq] at h; cases h
    · exact h
  · simp only [eval, h]
    split
    · rename_i s' a _
      rcases hr s' with h | h
      · left
        split
        · rename_i heq; rw [heq] at h; cases h
        · exact h
      · right; rw [h]
    · right; rfl

theorem singleConst_cases {val : I64} {calcF : Exp → Exp} {lf rf : Bool} {l r e' : Exp}
    (h : singleConst val calcF lf rf l r = some e') :
    (lf = true ∧ l = .lit val ∧ e' = calcF r) ∨ (rf = true ∧ r = .lit val ∧ e' = calcF l) := by
  unfold singleConst at h
  split at h
  · rename_i hc
    simp at hc
    exact Or.inl ⟨hc.1, hc.2, (Option.some.inj h).symm⟩
  · split at h
    · rename_i hc
      simp at hc
      exact Or.inr ⟨hc.1, hc.2, (Option.some.inj h).symm⟩
    · cases h

theorem sdiv_one (a : I64) : Run.floordiv py a 1 = .val a := by
  have h := c01_run_meaning py .floordiv a 1 (.inl a.toInt) (by
    simp only [meaning]
    rw [show (1 : I64).toInt = 1 from rfl]
    cases py <;> simp) (by
    rintro _ ⟨_, h⟩
    exact absurd h (by decide))
  simp only [runBin, wrapLit, BitVec.ofInt_toInt] at h
  cases hf : Run.floordiv py a 1 with
  | val v =>
    rw [hf] at h
    simp only [Out.map] at h
    injection h with h
    injection h with h
    rw [h]
  | ub => rw [hf] at h; cases h
  | zeroDiv => rw [hf] at h; cases h

/-- A binary node whose left operand is a literal. -/
theorem eval_lit_left (o : Op) (c : I64) (r : Exp) (f : I64 → I64) (s : S)
    (h : ∀ b, ofOut (runBin py o.toBin c b) = .ret (f b)) :
    eval py ρ (.bin o (.lit c) r) s =
      match eval py ρ r s with
      | (s', .ret b) => (s', .ret (f b))
      | q => q := by
  simp only [eval, h]
  rfl

theorem eval_lit_right (o : Op) (c : I64) (l : Exp) (f : I64 → I64) (s : S)
    (h : ∀ a, ofOut (runBin py o.toBin a c) = .ret (f a)) :
    eval py ρ (.bin o l (.lit c)) s =
      match eval py ρ l s with
      | (s', .ret a) => (s', .ret (f a))
      | q => q := by
  simp only [eval, h]
  rfl

theorem match_id (x : S × Res) :
    (match x with
      | (s', .ret b) => (s', .ret b)
      | q => q) = x := by
  obtain ⟨s, r⟩ := x
  cases r <;> rfl

theorem refines_right {o : Op} {c : I64} {l : Exp}
    (h : ∀ a, ofOut (runBin py o.toBin a c) = .ret a) : Refines py ρ l (.bin o l (.lit c)) := by
  intro s
  right
  rw [eval_lit_right o c l id s h]
  exact (match_id _).symm

theorem refines_left {o : Op} {c : I64} {r : Exp}
    (h : ∀ b, ofOut (runBin py o.toBin c b) = .ret b) : Refines py ρ r (.bin o (.lit c) r) := by
  intro s
  right
  rw [eval_lit_left o c r id s h]
  exact (match_id _).symm

theorem refines_double {o : UnOp} {e : Exp} (h : ∀ a, runUn o (runUn o a) = a) :
    Refines py ρ e (.un o (.un o e)) := by
  intro s
  right
  simp only [eval]
  cases he : eval py ρ e s with
  | mk s' r => cases r <;> simp [h]

theorem refines_const {o : Op} {a b c : I64} (h : foldBin py o.toBin a b = some (.val (.int c))) :
    Refines py ρ (.lit c) (.bin o (.lit a) (.lit b)) := by
  intro s
  right
  simp only [eval, c01_fold_agrees_with_run_partial _ _ _ _ _ h, ofOut]

/-- The two rules that throw an operand away. -/
def Rule.drops : Rule → Bool
  | .mulZero | .zeroDiv => true
  | _ => false

theorem apply_refines {r : Rule} {e e' : Exp} (hr : r.drops = false)
    (h : r.apply py e = some (.val e')) : Refines py ρ e' e := by
  unfold Rule.apply at h
  split at h
  all_goals try (cases h; done)
  all_goals try (cases hr; done)
  · -- mulOne
    obtain ⟨x, hx, hxe⟩ := Option.map_eq_some_iff.1 h
    cases hxe
    rcases singleConst_cases hx with ⟨_, rfl, rfl⟩ | ⟨_, rfl, rfl⟩
    · exact refines_left fun b => by simp [Op.toBin, runBin, ofOut]
    · exact refines_right fun b => by simp [Op.toBin, runBin, ofOut]
  · -- subZero
    obtain ⟨x, hx, hxe⟩ := Option.map_eq_some_iff.1 h
    cases hxe
    rcases singleConst_cases hx with ⟨hf, _⟩ | ⟨_, rfl, rfl⟩
    · cases hf
    · exact refines_right fun b => by simp [Op.toBin, runBin, ofOut]
  · -- addZero
    obtain ⟨x, hx, hxe⟩ := Option.map_eq_some_iff.1 h
    cases hxe
    rcases singleConst_cases hx with ⟨_, rfl, rfl⟩ | ⟨_, rfl, rfl⟩
    · exact refines_left fun b => by simp [Op.toBin, runBin, ofOut]
    · exact refines_right fun b => by simp [Op.toBin, runBin, ofOut]
  · -- divOne
    obtain ⟨x, hx, hxe⟩ := Option.map_eq_some_iff.1 h
    cases hxe
    rcases singleConst_cases hx with ⟨hf, _⟩ | ⟨_, rfl, rfl⟩
    · cases hf
    · exact refines_right fun b => by simp only [Op.toBin, runBin, sdiv_one, Out.map, ofOut]
  · -- posNoop
    cases h
    intro s
    right
    simp only [eval]
    cases he : eval py ρ e' s with
    | mk s' r => cases r <;> simp [runUn]
  · cases h
    exact refines_double fun a => by simp [runUn]
  · cases h
    exact refines_double fun a => by
      simp only [runUn]
      rw [BitVec.xor_assoc, BitVec.xor_self, BitVec.xor_zero]
  · -- const
    split at h
    · rename_i heq
      subst heq
      split at h
      · rename_i hc
        cases h
        exact refines_const hc
      all_goals cases h
    · cases h
  · -- constUn
    split at h
    · rename_i heq
      subst heq
      rename_i o a
      cases hf : foldUn o a with
      | val v =>
        rw [hf] at h
        cases h
        intro s
        right
        simp only [eval, (c01_unary o a).1 v hf]
      | ub => rw [hf] at h; cases h
      | zeroDiv => rw [hf] at h; cases h
    · cases h

theorem rewrite_refines {rs : List Rule} (hrs : ∀ r ∈ rs, ∀ e e' : Exp,
      r.apply py e = some (.val e') → Refines py ρ e' e) :
    ∀ {e e' : Exp}, rewrite py rs e = .val e' → Refines py ρ e' e := by
  induction rs with
  | nil =>
    intro e e' h
    cases h
    exact Refines.refl _
  | cons r rs ih =>
    intro e e' h
    have ih := @ih fun r hr => hrs r (List.mem_cons_of_mem _ hr)
    simp only [rewrite] at h
    split at h
    · exact ih h
    · rename_i e1 h1
      exact (ih h).trans (hrs r (List.mem_cons_self ..) _ _ h1)
    · cases h

theorem foldAll_refines {rs : List Rule} (hrs : ∀ r ∈ rs, ∀ e e' : Exp,
      r.apply py e = some (.val e') → Refines py ρ e' e) :
    ∀ {e e' : Exp}, foldAll py rs e = .val e' → Refines py ρ e' e := by
  intro e
  induction e with
  | lit c => intro e' h; cases h; exact Refines.refl _
  | ext i => intro e' h; cases h; exact Refines.refl _
  | un o e ih =>
    intro e' h
    simp only [foldAll] at h
    split at h
    · rename_i e1 h1
      exact (rewrite_refines hrs h).trans ((ih h1).un o)
    · cases h
  | bin o l r ihl ihr =>
    intro e' h
    simp only [foldAll] at h
    split at h
    · rename_i l1 h1
      split at h
      · rename_i r1 h2
        exact (rewrite_refines hrs h).trans ((ihl h1).bin o (ihr h2))
      · cases h
    · cases h

/-- **C02 (partial: the two operand-dropping rules excluded).**  For every expression, every
behaviour of its unknown operands (side effects, exceptions, non-termination), both numerics modes
and every order in which the rules are tried, the folded expression behaves like the original.
Missing: `x * 0`, `0 * x` and `0 // x`, for which the claim is false
(`c02_violation_mul_zero_drops_effect`, `c02_violation_zero_div_drops_effect`). -/
theorem c02_fold_preserves_partial (py : Bool) (ρ : Ext S) (rs : List Rule)
    (hrs : ∀ r ∈ rs, r.drops = false) (e e' : Exp) (h : foldAll py rs e = .val e') :
    Refines py ρ e' e :=
  foldAll_refines (fun r hr _ _ ha => apply_refines (hrs r hr) ha) h

/-- The list of all `int` rules except the two dropping ones, in registration order. -/
def safeRules : List Rule :=
  [.mulOne, .subZero, .addZero, .divOne, .posNoop, .doubleNeg, .doubleInv,
   .const .add, .const .sub, .const .floordiv, .const .mul, .const .shl, .const .shr, .const .pow,
   .const .xor, .const .or, .const .and, .const .mod, .constUn .pos, .constUn .neg, .constUn .inv]

example : (∀ r ∈ safeRules, r.drops = false) ∧
    foldAll false safeRules
      (.bin .add (.un .neg (.un .neg (.ext 0))) (.bin .mul (.ext 1) (.bin .sub (.lit 3) (.lit 2))))
    = .val (.bin .add (.ext 0) (.ext 1)) := by decide

/-- Evaluating an expression whose unknown operands are pure and total, with C numerics, either is
undefined behaviour or returns without touching the state. -/
theorem eval_pure (hρ : ∀ i s, ∃ v, ρ i s = (s, .ret v)) (e : Exp) (s : S) :
    (eval false ρ e s).2 = .ub ∨ ∃ v, eval false ρ e s = (s, .ret v) := by
  induction e generalizing s with
  | lit c => exact Or.inr ⟨c, rfl⟩
  | ext i => exact Or.inr (hρ i s)
  | un o e ih =>
    rcases ih s with h | ⟨v, h⟩
    · left
      simp only [eval]
      split
      · rename_i heq; rw [heq] at h; cases h
      · exact h
    · right; exact ⟨runUn o v, by simp only [eval, h]⟩
  | bin o l r ihl ihr =>
    rcases ihl s with h | ⟨a, h⟩
    · left
      simp only [eval]
      split
      · rename_i heq; rw [heq] at h; cases h
      · exact h
    · rcases ihr s with h2 | ⟨b, h2⟩
      · left
        simp only [eval, h]
        split
        · rename_i heq; rw [heq] at h2; cases h2
        · exact h2
      · simp only [eval, h, h2]
        have hsd : ∀ x y, Run.sdiv x y ≠ .zeroDiv := by
          intro x y; unfold Run.sdiv; split <;> simp
        have hsr : ∀ x y, Run.srem x y ≠ .zeroDiv := by
          intro x y; unfold Run.srem; split <;> simp
        cases o <;> simp only [Op.toBin, runBin, ofOut]
        case floordiv =>
          simp only [Run.floordiv, Bool.false_eq_true, if_false]
          cases hx : Run.sdiv a b <;> simp [Out.map]
          exact hsd _ _ hx
        case mod =>
          simp only [Run.mod, Bool.false_eq_true, if_false]
          cases hx : Run.srem a b <;> simp [Out.map]
          exact hsr _ _ hx
        case shl =>
          unfold Run.shl
          by_cases hc : b.toNat < 64
          · rw [if_pos hc]; exact Or.inr ⟨_, rfl⟩
          · rw [if_neg hc]; exact Or.inl rfl
        case shr =>
          unfold Run.shr
          by_cases hc : b.toNat < 64
          · rw [if_pos hc]; exact Or.inr ⟨_, rfl⟩
          · rw [if_neg hc]; exact Or.inl rfl
        all_goals exact Or.inr ⟨_, rfl⟩

theorem apply_mulZero {e : Exp} {x : Out Exp} (h : Rule.apply py .mulZero e = some x) :
    ∃ l r, e = .bin .mul l r ∧
      (singleConst 0 (fun _ => .lit 0) true true l r).map Out.val = some x := by
  cases e with
  | bin o l r => cases o <;> first | exact ⟨l, r, rfl, h⟩ | cases h
  | _ => cases h

theorem apply_zeroDiv {e : Exp} {x : Out Exp} (h : Rule.apply py .zeroDiv e = some x) :
    ∃ l r, e = .bin .floordiv l r ∧
      (singleConst 0 (fun _ => .lit 0) true false l r).map Out.val = some x := by
  cases e with
  | bin o l r => cases o <;> first | exact ⟨l, r, rfl, h⟩ | cases h
  | _ => cases h

/-- **C02 (partial: pure operands, C numerics).**  With *all* integer rules enabled, in any order,
folding preserves behaviour provided the unknown operands are pure and total (for instance reads of
local variables) and `-numerics=py` is off. -/
theorem c02_fold_preserves_pure_partial (ρ : Ext S) (hρ : ∀ i s, ∃ v, ρ i s = (s, .ret v))
    (rs : List Rule) (e e' : Exp) (h : foldAll false rs e = .val e') : Refines false ρ e' e := by
  refine foldAll_refines (fun r _ e e' ha => ?_) h
  by_cases hd : r.drops = false
  · exact apply_refines hd ha
  · cases r <;> simp [Rule.drops] at hd
    · obtain ⟨l, r, rfl, ha⟩ := apply_mulZero ha
      obtain ⟨x, hx, hxe⟩ := Option.map_eq_some_iff.1 ha
      cases hxe
      intro s
      rcases singleConst_cases hx with ⟨_, rfl, rfl⟩ | ⟨_, rfl, rfl⟩
      · rw [eval_lit_left .mul 0 r (fun _ => 0) s (fun b => by simp [Op.toBin, runBin, ofOut])]
        rcases eval_pure hρ r s with h | ⟨v, h⟩
        · left; split
          · rename_i heq; rw [heq] at h; cases h
          · exact h
        · right; rw [h]; rfl
      · rw [eval_lit_right .mul 0 l (fun _ => 0) s (fun b => by simp [Op.toBin, runBin, ofOut])]
        rcases eval_pure hρ l s with h | ⟨v, h⟩
        · left; split
          · rename_i heq; rw [heq] at h; cases h
          · exact h
        · right; rw [h]; rfl
    · obtain ⟨l, r, rfl, ha⟩ := apply_zeroDiv ha
      obtain ⟨x, hx, hxe⟩ := Option.map_eq_some_iff.1 ha
      cases hxe
      intro s
      rcases singleConst_cases hx with ⟨_, rfl, rfl⟩ | ⟨hf, _⟩
      · rcases eval_pure hρ r s with h | ⟨v, h⟩
        · left
          simp only [eval]
          split
          · rename_i heq; rw [heq] at h; cases h
          · exact h
        · simp only [eval, h]
          by_cases hv : v = 0
          · left
            subst hv
            rfl
          · right
            have : runBin false .floordiv 0 v = .val (.int 0) := by
              rw [c01_run_meaning false .floordiv 0 v (.inl 0)]
              · rfl
              · have h0 : v.toInt ≠ 0 := fun h => hv (toInt_eq_zero.1 h)
                simp [meaning, h0]
              · rintro _ ⟨h, _⟩
                exact absurd h (by decide)
            simp only [Op.toBin, this, ofOut]
      · cases hf

example : foldAll false (.mulZero :: .zeroDiv :: safeRules)
    (.bin .add (.bin .floordiv (.lit 0) (.ext 0)) (.bin .mul (.ext 1) (.lit 0))) = .val (.lit 0) := by
  decide

/-- **C02 violated.**  `f() * 0` is folded to `0`, dropping the call: a program that counts calls
of `f` observes the difference. -/
theorem c02_violation_mul_zero_drops_effect :
    ∃ (ρ : Ext Nat) (e e' : Exp), foldAll false [.mulZero] e = .val e' ∧
      eval false ρ e 0 = (1, .ret 0) ∧ eval false ρ e' 0 = (0, .ret 0) :=
  ⟨fun _ n => (n + 1, .ret 7), .bin .mul (.ext 0) (.lit 0), .lit 0, by decide, by decide, by decide⟩

/-- **C02 violated.**  `0 // f()` is folded to `0`, dropping an exception raised by `f`. -/
theorem c02_violation_zero_div_drops_effect :
    ∃ (ρ : Ext Nat) (e e' : Exp), foldAll true [.zeroDiv] e = .val e' ∧
      eval true ρ e 0 = (0, .raised 1) ∧ eval true ρ e' 0 = (0, .ret 0) :=
  ⟨fun _ n => (n, .raised 1), .bin .floordiv (.lit 0) (.ext 0), .lit 0,
    by decide, by decide, by decide⟩

/-- **C02 violated.**  With `-numerics=py`, `0 // x` for `x = 0` raises `ZeroDivisionError`, but is
folded to `0` — even when `x` is the literal `0`. -/
theorem c02_violation_zero_div_zero :
    ∃ (e e' : Exp), foldAll true [.zeroDiv] e = .val e' ∧
      ∀ (ρ : Ext Unit), eval true ρ e () = ((), .zeroDivision) ∧ eval true ρ e' () = ((), .ret 0) :=
  ⟨.bin .floordiv (.lit 0) (.lit 0), .lit 0, by decide, fun _ => ⟨rfl, rfl⟩⟩

end Codon.Fold
