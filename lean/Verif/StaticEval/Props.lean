import Verif.StaticEval.Model
import Verif.Arith.Props
import Verif.Slice.Props

/-!
C14 (static operators) and C15 (static slicing).
-/
namespace Codon.StaticEval
open Codon.Arith Codon.Slice Codon.SliceSpec

/-! ### C14 -/

/-- `not` is never applied to a string-valued operand. -/
def NoStrNot (py : Bool) : SE → Prop
  | .lit _ => True
  | .un o e => NoStrNot py e ∧ (o = .not → ∀ s, static py e ≠ .val (.str s))
  | .bin _ l r | .land l r | .lor l r => NoStrNot py l ∧ NoStrNot py r

theorem staticInt_dyn {py : Bool} {o : BinOp} {l r : I64} {v : SVal}
    (h : staticInt py o l r = .val v) : ofRun (runBin py o l r) = .val v := by
  -- reduce to C01: every static operator is the folding operator
  have red : ∀ x : Lit, foldBin py o l r = some (.val x) →
      (match x with | .int w => SVal.int w | .bool b => SVal.bool b) = v →
      ofRun (runBin py o l r) = .val v := by
    intro x hx hv
    rw [c01_fold_agrees_with_run_partial py o l r x hx, ← hv]
    cases x <;> rfl
  have arith : ∀ y : Out I64, foldBin py o l r = some (y.map .int) → ofHost y = .val v →
      ofRun (runBin py o l r) = .val v := by
    intro y hy hv
    cases y with
    | val w => exact red (.int w) hy (by simpa [ofHost] using hv)
    | ub => cases hv
    | zeroDiv => cases hv
  cases o <;> simp only [staticInt] at h
  case add => exact arith _ rfl h
  case sub => exact arith _ rfl h
  case mul => exact arith _ rfl h
  case shl => exact arith _ rfl h
  case shr => exact arith _ rfl h
  case xor => exact red (.int _) rfl (by simpa using h)
  case or => exact red (.int _) rfl (by simpa using h)
  case and => exact red (.int _) rfl (by simpa using h)
  case eq => exact red (.bool _) rfl (by simpa using h)
  case ne => exact red (.bool _) rfl (by simpa using h)
  case gt => exact red (.bool _) rfl (by simpa using h)
  case ge => exact red (.bool _) rfl (by simpa using h)
  case lt => exact red (.bool _) rfl (by simpa using h)
  case le => exact red (.bool _) rfl (by simpa using h)
  case pow => cases h
  case floordiv =>
    unfold divMod at h
    by_cases hr : r = 0
    · rw [if_pos hr] at h; cases h
    · rw [if_neg hr] at h
      cases py
      · simp only [Bool.false_eq_true, if_false] at h
        refine arith (Host.div l r) (by simp only [foldBin, if_neg hr, Bool.false_eq_true, if_false]) ?_
        cases hd : Host.div l r <;> cases hm : Host.mod l r <;> simp_all [Out.map, ofHost]
      · simp only [if_true] at h
        refine arith ((Host.pyDivmod l r).map Prod.fst) ?_ h
        simp only [foldBin, if_neg hr, if_true]
        cases Host.pyDivmod l r <;> rfl
  case mod =>
    unfold divMod at h
    by_cases hr : r = 0
    · rw [if_pos hr] at h; cases h
    · rw [if_neg hr] at h
      cases py
      · simp only [Bool.false_eq_true, if_false] at h
        refine arith (Host.mod l r) (by simp only [foldBin, if_neg hr, Bool.false_eq_true, if_false]) ?_
        cases hd : Host.div l r <;> cases hm : Host.mod l r <;> simp_all [Out.map, ofHost]
      · simp only [if_true] at h
        refine arith ((Host.pyDivmod l r).map Prod.snd) ?_ h
        simp only [foldBin, if_neg hr, if_true]
        cases Host.pyDivmod l r <;> rfl

theorem staticUn_dyn {o : SUn} {a v : SVal} (hs : o = .not → ∀ s, a ≠ .str s)
    (h : staticUn o a = .val v) : dynUn o a = .val v := by
  cases a with
  | str s => cases o <;> simp [staticUn] at h; exact absurd rfl (hs rfl s)
  | bool b => cases o <;> simp [staticUn] at h; simp [dynUn, truthy, h]
  | int w =>
    cases o with
    | pos => simpa [staticUn, dynUn, runUn] using h
    | neg =>
      simp only [staticUn] at h
      cases hn : Host.neg w with
      | val x =>
        rw [hn] at h
        have := (c01_unary .neg w).1 x hn
        simp only [dynUn, this]
        simpa [ofHost] using h
      | ub => rw [hn] at h; cases h
      | zeroDiv => rw [hn] at h; cases h
    | inv =>
      simp only [staticUn] at h
      have := (c01_unary .inv w).1 _ rfl
      simp only [dynUn, this]
      simpa using h
    | not => simpa [staticUn, dynUn, truthy] using h

theorem staticBin_dyn {py : Bool} {o : BinOp} {a b v : SVal}
    (h : staticBin py o a b = .val v) : dynBin py o a b = .val v := by
  cases a <;> cases b <;> simp only [staticBin] at h
  case int.int => exact staticInt_dyn h
  case int.bool => exact staticInt_dyn h
  case bool.int => exact staticInt_dyn h
  case bool.bool =>
    split at h
    · rename_i hc
      have := staticInt_dyn h
      cases o <;> simp [isCmp] at hc <;> simpa [dynBin, isCmp] using this
    · cases h
  case str.str =>
    cases o <;> simp at h <;> simp [dynBin, ← h, beq_eq_decide, bne]
  all_goals cases h

/-- **C14 (partial).**  Whenever the compiler assigns a compile-time value to an expression built
from int/bool/string literals with the supported operators, running the generated code produces
exactly that value (same kind, same number), in both numerics modes.  Missing: expressions where
the compiler itself overflows (outcome `ub`, see `c14_violation_host_overflow`) and `not` of a
string, whose static kind is wrong (`c14_violation_not_string_kind`). -/
theorem c14_static_agrees_partial (py : Bool) (e : SE) (v : SVal) (hn : NoStrNot py e)
    (h : static py e = .val v) : dyn py e = .val v := by
  induction e generalizing v with
  | lit w => simpa [static, dyn] using h
  | un o e ih =>
    obtain ⟨h1, h2⟩ := hn
    simp only [static] at h
    cases he : static py e with
    | val a =>
      rw [he] at h
      simp only [dyn, ih a h1 he]
      refine staticUn_dyn (fun ho s hs => h2 ho s ?_) h
      rw [he, hs]
    | _ => rw [he] at h; cases h
  | bin o l r ihl ihr =>
    simp only [static] at h
    cases hl : static py l with
    | val a =>
      rw [hl] at h
      cases hr : static py r with
      | val b =>
        rw [hr] at h
        simp only [dyn, ihl a hn.1 hl, ihr b hn.2 hr]
        exact staticBin_dyn h
      | _ => rw [hr] at h; cases h
    | _ => rw [hl] at h; cases h
  | land l r ihl ihr =>
    simp only [static] at h
    cases hl : static py l with
    | val a =>
      rw [hl] at h
      simp only [dyn, ihl a hn.1 hl]
      simp only at h
      split at h
      · rename_i ht; rw [if_pos ht]; exact ihr v hn.2 h
      · rename_i ht; rw [if_neg ht]; simpa using h
    | _ => rw [hl] at h; cases h
  | lor l r ihl ihr =>
    simp only [static] at h
    cases hl : static py l with
    | val a =>
      rw [hl] at h
      simp only [dyn, ihl a hn.1 hl]
      simp only at h
      split at h
      · rename_i ht; rw [if_pos ht]; simpa using h
      · rename_i ht; rw [if_neg ht]; exact ihr v hn.2 h
    | _ => rw [hl] at h; cases h

/-- `(-7 // 2) % 5 if 0 and 1 // 0 …`: a nested expression with short-circuiting over a division by
zero, in both modes. -/
example :
    let e : SE := .lor (.land (.lit (.int 0)) (.bin .floordiv (.lit (.int 1)) (.lit (.int 0))))
      (.bin .mod (.un .neg (.lit (.int 7))) (.lit (.int 5)))
    NoStrNot true e ∧ static true e = .val (.int 3) ∧ static false e = .val (.int (-2)) := by
  refine ⟨?_, by decide, by decide⟩
  simp [NoStrNot]

/-- **C14, division by zero.**  If evaluation is rejected with `STATIC_DIV_ZERO`, then the run-time
code would have divided by zero (an exception with `-numerics=py`, undefined otherwise). -/
theorem c14_div_zero_rejected (py : Bool) (e : SE) (hn : NoStrNot py e)
    (h : static py e = .divZero) : dyn py e = if py then .zeroDivision else .ub := by
  have host : ∀ y, ofHost y ≠ .divZero := by intro y; cases y <;> simp [ofHost]
  have hi : ∀ o a b, staticInt py o a b = .divZero →
      ofRun (runBin py o a b) = if py then .zeroDivision else .ub := by
    intro o a b h
    cases o <;> simp only [staticInt] at h
    all_goals try (exact absurd h (host _))
    all_goals try (cases h)
    · split at h
      · rename_i hd
        have hb : b = 0 := by
          unfold divMod at hd
          by_contra hb
          rw [if_neg hb] at hd
          split at hd
          · cases hd
          · split at hd <;> cases hd
        subst hb
        cases py <;> simp [runBin, Run.floordiv, Run.sdiv, Out.map, ofRun]
      · exact absurd h (host _)
    · split at h
      · rename_i hd
        have hb : b = 0 := by
          unfold divMod at hd
          by_contra hb
          rw [if_neg hb] at hd
          split at hd
          · cases hd
          · split at hd <;> cases hd
        subst hb
        cases py <;> simp [runBin, Run.mod, Run.srem, Out.map, ofRun]
      · exact absurd h (host _)
  have hu : ∀ o a, staticUn o a ≠ .divZero := by
    intro o a
    cases o <;> cases a <;> simp [staticUn]
    exact host _
  have hbn : ∀ o a b, staticBin py o a b = .divZero →
      dynBin py o a b = if py then .zeroDivision else .ub := by
    intro o a b h
    cases a <;> cases b <;> simp only [staticBin] at h
    case int.int => exact hi _ _ _ h
    case int.bool => exact hi _ _ _ h
    case bool.int => exact hi _ _ _ h
    case bool.bool =>
      split at h
      · rename_i hc
        have := hi _ _ _ h
        cases o <;> simp [isCmp] at hc <;> simpa [dynBin, isCmp] using this
      · cases h
    case str.str => cases o <;> simp at h
    all_goals cases h
  have hv := c14_static_agrees_partial py
  induction e with
  | lit w => cases h
  | un o e ih =>
    simp only [static] at h
    cases he : static py e with
    | val a => rw [he] at h; exact absurd h (hu _ _)
    | divZero =>
      have := ih hn.1 he
      cases py <;> simp_all [dyn]
    | _ => rw [he] at h; cases h
  | bin o l r ihl ihr =>
    simp only [static] at h
    cases hl : static py l with
    | val a =>
      rw [hl] at h
      have hl' := hv l a hn.1 hl
      cases hr : static py r with
      | val b =>
        rw [hr] at h
        simp only [dyn, hl', hv r b hn.2 hr]
        exact hbn _ _ _ h
      | divZero =>
        have := ihr hn.2 hr
        cases py <;> simp_all [dyn]
      | _ => rw [hr] at h; cases h
    | divZero =>
      have := ihl hn.1 hl
      cases py <;> simp_all [dyn]
    | _ => rw [hl] at h; cases h
  | land l r ihl ihr =>
    simp only [static] at h
    cases hl : static py l with
    | val a =>
      rw [hl] at h
      simp only [dyn, hv l a hn.1 hl]
      simp only at h
      split at h
      · rename_i ht; rw [if_pos ht]; exact ihr hn.2 h
      · cases h
    | divZero =>
      have := ihl hn.1 hl
      cases py <;> simp_all [dyn]
    | _ => rw [hl] at h; cases h
  | lor l r ihl ihr =>
    simp only [static] at h
    cases hl : static py l with
    | val a =>
      rw [hl] at h
      simp only [dyn, hv l a hn.1 hl]
      simp only at h
      split at h
      · cases h
      · rename_i ht; rw [if_neg ht]; exact ihr hn.2 h
    | divZero =>
      have := ihl hn.1 hl
      cases py <;> simp_all [dyn]
    | _ => rw [hl] at h; cases h

example : static true (.bin .mod (.lit (.int 5)) (.bin .sub (.lit (.int 1)) (.lit (.bool true))))
    = .divZero := by decide

/-- **C14 violated (overflow).**  `9223372036854775807 + 1` is undefined behaviour of the compiler
while the run-time operation is defined. -/
theorem c14_violation_host_overflow :
    ∃ e, static false e = .ub ∧ dyn false e = .val (.int (BitVec.intMin 64)) :=
  ⟨.bin .add (.lit (.int (BitVec.intMax 64))) (.lit (.int 1)), by decide, by decide⟩

/-- **C14 violated (kind).**  The compile-time value of `not ""` is the *int* 1, whereas the
generated code computes the *bool* `True`. -/
theorem c14_violation_not_string_kind :
    ∃ e, static false e = .val (.int 1) ∧ dyn false e = .val (.bool true) :=
  ⟨.un .not (.lit (.str [])), by decide, by decide⟩

/-! ### C15 -/

theorem loopUp_eq {α : Type} (xs : List α) (stop step : Int) (hs : 0 < step) (i : Int)
    (h0 : 0 ≤ i) (hstop : stop ≤ xs.length) (hov : (xs.length : Int) + step ≤ 2 ^ 63) :
    ∃ l, loopUp xs stop step hs i = .items l ∧
      l.map some = (iterUp stop step hs i).map (fun j => xs[j.toNat]?) := by
  induction i using iterUp.induct (stop := stop) (step := step) (hs := hs) with
  | case1 i hlt ih =>
    obtain ⟨l, hl, hm⟩ := ih (by omega)
    rw [loopUp, iterUp, if_pos hlt, if_pos hlt, if_pos h0]
    have hi : i.toNat < xs.length := by omega
    have hf : fits (i + step) = true := by rw [fits_iff]; omega
    rw [List.getElem?_eq_getElem hi]
    simp only [hf, if_true, hl]
    refine ⟨_, rfl, ?_⟩
    rw [List.map_cons, List.map_cons, hm, List.getElem?_eq_getElem hi]
  | case2 i hlt =>
    rw [loopUp, iterUp, if_neg hlt, if_neg hlt]
    exact ⟨[], rfl, rfl⟩

theorem loopDown_eq {α : Type} (xs : List α) (stop step : Int) (hs : step < 0) (i : Int)
    (h0 : i < xs.length) (hstop : -1 ≤ stop) (hov : -(2 ^ 63) ≤ step) (hlen : (xs.length : Int) < 2 ^ 63) :
    ∃ l, loopDown xs stop step hs i = .items l ∧
      l.map some = (iterDown stop step hs i).map (fun j => xs[j.toNat]?) := by
  induction i using iterDown.induct (stop := stop) (step := step) (hs := hs) with
  | case1 i hlt ih =>
    obtain ⟨l, hl, hm⟩ := ih (by omega)
    rw [loopDown, iterDown, if_pos hlt, if_pos hlt, if_pos (show 0 ≤ i by omega)]
    have hi : i.toNat < xs.length := by omega
    have hf : fits (i + step) = true := by rw [fits_iff]; omega
    rw [List.getElem?_eq_getElem hi]
    simp only [hf, if_true, hl]
    refine ⟨_, rfl, ?_⟩
    rw [List.map_cons, List.map_cons, hm, List.getElem?_eq_getElem hi]
  | case2 i hlt =>
    rw [loopDown, iterDown, if_neg hlt, if_neg hlt]
    exact ⟨[], rfl, rfl⟩

theorem adjustHelper_proj (len s e k : Int) :
    (adjustHelper len s e k).start = bound len k s ∧ (adjustHelper len s e k).stop = bound len k e ∧
      (adjustHelper len s e k).step = k := by
  unfold adjustHelper bound
  simp only
  split_ifs <;> exact ⟨rfl, rfl, rfl⟩

theorem adjust_bounds {len : Int} {start stop step : Option Int} {a : Adj}
    (h : adjust len start stop step = some a) :
    a.step = step.getD 1 ∧
    a.start = bound len a.step (start.getD (if a.step > 0 then 0 else len - 1)) ∧
    a.stop = bound len a.step (stop.getD (if a.step > 0 then len else -(len + 1))) := by
  unfold adjust at h
  simp only at h
  split at h
  · cases h
  · split at h
    · rename_i hk
      injection h with h
      obtain ⟨h1, h2, h3⟩ := adjustHelper_proj len (start.getD 0) (stop.getD len) (step.getD 1)
      rw [h] at h1 h2 h3
      rw [h3] at *
      exact ⟨rfl, by rw [h1, if_pos hk], by rw [h2, if_pos hk]⟩
    · rename_i hk
      injection h with h
      obtain ⟨h1, h2, h3⟩ := adjustHelper_proj len (start.getD (len - 1)) (stop.getD (-(len + 1)))
        (step.getD 1)
      rw [h] at h1 h2 h3
      rw [h3] at *
      exact ⟨rfl, by rw [h1, if_neg hk], by rw [h2, if_neg hk]⟩

theorem bound_range (sz st x : Int) (hsz : 0 ≤ sz) :
    (0 < st → 0 ≤ bound sz st x ∧ bound sz st x ≤ sz) ∧
    (st < 0 → -1 ≤ bound sz st x ∧ bound sz st x < sz) := by
  unfold bound
  split_ifs <;> omega

/-- **C15 (partial).**  A static slice with any combination of literal or omitted bounds selects
exactly Python's positions in Python's order, as long as `len + |step|` stays below 2^63 (beyond
that the compiler's loop counter overflows, `c15_violation_step_overflow`). -/
theorem c15_static_slice_partial {α : Type} (xs : List α) (start stop step : Option Int)
    (hz : step ≠ some 0)
    (hlen : (xs.length : Int) + step.getD 1 ≤ 2 ^ 63) (hlen' : (xs.length : Int) < 2 ^ 63)
    (hneg : -(2 ^ 63) < step.getD 1) :
    ∃ l, staticSlice xs start stop step = .items l ∧
      l.map some = (positions xs.length start stop (step.getD 1)).map (fun p => xs[p]?) := by
  have hst : step.getD 1 ≠ 0 := by
    cases step with
    | none => simp
    | some k => intro h; exact hz (by simpa using h)
  obtain ⟨a, ha⟩ := Option.isSome_iff_exists.1
    ((adjust_some_iff (xs.length : Int) start stop step).2 hz)
  have hiter := c24_stop_agrees_with_length xs.length start stop step a ha
  obtain ⟨hk, hk0, -, -, -⟩ := adjust_fields ha
  -- the compiler's adjusted bounds are the run-time ones
  have key : staticSlice xs start stop step =
      (if h : 0 < a.step then loopUp xs a.stop a.step h a.start
       else if h : a.step < 0 then loopDown xs a.stop a.step h a.start else .ub)
      ∧ (0 < a.step → 0 ≤ a.start ∧ a.stop ≤ xs.length) ∧
        (a.step < 0 → a.start < xs.length ∧ -1 ≤ a.stop) := by
    obtain ⟨-, hs, he⟩ := adjust_bounds ha
    have b1 := bound_range xs.length a.step
      (start.getD (if a.step > 0 then 0 else (xs.length : Int) - 1)) (by omega)
    have b2 := bound_range xs.length a.step
      (stop.getD (if a.step > 0 then (xs.length : Int) else -((xs.length : Int) + 1))) (by omega)
    rw [← hs] at b1
    rw [← he] at b2
    refine ⟨?_, fun h => ⟨(b1.1 h).1, (b2.1 h).2⟩, fun h => ⟨(b1.2 h).2, (b2.2 h).1⟩⟩
    have e1 : (if step.isSome ∧ start.isNone then (if step.getD 1 > 0 then 0 else (xs.length : Int) - 1)
        else start.getD 0) = start.getD (if a.step > 0 then 0 else (xs.length : Int) - 1) := by
      rw [hk]
      cases start <;> cases step <;> simp
    have e2 : (if step.isSome ∧ stop.isNone then (if step.getD 1 > 0 then (xs.length : Int)
          else -((xs.length : Int) + 1))
        else stop.getD (xs.length : Int))
        = stop.getD (if a.step > 0 then (xs.length : Int) else -((xs.length : Int) + 1)) := by
      rw [hk]
      cases stop <;> cases step <;> simp
    unfold staticSlice
    simp only [e1, e2]
    rw [← hk, sliceLoop, if_neg hk0, ← hs, ← he, if_neg]
    rintro ⟨h1, -, h2⟩
    apply h2
    rw [fits_iff]
    omega
  obtain ⟨key, hup, hdn⟩ := key
  rcases Int.lt_or_gt_of_ne hk0 with hneg' | hpos
  · rw [dif_neg (by omega), dif_pos hneg'] at key
    obtain ⟨l, hl, hm⟩ := loopDown_eq xs a.stop a.step hneg' a.start (hdn hneg').1 (hdn hneg').2
      (by omega) hlen'
    refine ⟨l, key.trans hl, ?_⟩
    unfold Range.iter at hiter
    simp only [dif_neg (show ¬ 0 < a.step by omega), dif_pos hneg'] at hiter
    injection hiter with hiter
    rw [hm, hiter, List.map_map]
    rfl
  · rw [dif_pos hpos] at key
    obtain ⟨l, hl, hm⟩ := loopUp_eq xs a.stop a.step hpos a.start (hup hpos).1 (hup hpos).2
      (by omega)
    refine ⟨l, key.trans hl, ?_⟩
    unfold Range.iter at hiter
    simp only [dif_pos hpos] at hiter
    injection hiter with hiter
    rw [hm, hiter, List.map_map]
    rfl

-- `"abcdefgh"[-2::-3]`
example : staticSlice [0, 1, 2, 3, 4, 5, 6, 7] (some (-2)) none (some (-3)) = .items [6, 3, 0] := by
  simp [staticSlice, sliceLoop, bound, loopDown, fits]

/-- **C15.**  A zero step is rejected, and nothing else is. -/
theorem c15_zero_step_rejected {α : Type} (xs : List α) (start stop step : Option Int) :
    staticSlice xs start stop step = .error ↔ step = some 0 := by
  have up : ∀ stop step hs i, loopUp xs stop step hs i ≠ .error := by
    intro stop step hs i
    fun_induction loopUp xs stop step hs i <;> simp_all
  have dn : ∀ stop step hs i, loopDown xs stop step hs i ≠ .error := by
    intro stop step hs i
    fun_induction loopDown xs stop step hs i <;> simp_all
  have hl : ∀ s e k, sliceLoop xs s e k = .error ↔ k = 0 := by
    intro s e k
    unfold sliceLoop
    by_cases h0 : k = 0
    · simp [h0]
    · rw [if_neg h0]
      constructor
      · intro h
        by_cases h1 : k < 0 ∧ bound xs.length k e < bound xs.length k s ∧ ¬ fits (-k)
        · rw [if_pos h1] at h; cases h
        · rw [if_neg h1] at h
          by_cases h2 : 0 < k
          · rw [dif_pos h2] at h; exact absurd h (up _ _ _ _)
          · rw [dif_neg h2, dif_pos (by omega)] at h; exact absurd h (dn _ _ _ _)
      · intro h; exact absurd h h0
  unfold staticSlice
  simp only [hl]
  cases step <;> simp

/-- **C15 violated (overflow).**  `t[1::9223372036854775807]` on a two-element tuple overflows the
compiler's loop counter; Python (and the run-time slice) select one element. -/
theorem c15_violation_step_overflow :
    staticSlice ["a", "b"] (some 1) none (some (2 ^ 63 - 1)) = .ub ∧
      positions 2 (some 1) none (2 ^ 63 - 1) = [1] := by
  refine ⟨?_, by decide⟩
  simp [staticSlice, sliceLoop, bound, loopUp, fits]

/-- **C15, plain index.**  A static index selects the item Python selects and is rejected exactly
when Python raises `IndexError`. -/
theorem c15_static_index {α : Type} (xs : List α) (idx : Int) :
    (∀ x, staticIndex xs idx = .items [x] ↔ pyGet xs idx = some x) ∧
    (staticIndex xs idx = .error ↔ pyGet xs idx = none) := by
  unfold staticIndex pyGet
  simp only
  by_cases h0 : 0 ≤ idx
  · rw [if_pos h0, if_neg (show ¬ idx < 0 by omega)]
    by_cases h1 : idx < xs.length
    · rw [if_neg (by omega), List.getElem?_eq_getElem (show idx.toNat < xs.length by omega)]
      simp
    · rw [if_pos (by omega), List.getElem?_eq_none (show xs.length ≤ idx.toNat by omega)]
      simp
  · rw [if_neg h0, if_pos (show idx < 0 by omega)]
    by_cases h1 : 0 ≤ idx + xs.length
    · rw [if_pos h1, if_neg (by omega),
        List.getElem?_eq_getElem (show (idx + xs.length).toNat < xs.length by omega)]
      simp
    · rw [if_neg h1, if_pos (by omega)]
      simp

example : staticIndex ["a", "b", "c"] (-2) = .items ["b"] ∧ staticIndex ["a"] (-2) = .error := by decide

end Codon.StaticEval
