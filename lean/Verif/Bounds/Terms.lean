import Verif.Bounds.Spec
/-!
# The terms of the pass
-/
namespace Codon.Bounds

/-- The value of a list of terms. -/
def tval (ρ ℓ : Nat → Int) (t : Term) : Int :=
  match t.kind with
  | .int => t.val
  | .var => t.val * ρ t.x
  | .len => t.val * ℓ t.x

def tsum (ρ ℓ : Nat → Int) : List Term → Int
  | [] => 0
  | t :: ts => tval ρ ℓ t + tsum ρ ℓ ts

theorem tsum_append (ρ ℓ : Nat → Int) (a b : List Term) : tsum ρ ℓ (a ++ b) = tsum ρ ℓ a + tsum ρ ℓ b := by
  induction a with
  | nil => simp [tsum]
  | cons t a ih => simp only [List.cons_append, tsum, ih]; omega

theorem tval_negate (ρ ℓ : Nat → Int) (t : Term) : tval ρ ℓ t.negate = - tval ρ ℓ t := by
  obtain ⟨k, v, l, x⟩ := t
  cases k <;> simp [tval, Term.negate, Int.neg_mul]

theorem tval_multiply (ρ ℓ : Nat → Int) (t : Term) (n : Int) : tval ρ ℓ (t.multiply n) = n * tval ρ ℓ t := by
  obtain ⟨k, v, l, x⟩ := t
  cases k <;> simp only [tval, Term.multiply] <;> rw [Int.mul_comm v n] <;> simp [Int.mul_assoc]

theorem tsum_negate (ρ ℓ : Nat → Int) (ts : List Term) : tsum ρ ℓ (ts.map Term.negate) = - tsum ρ ℓ ts := by
  induction ts with
  | nil => simp [tsum]
  | cons t a ih => simp only [List.map_cons, tsum, ih, tval_negate]; omega

theorem tsum_multiply (ρ ℓ : Nat → Int) (ts : List Term) (n : Int) :
    tsum ρ ℓ (ts.map (·.multiply n)) = n * tsum ρ ℓ ts := by
  induction ts with
  | nil => simp [tsum]
  | cons t a ih => simp only [List.map_cons, tsum, ih, tval_multiply, Int.mul_add]

theorem tval_combine (ρ ℓ : Nat → Int) {t o t' : Term} (h : t.combine o = some t') :
    tval ρ ℓ t' = tval ρ ℓ t + tval ρ ℓ o := by
  obtain ⟨k, v, l, x⟩ := t
  obtain ⟨k', v', l', x'⟩ := o
  simp only [Term.combine] at h
  split at h
  · rename_i hc
    obtain ⟨rfl, hc⟩ := hc
    cases h
    cases k
    · simp [tval]
    · have : x = x' := by simpa using hc
      subst this
      simp [tval, Int.add_mul]
    · have : x = x' := by simpa using hc
      subst this
      simp [tval, Int.add_mul]
  · cases h

theorem tsum_absorb (ρ ℓ : Nat → Int) (ts : List Term) : ∀ t, tsum ρ ℓ ((absorb t ts).1 :: (absorb t ts).2) = tsum ρ ℓ (t :: ts) := by
  induction ts with
  | nil => intro t; rfl
  | cons u us ih =>
    intro t
    unfold absorb
    cases hc : t.combine u with
    | some t' =>
      simp only []
      rw [ih]
      have := tval_combine ρ ℓ hc
      simp only [tsum]; omega
    | none =>
      have := ih t
      simp only [tsum] at this ⊢
      omega

theorem tsum_combineAll (ρ ℓ : Nat → Int) (n : Nat) : ∀ ts, tsum ρ ℓ (combineAll n ts) = tsum ρ ℓ ts := by
  induction n with
  | zero => intro ts; rfl
  | succ n ih =>
    intro ts
    cases ts with
    | nil => rfl
    | cons t ts =>
      have := tsum_absorb ρ ℓ ts t
      simp only [combineAll, tsum, ih] at this ⊢
      omega

theorem tsum_filter (ρ ℓ : Nat → Int) (ts : List Term) : tsum ρ ℓ (ts.filter fun t => !t.zero) = tsum ρ ℓ ts := by
  induction ts with
  | nil => rfl
  | cons t ts ih =>
    by_cases h : t.zero = true
    · have hv : t.val = 0 := by simpa [Term.zero] using h
      have : tval ρ ℓ t = 0 := by unfold tval; split <;> simp [hv]
      simp [h, ih, tsum, this]
    · simp [h, ih, tsum]

theorem tsum_simplify (ρ ℓ : Nat → Int) (ts : List Term) : tsum ρ ℓ (simplify ts) = tsum ρ ℓ ts := by
  rw [simplify, tsum_filter, tsum_combineAll]

/-- The part of the sum that comes from lengths. -/
def lsum (ℓ : Nat → Int) (ts : List Term) : Int := tsum (fun _ => 0) ℓ ts - tsum (fun _ => 0) (fun _ => 0) ts

theorem total_sum (ρ ℓ : Nat → Int) (ts : List Term) : ∀ acc N, total acc ts = some N →
    acc + tsum ρ ℓ ts = N + lsum ℓ ts := by
  induction ts with
  | nil => intro acc N h; cases h; simp [tsum, lsum]
  | cons t ts ih =>
    intro acc N h
    obtain ⟨k, v, l, x⟩ := t
    cases k
    · have := ih _ _ h
      simp only [tsum, lsum, tval] at this ⊢
      omega
    · simp only [total] at h
      split at h
      · cases h
      · rename_i hv
        have hv : v = 0 := by simpa using hv
        subst hv
        have := ih _ _ h
        simp only [tsum, lsum, tval] at this ⊢
        omega
    · have := ih _ _ h
      simp only [tsum, lsum, tval] at this ⊢
      omega

/-- What a successful comparison means. -/
theorem lessCheck_spec {a b : List Term} {strict : Bool} (h : lessCheck a b strict = true) (ρ ℓ : Nat → Int) :
    tsum ρ ℓ a + (lsum ℓ b - lsum ℓ a) + (if strict then 1 else 0) ≤ tsum ρ ℓ b := by
  unfold lessCheck checkTotal at h
  split at h
  · cases h
  · rename_i N hN
    have h1 := total_sum ρ ℓ _ _ _ hN
    have h2 : lsum ℓ (simplify (b ++ a.map Term.negate)) = lsum ℓ b - lsum ℓ a := by
      simp only [lsum, tsum_simplify, tsum_append, tsum_negate]; omega
    rw [h2, tsum_simplify, tsum_append, tsum_negate] at h1
    cases strict
    · have : N ≥ 0 := by simpa using h
      simp; omega
    · have : N > 0 := by simpa using h
      simp; omega

/-! ### The loop variable -/

def upd (ρ : Nat → Int) (x : Nat) (v : Int) : Nat → Int := fun y => if y = x then v else ρ y

theorem tsum_replace (ρ ℓ : Nat → Int) (x : Nat) (rep ts : List Term) :
    tsum ρ ℓ (replaceLoopVariable ts x rep) = tsum (upd ρ x (tsum ρ ℓ rep)) ℓ ts := by
  induction ts with
  | nil => rfl
  | cons t ts ih =>
    have : replaceLoopVariable (t :: ts) x rep =
        (if t.kind = .var ∧ t.x = x then rep.map (·.multiply t.val) else [t]) ++ replaceLoopVariable ts x rep := by
      simp [replaceLoopVariable]
    rw [this, tsum_append, ih, tsum]
    congr 1
    split
    · rename_i h
      rw [tsum_multiply]
      simp [tval, h.1, h.2, upd]
    · rename_i h
      obtain ⟨k, v, l, y⟩ := t
      cases k
      · simp [tsum, tval]
      · have : y ≠ x := by simpa using h
        simp [tsum, tval, upd, this]
      · simp [tsum, tval]

/-- How often the variable `x` is added. -/
def vcoef (x : Nat) : List Term → Int
  | [] => 0
  | t :: ts => (if t.kind = .var ∧ t.x = x then t.val else 0) + vcoef x ts

theorem tsum_upd (ρ ℓ : Nat → Int) (x : Nat) (v w : Int) (ts : List Term) :
    tsum (upd ρ x v) ℓ ts = tsum (upd ρ x w) ℓ ts + vcoef x ts * (v - w) := by
  induction ts with
  | nil => simp [tsum, vcoef]
  | cons t ts ih =>
    have : tval (upd ρ x v) ℓ t = tval (upd ρ x w) ℓ t + (if t.kind = .var ∧ t.x = x then t.val else 0) * (v - w) := by
      obtain ⟨k, u, l, y⟩ := t
      cases k
      · simp [tval]
      · by_cases h : y = x
        · simp [tval, upd, h, Int.mul_sub]; omega
        · simp [tval, upd, h]
      · simp [tval]
    simp only [tsum, vcoef, ih, this, Int.add_mul]
    omega

/-! ### Parsing -/

theorem tsum_signed (ρ ℓ : Nat → Int) (neg : Bool) (t : Term) :
    tsum ρ ℓ [signed neg t] = (if neg then -1 else 1) * tval ρ ℓ t := by
  cases neg <;> simp [signed, tsum, tval_negate]

/-- The value of an expression if variables and lengths have these values. -/
def E.lin (ρ ℓ : Nat → Int) : E → Int
  | .const v => v
  | .var _ x => ρ x
  | .len _ x => ℓ x
  | .size _ x => ℓ x
  | .add a b => a.lin ρ ℓ + b.lin ρ ℓ
  | .sub a b => a.lin ρ ℓ - b.lin ρ ℓ
  | .other => 0

theorem parse_sum (ρ ℓ : Nat → Int) (e : E) : ∀ neg ts, parse e neg = some ts →
    tsum ρ ℓ ts = (if neg then -1 else 1) * e.lin ρ ℓ := by
  induction e with
  | const v => intro neg ts h; cases h; rw [tsum_signed]; simp [tval, Term.valTerm, E.lin]
  | var l x => intro neg ts h; cases h; rw [tsum_signed]; simp [tval, Term.varTerm, E.lin]
  | len l x => intro neg ts h; cases h; rw [tsum_signed]; simp [tval, Term.lenTerm, E.lin]
  | size l x => intro neg ts h; cases h; rw [tsum_signed]; simp [tval, Term.lenTerm, E.lin]
  | other => intro neg ts h; cases h
  | add a b iha ihb =>
    intro neg ts h
    simp only [parse, Option.bind_eq_bind, Option.bind_eq_some_iff, Option.pure_def, Option.some.injEq] at h
    obtain ⟨s, hs, t, ht, rfl⟩ := h
    rw [tsum_append, iha _ _ hs, ihb _ _ ht, E.lin, Int.mul_add]
  | sub a b iha ihb =>
    intro neg ts h
    simp only [parse, Option.bind_eq_bind, Option.bind_eq_some_iff, Option.pure_def, Option.some.injEq] at h
    obtain ⟨s, hs, t, ht, rfl⟩ := h
    rw [tsum_append, iha _ _ hs, ihb _ _ ht, E.lin]
    cases neg <;> simp <;> omega

/-- The terms of an expression are its variables. -/
theorem parse_var (e : E) : ∀ neg ts, parse e neg = some ts → ∀ t ∈ ts, t.kind = .var → (t.loc, t.x) ∈ e.vars := by
  induction e with
  | const v => intro neg ts h; cases h; cases neg <;> simp [signed, Term.valTerm, Term.negate]
  | var l x => intro neg ts h; cases h; cases neg <;> simp [signed, Term.varTerm, Term.negate, E.vars]
  | len l x => intro neg ts h; cases h; cases neg <;> simp [signed, Term.lenTerm, Term.negate]
  | size l x => intro neg ts h; cases h; cases neg <;> simp [signed, Term.lenTerm, Term.negate]
  | other => intro neg ts h; cases h
  | add a b iha ihb =>
    intro neg ts h
    simp only [parse, Option.bind_eq_bind, Option.bind_eq_some_iff, Option.pure_def, Option.some.injEq] at h
    obtain ⟨s, hs, t, ht, rfl⟩ := h
    intro u hu hk
    rw [E.vars, List.mem_append]
    exact (List.mem_append.1 hu).imp (fun h => iha _ _ hs u h hk) (fun h => ihb _ _ ht u h hk)
  | sub a b iha ihb =>
    intro neg ts h
    simp only [parse, Option.bind_eq_bind, Option.bind_eq_some_iff, Option.pure_def, Option.some.injEq] at h
    obtain ⟨s, hs, t, ht, rfl⟩ := h
    intro u hu hk
    rw [E.vars, List.mem_append]
    exact (List.mem_append.1 hu).imp (fun h => iha _ _ hs u h hk) (fun h => ihb _ _ ht u h hk)

/-- All variables of an expression are among the terms. -/
theorem parse_reads (e : E) : ∀ neg ts, parse e neg = some ts → ∀ loc x, Event.read loc x ∈ e.reads →
    ∃ t ∈ ts, t.kind ≠ .int ∧ t.loc = loc ∧ t.x = x := by
  induction e with
  | const v => intro neg ts h loc x hr; cases hr
  | var l y =>
    intro neg ts h loc x hr
    cases h
    simp only [E.reads, List.mem_singleton, Event.read.injEq] at hr
    exact ⟨_, List.mem_singleton_self _, by cases neg <;> simp [signed, Term.varTerm, Term.negate, hr]⟩
  | len l y =>
    intro neg ts h loc x hr
    cases h
    simp only [E.reads, List.mem_singleton, Event.read.injEq] at hr
    exact ⟨_, List.mem_singleton_self _, by cases neg <;> simp [signed, Term.lenTerm, Term.negate, hr]⟩
  | size l y =>
    intro neg ts h loc x hr
    cases h
    simp only [E.reads, List.mem_singleton, Event.read.injEq] at hr
    exact ⟨_, List.mem_singleton_self _, by cases neg <;> simp [signed, Term.lenTerm, Term.negate, hr]⟩
  | other => intro neg ts h; cases h
  | add a b iha ihb =>
    intro neg ts h loc x hr
    simp only [parse, Option.bind_eq_bind, Option.bind_eq_some_iff, Option.pure_def, Option.some.injEq] at h
    obtain ⟨s, hs, t, ht, rfl⟩ := h
    rcases List.mem_append.1 hr with hr | hr
    · obtain ⟨u, h1, h2⟩ := iha _ _ hs _ _ hr
      exact ⟨u, List.mem_append_left _ h1, h2⟩
    · obtain ⟨u, h1, h2⟩ := ihb _ _ ht _ _ hr
      exact ⟨u, List.mem_append_right _ h1, h2⟩
  | sub a b iha ihb =>
    intro neg ts h loc x hr
    simp only [parse, Option.bind_eq_bind, Option.bind_eq_some_iff, Option.pure_def, Option.some.injEq] at h
    obtain ⟨s, hs, t, ht, rfl⟩ := h
    rcases List.mem_append.1 hr with hr | hr
    · obtain ⟨u, h1, h2⟩ := iha _ _ hs _ _ hr
      exact ⟨u, List.mem_append_left _ h1, h2⟩
    · obtain ⟨u, h1, h2⟩ := ihb _ _ ht _ _ hr
      exact ⟨u, List.mem_append_right _ h1, h2⟩

/-! ### Lengths -/

/-- How often the length of `y` is added. -/
def lcoef (y : Nat) : List Term → Int
  | [] => 0
  | t :: ts => (if t.kind = .len ∧ t.x = y then t.val else 0) + lcoef y ts

theorem lsum_cons (ℓ : Nat → Int) (t : Term) (ts : List Term) :
    lsum ℓ (t :: ts) = (if t.kind = .len then t.val * ℓ t.x else 0) + lsum ℓ ts := by
  obtain ⟨k, v, l, x⟩ := t
  cases k <;> simp [lsum, tsum, tval] <;> omega

theorem lsum_split (ℓ : Nat → Int) (y : Nat) (ts : List Term) :
    lsum ℓ ts = lcoef y ts * ℓ y + lsum ℓ (ts.filter fun t => !(t.x == y)) := by
  induction ts with
  | nil => simp [lsum, tsum, lcoef]
  | cons t ts ih =>
    by_cases h : t.x = y
    · simp only [List.filter_cons, h, beq_self_eq_true, Bool.not_true, Bool.false_eq_true, if_false]
      rw [lsum_cons, ih, lcoef, Int.add_mul, h]
      by_cases hk : t.kind = .len <;> simp [hk] <;> omega
    · have hb : (!(t.x == y)) = true := by simp [h]
      simp only [List.filter_cons, hb, if_true]
      rw [lsum_cons, lsum_cons, ih, lcoef]
      simp [h]; omega

theorem lcoef_filter (y z : Nat) (ts : List Term) :
    lcoef z (ts.filter fun t => !(t.x == y)) = if z = y then 0 else lcoef z ts := by
  induction ts with
  | nil => simp [lcoef]
  | cons t ts ih =>
    by_cases h : t.x = y
    · simp only [List.filter_cons, h, beq_self_eq_true, Bool.not_true, Bool.false_eq_true, if_false, ih, lcoef]
      by_cases hz : z = y
      · simp [hz]
      · have : ¬ y = z := fun e => hz e.symm
        simp [hz, this]
    · have hb : (!(t.x == y)) = true := by simp [h]
      simp only [List.filter_cons, hb, if_true, lcoef, ih]
      by_cases hz : z = y
      · simp [hz, h]
      · simp [hz]

theorem lsum_nonneg (ℓ : Nat → Int) (hℓ : ∀ y, 0 ≤ ℓ y) (n : Nat) : ∀ ts : List Term, ts.length ≤ n →
    (∀ y, 0 ≤ lcoef y ts) → 0 ≤ lsum ℓ ts := by
  induction n with
  | zero =>
    intro ts h _
    have : ts = [] := by simpa using h
    subst this; simp [lsum, tsum]
  | succ n ih =>
    intro ts h hc
    cases ts with
    | nil => simp [lsum, tsum]
    | cons t ts =>
      rw [lsum_split ℓ t.x]
      have h1 := Int.mul_nonneg (hc t.x) (hℓ t.x)
      have h2 := ih ((t :: ts).filter fun u => !(u.x == t.x)) (by
        simp only [List.filter_cons, beq_self_eq_true, Bool.not_true, Bool.false_eq_true, if_false]
        have := List.length_filter_le (fun u => !(u.x == t.x)) ts
        simp at h; omega) (fun y => by
        rw [lcoef_filter]; split
        · omega
        · exact hc y)
      omega

theorem lcoef_append (y : Nat) (a b : List Term) : lcoef y (a ++ b) = lcoef y a + lcoef y b := by
  induction a with
  | nil => simp [lcoef]
  | cons t a ih => simp only [List.cons_append, lcoef, ih]; omega

theorem lcoef_negate (y : Nat) (a : List Term) : lcoef y (a.map Term.negate) = - lcoef y a := by
  induction a with
  | nil => simp [lcoef]
  | cons t a ih =>
    simp only [List.map_cons, lcoef, ih, Term.negate]
    split <;> omega

theorem lcoef_multiply (y : Nat) (n : Int) (a : List Term) : lcoef y (a.map (·.multiply n)) = n * lcoef y a := by
  induction a with
  | nil => simp [lcoef]
  | cons t a ih =>
    simp only [List.map_cons, lcoef, ih, Int.mul_add]
    congr 1
    by_cases h : t.kind = .len ∧ t.x = y
    · simp [Term.multiply, h, Int.mul_comm]
    · rw [if_neg h, Int.mul_zero]
      exact if_neg h

theorem lcoef_replace (y x : Nat) (rep ts : List Term) :
    lcoef y (replaceLoopVariable ts x rep) = lcoef y ts + vcoef x ts * lcoef y rep := by
  induction ts with
  | nil => simp [lcoef, vcoef, replaceLoopVariable]
  | cons t ts ih =>
    have : replaceLoopVariable (t :: ts) x rep =
        (if t.kind = .var ∧ t.x = x then rep.map (·.multiply t.val) else [t]) ++ replaceLoopVariable ts x rep := by
      simp [replaceLoopVariable]
    rw [this, lcoef_append, ih, lcoef, vcoef, Int.add_mul]
    split
    · rename_i h
      rw [lcoef_multiply]
      simp [h.1]; omega
    · simp [lcoef]; omega

theorem parse_lcoef (y : Nat) (e : E) : ∀ neg ts, parse e neg = some ts →
    lcoef y ts = (if neg then -1 else 1) * e.lenCoef y := by
  induction e with
  | const v => intro neg ts h; cases h; cases neg <;> simp [lcoef, signed, Term.valTerm, Term.negate, E.lenCoef]
  | var l x => intro neg ts h; cases h; cases neg <;> simp [lcoef, signed, Term.varTerm, Term.negate, E.lenCoef]
  | len l x =>
    intro neg ts h; cases h
    cases neg <;> by_cases hx : x = y <;> simp [lcoef, signed, Term.lenTerm, Term.negate, E.lenCoef, hx]
  | size l x =>
    intro neg ts h; cases h
    cases neg <;> by_cases hx : x = y <;> simp [lcoef, signed, Term.lenTerm, Term.negate, E.lenCoef, hx]
  | other => intro neg ts h; cases h
  | add a b iha ihb =>
    intro neg ts h
    simp only [parse, Option.bind_eq_bind, Option.bind_eq_some_iff, Option.pure_def, Option.some.injEq] at h
    obtain ⟨s, hs, t, ht, rfl⟩ := h
    rw [lcoef_append, iha _ _ hs, ihb _ _ ht, E.lenCoef, Int.mul_add]
  | sub a b iha ihb =>
    intro neg ts h
    simp only [parse, Option.bind_eq_bind, Option.bind_eq_some_iff, Option.pure_def, Option.some.injEq] at h
    obtain ⟨s, hs, t, ht, rfl⟩ := h
    rw [lcoef_append, iha _ _ hs, ihb _ _ ht, E.lenCoef]
    cases neg <;> simp <;> omega

theorem lsum_append (ℓ : Nat → Int) (a b : List Term) : lsum ℓ (a ++ b) = lsum ℓ a + lsum ℓ b := by
  simp only [lsum, tsum_append]; omega

theorem lsum_negate (ℓ : Nat → Int) (a : List Term) : lsum ℓ (a.map Term.negate) = - lsum ℓ a := by
  simp only [lsum, tsum_negate]; omega

/-- A comparison is right if no length is subtracted. -/
theorem lessCheck_le {a b : List Term} {strict : Bool} (h : lessCheck a b strict = true) (ρ ℓ : Nat → Int)
    (hℓ : ∀ y, 0 ≤ ℓ y) (hc : ∀ y, lcoef y a ≤ lcoef y b) :
    tsum ρ ℓ a + (if strict then 1 else 0) ≤ tsum ρ ℓ b := by
  have h1 := lessCheck_spec h ρ ℓ
  have h2 := lsum_nonneg ℓ hℓ _ (b ++ a.map Term.negate) (Nat.le_refl _) (fun y => by
    rw [lcoef_append, lcoef_negate]; have := hc y; omega)
  rw [lsum_append, lsum_negate] at h2
  omega

/-! ### Copies of the loop variable -/

/-- The loop variable and its copies. -/
def isLoopVar (L : Loop) (rd : RD) (loc x : Nat) : Bool := x == L.var || isAliasOfLoopVar L rd loc x

theorem lcoef_unalias (L : Loop) (rd : RD) (y : Nat) (ts : List Term) : lcoef y (ts.map (unalias L rd)) = lcoef y ts := by
  induction ts with
  | nil => rfl
  | cons t ts ih =>
    simp only [List.map_cons, lcoef, ih]
    congr 1
    unfold unalias
    split
    · rename_i h; simp [h.1]
    · rfl

theorem vcoef_append (x : Nat) (a b : List Term) : vcoef x (a ++ b) = vcoef x a + vcoef x b := by
  induction a with
  | nil => simp [vcoef]
  | cons t a ih => simp only [List.cons_append, vcoef, ih]; omega

theorem parse_vcoef (L : Loop) (rd : RD) (e : E) : ∀ neg ts, parse e neg = some ts →
    vcoef L.var (ts.map (unalias L rd)) = (if neg then -1 else 1) * e.varCoef (isLoopVar L rd) := by
  induction e with
  | const v => intro neg ts h; cases h; cases neg <;> simp [vcoef, signed, Term.valTerm, Term.negate, E.varCoef, unalias]
  | var l x =>
    intro neg ts h; cases h
    cases neg <;> by_cases hx : x = L.var <;> by_cases ha : isAliasOfLoopVar L rd l x = true <;>
      simp [vcoef, signed, Term.varTerm, Term.negate, E.varCoef, unalias, isLoopVar, hx, ha] <;>
      split <;> rfl
  | len l x => intro neg ts h; cases h; cases neg <;> simp [vcoef, signed, Term.lenTerm, Term.negate, E.varCoef, unalias]
  | size l x => intro neg ts h; cases h; cases neg <;> simp [vcoef, signed, Term.lenTerm, Term.negate, E.varCoef, unalias]
  | other => intro neg ts h; cases h
  | add a b iha ihb =>
    intro neg ts h
    simp only [parse, Option.bind_eq_bind, Option.bind_eq_some_iff, Option.pure_def, Option.some.injEq] at h
    obtain ⟨s, hs, t, ht, rfl⟩ := h
    rw [List.map_append, vcoef_append, iha _ _ hs, ihb _ _ ht, E.varCoef, Int.mul_add]
  | sub a b iha ihb =>
    intro neg ts h
    simp only [parse, Option.bind_eq_bind, Option.bind_eq_some_iff, Option.pure_def, Option.some.injEq] at h
    obtain ⟨s, hs, t, ht, rfl⟩ := h
    rw [List.map_append, vcoef_append, iha _ _ hs, ihb _ _ ht, E.varCoef]
    cases neg <;> simp <;> omega

/-- Replacing the copies by the loop variable changes nothing if they have its value. -/
theorem tsum_unalias (L : Loop) (rd : RD) (ρ ℓ : Nat → Int) (c : Int) (ts : List Term)
    (h : ∀ t ∈ ts, t.kind = .var → isAliasOfLoopVar L rd t.loc t.x = true → ρ t.x = c) (hc : ρ L.var = c) :
    tsum ρ ℓ (ts.map (unalias L rd)) = tsum ρ ℓ ts := by
  induction ts with
  | nil => rfl
  | cons t ts ih =>
    simp only [List.map_cons, tsum]
    rw [ih fun u hu => h u (List.mem_cons_of_mem _ hu)]
    congr 1
    unfold unalias
    split
    · rename_i hk
      have := h t (List.mem_cons_self ..) hk.1 hk.2
      simp [tval, hk.1, this, hc]
    · rfl

end Codon.Bounds
