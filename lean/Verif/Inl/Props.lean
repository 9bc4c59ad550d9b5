import Verif.Inl.Back

/-!
# C87: inlining a call does not change what the program does

A call that was inlined (`inlineFunction`, with or without `aggressive`) has the effects, the value and the exception of the
call, and the variables of the caller keep their values.
-/

namespace Codon.Inl

variable {V W X : Type}

/-- The part that holds: functions that return a value do not end without `return`, functions that return none have no effects
in the values of their returns, there is no `return` in a `finally` part, and the arguments do not use the parameters of the
function (so the call is not in the function itself). `ρ` and `r` are the variables made by inlining, `lid` is the implicit
loop. -/
theorem c87_inline_partial (M : Sem V W X) (ρ : Nat → Nat) (r lid : Nat) (tv : V) (aggressive : Bool) (f : Fn V)
    (args : List (E V)) (t : S V) (n : Nat) (σ : Store V) (w : W) (res : R V X) (w' : W)
    (htv : M.truth tv = true)
    (hin : inlineFn ρ r lid tv aggressive f args = some t)
    (hρ : ∀ x y, ρ x = ρ y → x = y) (hr : ∀ x, ρ x ≠ r)
    (hnd : f.params.Nodup)
    (hargs : ∀ a ∈ args, ∀ x, a.Has x → x ∉ f.params ∧ ∀ y, ρ y ≠ x)
    (hgood : (S.series f.body).All (Good M f.void lid))
    (hfall : f.void = false → NoFall M n f args σ w)
    (hcall : callFn M n f args σ w = some (res, w')) (hub : res ≠ .ub) :
    DoesCall M ρ r f.void t σ w res w' := by
  unfold inlineFn at hin
  by_cases hlen : args.length ≠ f.params.length
  · simp [hlen] at hin
  rw [if_neg hlen] at hin
  have hlen := Decidable.not_not.mp hlen
  have hkeep : ∀ σ' : Store V, (∀ y, (∀ x ∈ f.params, ρ x ≠ y) → σ' y = σ y) → Keeps ρ r σ σ' :=
    fun σ' h y hy _ => h y fun x _ => hy x
  have trans : ∀ σ₁ σ₂ : Store V, Keeps ρ r σ σ₁ → Keeps ρ r σ₁ σ₂ → Keeps ρ r σ σ₂ :=
    fun σ₁ σ₂ h1 h2 y hy hyr => (h2 y hy hyr).trans (h1 y hy hyr)
  have bs := fun (rest : SL V) (F : Nat) q w' => bind_sim M hρ σ rest F [] f.params args σ w w' q hlen hnd
    (fun a ha x hx => ⟨by simp, hargs a ha x hx⟩) (fun _ _ => rfl)
  simp only [needL_ren] at hin
  -- the rest of the flow does what the body does
  obtain ⟨rest, F, ht, hrest⟩ : ∃ (rest : SL V) (F : Nat), t = .series (bindArgs ρ [] f.params args rest) ∧
      ∀ (φ σ₁ : Store V) (w₀ : W) (o : Flow V X) (φ' : Store V) (w₁ : W),
        exec M n (.series f.body) φ w₀ = some (o, φ', w₁) → o ≠ .ub → (∀ i, o ≠ .brk i) → (∀ i, o ≠ .cont i) →
        (f.void = false → o ≠ .normal) → Le ρ φ σ₁ →
        ∃ σ₂, exec M (F + 1) (.series rest) σ₁ w₀ = some (tr' o, σ₂, w₁) ∧ PostT ρ r f.void o σ₁ σ₂ := by
    by_cases hneed : f.body.need true = true
    · rw [hneed] at hin
      cases aggressive with
      | false => simp at hin
      | true =>
        simp at hin
        refine ⟨_, n + 4, hin.symm, ?_⟩
        intro φ σ₁ w₀ o φ' w₁ h hu hb hc hn hl
        obtain ⟨σ₂, e, p⟩ := sim M (void := f.void) (lid := lid) hρ hr n (.series f.body) φ σ₁ w₀ o φ' w₁ hgood h hu hl
        simp only [S.ren, S.repl, retVar] at e
        refine ⟨σ₂, ?_, p.keep, p.res⟩
        rw [exec_cons]
        have hloop : exec M (n + 4) (.loop lid (.con tv) (.series (.cons (.series ((f.body.ren ρ).repl
            (if f.void then none else some r) (some lid))) (if f.void then .cons (.brk lid) .nil else .nil)))) σ₁ w₀ =
            some (tr' o, σ₂, w₁) := by
          rw [show n + 4 = (n + 3) + 1 from rfl]
          unfold exec
          simp only [eval, htv, if_true]
          rw [show n + 3 = (n + 2) + 1 from rfl, exec_cons, e]
          cases o with
          | ub => exact absurd rfl hu
          | brk i => exact absurd rfl (hb i)
          | cont i => exact absurd rfl (hc i)
          | exc x => rfl
          | ret v => simp [tr, tr']
          | normal =>
            cases hv : f.void with
            | false => exact absurd rfl (hn hv)
            | true => simp [tr, tr', exec]
        rw [hloop]
        cases o with
        | ub => exact absurd rfl hu
        | brk i => exact absurd rfl (hb i)
        | cont i => exact absurd rfl (hc i)
        | exc x => rfl
        | ret v => rfl
        | normal => rfl
    · have hneed : f.body.need true = false := by simpa using hneed
      rw [hneed] at hin
      simp at hin
      refine ⟨_, n + 2, hin.symm, ?_⟩
      intro φ σ₁ w₀ o φ' w₁ h hu hb hc hn hl
      obtain ⟨σ₂, e, p⟩ := simT M (void := f.void) (lid := lid) hρ hr n (.series f.body) φ σ₁ w₀ o φ' w₁ hgood hneed h hu hl
      simp only [S.ren, S.repl, retVar] at e
      refine ⟨σ₂, ?_, p⟩
      rw [exec_cons, e]
      cases o with
      | ub => exact absurd rfl hu
      | brk i => exact absurd rfl (hb i)
      | cont i => exact absurd rfl (hc i)
      | exc x => rfl
      | ret v => rfl
      | normal => rfl
  subst ht
  unfold callFn at hcall
  cases hea : evalArgs M σ args w with
  | mk q w₀ =>
    rw [hea] at hcall
    obtain ⟨σ₁, k₁, b₁⟩ := bs rest F q w₀ hea
    cases q with
    | ub => simp at hcall; exact absurd hcall.1.symm hub
    | exc x =>
      simp at hcall
      obtain ⟨rfl, rfl⟩ := hcall
      exact ⟨_, σ₁, hkeep σ₁ k₁, b₁⟩
    | ok vs =>
      simp only at hcall
      obtain ⟨b₁, l₁⟩ := b₁
      cases hbody : exec M n (.series f.body) (frame f.params vs) w₀ with
      | none => rw [hbody] at hcall; simp at hcall
      | some q =>
        obtain ⟨o, φ', w₁⟩ := q
        rw [hbody] at hcall
        have hn : f.void = false → o ≠ .normal := fun hv e => hfall hv vs w₀ φ' w₁ hea (by rw [hbody, e])
        have hr := hrest (frame f.params vs) σ₁ w₀ o φ' w₁ hbody
        cases o with
        | ub => simp at hcall; exact absurd hcall.1.symm hub
        | brk i => simp at hcall; exact absurd hcall.1.symm hub
        | cont i => simp at hcall; exact absurd hcall.1.symm hub
        | exc x =>
          simp at hcall
          obtain ⟨rfl, rfl⟩ := hcall
          obtain ⟨σ₂, e₂, p₂⟩ := hr (by simp) (by simp) (by simp) hn l₁
          exact ⟨_, σ₂, trans _ _ (hkeep σ₁ k₁) p₂.keep, b₁.trans e₂⟩
        | normal =>
          obtain ⟨σ₂, e₂, p₂⟩ := hr (by simp) (by simp) (by simp) hn l₁
          simp at hcall
          obtain ⟨rfl, rfl⟩ := hcall
          exact ⟨_, σ₂, trans _ _ (hkeep σ₁ k₁) p₂.keep, b₁.trans e₂, fun hv => absurd rfl (hn hv)⟩
        | ret v =>
          obtain ⟨σ₂, e₂, p₂⟩ := hr (by simp) (by simp) (by simp) hn l₁
          refine ⟨F + f.params.length + 1, σ₂, trans _ _ (hkeep σ₁ k₁) p₂.keep, ?_⟩
          cases v with
          | none =>
            simp at hcall
            obtain ⟨rfl, rfl⟩ := hcall
            exact ⟨b₁.trans e₂, fun hv => by obtain ⟨u, hu, _⟩ := p₂.res none rfl hv; simp at hu⟩
          | some v =>
            simp at hcall
            obtain ⟨rfl, rfl⟩ := hcall
            exact ⟨b₁.trans e₂, fun hv => by obtain ⟨u, hu, hru⟩ := p₂.res (some v) rfl hv; simp at hu; rw [hu]; exact hru⟩

/-- If the inlined call ends, so does the call. With `c87_inline_partial`: where both apply, one ends if and only if the
other does. -/
theorem c87_ends_partial (M : Sem V W X) (ρ : Nat → Nat) (r lid : Nat) (tv : V) (aggressive : Bool) (f : Fn V)
    (args : List (E V)) (t : S V) (m : Nat) (σ : Store V) (w : W) (q : Flow V X × Store V × W)
    (htv : M.truth tv = true)
    (hin : inlineFn ρ r lid tv aggressive f args = some t)
    (hρ : ∀ x y, ρ x = ρ y → x = y) (hr : ∀ x, ρ x ≠ r)
    (hnd : f.params.Nodup)
    (hargs : ∀ a ∈ args, ∀ x, a.Has x → x ∉ f.params ∧ ∀ y, ρ y ≠ x)
    (hgood : (S.series f.body).All (Good M f.void lid))
    (hend : exec M m t σ w = some q) :
    ∃ n res w', callFn M n f args σ w = some (res, w') := by
  unfold inlineFn at hin
  by_cases hlen : args.length ≠ f.params.length
  · simp [hlen] at hin
  rw [if_neg hlen] at hin
  have hlen := Decidable.not_not.mp hlen
  simp only [needL_ren] at hin
  have bs := fun (rest : SL V) (F : Nat) q w' => bind_sim M hρ σ rest F [] f.params args σ w w' q hlen hnd
    (fun a ha x hx => ⟨by simp, hargs a ha x hx⟩) (fun _ _ => rfl)
  cases hea : evalArgs M σ args w with
  | mk qa w₀ =>
    cases qa with
    | ub => exact ⟨0, .ub, w₀, by simp [callFn, hea]⟩
    | exc x => exact ⟨0, .exc x, w₀, by simp [callFn, hea]⟩
    | ok vs =>
      by_cases hdone : ∃ n p, exec M n (.series f.body) (frame f.params vs) w₀ = some p
      · obtain ⟨n, ⟨o, φ', w₁⟩, hb⟩ := hdone
        refine ⟨n, ?_⟩
        unfold callFn
        rw [hea]
        simp only
        rw [hb]
        cases o with
        | ret v => cases v <;> exact ⟨_, _, rfl⟩
        | _ => exact ⟨_, _, rfl⟩
      · exfalso
        have hnone : ∀ n, exec M n (.series f.body) (frame f.params vs) w₀ = none := fun n => by
          cases hb : exec M n (.series f.body) (frame f.params vs) w₀ with
          | none => rfl
          | some p => exact absurd ⟨n, p, hb⟩ hdone
        obtain ⟨rest, ht, hrest⟩ : ∃ (rest : SL V), t = .series (bindArgs ρ [] f.params args rest) ∧
            ∀ (σ₁ : Store V), Le ρ (frame f.params vs) σ₁ → exec M (m + 1) (.series rest) σ₁ w₀ = none := by
          by_cases hneed : f.body.need true = true
          · rw [hneed] at hin
            cases aggressive with
            | false => simp at hin
            | true =>
              simp at hin
              refine ⟨_, hin.symm, ?_⟩
              intro σ₁ hl
              have hbk := fun i => back M (void := f.void) (lid := lid) hρ hr i (.series f.body) _ σ₁ w₀ hgood hl (hnone i)
              simp only [S.ren, S.repl, retVar] at hbk
              rw [exec_cons]
              cases m with
              | zero => rfl
              | succ j =>
                unfold exec
                simp only [eval, htv, if_true]
                cases j with
                | zero => rfl
                | succ i => rw [exec_cons, hbk i]
          · have hneed : f.body.need true = false := by simpa using hneed
            rw [hneed] at hin
            simp at hin
            refine ⟨_, hin.symm, ?_⟩
            intro σ₁ hl
            have hbk := backT M (void := f.void) (lid := lid) hρ hr m (.series f.body) _ σ₁ w₀ hgood hneed hl (hnone m)
            simp only [S.ren, S.repl, retVar] at hbk
            rw [exec_cons, hbk]
        subst ht
        obtain ⟨σ₁, -, b₁, l₁⟩ := bs rest m (.ok vs) w₀ hea
        rw [hrest σ₁ l₁] at b₁
        rw [exec_ge M hend (by omega)] at b₁
        exact absurd b₁ (by simp)

/-- Without `aggressive` a call is left alone exactly if a `return` is not the last thing the body does. -/
theorem c87_not_aggressive (ρ : Nat → Nat) (r lid : Nat) (tv : V) (f : Fn V) (args : List (E V))
    (hlen : args.length = f.params.length) :
    (∃ t, inlineFn ρ r lid tv false f args = some t) ↔ f.body.TailRet := by
  rw [← needL_tail]
  unfold inlineFn
  rw [if_neg (by simp [hlen])]
  simp only [needL_ren]
  cases hn : f.body.need true <;> simp

/-- With `aggressive` every call with the right number of arguments is inlined. -/
theorem c87_aggressive (ρ : Nat → Nat) (r lid : Nat) (tv : V) (f : Fn V) (args : List (E V)) :
    (∃ t, inlineFn ρ r lid tv true f args = some t) ↔ args.length = f.params.length := by
  unfold inlineFn
  by_cases h : args.length = f.params.length
  · rw [if_neg (by simp [h])]
    simp only [needL_ren]
    cases hn : f.body.need true <;> simp [h]
  · rw [if_pos h]; simp [h]

/-! ## Cases -/

/-- Numbers; primitive 0 adds, 1 prints its first operand, all others fail. -/
def demo : Sem Int (List Int) Nat where
  prim p a b w := if p = 0 then (.ok (a + b), w) else if p = 1 then (.ok 0, a :: w) else (.error p, w)
  truth v := v != 0
  null := 0

/-- The clones are the even numbers from 100, the result is variable 99, the implicit loop is 7. -/
def clones (x : Nat) : Nat := 100 + 2 * x

def sl : List (S Int) → SL Int
  | [] => .nil
  | s :: l => .cons s (sl l)

/-- What the inlined call `t` does from `σ`: how it ends, the result variable, what it printed. -/
def runs (n : Nat) (t : Option (S Int)) (σ : Store Int) : Option (Bool × Option Int × List Int) := do
  match ← exec demo n (← t) σ [] with
  | (.normal, σ', w) => some (true, σ' 99, w)
  | (_, σ', w) => some (false, σ' 99, w)

/-- What the call does. -/
def calls (n : Nat) (f : Fn Int) (args : List (E Int)) (σ : Store Int) : Option (Option Int × List Int) := do
  match ← callFn demo n f args σ [] with
  | (.ok v, w) => some (some v, w)
  | (_, w) => some (none, w)

/-- `def f(a, b): if a: print(b); return a + b` and then `return b`. -/
def early : Fn Int where
  params := [0, 1]
  body := sl [.ite (.var 0) (.series (sl [.expr (.prim 1 (.var 1) (.con 0)), .ret (some (.prim 0 (.var 0) (.var 1)))])) (.series .nil),
    .ret (some (.var 1))]
  void := false

def caller : Store Int := fun x => if x = 10 then some 5 else if x = 11 then some 8 else none

example : inlineFn clones 99 7 1 false early [.var 10, .var 11] = none := by rfl
example : calls 9 early [.var 10, .var 11] caller = some (some 13, [8]) ∧
    runs 15 (inlineFn clones 99 7 1 true early [.var 10, .var 11]) caller = some (true, some 13, [8]) := by
  constructor <;> rfl

/-- The hypotheses of `c87_inline_partial` hold for it. -/
example : DoesCall demo clones 99 false
    (((inlineFn clones 99 7 1 true early [.var 10, .var 11])).getD (.brk 0)) caller [] (.ok 13) [8] := by
  refine c87_inline_partial demo clones 99 7 1 true early [.var 10, .var 11] _ 9 caller [] (.ok 13) [8] rfl rfl
    (fun x y h => by simp only [clones] at h; omega) (fun x => by simp only [clones]; omega) (by decide) ?_ ?_ ?_ rfl (by simp)
  · intro a ha x hx
    simp only [early, clones]
    rcases List.mem_cons.mp ha with rfl | ha
    · cases hx; exact ⟨by decide, by omega⟩
    · rcases List.mem_cons.mp ha with rfl | ha
      · cases hx; exact ⟨by decide, by omega⟩
      · cases ha
  · simp [early, sl, S.All, SL.All, Good, RetOk, LoopNew, FinOk]
  · intro _ vs w₀ φ w₁ h
    cases h
    intro h
    cases h

/-- A void function with a tail return, in a series in the series. -/
example : calls 9 ⟨[0], sl [.expr (.prim 1 (.var 0) (.con 0)), .series (sl [.ret none])], true⟩ [.var 11] caller = some (some 0, [8]) ∧
    runs 9 (inlineFn clones 99 7 1 false ⟨[0], sl [.expr (.prim 1 (.var 0) (.con 0)), .series (sl [.ret none])], true⟩ [.var 11]) caller =
      some (true, none, [8]) := by
  constructor <;> rfl

/-! ## Where it fails -/

/-- A call of `f` in `f`: the second argument of `f(b, a)` is taken for the new first parameter, so `f(b, a)` is `f(b, b)`. -/
theorem c87_violation_recursive :
    calls 9 ⟨[0, 1], sl [.ret (some (.var 1))], false⟩ [.var 1, .var 0] (fun x => some (x * 10 + 10)) = some (some 10, []) ∧
    runs 9 (inlineFn clones 99 7 1 false ⟨[0, 1], sl [.ret (some (.var 1))], false⟩ [.var 1, .var 0]) (fun x => some (x * 10 + 10)) =
      some (true, some 20, []) := by
  constructor <;> rfl

/-- `f(n + 1)` in `f(n)`: the new parameter is read before it is set. -/
theorem c87_violation_self :
    callFn demo 9 ⟨[0], sl [.ret (some (.var 0))], false⟩ [.prim 0 (.var 0) (.con 1)] (Store.set (fun _ => none) 0 4) [] =
      some (.ok 5, []) ∧
    ∃ t, inlineFn clones 99 7 1 false ⟨[0], sl [.ret (some (.var 0))], false⟩ [.prim 0 (.var 0) (.con 1)] = some t ∧
      exec demo 9 t (Store.set (fun _ => none) 0 4) [] = some (.ub, Store.set (fun _ => none) 0 4, []) := by
  exact ⟨rfl, _, rfl, rfl⟩

/-- `return print(5)` in a function that returns `None`: nothing is printed. -/
theorem c87_violation_none :
    calls 9 ⟨[], sl [.ret (some (.prim 1 (.con 5) (.con 0)))], true⟩ [] (fun _ => none) = some (some 0, [5]) ∧
    runs 9 (inlineFn clones 99 7 1 false ⟨[], sl [.ret (some (.prim 1 (.con 5) (.con 0)))], true⟩ []) (fun _ => none) =
      some (true, none, []) := by
  constructor <;> rfl

/-- `def f(a): if a: return 1`, which gives 0 if `a` is false. -/
def half : Fn Int where
  params := [0]
  body := sl [.ite (.var 0) (.ret (some (.con 1))) (.series .nil)]
  void := false

/-- The end of a function that returns a value: the call gives the null value, the inlined call never ends. -/
theorem c87_violation_end :
    calls 9 half [.con 0] (fun _ => none) = some (some 0, []) ∧
    ∃ t, inlineFn clones 99 7 1 true half [.con 0] = some t ∧ ∀ m, exec demo m t (fun _ => none) [] = none := by
  refine ⟨rfl, _, rfl, ?_⟩
  have body : ∀ m (σ : Store Int), σ 100 = some 0 →
      exec demo m (.series (sl [.series (sl [.ite (.var 100) (.series (sl [.assign 99 (.con 1), .brk 7])) (.series .nil)])])) σ [] = none ∨
      exec demo m (.series (sl [.series (sl [.ite (.var 100) (.series (sl [.assign 99 (.con 1), .brk 7])) (.series .nil)])])) σ [] =
        some (.normal, σ, []) := by
    intro m σ h
    match m with
    | 0 => exact Or.inl rfl
    | 1 => exact Or.inl rfl
    | 2 => exact Or.inl rfl
    | 3 => left; simp [exec, sl, eval, h]
    | m + 4 => right; simp [exec, sl, eval, h, demo]
  have loop : ∀ m (σ : Store Int), σ 100 = some 0 → exec demo m (.loop 7 (.con 1)
      (.series (sl [.series (sl [.ite (.var 100) (.series (sl [.assign 99 (.con 1), .brk 7])) (.series .nil)])]))) σ [] = none := by
    intro m
    induction m with
    | zero => intro σ h; rfl
    | succ m ih =>
      intro σ h
      unfold exec
      simp only [eval]
      rw [if_pos (show demo.truth 1 = true from rfl)]
      rcases body m σ h with e | e
      · rw [e]
      · rw [e]; exact ih σ h
  intro m
  match m with
  | 0 => rfl
  | 1 => rfl
  | m + 2 =>
    have h := loop m (Store.set (fun _ => none) 100 0) rfl
    show exec demo (m + 1 + 1) (.series (sl [.assign 100 (.con 0), .loop 7 (.con 1)
      (.series (sl [.series (sl [.ite (.var 100) (.series (sl [.assign 99 (.con 1), .brk 7])) (.series .nil)])]))])) _ [] = none
    simp only [sl] at h ⊢
    have h1 : exec demo (m + 1) (.assign 100 (.con 0)) (fun _ => none) [] = some (.normal, Store.set (fun _ => none) 100 0, []) := rfl
    rw [exec_cons, h1]
    simp only
    rw [exec_cons, h]

end Codon.Inl
