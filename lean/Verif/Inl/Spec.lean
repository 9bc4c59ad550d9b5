import Verif.Inl.Model

/-! # What inlining has to respect, and when -/

namespace Codon.Inl

variable {V W X : Type}

mutual
/-- `q` holds for an instruction and all of its parts. -/
def S.All (q : S V → Prop) : S V → Prop
  | .series l => q (.series l) ∧ l.All q
  | .ite c a b => q (.ite c a b) ∧ a.All q ∧ b.All q
  | .loop id c b => q (.loop id c b) ∧ b.All q
  | .catch a h => q (.catch a h) ∧ a.All q ∧ h.All q
  | .fin a f => q (.fin a f) ∧ a.All q ∧ f.All q
  | s => q s
def SL.All (q : S V → Prop) : SL V → Prop
  | .nil => True
  | .cons s l => s.All q ∧ l.All q
end

/-- There is no `return` in it. -/
def S.NoRet (s : S V) : Prop := s.All fun t => ∀ e, t ≠ .ret e

mutual
/-- A `return` can only be the last thing: it ends the series, or a series that ends it, and so on. -/
def S.TailRet : S V → Prop
  | .ret _ => True
  | .series l => l.TailRet
  | s => s.NoRet
def SL.TailRet : SL V → Prop
  | .nil => True
  | .cons s .nil => s.TailRet
  | .cons s l => s.NoRet ∧ l.TailRet
end

/-- The returns have a value if the function has one, and no value with an effect if not. -/
def RetOk (M : Sem V W X) (void : Bool) (t : S V) : Prop :=
  ∀ e, t = .ret e →
    match e with
    | none => void = true
    | some e => void = true → ∀ σ w, ∃ v, eval M σ e w = (.ok v, w)

/-- The number of the implicit loop is new. -/
def LoopNew (lid : Nat) (t : S V) : Prop := t ≠ .brk lid ∧ t ≠ .cont lid ∧ ∀ c b, t ≠ .loop lid c b

/-- No `return` in a `finally` part. -/
def FinOk (t : S V) : Prop := ∀ a f, t = .fin a f → f.NoRet

def Good (M : Sem V W X) (void : Bool) (lid : Nat) (t : S V) : Prop := RetOk M void t ∧ LoopNew lid t ∧ FinOk t

/-- The variable occurs in the expression. -/
def E.Has (y : Nat) : E V → Prop
  | .var x => x = y
  | .con _ => False
  | .prim _ a b => a.Has y ∨ b.Has y

/-- Variables that are not made by inlining keep their values. -/
def Keeps (ρ : Nat → Nat) (r : Nat) (σ σ' : Store V) : Prop := ∀ y, (∀ x, ρ x ≠ y) → y ≠ r → σ' y = σ y

/-- The call is not an evaluation that ends by falling off the end of the body. -/
def NoFall (M : Sem V W X) (n : Nat) (f : Fn V) (args : List (E V)) (σ : Store V) (w : W) : Prop :=
  ∀ vs w₀ φ w₁, evalArgs M σ args w = (.ok vs, w₀) →
    exec M n (.series f.body) (frame f.params vs) w₀ ≠ some (.normal, φ, w₁)

/-- Running `t` does what the call did: the same effects and the same exception or value. -/
def DoesCall (M : Sem V W X) (ρ : Nat → Nat) (r : Nat) (void : Bool) (t : S V) (σ : Store V) (w : W) (res : R V X)
    (w' : W) : Prop :=
  ∃ m σ', Keeps ρ r σ σ' ∧
    match res with
    | .ok v => exec M m t σ w = some (.normal, σ', w') ∧ (void = false → σ' r = some v)
    | .exc x => exec M m t σ w = some (.exc x, σ', w')
    | .ub => True

end Codon.Inl
