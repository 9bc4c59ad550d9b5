import Verif.Unify.Model
/-!
# Specification vocabulary for unification

What the links of a heap mean, independently of the algorithm.
-/
namespace Codon.Unify

/-- Which cells are links, and to what. -/
abbrev Kinds := Nat → Kind

def kinds (h : Heap) : Kinds := fun a => (h a).kind

/-- `t` with all links followed is `r`.  A type without such an `r` is cyclic. -/
inductive Res (k : Kinds) : Ty → Ty → Prop
  | var {a} : k a = .unbound → Res k (.link a) (.link a)
  | gen {a} : k a = .generic → Res k (.link a) (.link a)
  | fol {a t r} : k a = .link t → Res k t r → Res k (.link a) r
  | lit {v} : Res k (.lit v) (.lit v)
  | cls {n gs hs rg rh} : Res k gs rg → Res k hs rh → Res k (.cls n gs hs) (.cls n rg rh)
  | nil : Res k .nil .nil
  | cons {t ts r rs} : Res k t r → Res k ts rs → Res k (.cons t ts) (.cons r rs)

/-- Every type can be followed to its end. -/
def Acyclic (k : Kinds) : Prop := ∀ t, ∃ r, Res k t r

/-- The cell `b` is met when following `t`. -/
inductive Reach (k : Kinds) : Ty → Nat → Prop
  | here {a} : Reach k (.link a) a
  | fol {a t b} : k a = .link t → Reach k t b → Reach k (.link a) b
  | gs {n gs hs b} : Reach k gs b → Reach k (.cls n gs hs) b
  | hs {n gs hs b} : Reach k hs b → Reach k (.cls n gs hs) b
  | hd {t ts b} : Reach k t b → Reach k (.cons t ts) b
  | tl {t ts b} : Reach k ts b → Reach k (.cons t ts) b

/-- The class `int`, or an integer literal type. -/
def IsInt (t : Ty) : Prop := (∃ gs hs, t = .cls "int" gs hs) ∨ ∃ v, t = .lit (.int v)

/-- Two followed types are the same, where a literal type counts as its class, `int` as `Int[64]`, and
generics are compared by their number. -/
inductive Sim (k : Kinds) (ids : Nat → Int) : Ty → Ty → Prop
  | link {a} : Sim k ids (.link a) (.link a)
  | gen {a b} : k a = .generic → k b = .generic → ids a = ids b → Sim k ids (.link a) (.link b)
  | lit {v} : Sim k ids (.lit v) (.lit v)
  | litCls {v} : Sim k ids (.lit v) (.cls v.name .nil .nil)
  | clsLit {v} : Sim k ids (.cls v.name .nil .nil) (.lit v)
  | int1 {t g gs hs} : IsInt t → Sim k ids g (.lit (.int 64)) → Sim k ids t (.cls "Int" (.cons g gs) hs)
  | int2 {t g gs hs} : IsInt t → Sim k ids g (.lit (.int 64)) → Sim k ids (.cls "Int" (.cons g gs) hs) t
  | cls {n gs hs gs' hs'} : Sim k ids gs gs' → Sim k ids hs hs' → Sim k ids (.cls n gs hs) (.cls n gs' hs')
  | nil : Sim k ids .nil .nil
  | cons {t ts u us} : Sim k ids t u → Sim k ids ts us → Sim k ids (.cons t ts) (.cons u us)

/-- A type without variables. -/
def Closed : Ty → Prop
  | .link _ => False
  | .lit _ => True
  | .cls _ gs hs => Closed gs ∧ Closed hs
  | .nil => True
  | .cons t ts => Closed t ∧ Closed ts

/-- The hidden generics are without variables. -/
def HiddenClosed : Ty → Prop
  | .cls _ gs hs => HiddenClosed gs ∧ Closed hs
  | .cons t ts => HiddenClosed t ∧ HiddenClosed ts
  | _ => True

/-- The heaps considered. -/
structure WF (h : Heap) : Prop where
  /-- different variables have different numbers -/
  ids : ∀ a b, (h a).kind = .unbound → (h b).kind = .unbound → (h a).id = (h b).id → a = b
  /-- traits are without variables -/
  traits : ∀ a t, (h a).trait = some t → Closed t
  /-- hidden generics are without variables -/
  hidden : ∀ a t, (h a).kind = .link t → HiddenClosed t

/-- A variable that a linked variable stands for or contains does not have a higher level. -/
def LevelsOk (h : Heap) : Prop :=
  ∀ a t b, (h a).kind = .link t → Reach (kinds h) t b → (h b).kind = .unbound → (h b).level ≤ (h a).level

end Codon.Unify
