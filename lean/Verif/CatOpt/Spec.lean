import Verif.CatOpt.Model

/-!
# What the rewritten programs must satisfy

Well-typed values, programs in which `__add__` of strings is that of `str`, and rewriting steps anywhere in an
expression.
-/

namespace Codon.CatOpt

open Codon.Str (Str)

/-- The rest of the program respects the types: what has the type `str` evaluates to a string. -/
def Sem.Typed (S : Sem) : Prop :=
  (∀ n w v w', S.leaf n .str w = (.ok v, w') → ∃ s, v = .str s) ∧
  (∀ n name vs w v w', S.fn n name .str vs w = (.ok v, w') → ∃ s, v = .str s)

/-- The type of a call of a known function. -/
def Fn.hasType : Fn → Ty → Prop
  | .strAdd, ty => ty = .str
  | .strCat, ty => ty = .str
  | .tupleNew, ty => ty = .tuple
  | .print, ty => ty = .other
  | .write, ty => ty = .other
  | .writeGen, ty => ty = .other
  | .user _ _, _ => True

mutual
def WT : E → Prop
  | .leaf _ _ => True
  | .call f ty args => f.hasType ty ∧ WTL args
def WTL : EL → Prop
  | .nil => True
  | .cons e l => WT e ∧ WTL l
end

mutual
/-- No function of the user's own is called `__add__`. -/
def OwnAdd : E → Prop
  | .leaf _ _ => True
  | .call f _ args => (∀ n, f ≠ .user n "__add__") ∧ OwnAddL args
def OwnAddL : EL → Prop
  | .nil => True
  | .cons e l => OwnAdd e ∧ OwnAddL l
end

/-- Two values do the same: same result or exception, same world, from every world. -/
def Same (S : Sem) (e e' : E) : Prop := ∀ w, eval S e w = eval S e' w

/-- A value whose evaluation gives a string and changes nothing. -/
def Quiet (S : Sem) (e : E) : Prop := ∀ w, ∃ s, eval S e w = (.ok (.str s), w)

def EL.toList : EL → List E
  | .nil => []
  | .cons e l => e :: l.toList

/-- A call of `Tuple.__new__` with string arguments. -/
def TupleOfStrings (e : E) : Prop :=
  ∃ args, e = .call .tupleNew .tuple args ∧ WTL args ∧ ∀ a ∈ args.toList, a.ty = .str

mutual
/-- One rewriting anywhere in a value.  The conditions are those under which it is proved harmless. -/
inductive Step (S : Sem) : E → E → Prop
  | add {e} : WT e → OwnAdd e → Step S e (handleAdd e)
  | print {empty ty gty cty tup sep rest} : (∀ w, eval S empty w = (.ok (.str []), w)) → Quiet S sep →
      TupleOfStrings tup →
      Step S (.call .print ty (.cons (.call .tupleNew gty (.cons (.call .strCat cty (.cons tup .nil)) .nil)) (.cons sep rest)))
        (handlePrint empty (.call .print ty
          (.cons (.call .tupleNew gty (.cons (.call .strCat cty (.cons tup .nil)) .nil)) (.cons sep rest))))
  | write {ty file cty tup} : TupleOfStrings tup → tup ≠ .call .tupleNew .tuple .nil →
      Step S (.call .write ty (.cons file (.cons (.call .strCat cty (.cons tup .nil)) .nil)))
        (handleWrite (.call .write ty (.cons file (.cons (.call .strCat cty (.cons tup .nil)) .nil))))
  | arg {f ty l l'} : StepL S l l' → Step S (.call f ty l) (.call f ty l')
inductive StepL (S : Sem) : EL → EL → Prop
  | head {e e' l} : Step S e e' → StepL S (.cons e l) (.cons e' l)
  | tail {e l l'} : StepL S l l' → StepL S (.cons e l) (.cons e l')
end

end Codon.CatOpt
