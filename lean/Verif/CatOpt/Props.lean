import Verif.CatOpt.Lemmas
import Mathlib.Logic.Relation

/-!
# C81: the optimisations of string concatenation do not change what the program does
-/

namespace Codon.CatOpt

open Codon.Str (Str)

/-- Replacing a sum of strings by one `str.cat` keeps the value, the exceptions, the effects of the operands and
their order.  Missing: sums whose `__add__` is a function of the user's own, for which this is false
(`c81_violation_user_add`). -/
theorem c81_add_partial (S : Sem) (hS : S.Typed) (e : E) (hw : WT e) (ho : OwnAdd e) : Same S (handleAdd e) e :=
  same_handleAdd hS e hw ho

/-- Every sum of `n > 2` operands that are not themselves sums is rewritten, whatever the bracketing: the result
is `str.cat` of the operands in order. -/
theorem c81_add_flat (e : E) (l : List E) (h : inspect e = some l) (hl : l.length > 2) : handleAdd e = mkCat l := by
  match e with
  | .leaf n ty =>
    rw [inspect] at h
    · by_cases ht : isString (.leaf n ty)
      · rw [if_pos ht] at h; cases h; exact absurd hl (by simp)
      · rw [if_neg ht] at h; cases h
    · intro _ _ _ _ h'; cases h'
  | .call f ty args =>
    rw [handleAdd]
    by_cases hf : f.name = "__add__"
    · rw [if_neg (by simp [hf]), h]
      simp only []
      rw [if_pos hl]
    · exfalso
      have : l = [.call f ty args] ∨ inspect (.call f ty args) = none := by
        match args with
        | .cons a (.cons b .nil) =>
          rw [inspect] at h ⊢
          by_cases ht : ty = .str
          · rw [if_pos ht, if_neg (fun hc => hf hc.1)] at h
            cases h; exact Or.inl rfl
          · rw [if_neg ht]; exact Or.inr rfl
        | .nil =>
          rw [inspect] at h
          · split at h
            · cases h; exact Or.inl rfl
            · cases h
          · intro _ _ _ _ h'; cases h'
        | .cons a .nil =>
          rw [inspect] at h
          · split at h
            · cases h; exact Or.inl rfl
            · cases h
          · intro _ _ _ _ h'; cases h'
        | .cons a (.cons b (.cons c r)) =>
          rw [inspect] at h
          · split at h
            · cases h; exact Or.inl rfl
            · cases h
          · intro _ _ _ _ h'; cases h'
      rcases this with h' | h'
      · subst h'; exact absurd hl (by simp)
      · rw [h'] at h; cases h

theorem printLoop_sep (S : Sem) (sep : Str) (f : Nat) : ∀ (l : List Val) (i : Nat) (w : World),
    printLoop S sep f l (i + 1) w = w.print f (l.map fun a => sep ++ toStr S a).flatten
  | [], _, w => by simp [printLoop, World.print_nil]
  | a :: l, i, w => by
    rw [printLoop]
    by_cases h : sep = []
    · subst h
      rw [if_neg (by simp), printLoop_sep S [] f l, World.print_print]
      simp
    · rw [if_pos ⟨by omega, h⟩, printLoop_sep S sep f l, World.print_print, World.print_print]
      simp

/-- What `print` itself writes (the program that the optimisation must agree with): the texts of the values, the
separator between two of them, and the end. -/
theorem c81_print_text (S : Sem) (l : List Val) (sep end_ : Str) (f : Nat) (x : Val) (w : World) :
    applyPrint S [.tuple l, .str sep, .str end_, .file f, x] w =
      (.ok (.other 0), w.print f (List.intercalate sep (l.map (toStr S)) ++ end_)) := by
  show (_, World.print _ f end_) = _
  have key : ∀ l, List.intercalate sep (l.map (toStr S)) = match l with
      | [] => []
      | a :: l => toStr S a ++ (l.map fun a => sep ++ toStr S a).flatten := by
    intro l
    cases l with
    | nil => rfl
    | cons a l =>
      dsimp only
      induction l generalizing a with
      | nil => simp [List.intercalate]
      | cons c l ih =>
        have := ih c
        simp only [List.intercalate, List.map_cons, List.intersperse_cons₂, List.flatten_cons] at this ⊢
        rw [this]
        simp
  rw [key]
  cases l with
  | nil => simp [printLoop]
  | cons a l =>
    rw [printLoop, if_neg (by simp), printLoop_sep, World.print_print, World.print_print]
    simp

/-- Printing the parts of a `str.cat` one by one instead of the whole.  Missing: separators whose evaluation does
something or fails (`c81_violation_sep`), and `str.cat` of an iterable (`c81_violation_list`). -/
theorem c81_print_partial (S : Sem) (hS : S.Typed) (empty tup sep : E) (ty gty cty : Ty) (rest : EL)
    (he : ∀ w, eval S empty w = (.ok (.str []), w)) (hq : Quiet S sep) (ht : TupleOfStrings tup) :
    Same S (handlePrint empty (.call .print ty
        (.cons (.call .tupleNew gty (.cons (.call .strCat cty (.cons tup .nil)) .nil)) (.cons sep rest))))
      (.call .print ty (.cons (.call .tupleNew gty (.cons (.call .strCat cty (.cons tup .nil)) .nil)) (.cons sep rest))) :=
  same_print hS he hq ht

/-- Writing the parts of a `str.cat` one by one instead of the whole.  Missing: the empty `str.cat`
(`c81_violation_empty`), and `str.cat` of an iterable. -/
theorem c81_write_partial (S : Sem) (hS : S.Typed) (file tup : E) (ty cty : Ty) (ht : TupleOfStrings tup)
    (hne : tup ≠ .call .tupleNew .tuple .nil) :
    Same S (handleWrite (.call .write ty (.cons file (.cons (.call .strCat cty (.cons tup .nil)) .nil))))
      (.call .write ty (.cons file (.cons (.call .strCat cty (.cons tup .nil)) .nil))) :=
  same_write hS ht hne

/-- Any number of these rewritings, anywhere in a program, in any order.  Missing: the four situations of the
violations. -/
theorem c81_program_partial (S : Sem) (hS : S.Typed) (e e' : E) (h : Relation.ReflTransGen (Step S) e e') :
    Same S e' e := by
  induction h with
  | refl => exact fun _ => rfl
  | tail _ h ih => exact fun w => (step_same hS h w).trans (ih w)

/-! ## Concrete cases and violations -/

/-- Leaves below 10 are the constants `""`, `"a"`, `"b"`, … ; leaf 10 prints `"x"` to the standard output and is
the string `"|"`; leaf 11 is the standard output; leaf 12 a closed file; leaf 13 the list `["p", "q"]`; functions of
the user's own return the string `"!"`; `str` of what is no string is `"?"`. -/
def demo : Sem where
  leaf n ty w :=
    if n = 0 then (.ok (.str []), w)
    else if n < 10 then (.ok (.str [96 + UInt8.ofNat n]), w)
    else if n = 10 then (.ok (.str [124]), w.print 0 [120])
    else if ty = .str then (.error 7, w)
    else if n = 11 then (.ok (.file 0), w)
    else if n = 12 then (.ok (.file 1), w)
    else (.ok (.list [[112], [113]]), w)
  fn _ _ _ _ w := (.ok (.str [33]), w)
  show_ _ := [63]

theorem demo_typed : demo.Typed := by
  constructor
  · intro n w v w' h
    unfold demo at h
    simp only [] at h
    split at h
    · cases h; exact ⟨_, rfl⟩
    · split at h
      · cases h; exact ⟨_, rfl⟩
      · split at h
        · cases h; exact ⟨_, rfl⟩
        · cases h
  · intro _ _ _ _ _ _ h; cases h; exact ⟨_, rfl⟩

def w0 : World := ⟨fun _ => [], fun f => decide (f = 1), 0⟩
/-- The exception, if any, and the text on the standard output. -/
def seen (r : Res Val) : Option Nat × Str :=
  match r with
  | (.ok _, w) => (none, w.out 0)
  | (.error x, w) => (some x, w.out 0)
/-- The string computed. -/
def result (r : Res Val) : Option Str :=
  match r with
  | (.ok (.str s), _) => some s
  | _ => none

def lit (n : Nat) : E := .leaf n .str
def plus (a b : E) : E := .call .strAdd .str (.cons a (.cons b .nil))
def tup (l : List E) : E := .call .tupleNew .tuple (EL.ofList l)
def printOf (e sep : E) : E :=
  .call .print .other (.cons (tup [e]) (.cons sep (.cons (lit 0) (.cons (.leaf 11 .other) (.cons (.leaf 0 .other) .nil)))))
def writeOf (f : Nat) (e : E) : E := .call .write .other (.cons (.leaf f .other) (.cons e .nil))

-- `"a" + (f() + "b")` becomes `str.cat("a", f(), "b")`, with the effect of `f` and the value kept
example : handleAdd (plus (lit 1) (plus (lit 10) (lit 2))) = mkCat [lit 1, lit 10, lit 2] := by
  simp [handleAdd, inspect, plus, lit, Fn.name, isString, E.ty]
example : Same demo (handleAdd (plus (lit 1) (plus (lit 10) (lit 2)))) (plus (lit 1) (plus (lit 10) (lit 2))) :=
  c81_add_partial demo demo_typed _ (by simp [plus, lit, WT, WTL, Fn.hasType]) (by simp [plus, lit, OwnAdd, OwnAddL])
example : result (eval demo (mkCat [lit 1, lit 10, lit 2]) w0) = some [97, 124, 98] ∧
    seen (eval demo (mkCat [lit 1, lit 10, lit 2]) w0) = (none, [120]) := by decide

-- printing `str.cat("a", "b")` with a constant separator
example : seen (eval demo (printOf (mkCat [lit 1, lit 2]) (lit 3)) w0) = (none, [97, 98]) := by decide
example : Same demo (handlePrint (lit 0) (printOf (mkCat [lit 1, lit 2]) (lit 3))) (printOf (mkCat [lit 1, lit 2]) (lit 3)) :=
  c81_print_partial demo demo_typed (lit 0) (tup [lit 1, lit 2]) (lit 3) .other .tuple .str _ (fun _ => rfl)
    (fun _ => ⟨_, rfl⟩) ⟨_, rfl, by simp [EL.ofList, lit, WT, WTL], by simp [EL.ofList, EL.toList, lit, E.ty]⟩

-- a closed file: both forms fail
example : seen (eval demo (writeOf 12 (mkCat [lit 1, lit 2])) w0) = (some closedError, []) := by decide
example : Same demo (handleWrite (writeOf 12 (mkCat [lit 1, lit 2]))) (writeOf 12 (mkCat [lit 1, lit 2])) :=
  c81_write_partial demo demo_typed (.leaf 12 .other) (tup [lit 1, lit 2]) .other .str
    ⟨_, rfl, by simp [EL.ofList, lit, WT, WTL], by simp [EL.ofList, EL.toList, lit, E.ty]⟩ (by simp [tup, EL.ofList])

-- the two passes after each other inside a write
example : Same demo (handleWrite (writeOf 11 (mkCat [lit 1, lit 10, lit 2])))
    (writeOf 11 (plus (plus (lit 1) (lit 10)) (lit 2))) := by
  apply c81_program_partial demo demo_typed
  refine Relation.ReflTransGen.tail (Relation.ReflTransGen.single (.arg (.tail (.head (.add ?_ ?_))))) ?_
  · simp [plus, lit, WT, WTL, Fn.hasType]
  · simp [plus, lit, OwnAdd, OwnAddL]
  · have h : handleAdd (plus (plus (lit 1) (lit 10)) (lit 2)) = mkCat [lit 1, lit 10, lit 2] := by
      simp [handleAdd, inspect, plus, lit, Fn.name, isString, E.ty]
    rw [h]
    exact .write ⟨_, rfl, by simp [EL.ofList, lit, WT, WTL], by simp [EL.ofList, EL.toList, lit, E.ty]⟩
      (by simp [lit, EL.ofList])

/-- `print(str.cat("a", "b"), sep=g())` where `g` prints `"x"`: the optimised program does not call `g`. -/
theorem c81_violation_sep :
    seen (eval demo (printOf (mkCat [lit 1, lit 2]) (lit 10)) w0) = (none, [120, 97, 98]) ∧
    seen (eval demo (handlePrint (lit 0) (printOf (mkCat [lit 1, lit 2]) (lit 10))) w0) = (none, [97, 98]) := by
  decide

/-- `print(str.cat(["p", "q"]))` prints `pq`; optimised it prints the list. -/
theorem c81_violation_list :
    seen (eval demo (printOf (mkCat [.leaf 13 .other]) (lit 3)) w0) = (none, [112, 113]) ∧
    seen (eval demo (handlePrint (lit 0) (printOf (mkCat [.leaf 13 .other]) (lit 3))) w0) = (none, [63]) := by
  decide

/-- A sum of three strings with a user's own `__add__` (any function of that name returning a string): it is
no longer called. -/
theorem c81_violation_user_add :
    (let add a b := E.call (.user 0 "__add__") .str (.cons a (.cons b .nil))
     result (eval demo (add (add (lit 1) (lit 2)) (lit 3)) w0) = some [33] ∧
     result (eval demo (handleAdd (add (add (lit 1) (lit 2)) (lit 3))) w0) = some [97, 98, 99]) := by
  have h : handleAdd (.call (.user 0 "__add__") .str
      (.cons (.call (.user 0 "__add__") .str (.cons (lit 1) (.cons (lit 2) .nil))) (.cons (lit 3) .nil)))
      = mkCat [lit 1, lit 2, lit 3] := by
    simp [handleAdd, inspect, lit, Fn.name, isString, E.ty]
  refine ⟨by decide, ?_⟩
  rw [h]
  decide

/-- Writing `str.cat()` to a closed file raises an exception; optimised it does not. -/
theorem c81_violation_empty :
    seen (eval demo (writeOf 12 (mkCat [])) w0) = (some closedError, []) ∧
    seen (eval demo (handleWrite (writeOf 12 (mkCat []))) w0) = (none, []) := by
  decide

end Codon.CatOpt
