import Verif.CatOpt.Spec
import Verif.Str.SplitLemmas

/-! Lemmas about the optimisations of concatenation. -/

namespace Codon.CatOpt

open Codon.Str (Str len emit finish)

theorem addStr_eq (a b : Str) : addStr a b = some (a ++ b) := by
  have h1 : emit (len a + len b) [] a = some a := by
    rw [Str.emit, if_pos (by show (0 : Int) + (a.length : Int) ≤ (a.length : Int) + (b.length : Int); omega)]; rfl
  have h2 : emit (len a + len b) a b = some (a ++ b) := by rw [Str.emit, if_pos (by omega)]
  rw [addStr]
  simp only [h1, h2, Option.bind_eq_bind, Option.bind_some]
  rw [Str.finish, if_pos (by simp [len])]

theorem strings_map : ∀ ss : List Str, strings (ss.map Val.str) = some ss
  | [] => rfl
  | s :: ss => by rw [List.map_cons, strings, strings_map ss]; rfl

theorem catVals_map (ss : List Str) : catVals (ss.map Val.str) = some ss.flatten := by
  have h : catVals (ss.map Val.str) = (strings (ss.map Val.str)).bind Str.cat := by
    match ss with
    | [] => rfl
    | [s] => rfl
    | s :: t :: r => rfl
  rw [h, strings_map]
  exact Str.cat_spec ss

theorem World.print_nil (w : World) (f : Nat) : w.print f [] = w := by
  cases w
  simp [World.print]

theorem World.print_print (w : World) (f : Nat) (a b : Str) : (w.print f a).print f b = w.print f (a ++ b) := by
  simp only [World.print, World.mk.injEq, and_true]
  funext g
  by_cases h : g = f <;> simp [h]

theorem printLoop_map (S : Sem) (f : Nat) : ∀ (ss : List Str) (i : Nat) (w : World),
    printLoop S [] f (ss.map Val.str) i w = w.print f ss.flatten
  | [], _, w => by simp [printLoop, World.print_nil]
  | s :: ss, i, w => by
    rw [List.map_cons, printLoop]
    simp only [ne_eq, not_true_eq_false, and_false, if_false, toStr]
    rw [printLoop_map S f ss, World.print_print]
    rfl

theorem writeLoop_map (S : Sem) (f : Nat) : ∀ (ss : List Str) (w : World), w.closed f = false →
    writeLoop S f (ss.map Val.str) w = (.ok (.other 0), w.print f ss.flatten)
  | [], w, _ => by simp [writeLoop, World.print_nil]
  | s :: ss, w, h => by
    rw [List.map_cons, writeLoop, writeStr, h]
    simp only [Bool.false_eq_true, if_false, bindR, toStr]
    rw [writeLoop_map S f ss (w.print f s) h, World.print_print]
    rfl

theorem bindR_assoc {α β γ : Type} (r : Res α) (k : α → World → Res β) (k' : β → World → Res γ) :
    bindR (bindR r k) k' = bindR r fun a w => bindR (k a w) k' := by
  rcases r with ⟨_ | _, _⟩ <;> rfl

theorem toList_ofList : ∀ l : List E, (EL.ofList l).toList = l
  | [] => rfl
  | e :: l => by rw [EL.ofList, EL.toList, toList_ofList l]

theorem ofList_toList : ∀ l : EL, EL.ofList l.toList = l
  | .nil => rfl
  | .cons e l => by rw [EL.toList, EL.ofList, ofList_toList l]

theorem evalL_append (S : Sem) : ∀ (l l' : List E) (w : World), evalL S (EL.ofList (l ++ l')) w
    = bindR (evalL S (EL.ofList l) w) fun vs w => bindR (evalL S (EL.ofList l') w) fun vs' w => (.ok (vs ++ vs'), w)
  | [], l', w => by
    show evalL S (EL.ofList l') w = bindR (evalL S (EL.ofList l') w) fun vs' w => (.ok vs', w)
    rcases evalL S (EL.ofList l') w with ⟨_ | _, _⟩ <;> rfl
  | e :: l, l', w => by
    show bindR (eval S e w) _ = bindR (bindR (eval S e w) _) _
    rw [bindR_assoc]
    congr 1
    funext v w'
    show bindR (evalL S (EL.ofList (l ++ l')) w') _ = bindR (bindR (evalL S (EL.ofList l) w') _) _
    rw [evalL_append S l l', bindR_assoc, bindR_assoc]
    congr 1
    funext vs w''
    simp only [bindR]
    rcases evalL S (EL.ofList l') w'' with ⟨_ | _, _⟩ <;> rfl

theorem strRes_str {r : Option Str} {w w' : World} {v : Val} (h : strRes r w = (.ok v, w')) : ∃ s, v = .str s := by
  cases r with
  | none => cases h
  | some c => cases h; exact ⟨c, rfl⟩

/-- A well-typed string value gives a string. -/
theorem eval_str {S : Sem} (hS : S.Typed) {e : E} (hw : WT e) (ht : e.ty = .str) {w w' : World} {v : Val}
    (h : eval S e w = (.ok v, w')) : ∃ s, v = .str s := by
  match e with
  | .leaf n ty =>
    have ht : ty = .str := ht
    subst ht
    exact hS.1 n w v w' h
  | .call f ty args =>
    have ht : ty = .str := ht
    subst ht
    have hf : f.hasType .str := hw.1
    rw [eval] at h
    rcases hl : evalL S args w with ⟨x | vs, w1⟩
    · rw [hl] at h; cases h
    · rw [hl] at h
      have h : apply S f .str vs w1 = (.ok v, w') := h
      match f with
      | .user n name => exact hS.2 n name vs w1 v w' h
      | .tupleNew => cases hf
      | .print => cases hf
      | .write => cases hf
      | .writeGen => cases hf
      | .strAdd =>
        have h : applyAdd vs w1 = (.ok v, w') := h
        unfold applyAdd at h
        split at h
        · exact strRes_str h
        · cases h
      | .strCat =>
        have h : applyCat vs w1 = (.ok v, w') := h
        unfold applyCat at h
        split at h
        · exact strRes_str h
        · cases h

/-- `e` is the concatenation of the strings in the list, evaluated in order. -/
def Joined (S : Sem) (e : E) (l : List E) : Prop := ∀ w,
  (∃ x w', evalL S (EL.ofList l) w = (.error x, w') ∧ eval S e w = (.error x, w')) ∨
  (∃ (ss : List Str) (w' : World), evalL S (EL.ofList l) w = (.ok (ss.map Val.str), w') ∧ eval S e w = (.ok (.str ss.flatten), w'))

theorem joined_single {S : Sem} (hS : S.Typed) {e : E} (hw : WT e) (ht : e.ty = .str) : Joined S e [e] := by
  intro w
  have hl : evalL S (EL.ofList [e]) w = bindR (eval S e w) fun v w => (.ok [v], w) := rfl
  rcases h : eval S e w with ⟨x | v, w'⟩
  · left
    exact ⟨x, w', by rw [hl, h]; rfl, rfl⟩
  · right
    obtain ⟨s, rfl⟩ := eval_str hS hw ht h
    exact ⟨[s], w', by rw [hl, h]; rfl, by simp⟩

theorem joined_add {S : Sem} {a b : E} {la lb : List E} (ha : Joined S a la) (hb : Joined S b lb) (ty : Ty) :
    Joined S (.call .strAdd ty (.cons a (.cons b .nil))) (la ++ lb) := by
  intro w
  rw [evalL_append]
  have he : eval S (.call .strAdd ty (.cons a (.cons b .nil))) w
      = bindR (eval S a w) fun va w => bindR (eval S b w) fun vb w => applyAdd [va, vb] w := by
    show bindR (bindR (eval S a w) _) _ = _
    rw [bindR_assoc]
    congr 1
    funext va w'
    show bindR (bindR (bindR (eval S b w') _) _) _ = _
    rw [bindR_assoc, bindR_assoc]
    rfl
  rw [he]
  rcases ha w with ⟨x, w1, h1, h2⟩ | ⟨sa, w1, h1, h2⟩
  · left; exact ⟨x, w1, by rw [h1]; rfl, by rw [h2]; rfl⟩
  · rcases hb w1 with ⟨x, w2, h3, h4⟩ | ⟨sb, w2, h3, h4⟩
    · left
      refine ⟨x, w2, ?_, ?_⟩
      · rw [h1]; simp only [bindR]; rw [h3]
      · rw [h2]; simp only [bindR]; rw [h4]
    · right
      refine ⟨sa ++ sb, w2, ?_, ?_⟩
      · rw [h1]; simp only [bindR]; rw [h3]; simp
      · rw [h2]; simp only [bindR]; rw [h4]
        simp only [applyAdd, addStr_eq, strRes, List.flatten_append]

theorem inspect_joined {S : Sem} (hS : S.Typed) : ∀ (e : E) (l : List E), WT e → OwnAdd e → inspect e = some l →
    Joined S e l
  | .call f ty (.cons a (.cons b .nil)), l, hw, ho, h => by
    rw [inspect] at h
    by_cases ht : ty = .str
    · subst ht
      rw [if_pos rfl] at h
      by_cases hc : f.name = "__add__" ∧ isString a ∧ isString b
      · rw [if_pos hc] at h
        rcases ha : inspect a with _ | la
        · rw [ha] at h; cases h
        · rcases hb : inspect b with _ | lb
          · rw [ha, hb] at h; cases h
          · rw [ha, hb] at h
            simp only [Option.bind_eq_bind, Option.bind_some, Option.pure_def, Option.some.injEq] at h
            subst h
            have ja := inspect_joined hS a la hw.2.1 ho.2.1 ha
            have jb := inspect_joined hS b lb hw.2.2.1 ho.2.2.1 hb
            have hf : f = .strAdd := by
              match f, hc.1, ho.1 with
              | .strAdd, _, _ => rfl
              | .strCat, h, _ => exact absurd h (by decide)
              | .tupleNew, h, _ => exact absurd h (by decide)
              | .print, h, _ => exact absurd h (by decide)
              | .write, h, _ => exact absurd h (by decide)
              | .writeGen, h, _ => exact absurd h (by decide)
              | .user n nm, h, h' =>
                have h : nm = "__add__" := h
                subst h
                exact absurd rfl (h' n)
            subst hf
            exact joined_add ja jb .str
      · rw [if_neg hc] at h
        cases h
        exact joined_single hS hw rfl
    · rw [if_neg ht] at h; cases h
  | .leaf n ty, l, hw, ho, h => by
    rw [inspect] at h
    · by_cases ht : isString (.leaf n ty)
      · rw [if_pos ht] at h; cases h; exact joined_single hS hw (of_decide_eq_true ht)
      · rw [if_neg ht] at h; cases h
    · intro _ _ _ _ h'; cases h'
  | .call f ty .nil, l, hw, ho, h => by
    rw [inspect] at h
    · by_cases ht : isString (.call f ty .nil)
      · rw [if_pos ht] at h; cases h; exact joined_single hS hw (of_decide_eq_true ht)
      · rw [if_neg ht] at h; cases h
    · intro _ _ _ _ h'; cases h'
  | .call f ty (.cons a .nil), l, hw, ho, h => by
    rw [inspect] at h
    · by_cases ht : isString (.call f ty (.cons a .nil))
      · rw [if_pos ht] at h; cases h; exact joined_single hS hw (of_decide_eq_true ht)
      · rw [if_neg ht] at h; cases h
    · intro _ _ _ _ h'; cases h'
  | .call f ty (.cons a (.cons b (.cons c r))), l, hw, ho, h => by
    rw [inspect] at h
    · by_cases ht : isString (.call f ty (.cons a (.cons b (.cons c r))))
      · rw [if_pos ht] at h; cases h; exact joined_single hS hw (of_decide_eq_true ht)
      · rw [if_neg ht] at h; cases h
    · intro _ _ _ _ h'; cases h'

theorem joined_cat {S : Sem} {e : E} {l : List E} (h : Joined S e l) : Same S (mkCat l) e := by
  intro w
  have he : eval S (mkCat l) w = bindR (evalL S (EL.ofList l) w) fun vs w => strRes (catVals vs) w := by
    show bindR (bindR (bindR (evalL S (EL.ofList l) w) _) _) _ = _
    rw [bindR_assoc, bindR_assoc]
    rfl
  rw [he]
  rcases h w with ⟨x, w1, h1, h2⟩ | ⟨ss, w1, h1, h2⟩
  · rw [h1, h2]; rfl
  · rw [h1, h2]
    show strRes (catVals (ss.map Val.str)) w1 = _
    rw [catVals_map]
    rfl

/-- The evaluation of a tuple of strings. -/
theorem eval_args {S : Sem} (hS : S.Typed) : ∀ (l : EL), WTL l → (∀ a ∈ l.toList, a.ty = .str) → ∀ w,
    (∃ x w', evalL S l w = (.error x, w')) ∨
    (∃ (ss : List Str) (w' : World), evalL S l w = (.ok (ss.map Val.str), w') ∧ ss.length = l.toList.length)
  | .nil, _, _, w => Or.inr ⟨[], w, rfl, rfl⟩
  | .cons e l, hw, ht, w => by
    rcases h : eval S e w with ⟨x | v, w1⟩
    · left; exact ⟨x, w1, by rw [evalL, h]; rfl⟩
    · obtain ⟨s, rfl⟩ := eval_str hS hw.1 (ht e (by simp [EL.toList])) h
      rcases eval_args hS l hw.2 (fun a ha => ht a (by simp [EL.toList, ha])) w1 with ⟨x, w2, h2⟩ | ⟨ss, w2, h2, h3⟩
      · left; exact ⟨x, w2, by rw [evalL, h]; simp only [bindR]; rw [h2]⟩
      · right
        refine ⟨s :: ss, w2, ?_, by simp [EL.toList, h3]⟩
        rw [evalL, h]; simp only [bindR]; rw [h2]; rfl

theorem same_print {S : Sem} (hS : S.Typed) {empty tup sep : E} {ty gty cty : Ty} {rest : EL}
    (he : ∀ w, eval S empty w = (.ok (.str []), w)) (hq : Quiet S sep) (ht : TupleOfStrings tup) :
    Same S (.call .print ty (.cons tup (.cons empty rest)))
      (.call .print ty (.cons (.call .tupleNew gty (.cons (.call .strCat cty (.cons tup .nil)) .nil)) (.cons sep rest))) := by
  obtain ⟨args, rfl, hw, hty⟩ := ht
  intro w
  simp only [eval, evalL]
  rcases eval_args hS args hw hty w with ⟨x, w1, h1⟩ | ⟨ss, w1, h1, -⟩
  · rw [h1]; rfl
  · rw [h1]
    simp only [bindR, apply, applyCat]
    rw [catVals_map]
    obtain ⟨s, hs⟩ := hq w1
    simp only [strRes]
    rw [he, hs]
    simp only []
    rcases evalL S rest w1 with ⟨x | vs, w2⟩
    · rfl
    · simp only []
      unfold applyPrint
      match vs with
      | [.str e, .file f, _] =>
        simp only [printLoop_map]
        show _ = (_, ((printLoop S s f [.str ss.flatten] 0 w2).print f e))
        simp [printLoop, toStr]
      | [] => rfl
      | [.str _] => rfl
      | [.tuple _] => rfl
      | [.list _] => rfl
      | [.file _] => rfl
      | [.other _] => rfl
      | [.str _, .str _] => rfl
      | [.str _, .tuple _] => rfl
      | [.str _, .list _] => rfl
      | [.str _, .file _] => rfl
      | [.str _, .other _] => rfl
      | [.tuple _, _] => rfl
      | [.list _, _] => rfl
      | [.file _, _] => rfl
      | [.other _, _] => rfl
      | .tuple _ :: _ :: _ :: _ => rfl
      | .list _ :: _ :: _ :: _ => rfl
      | .file _ :: _ :: _ :: _ => rfl
      | .other _ :: _ :: _ :: _ => rfl
      | .str _ :: .str _ :: _ :: _ => rfl
      | .str _ :: .tuple _ :: _ :: _ => rfl
      | .str _ :: .list _ :: _ :: _ => rfl
      | .str _ :: .other _ :: _ :: _ => rfl
      | .str _ :: .file _ :: _ :: _ :: _ => rfl

theorem same_write {S : Sem} (hS : S.Typed) {file tup : E} {ty cty : Ty} (ht : TupleOfStrings tup)
    (hne : tup ≠ .call .tupleNew .tuple .nil) :
    Same S (.call .writeGen ty (.cons file (.cons tup .nil)))
      (.call .write ty (.cons file (.cons (.call .strCat cty (.cons tup .nil)) .nil))) := by
  obtain ⟨args, rfl, hw, hty⟩ := ht
  intro w
  simp only [eval, evalL]
  rcases eval S file w with ⟨x | v, w0⟩
  · rfl
  · simp only [bindR]
    rcases eval_args hS args hw hty w0 with ⟨x, w1, h1⟩ | ⟨ss, w1, h1, hlen⟩
    · rw [h1]
    · rw [h1]
      simp only [apply, applyCat]
      rw [catVals_map]
      simp only [strRes]
      match v with
      | .file f =>
        show writeLoop S f (ss.map Val.str) w1 = writeStr f ss.flatten w1
        rcases hc : w1.closed f with _ | _
        · rw [writeLoop_map S f ss w1 hc, writeStr, hc]; simp
        · match args, ss, hlen with
          | .nil, _, _ => exact absurd rfl hne
          | .cons _ _, s :: ss, _ => simp [writeLoop, writeStr, hc, bindR]
      | .str _ => rfl
      | .tuple _ => rfl
      | .list _ => rfl
      | .other _ => rfl

theorem same_handleAdd {S : Sem} (hS : S.Typed) (e : E) (hw : WT e) (ho : OwnAdd e) : Same S (handleAdd e) e := by
  match e with
  | .leaf _ _ => exact fun _ => rfl
  | .call f ty args =>
    rw [handleAdd]
    by_cases h : f.name ≠ "__add__"
    · rw [if_pos h]; exact fun _ => rfl
    · rw [if_neg h]
      rcases hi : inspect (.call f ty args) with _ | l
      · exact fun _ => rfl
      · simp only []
        by_cases hl : l.length > 2
        · rw [if_pos hl]
          exact joined_cat (inspect_joined hS _ l hw ho hi)
        · rw [if_neg hl]; exact fun _ => rfl

mutual
theorem step_same {S : Sem} (hS : S.Typed) : ∀ {e e' : E}, Step S e e' → ∀ w, eval S e' w = eval S e w
  | _, _, .add hw ho, w => same_handleAdd hS _ hw ho w
  | _, _, .print he hq ht, w => same_print hS he hq ht w
  | _, _, .write ht hne, w => same_write hS ht hne w
  | _, _, .arg hl, w => by rw [eval, eval, stepL_same hS hl w]
theorem stepL_same {S : Sem} (hS : S.Typed) : ∀ {l l' : EL}, StepL S l l' → ∀ w, evalL S l' w = evalL S l w
  | _, _, .head h, w => by rw [evalL, evalL, step_same hS h w]
  | _, _, .tail h, w => by
    rw [evalL, evalL]
    congr 1
    funext v w'
    rw [stepL_same hS h w']
end

end Codon.CatOpt
