import Verif.HeapN.Model
import Verif.HeapN.Spec
import Verif.Heapq.Props
import Verif.Sort.Props

/-! Lemmas for C84. -/

namespace Codon.HeapN
open Heapq

/-! ## Orders of tuples -/

def lex {A B : Type} (l1 : A → A → Bool) (l2 : B → B → Bool) (a b : A × B) : Bool :=
  l1 a.1 b.1 || (!l1 b.1 a.1 && l2 a.2 b.2)

theorem lex_swo {A B : Type} {l1 : A → A → Bool} {l2 : B → B → Bool} (h1 : SWO l1) (h2 : SWO l2) : SWO (lex l1 l2) := by
  constructor
  · rintro ⟨a, b⟩ ⟨c, d⟩ h
    simp only [lex, Bool.or_eq_true, Bool.and_eq_true, Bool.not_eq_true', Bool.or_eq_false_iff, Bool.and_eq_false_imp] at *
    rcases h with h | ⟨h, h'⟩
    · exact ⟨h1.asymm h, fun hn => by rw [h] at hn; cases hn⟩
    · exact ⟨h, fun _ => h2.asymm h'⟩
  · rintro ⟨a, b⟩ ⟨c, d⟩ ⟨e, f⟩ h h'
    simp only [lex, Bool.and_eq_true, Bool.not_eq_true', Bool.or_eq_false_iff, Bool.and_eq_false_imp] at *
    refine ⟨h1.negTrans h.1 h'.1, fun he => ?_⟩
    have e1 : l1 e c = false := h1.negTrans he h.1
    have e2 : l1 c a = false := h1.negTrans h'.1 he
    exact h2.negTrans (h.2 e2) (h'.2 e1)

def intLt (a b : Int) : Bool := decide (a < b)

theorem intSWO : SWO intLt := ⟨by intro a b h; simp [intLt] at *; omega, by intro a b c h h'; simp [intLt] at *; omega⟩

section
variable {K T : Type} {lt eq : K → K → Bool}

theorem tupLt2_eq (he : EqOk lt eq) : tupLt2 lt eq = lex lt intLt := by
  funext a b
  simp only [tupLt2, lex, intLt, he a.1 b.1]
  cases h1 : lt a.1 b.1 <;> cases h2 : lt b.1 a.1 <;> simp

theorem tupLt3_eq (he : EqOk lt eq) (tlt : T → T → Bool) : tupLt3 lt eq tlt = lex lt (lex intLt tlt) := by
  funext a b
  simp only [tupLt3, lex, intLt, he a.1 b.1]
  cases h1 : lt a.1 b.1 <;> cases h2 : lt b.1 a.1 <;> simp
  by_cases h3 : a.2.1 < b.2.1
  · simp [h3]
  · by_cases h4 : a.2.1 = b.2.1
    · simp [h4]
    · have : b.2.1 < a.2.1 := by omega
      simp [h3, h4, this]

end

/-! ## Insertion and the stable sort -/

section
variable {T : Type}

/-- `x` before the first element with `p`. -/
def insP (p : T → Bool) (x : T) : List T → List T
  | [] => [x]
  | y :: ys => if p y then x :: y :: ys else y :: insP p x ys

theorem insP_map {E : Type} (f : E → T) (p : T → Bool) (x : E) : ∀ L : List E,
    (insP (fun y => p (f y)) x L).map f = insP p (f x) (L.map f)
  | [] => rfl
  | y :: L => by
    unfold insP
    by_cases h : p (f y) = true
    · simp [h]
    · simp only [Bool.not_eq_true] at h
      simp [h, insP_map f p x L]

theorem insP_perm (p : T → Bool) (x : T) : ∀ L, (insP p x L).Perm (x :: L)
  | [] => List.Perm.refl _
  | y :: L => by
    unfold insP
    by_cases h : p y = true
    · rw [if_pos h]
    · rw [if_neg h]
      exact ((insP_perm p x L).cons y).trans (List.Perm.swap x y L)

theorem insP_none {p : T → Bool} {x : T} : ∀ {L : List T}, (∀ y ∈ L, p y = false) → insP p x L = L ++ [x]
  | [], _ => rfl
  | y :: L, h => by
    unfold insP
    rw [if_neg (by rw [h y (List.mem_cons_self ..)]; simp), insP_none fun z hz => h z (List.mem_cons_of_mem _ hz)]
    rfl

theorem insP_take {p : T → Bool} {x t : T} : ∀ {L M R : List T}, M = L ++ t :: R → p t = true →
    (insP p x M).take (L.length + 1) = insP p x L
  | [], M, R, e, h => by subst e; simp [insP, h]
  | y :: L, M, R, e, h => by
    subst e
    simp only [List.cons_append, insP]
    by_cases hy : p y = true
    · simp [hy]
    · simp only [hy, Bool.false_eq_true, if_false, List.length_cons]
      rw [List.take_succ_cons, insP_take rfl h]

theorem insP_take_none {p : T → Bool} {x : T} : ∀ {L R : List T}, (∀ y ∈ L, p y = false) →
    (insP p x (L ++ R)).take L.length = L
  | [], R, _ => by simp
  | y :: L, R, h => by
    simp only [List.cons_append, insP, List.length_cons]
    rw [if_neg (by rw [h y (List.mem_cons_self ..)]; simp), List.take_succ_cons,
      insP_take_none fun z hz => h z (List.mem_cons_of_mem _ hz)]

variable (lt : T → T → Bool)

/-- Insertion sort, taking the elements from the left. -/
def sortOf (xs : List T) : List T := xs.foldl (fun s x => insP (fun y => lt x y) x s) []

theorem sortOf_snoc (xs : List T) (x : T) : sortOf lt (xs ++ [x]) = insP (fun y => lt x y) x (sortOf lt xs) := by
  simp [sortOf]

variable {lt}

theorem snoc_ind {P : List T → Prop} (h0 : P []) (h1 : ∀ xs x, P xs → P (xs ++ [x])) (xs : List T) : P xs := by
  have : ∀ ys : List T, P ys.reverse := by
    intro ys
    induction ys with
    | nil => exact h0
    | cons y ys ih => rw [List.reverse_cons]; exact h1 _ _ ih
  simpa using this xs.reverse

theorem insP_sorted (ho : SWO lt) (x : T) : ∀ {L : List T}, L.Pairwise (fun a b => lt b a = false) →
    (insP (fun y => lt x y) x L).Pairwise (fun a b => lt b a = false)
  | [], _ => by simp [insP]
  | y :: L, h => by
    have h' := List.pairwise_cons.mp h
    unfold insP
    by_cases hy : lt x y = true
    · rw [if_pos hy]
      refine List.pairwise_cons.mpr ⟨?_, h⟩
      intro z hz
      rcases List.mem_cons.mp hz with rfl | hz
      · exact ho.asymm hy
      · exact ho.asymm (ho.lt_of_lt_of_le hy (h'.1 z hz))
    · rw [if_neg hy]
      refine List.pairwise_cons.mpr ⟨?_, insP_sorted ho x h'.2⟩
      intro z hz
      rcases List.mem_cons.mp ((insP_perm _ _ _).subset hz) with rfl | hz
      · simpa using hy
      · exact h'.1 z hz

theorem insP_stable (ho : SWO lt) (x z : T) : ∀ {L : List T}, L.Pairwise (fun a b => lt b a = false) →
    (insP (fun y => lt x y) x L).filter (fun x => !lt z x && !lt x z) =
      (L ++ [x]).filter (fun x => !lt z x && !lt x z)
  | [], _ => by simp [insP]
  | y :: L, h => by
    have h' := List.pairwise_cons.mp h
    unfold insP
    by_cases hy : lt x y = true
    · rw [if_pos hy, List.filter_append, List.filter_cons]
      by_cases hx : (!lt z x && !lt x z) = true
      · simp only [hx, if_true]
        have : (y :: L).filter (fun x => !lt z x && !lt x z) = [] := by
          rw [List.filter_eq_nil_iff]
          intro w hw
          have hxw : lt x w = true := by
            rcases List.mem_cons.mp hw with rfl | hw
            · exact hy
            · exact ho.lt_of_lt_of_le hy (h'.1 w hw)
          simp only [Bool.and_eq_true, Bool.not_eq_true'] at hx
          have := ho.lt_of_le_of_lt hx.2 hxw
          simp [this]
        rw [this]; simp [hx]
      · simp [hx]
    · rw [if_neg hy, List.cons_append, List.filter_cons, List.filter_cons, insP_stable ho x z h'.2]

theorem sortOf_spec (ho : SWO lt) (xs : List T) : IsSorted lt xs (sortOf lt xs) := by
  refine snoc_ind (P := fun xs => IsSorted lt xs (sortOf lt xs)) ⟨List.Perm.refl _, List.Pairwise.nil, fun _ => rfl⟩ ?_ xs
  intro xs x ih
  rw [sortOf_snoc]
  refine ⟨?_, insP_sorted ho x ih.sorted, fun z => ?_⟩
  · exact (insP_perm _ _ _).trans ((ih.perm.cons x).trans (List.perm_append_comm (l₁ := [x])))
  · rw [insP_stable ho x z ih.sorted, List.filter_append, List.filter_append, ih.stable]

end

end Codon.HeapN
