import Verif.NpIns.Spec
import Verif.NpRearr.Lemmas

/-!
# Lemmas on `insert`
-/

namespace Codon.NpIns

open Codon.NpRearr (Out normalizeIndex mapM_some mapM_none)

variable {α : Type}

theorem special_iff (idx : Int) (n m : Nat) (i : Int) : normalizeSpecial idx n m = some i ↔
    (i = if idx < 0 then idx + n else idx) ∧ 0 ≤ i ∧ i < (n : Int) + m := by
  unfold normalizeSpecial
  simp only
  generalize (if idx < 0 then idx + (n : Int) else idx) = j
  by_cases h : j < 0 ∨ j ≥ (n : Int) + m
  · rw [if_pos h]
    constructor
    · intro h; cases h
    · rintro ⟨rfl, h1, h2⟩; omega
  · rw [if_neg h]
    constructor
    · intro h; cases h; exact ⟨rfl, by omega, by omega⟩
    · rintro ⟨rfl, _⟩; rfl

/-- The indices moved up. -/
def shift : List (Int × Nat) → Int → List (Int × Nat)
  | [], _ => []
  | (idx, rank) :: r, i => (idx + i, rank) :: shift r (i + 1)

theorem positions_ok (n m : Nat) : ∀ (S : List (Int × Nat)) (i : Nat), i + S.length = m →
    (∀ s ∈ S, 0 ≤ s.1 ∧ s.1 ≤ n) → positions S i ((n : Int) + m) = some (shift S i) := by
  intro S
  induction S with
  | nil => intro i _ _; rfl
  | cons s r ih =>
    intro i hl hs
    obtain ⟨idx, rank⟩ := s
    have h0 := hs _ (List.mem_cons_self ..)
    simp only at h0
    simp only [List.length_cons] at hl
    have hn : normalizeIndex (idx + i) ((n : Int) + m) = some (idx + i) := by
      unfold normalizeIndex
      simp only
      rw [if_neg (show ¬ idx + (i : Int) < 0 by omega), if_neg (by omega)]
    have := ih (i + 1) (by omega) (fun s h => hs s (List.mem_cons_of_mem _ h))
    rw [show ((i + 1 : Nat) : Int) = (i : Int) + 1 by omega] at this
    rw [positions, hn]
    simp only [this, shift]

theorem positions_none (n m : Nat) : ∀ (S : List (Int × Nat)) (i : Nat), i + S.length = m →
    S.Pairwise (fun x y => x.1 ≤ y.1) → (∃ s ∈ S, (n : Int) < s.1) → positions S i ((n : Int) + m) = none := by
  intro S
  induction S with
  | nil => intro i _ _ h; obtain ⟨s, hs, _⟩ := h; cases hs
  | cons s r ih =>
    intro i hl hp he
    obtain ⟨idx, rank⟩ := s
    rw [List.pairwise_cons] at hp
    simp only [List.length_cons] at hl
    rw [positions]
    cases r with
    | nil =>
      obtain ⟨s, hs, hlt⟩ := he
      simp only [List.mem_singleton] at hs
      subst hs
      simp only [List.length_nil] at hl hlt
      have hn : normalizeIndex (idx + i) ((n : Int) + m) = none := by
        unfold normalizeIndex
        simp only
        rw [if_neg (show ¬ idx + (i : Int) < 0 by omega), if_pos (by omega)]
      rw [hn]
    | cons t r =>
      have := ih (i + 1) (by omega) hp.2 (by
        obtain ⟨s, hs, hlt⟩ := he
        rcases List.mem_cons.1 hs with rfl | hs
        · exact ⟨t, List.mem_cons_self .., by
            have := hp.1 t (List.mem_cons_self ..)
            simp only at this hlt; omega⟩
        · exact ⟨s, hs, hlt⟩)
      rw [show ((i + 1 : Nat) : Int) = (i : Int) + 1 by omega] at this
      rw [this]
      split <;> rfl

/-- What the loop writes from a place on. -/
def tailOf (a : List α) (S : List (Int × Nat)) (g : Nat → α) (off : Nat) : List α :=
  (List.range' off (a.length + 1 - off)).flatMap fun (k : Nat) =>
    ((S.filter fun s => decide (s.1 = (k : Int))).map fun s => g s.2) ++ a[k]?.toList

theorem tailOf_skip (a : List α) (S : List (Int × Nat)) (g : Nat → α) (off : Nat) (h : off < a.length)
    (hS : ∀ s ∈ S, (off : Int) < s.1) : tailOf a S g off = a[off] :: tailOf a S g (off + 1) := by
  unfold tailOf
  rw [show a.length + 1 - off = (a.length + 1 - (off + 1)) + 1 by omega, List.range'_succ, List.flatMap_cons,
    List.getElem?_eq_getElem h, List.filter_eq_nil_iff.2 (by
      intro s hs
      have := hS s hs
      simp only [decide_eq_true_eq]; omega)]
  rfl

theorem tailOf_put (a : List α) (S : List (Int × Nat)) (g : Nat → α) (off : Nat) (h : off ≤ a.length)
    (rank : Nat) : tailOf a (((off : Int), rank) :: S) g off = g rank :: tailOf a S g off := by
  unfold tailOf
  rw [show a.length + 1 - off = (a.length - off) + 1 by omega, List.range'_succ, List.flatMap_cons,
    List.flatMap_cons, List.filter_cons_of_pos (by simp)]
  have : ∀ (k : Nat), k ∈ List.range' (off + 1) (a.length - off) →
      ((((((off : Int), rank) :: S).filter fun s => decide (s.1 = (k : Int))).map fun s => g s.2) ++ a[k]?.toList)
        = (((S.filter fun s => decide (s.1 = (k : Int))).map fun s => g s.2) ++ a[k]?.toList) := by
    intro k hk
    rw [List.mem_range'_1] at hk
    rw [List.filter_cons_of_neg (by simp only [decide_eq_true_eq]; omega)]
  rw [List.flatMap_congr this]
  rfl

theorem loop_spec (a : List α) (val : Nat → Option α) (g : Nat → α) : ∀ (m : Nat) (S : List (Int × Nat))
    (i off : Nat), off ≤ a.length → m + off = a.length + S.length →
    (∀ s ∈ S, (off : Int) ≤ s.1 ∧ s.1 ≤ a.length ∧ val s.2 = some (g s.2)) →
    S.Pairwise (fun x y => x.1 ≤ y.1) →
    insertLoop val m ((off : Int) + i) (shift S i) (a.drop off) = .ok (tailOf a S g off) := by
  intro m
  induction m with
  | zero =>
    intro S i off ho hm hS hp
    have h1 : off = a.length := by omega
    have h2 : S = [] := List.length_eq_zero_iff.1 (by omega)
    subst h1 h2
    simp [insertLoop, tailOf]
  | succ m ih =>
    intro S i off ho hm hS hp
    cases S with
    | nil =>
      simp only [List.length_nil] at hm
      have hlt : off < a.length := by omega
      have := ih [] i (off + 1) (by omega) (by simp only [List.length_nil]; omega) (by simp) List.Pairwise.nil
      rw [show ((off + 1 : Nat) : Int) + i = (off : Int) + i + 1 by omega] at this
      rw [List.drop_eq_getElem_cons hlt, tailOf_skip a [] g off hlt (by simp)]
      simp only [shift] at this ⊢
      rw [insertLoop]
      simp only [this]
    | cons s r =>
      obtain ⟨idx, rank⟩ := s
      simp only [List.length_cons] at hm
      have h0 := hS _ (List.mem_cons_self ..)
      simp only at h0
      have hp' := List.pairwise_cons.1 hp
      by_cases he : idx = (off : Int)
      · subst he
        have := ih r (i + 1) off ho (by omega) (fun s h => hS s (List.mem_cons_of_mem _ h)) hp'.2
        rw [show (off : Int) + ((i + 1 : Nat) : Int) = (off : Int) + i + 1 by omega,
          show ((i + 1 : Nat) : Int) = (i : Int) + 1 by omega] at this
        rw [tailOf_put a r g off ho rank, shift, insertLoop.eq_def]
        simp only [if_true, h0.2.2, this]
      · have hlt : off < a.length := by omega
        have hall : ∀ s ∈ (idx, rank) :: r, (off : Int) < s.1 := by
          intro s hs
          rcases List.mem_cons.1 hs with rfl | hs
          · simp only; omega
          · have := hp'.1 s hs
            simp only at this
            omega
        have := ih ((idx, rank) :: r) i (off + 1) (by omega) (by simp only [List.length_cons]; omega)
          (fun s h => ⟨by have := hall s h; omega, (hS s h).2⟩) hp
        rw [show ((off + 1 : Nat) : Int) + i = (off : Int) + i + 1 by omega, shift] at this
        rw [List.drop_eq_getElem_cons hlt, tailOf_skip a _ g off hlt hall, shift, insertLoop.eq_def]
        simp only [if_neg (show ¬ (off : Int) + i = idx + i by omega), this]

theorem pairLe_trans (a b c : Int × Nat) (h1 : pairLe a b = true) (h2 : pairLe b c = true) :
    pairLe a c = true := by
  simp only [pairLe, decide_eq_true_eq] at *; omega

theorem pairLe_total (a b : Int × Nat) : (pairLe a b || pairLe b a) = true := by
  simp only [pairLe, Bool.or_eq_true, decide_eq_true_eq]; omega

theorem sorted_fst (l : List (Int × Nat)) : (l.mergeSort pairLe).Pairwise (fun x y => x.1 ≤ y.1) :=
  (List.pairwise_mergeSort pairLe_trans pairLe_total l).imp (by
    intro a b h
    simp only [pairLe, decide_eq_true_eq] at h; omega)

/-- Sorting does not change the order of those with the same index. -/
theorem filter_sorted (l : List (Int × Nat)) (h : l.Pairwise fun x y => x.2 < y.2) (k : Int) :
    ((l.mergeSort pairLe).filter fun s => decide (s.1 = k)) = l.filter fun s => decide (s.1 = k) := by
  apply List.Perm.eq_of_pairwise (le := fun x y => pairLe x y = true)
  · intro a b _ _ h1 h2
    simp only [pairLe, decide_eq_true_eq] at h1 h2
    exact Prod.ext (by omega) (by omega)
  · exact (List.pairwise_mergeSort pairLe_trans pairLe_total l).filter _
  · refine List.Pairwise.imp_of_mem ?_ (h.filter _)
    intro a b ha hb hab
    have h1 := (List.mem_filter.1 ha).2
    have h2 := (List.mem_filter.1 hb).2
    simp only [pairLe, decide_eq_true_eq] at *
    omega
  · exact (List.mergeSort_perm l pairLe).filter _

theorem mapM_length {β γ : Type} (f : β → Option γ) : ∀ (l : List β) (r : List γ), l.mapM f = some r →
    r.length = l.length := by
  intro l
  induction l with
  | nil => intro r h; simp at h; subst h; rfl
  | cons x l ih =>
    intro r h
    rw [List.mapM_cons] at h
    cases hf : f x with
    | none => simp [hf] at h
    | some b =>
      cases hl : l.mapM f with
      | none => simp [hf, hl] at h
      | some r' =>
        simp [hf, hl] at h
        subst h
        simp [ih r' hl]

theorem mapM_all {β γ : Type} (f : β → Option γ) (g : β → γ) : ∀ (l : List β), (∀ x ∈ l, f x = some (g x)) →
    l.mapM f = some (l.map g) := by
  intro l
  induction l with
  | nil => intro _; rfl
  | cons x l ih =>
    intro h
    rw [List.mapM_cons, h x (List.mem_cons_self ..), ih fun y hy => h y (List.mem_cons_of_mem _ hy)]
    rfl

end Codon.NpIns
