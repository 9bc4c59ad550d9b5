import Verif.CounterM.Lemmas
import Verif.Heapq.Props
import Verif.Sort.Props

/-! # C38: `Counter.most_common` -/

namespace Codon.CounterM

open Codon.KHash

section
set_option linter.unusedSectionVars false
variable {K : Type} [DecidableEq K] {h : K → BitVec 64}

theorem itemSWO : SWO (itemLt : K × Int → K × Int → Bool) :=
  ⟨by intro a b h; simp [itemLt] at *; omega, by intro a b c h1 h2; simp [itemLt] at *; omega⟩

/-- `r` is a choice of `n` items (all, if there are fewer) with the largest counts, largest first. -/
def Top (n : Nat) (A r : List (K × Int)) : Prop :=
  r.length = min n A.length ∧ r.Pairwise (fun p q => q.2 ≤ p.2) ∧
    ∃ rest, (r ++ rest).Perm A ∧ ∀ p ∈ r, ∀ q ∈ rest, q.2 ≤ p.2

theorem topScan_spec : ∀ (l : List (K × Int)) (p : K × Int), ∃ r, topScan (some p) l = some r ∧
    ∃ rest, (r :: rest).Perm (p :: l) ∧ ∀ q ∈ rest, q.2 ≤ r.2 := by
  intro l
  induction l with
  | nil => intro p; exact ⟨p, rfl, [], List.Perm.refl _, by simp⟩
  | cons t l ih =>
    intro p
    unfold topScan
    dsimp only
    by_cases c : t.2 > p.2
    · rw [if_pos c]
      obtain ⟨r, q1, rest, q2, q3⟩ := ih t
      refine ⟨r, q1, p :: rest, ?_, ?_⟩
      · exact (List.Perm.swap p r rest).trans (q2.cons p)
      · have ht : t.2 ≤ r.2 := by
          rcases List.mem_cons.mp (q2.symm.subset (List.mem_cons_self ..)) with h | h
          · rw [h]
          · exact q3 t h
        intro q hq
        rcases List.mem_cons.mp hq with rfl | hq
        · omega
        · exact q3 q hq
    · rw [if_neg c]
      obtain ⟨r, q1, rest, q2, q3⟩ := ih p
      refine ⟨r, q1, t :: rest, ?_, ?_⟩
      · exact ((List.Perm.swap t r rest).trans (q2.cons t)).trans (List.Perm.swap p t l)
      · have ht : p.2 ≤ r.2 := by
          rcases List.mem_cons.mp (q2.symm.subset (List.mem_cons_self ..)) with h | h
          · rw [h]
          · exact q3 p h
        intro q hq
        rcases List.mem_cons.mp hq with rfl | hq
        · omega
        · exact q3 q hq

/-- The state of the heap loop after the items `P`. -/
def HInv (n : Int) (P res : List (K × Int)) : Prop :=
  (res.length : Int) ≤ n ∧ ∃ rest, (res ++ rest).Perm P ∧ ((res.length : Int) < n → rest = []) ∧
    ((res.length : Int) = n → Heapq.IsHeap itemLt res ∧ ∀ p ∈ res, ∀ q ∈ rest, q.2 ≤ p.2)

theorem nLargest_spec (n : Int) (hn : 2 ≤ n) : ∀ (l P res : List (K × Int)), HInv n P res →
    ∃ r, nLargest n res l = some r ∧ HInv n (P ++ l) r := by
  intro l
  induction l with
  | nil => intro P res hi; exact ⟨res, rfl, by simpa using hi⟩
  | cons ct l ih =>
    intro P res ⟨h1, rest, h2, h3, h4⟩
    have eP : P ++ ct :: l = (P ++ [ct]) ++ l := by simp
    rw [eP]
    unfold nLargest
    by_cases hlt : (res.length : Int) < n
    · rw [if_pos hlt]
      have hr := h3 hlt
      subst hr
      rw [List.append_nil] at h2
      dsimp only
      by_cases heq : ((res ++ [ct]).length : Int) = n
      · rw [if_pos heq]
        obtain ⟨h', e1, e2, e3⟩ := Heapq.c27_heapify itemSWO (res ++ [ct])
        rw [e1]
        simp only [Option.bind_eq_bind, Option.bind_some]
        have el := e2.length_eq
        refine ih (P ++ [ct]) h' ⟨by omega, [], ?_, fun _ => rfl, fun _ => ⟨e3, by simp⟩⟩
        rw [List.append_nil]
        exact e2.trans (h2.append_right _)
      · rw [if_neg heq]
        have : ((res ++ [ct]).length : Int) = res.length + 1 := by simp
        refine ih (P ++ [ct]) (res ++ [ct]) ⟨by omega, [], ?_, fun _ => rfl, fun h => absurd h heq⟩
        rw [List.append_nil]
        exact h2.append_right _
    · rw [if_neg hlt]
      have hl : (res.length : Int) = n := by omega
      obtain ⟨hh, hr⟩ := h4 hl
      have hne : res ≠ [] := by intro e; subst e; simp at hl; omega
      obtain ⟨ret, h', e1, e2, e3, e4, e5⟩ := Heapq.c27_heapreplace itemSWO res ct hne hh
      have htop : res[0]? = some ret := by
        cases res with
        | nil => exact absurd rfl hne
        | cons a t =>
          unfold Heapq.heapreplace at e1
          simp only [List.getElem?_cons_zero, Option.bind_eq_bind, Option.bind_some] at e1 ⊢
          cases hp : Heapq.put (a :: t) 0 ct with
          | none => rw [hp] at e1; cases e1
          | some u =>
            rw [hp] at e1
            simp only [Option.bind_some] at e1
            cases hq : Heapq.siftup itemLt u 0 with
            | none => rw [hq] at e1; cases e1
            | some w => rw [hq] at e1; simp at e1; rw [e1.1]
      rw [htop]
      simp only [Option.bind_eq_bind, Option.bind_some]
      have hmin : ∀ y ∈ res, ret.2 ≤ y.2 := by
        intro y hy
        have := e5 y hy
        simp [itemLt] at this
        exact this
      cases hc : itemLt ret ct with
      | true =>
        rw [if_pos rfl, e1]
        simp only [Option.bind_some]
        have hc' : ret.2 < ct.2 := by simpa [itemLt] using hc
        have el := e2.length_eq
        simp at el
        refine ih (P ++ [ct]) h' ⟨by omega, ret :: rest, ?_, fun h => by omega, fun _ => ⟨e3, ?_⟩⟩
        · have p1 : (h' ++ ret :: rest).Perm (ret :: h' ++ rest) := List.perm_middle
          refine p1.trans ((e2.append_right rest).trans ?_)
          have : (ct :: res ++ rest).Perm (ct :: P) := h2.cons ct
          exact this.trans (List.perm_append_singleton ct P).symm
        · intro p hp q hq
          have hp' : p = ct ∨ p ∈ res := by
            have := e2.subset (List.mem_cons_of_mem _ hp)
            simpa using this
          rcases List.mem_cons.mp hq with rfl | hq
          · rcases hp' with rfl | hp'
            · omega
            · exact hmin p hp'
          · rcases hp' with rfl | hp'
            · have := hr ret e4 q hq; omega
            · exact hr p hp' q hq
      | false =>
        rw [if_neg (by simp)]
        have hc' : ct.2 ≤ ret.2 := by simpa [itemLt] using hc
        refine ih (P ++ [ct]) res ⟨h1, ct :: rest, ?_, fun h => absurd h hlt, fun _ => ⟨hh, ?_⟩⟩
        · exact List.perm_middle.trans ((h2.cons ct).trans (List.perm_append_singleton ct P).symm)
        · intro p hp q hq
          rcases List.mem_cons.mp hq with rfl | hq
          · have := hmin p hp; omega
          · exact hr p hp q hq

/-- **C38.** `most_common()` lists all items by descending count. -/
theorem c38_most_common_all (pc : Bool) {a : Ctr K} {A : List (K × Int)} (ra : Rel h a A) :
    ∃ r, mostCommon pc a none = some r ∧ r.Perm A ∧ r.Pairwise (fun p q => q.2 ≤ p.2) := by
  obtain ⟨l, e1, hp, -⟩ := items_rel' ra
  unfold mostCommon
  by_cases hs : a.size = 0
  · rw [if_pos hs]
    have : A = [] := List.eq_nil_of_length_eq_zero (by rw [← ra.size]; exact hs)
    subst this
    exact ⟨[], rfl, List.Perm.refl _, List.Pairwise.nil⟩
  · rw [if_neg hs, e1]
    simp only [Option.bind_eq_bind, Option.bind_some]
    obtain ⟨r, q1, q2, -, q3⟩ := Sort.c29_list_sort itemSWO none true false true l
    refine ⟨r, q1, q2.trans hp, (q3 rfl).imp ?_⟩
    intro p q hpq
    simpa [itemLt] using hpq

/-- **C38.** `most_common(n)` yields `n` items (all of them, if there are fewer; none for `n ≤ 0`), by
descending count, and no item left out has a larger count than one listed. -/
theorem c38_most_common_n (pc : Bool) {a : Ctr K} {A : List (K × Int)} (ra : Rel h a A) (n : Int) :
    ∃ r, mostCommon pc a (some n) = some r ∧ Top n.toNat A r := by
  obtain ⟨l, e1, hp, -⟩ := items_rel' ra
  unfold mostCommon
  by_cases hs : a.size = 0
  · rw [if_pos hs]
    have : A = [] := List.eq_nil_of_length_eq_zero (by rw [← ra.size]; exact hs)
    subst this
    exact ⟨[], rfl, by simp, List.Pairwise.nil, [], List.Perm.refl _, by simp⟩
  · rw [if_neg hs, e1]
    simp only [Option.bind_eq_bind, Option.bind_some]
    have hAl : 0 < A.length := by rw [← ra.size]; omega
    by_cases hn1 : n = 1
    · rw [if_pos hn1]
      subst hn1
      cases l with
      | nil => have := hp.length_eq; simp at this; omega
      | cons t l =>
        obtain ⟨r, q1, rest, q2, q3⟩ := topScan_spec l t
        have : topScan none (t :: l) = some r := by rw [← q1]; rfl
        rw [this]
        refine ⟨[r], rfl, ?_, by simp, rest, q2.trans hp, ?_⟩
        · simp only [List.length_singleton]; omega
        · intro p hp q hq
          simp at hp; subst hp; exact q3 q hq
    · rw [if_neg hn1]
      by_cases hn0 : n ≤ 0
      · rw [if_pos hn0]
        refine ⟨[], rfl, ?_, List.Pairwise.nil, A, List.Perm.refl _, by simp⟩
        simp only [List.length_nil]; omega
      · rw [if_neg hn0]
        obtain ⟨r, q1, q2, rest, q3, q4, q5⟩ := nLargest_spec n (by omega) l [] []
          ⟨by simp; omega, [], List.Perm.refl _, fun _ => rfl, fun h => by simp at h; omega⟩
        rw [q1]
        simp only [Option.bind_some]
        obtain ⟨s, r1, r2, -, r3⟩ := Sort.c29_list_sort itemSWO none false pc true r
        rw [List.nil_append] at q3
        have ls := r2.length_eq
        have lq := q3.length_eq
        rw [List.length_append] at lq
        have lp := hp.length_eq
        refine ⟨s, r1, ?_, (r3 rfl).imp (by intro p q hpq; simpa [itemLt] using hpq), rest,
          ((r2.append_right rest).trans q3).trans hp, ?_⟩
        · by_cases hc : (r.length : Int) < n
          · have := q4 hc
            subst this
            simp at lq
            omega
          · omega
        · intro p hp' q hq
          by_cases hc : (r.length : Int) < n
          · have := q4 hc
            subst this
            cases hq
          · exact (q5 (by omega)).2 p (r2.subset hp') q hq

/-- Non-vacuity: a counter built by the code. -/
example : (do
    let t ← fromElements (fun k : Nat => BitVec.ofNat 64 k) [3, 1, 3, 2, 3, 1, 7, 7, 7, 7]
    mostCommon true t (some 2)) = some [(7, 4), (3, 3)] := by decide +kernel

end

end Codon.CounterM
