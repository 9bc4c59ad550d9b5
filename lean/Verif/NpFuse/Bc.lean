import Mathlib.Data.List.Basic
import Mathlib.Tactic.Tauto
import Verif.Numpy.CallLemmas
import Verif.NpFuse.Spec
/-!
# Broadcasting several shapes at once and one after the other
-/
namespace Codon.NpFuse
open Codon.Numpy
variable {V : Type}

theorem dimAt_eq (sh : List Int) (k : Nat) (hk : k < sh.length) : dimAt sh k = sh.reverse[k]'(by simpa using hk) := by
  rw [dimAt, List.getElem?_eq_getElem (by simpa using hk)]; rfl

theorem dimAt_ge (sh : List Int) (k : Nat) (hk : sh.length ≤ k) : dimAt sh k = 1 := by
  rw [dimAt, List.getElem?_eq_none (by simpa using hk)]; rfl

theorem aligned_dimAt (sh s : List Int) (h : Aligned sh s) (k : Nat) : dimAt sh k = 1 ∨ dimAt sh k = dimAt s k := by
  by_cases hk : k < sh.length
  · have hb := (aligned_fits sh s h).2.2 k (by have := h.1; omega)
    exact hb.1 sh (by simp)
  · exact Or.inl (dimAt_ge _ _ (by omega))

theorem aligned_iff (sh s : List Int) : Aligned sh s ↔ sh.length ≤ s.length ∧ ∀ k, dimAt sh k = 1 ∨ dimAt sh k = dimAt s k :=
  ⟨fun h => ⟨h.1, aligned_dimAt sh s h⟩, fun h => dimAt_aligned sh s h.1 fun k _ => h.2 k⟩

theorem aligned_trans (a b c : List Int) (h1 : Aligned a b) (h2 : Aligned b c) : Aligned a c := by
  rw [aligned_iff] at *
  refine ⟨by omega, fun k => ?_⟩
  rcases h1.2 k with h | h
  · exact Or.inl h
  · rcases h2.2 k with h' | h'
    · exact Or.inl (h.trans h')
    · exact Or.inr (h.trans h')

/-- Shapes that all fit into `s` broadcast. -/
theorem bc_exists (args : List (List Int)) (s : List Int) (hne : args ≠ []) (h : ∀ a ∈ args, Aligned a s) : ∃ s', Broadcasts args s' ∧ Aligned s' s := by
  obtain ⟨l1, l2⟩ := largest_spec args hne
  classical
  let m := (largest args).length
  have hm : m ≤ s.length := (h _ l1).1
  let t := (List.range m).map fun k => if ∃ a ∈ args, dimAt a k ≠ 1 then dimAt s k else 1
  have hd : ∀ k < m, dimAt t.reverse k = if ∃ a ∈ args, dimAt a k ≠ 1 then dimAt s k else 1 := by
    intro k hk
    rw [dimAt, List.reverse_reverse]
    simp [t, hk]
  have hl : t.reverse.length = m := by simp [t]
  have hb : Broadcasts args t.reverse := by
    refine ⟨fun a ha => by rw [hl]; exact l2 a ha, ⟨_, l1, hl.symm⟩, fun k hk => ?_⟩
    rw [hl] at hk
    rw [hd k hk]
    by_cases he : ∃ a ∈ args, dimAt a k ≠ 1
    · rw [if_pos he]
      refine ⟨fun a ha => aligned_dimAt a s (h a ha) k, ?_⟩
      obtain ⟨a, ha, hne1⟩ := he
      exact ⟨a, ha, (aligned_dimAt a s (h a ha) k).resolve_left hne1⟩
    · rw [if_neg he]
      push Not at he
      exact ⟨fun a ha => Or.inl (he a ha), _, l1, he _ l1⟩
  refine ⟨t.reverse, hb, (aligned_iff _ _).mpr ⟨by rw [hl]; exact hm, fun k => ?_⟩⟩
  by_cases hk : k < m
  · rw [hd k hk]
    split
    · exact Or.inr rfl
    · exact Or.inl rfl
  · exact Or.inl (dimAt_ge _ _ (by rw [hl]; omega))

/-- As `Broadcasts`, with the shape of a number for no arrays. -/
def Bc (args : List (List Int)) (s : List Int) : Prop := (args = [] ∧ s = []) ∨ Broadcasts args s

theorem bc_aligned (args : List (List Int)) (s : List Int) (h : Bc args s) (a : List Int) (ha : a ∈ args) : Aligned a s := by
  rcases h with ⟨rfl, _⟩ | h
  · simp at ha
  · exact broadcasts_aligned _ _ h a ha

theorem bc_nonempty (args : List (List Int)) (s : List Int) (h : Broadcasts args s) : args ≠ [] := by
  rintro rfl
  obtain ⟨_, hh, _⟩ := h.2.1
  simp at hh

theorem aligned_nil (s : List Int) : Aligned [] s := ⟨by simp, by simp⟩

theorem bc_exists' (args : List (List Int)) (s : List Int) (h : ∀ a ∈ args, Aligned a s) : ∃ s', Bc args s' ∧ Aligned s' s := by
  by_cases hne : args = []
  · exact ⟨[], Or.inl ⟨hne, rfl⟩, aligned_nil s⟩
  · obtain ⟨s', h1, h2⟩ := bc_exists args s hne h
    exact ⟨s', Or.inr h1, h2⟩

/-- Broadcasting two parts and then the results is broadcasting all. -/
theorem bc_append (l r : List (List Int)) (s1 s2 s : List Int) (hl : Bc l s1) (hr : Bc r s2) (hs : Broadcasts [s1, s2] s) (hne : l ≠ [] ∨ r ≠ []) : Broadcasts (l ++ r) s := by
  have a1 := broadcasts_aligned _ _ hs s1 (by simp)
  have a2 := broadcasts_aligned _ _ hs s2 (by simp)
  have hal : ∀ a ∈ l ++ r, Aligned a s := by
    intro a ha
    rcases List.mem_append.mp ha with ha | ha
    · exact aligned_trans _ _ _ (bc_aligned _ _ hl a ha) a1
    · exact aligned_trans _ _ _ (bc_aligned _ _ hr a ha) a2
  obtain ⟨m0, hm0⟩ : ∃ m0, m0 ∈ l ++ r := by
    rcases hne with hne | hne
    · obtain ⟨x, hx⟩ := List.exists_mem_of_ne_nil _ hne; exact ⟨x, by simp [hx]⟩
    · obtain ⟨x, hx⟩ := List.exists_mem_of_ne_nil _ hne; exact ⟨x, by simp [hx]⟩
  refine ⟨fun a ha => (hal a ha).1, ?_, fun k hk => ⟨fun a ha => aligned_dimAt a s (hal a ha) k, ?_⟩⟩
  · obtain ⟨sh, hsh, e⟩ := hs.2.1
    simp only [List.mem_cons, List.not_mem_nil, or_false] at hsh
    rcases hsh with rfl | rfl
    · rcases hl with ⟨_, rfl⟩ | hl
      · exact ⟨m0, hm0, by have := (hal m0 hm0).1; simp at e; omega⟩
      · obtain ⟨a, ha, e'⟩ := hl.2.1
        exact ⟨a, by simp [ha], e'.trans e⟩
    · rcases hr with ⟨_, rfl⟩ | hr
      · exact ⟨m0, hm0, by have := (hal m0 hm0).1; simp at e; omega⟩
      · obtain ⟨a, ha, e'⟩ := hr.2.1
        exact ⟨a, by simp [ha], e'.trans e⟩
  · obtain ⟨sh, hsh, e⟩ := (hs.2.2 k hk).2
    have key : ∀ (x : List (List Int)) (t : List Int), (∀ a ∈ x, a ∈ l ++ r) → Bc x t → dimAt t k = dimAt s k → ∃ a ∈ l ++ r, dimAt a k = dimAt s k := by
      intro x t hx hb he
      have one : dimAt s k = 1 → ∃ a ∈ l ++ r, dimAt a k = dimAt s k := fun h1 =>
        ⟨m0, hm0, by rcases aligned_dimAt m0 s (hal m0 hm0) k with h | h; exact h.trans h1.symm; exact h⟩
      rcases hb with ⟨_, rfl⟩ | hb
      · exact one (by rw [← he]; exact dimAt_ge _ _ (by simp))
      · by_cases hkt : k < t.length
        · obtain ⟨a, ha, e'⟩ := (hb.2.2 k hkt).2
          exact ⟨a, hx a ha, e'.trans he⟩
        · exact one (by rw [← he]; exact dimAt_ge _ _ (by omega))
    simp only [List.mem_cons, List.not_mem_nil, or_false] at hsh
    rcases hsh with rfl | rfl
    · exact key l _ (fun a ha => by simp [ha]) hl e
    · exact key r _ (fun a ha => by simp [ha]) hr e

theorem proj_aux : ∀ (a b : List Int) (c : List Int), a.length = b.length → (∀ p ∈ a.zip b, p.1 = 1 ∨ p.1 = p.2) →
    List.zipWith (fun n x => if n = 1 then 0 else x) a (List.zipWith (fun n x => if n = 1 then 0 else x) b c) = List.zipWith (fun n x => if n = 1 then 0 else x) a c
  | [], _, _, _, _ => by simp
  | _ :: _, [], _, h, _ => by simp at h
  | x :: a, y :: b, [], _, _ => by simp
  | x :: a, y :: b, z :: c, hl, h => by
    simp only [List.zipWith_cons_cons]
    rw [proj_aux a b c (by simpa using hl) fun p hp => h p (by simp [hp])]
    congr 1
    rcases h (x, y) (by simp) with h | h <;> (dsimp only at h)
    · rw [if_pos h, if_pos h]
    · subst h
      by_cases hx : x = 1
      · rw [if_pos hx, if_pos hx]
      · rw [if_neg hx, if_neg hx]

/-- Going to the place in a smaller shape in two steps. -/
theorem proj_proj (a b s c : List Int) (h1 : Aligned a b) (h2 : Aligned b s) (hc : Valid c s) : proj a (proj b c) = proj a c := by
  have hl := Valid.length hc
  have e1 : (proj b c).length = b.length := by rw [proj, List.length_zipWith, List.length_drop]; have := h2.1; omega
  rw [proj, e1, proj, List.drop_zipWith, List.drop_drop]
  rw [proj_aux a (b.drop (b.length - a.length)) _ (by rw [List.length_drop]; have := h1.1; omega) h1.2]
  rw [proj]
  congr 2
  have := h1.1
  have := h2.1
  omega

/-! ### `_broadcast` -/

theorem dimAt_append (p z : List Int) (k : Nat) : dimAt (p ++ z) k = if k < z.length then dimAt z k else dimAt p (k - z.length) := by
  simp only [dimAt, List.reverse_append]
  by_cases hk : k < z.length
  · rw [if_pos hk, List.getElem?_append_left (by simpa using hk)]
  · rw [if_neg hk, List.getElem?_append_right (by simpa using Nat.le_of_not_lt hk)]
    simp

theorem dimAt_cons (x : Int) (z : List Int) (k : Nat) : dimAt (x :: z) k = if k < z.length then dimAt z k else if k = z.length then x else 1 := by
  rw [← List.singleton_append, dimAt_append]
  split
  · rfl
  · split
    · next h => subst h; simp [dimAt]
    · exact dimAt_ge _ _ (by simp; omega)

theorem bcSame_spec : ∀ s1 s2 : List Int, s1.length = s2.length → (∀ n ∈ s1, 0 < n) → (∀ n ∈ s2, 0 < n) →
    (∃ z, bcSame s1 s2 = .ok z ∧ z.length = s1.length ∧
      ∀ k, (dimAt s1 k = 1 ∨ dimAt s1 k = dimAt z k) ∧ (dimAt s2 k = 1 ∨ dimAt s2 k = dimAt z k) ∧ (dimAt z k = dimAt s1 k ∨ dimAt z k = dimAt s2 k)) ∨
    (bcSame s1 s2 = .error .value ∧ ∃ k < s1.length, dimAt s1 k ≠ 1 ∧ dimAt s2 k ≠ 1 ∧ dimAt s1 k ≠ dimAt s2 k)
  | [], [], _, _, _ => Or.inl ⟨[], rfl, rfl, fun k => ⟨Or.inr rfl, Or.inr rfl, Or.inl rfl⟩⟩
  | [], _ :: _, h, _, _ => by simp at h
  | _ :: _, [], h, _, _ => by simp at h
  | a :: s1, b :: s2, hl, h1, h2 => by
    have hl' : s1.length = s2.length := by simpa using hl
    have pa : 0 < a := h1 a (by simp)
    have pb : 0 < b := h2 b (by simp)
    rw [bcSame]
    by_cases hc : a = 1 ∨ b = 1 ∨ a = b
    · rw [if_pos hc]
      rcases bcSame_spec s1 s2 hl' (fun n hn => h1 n (by simp [hn])) (fun n hn => h2 n (by simp [hn])) with ⟨z, e1, e2, e3⟩ | ⟨e1, k, e2, e3⟩
      · refine Or.inl ⟨max a b :: z, by rw [e1]; rfl, by simp [e2], fun k => ?_⟩
        rw [dimAt_cons, dimAt_cons, dimAt_cons, e2, ← hl']
        by_cases hk : k < s1.length
        · simp only [if_pos hk]; exact e3 k
        · simp only [if_neg hk]
          by_cases hk2 : k = s1.length
          · simp only [if_pos hk2]; omega
          · simp only [if_neg hk2]; simp
      · refine Or.inr ⟨by rw [e1]; rfl, k, by simp; omega, ?_⟩
        rw [dimAt_cons, dimAt_cons, ← hl', if_pos e2, if_pos e2]
        exact e3
    · rw [if_neg hc]
      refine Or.inr ⟨rfl, s1.length, by simp, ?_⟩
      rw [dimAt_cons, dimAt_cons, ← hl']
      simp only [Nat.lt_irrefl, if_false, if_true]
      tauto

theorem broadcasts2_of (s1 s2 s : List Int) (hlen : s.length = max s1.length s2.length)
    (h : ∀ k, (dimAt s1 k = 1 ∨ dimAt s1 k = dimAt s k) ∧ (dimAt s2 k = 1 ∨ dimAt s2 k = dimAt s k) ∧ (dimAt s k = dimAt s1 k ∨ dimAt s k = dimAt s2 k)) : Broadcasts [s1, s2] s := by
  refine ⟨by simp; omega, ?_, fun k hk => ⟨?_, ?_⟩⟩
  · rcases Nat.le_total s1.length s2.length with hh | hh
    · exact ⟨s2, by simp, by omega⟩
    · exact ⟨s1, by simp, by omega⟩
  · simp only [List.mem_cons, List.not_mem_nil, or_false, forall_eq_or_imp, forall_eq]
    exact ⟨(h k).1, (h k).2.1⟩
  · rcases (h k).2.2 with hh | hh
    · exact ⟨s1, by simp, hh.symm⟩
    · exact ⟨s2, by simp, hh.symm⟩

theorem broadcasts2_not (s1 s2 : List Int) (k : Nat) (h : dimAt s1 k ≠ 1 ∧ dimAt s2 k ≠ 1 ∧ dimAt s1 k ≠ dimAt s2 k) (s : List Int) : ¬ Broadcasts [s1, s2] s := by
  intro hb
  have e1 := (aligned_dimAt s1 s (broadcasts_aligned _ _ hb s1 (by simp)) k).resolve_left h.1
  have e2 := (aligned_dimAt s2 s (broadcasts_aligned _ _ hb s2 (by simp)) k).resolve_left h.2.1
  exact h.2.2 (e1.trans e2.symm)

/-- `_broadcast` on shapes without zeros. -/
theorem fbroadcast_spec (s1 s2 : List Int) (h1 : ∀ n ∈ s1, 0 < n) (h2 : ∀ n ∈ s2, 0 < n) :
    (∃ s, fbroadcast s1 s2 = .ok s ∧ Broadcasts [s1, s2] s) ∨ (fbroadcast s1 s2 = .error .value ∧ ∀ s, ¬ Broadcasts [s1, s2] s) := by
  unfold fbroadcast
  split
  · next h =>
    have : s1 = [] := List.length_eq_zero_iff.mp h
    subst this
    exact Or.inl ⟨s2, rfl, aligned_fits _ _ (aligned_nil s2)⟩
  · split
    · next h =>
      have : s2 = [] := List.length_eq_zero_iff.mp h
      subst this
      refine Or.inl ⟨s1, rfl, broadcasts2_of _ _ _ (by simp) fun k => ⟨Or.inr rfl, Or.inl (dimAt_ge _ _ (by simp)), Or.inl rfl⟩⟩
    · split
      · next hlt =>
        have hd : s1.take (s1.length - s2.length) ++ s1.drop (s1.length - s2.length) = s1 := List.take_append_drop _ _
        generalize hp : s1.take (s1.length - s2.length) = p at hd
        generalize hq : s1.drop (s1.length - s2.length) = q at hd
        have hql : q.length = s2.length := by rw [← hq, List.length_drop]; omega
        rcases bcSame_spec q s2 hql (fun n hn => h1 n (by rw [← hd]; simp [hn])) h2 with ⟨z, e1, e2, e3⟩ | ⟨e1, k, e2, e3⟩
        · refine Or.inl ⟨p ++ z, by rw [e1]; rfl, broadcasts2_of _ _ _ (by rw [← hd]; simp; omega) fun k => ?_⟩
          rw [← hd, dimAt_append, dimAt_append, e2]
          by_cases hk : k < q.length
          · rw [if_pos hk, if_pos hk]; exact e3 k
          · rw [if_neg hk, if_neg hk]
            exact ⟨Or.inr rfl, Or.inl (dimAt_ge _ _ (by omega)), Or.inl rfl⟩
        · refine Or.inr ⟨by rw [e1]; rfl, broadcasts2_not _ _ k ?_⟩
          rw [← hd, dimAt_append, if_pos e2]; exact e3
      · split
        · next hlt =>
          have hd : s2.take (s2.length - s1.length) ++ s2.drop (s2.length - s1.length) = s2 := List.take_append_drop _ _
          generalize hp : s2.take (s2.length - s1.length) = p at hd
          generalize hq : s2.drop (s2.length - s1.length) = q at hd
          have hql : q.length = s1.length := by rw [← hq, List.length_drop]; omega
          rcases bcSame_spec s1 q hql.symm h1 (fun n hn => h2 n (by rw [← hd]; simp [hn])) with ⟨z, e1, e2, e3⟩ | ⟨e1, k, e2, e3⟩
          · refine Or.inl ⟨p ++ z, by rw [e1]; rfl, broadcasts2_of _ _ _ (by rw [← hd]; simp; omega) fun k => ?_⟩
            rw [← hd, dimAt_append, dimAt_append, e2, ← hql]
            by_cases hk : k < q.length
            · rw [if_pos hk, if_pos hk]; exact e3 k
            · rw [if_neg hk, if_neg hk]
              exact ⟨Or.inl (dimAt_ge _ _ (by omega)), Or.inr rfl, Or.inr rfl⟩
          · refine Or.inr ⟨by rw [e1]; rfl, broadcasts2_not _ _ k ?_⟩
            rw [← hd, dimAt_append, if_pos (by omega)]; exact e3
        · have hl : s1.length = s2.length := by omega
          rcases bcSame_spec s1 s2 hl h1 h2 with ⟨z, e1, e2, e3⟩ | ⟨e1, k, e2, e3⟩
          · exact Or.inl ⟨z, e1, broadcasts2_of _ _ _ (by omega) e3⟩
          · exact Or.inr ⟨e1, broadcasts2_not _ _ k e3⟩

theorem broadcasts_pos (args : List (List Int)) (s : List Int) (h : Broadcasts args s) (hp : ∀ a ∈ args, ∀ n ∈ a, 0 < n) : ∀ n ∈ s, 0 < n := by
  intro n hn
  obtain ⟨i, hi, rfl⟩ := List.mem_iff_getElem.mp (List.mem_reverse.mpr hn)
  rw [List.length_reverse] at hi
  rw [← dimAt_eq s i hi]
  obtain ⟨a, ha, e⟩ := (h.2.2 i hi).2
  rw [← e]
  by_cases hk : i < a.length
  · rw [dimAt_eq a i hk]; exact hp a ha _ (by rw [← List.mem_reverse]; exact List.getElem_mem _)
  · rw [dimAt_ge _ _ (by omega)]; decide

end Codon.NpFuse
