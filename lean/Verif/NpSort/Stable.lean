import Verif.NpSort.Spec
import Verif.NpSort.Model
import Verif.NpSort.Runs

/-! Facts on stable sorts: one result only, sorting by one key after another, and `timsort`. -/

namespace Codon.NpSort
open Codon.Sort
variable {α : Type} {lt : α → α → Bool}

theorem StableSortOf.unique (ho : SWO lt) {a b c : List α} (h1 : StableSortOf lt a b) (h2 : StableSortOf lt a c) : b = c := by
  have key : ∀ b c : List α, b.Pairwise (fun x y => lt y x = false) → c.Pairwise (fun x y => lt y x = false) →
      (∀ z, b.filter (fun w => !lt z w && !lt w z) = c.filter (fun w => !lt z w && !lt w z)) → b = c := by
    intro b
    induction b with
    | nil =>
      intro c _ _ h
      cases c with
      | nil => rfl
      | cons y c =>
        have := h y
        simp [ho.irrefl] at this
    | cons x b ih =>
      intro c sb sc h
      cases c with
      | nil =>
        have := h x
        simp [ho.irrefl] at this
      | cons y c =>
        have sb' := List.pairwise_cons.1 sb
        have sc' := List.pairwise_cons.1 sc
        have hx : x ∈ y :: c := by
          have : x ∈ (y :: c).filter (fun w => !lt x w && !lt w x) := by rw [← h x]; simp [ho.irrefl]
          exact List.mem_of_mem_filter this
        have hy : y ∈ x :: b := by
          have : y ∈ (x :: b).filter (fun w => !lt y w && !lt w y) := by rw [h y]; simp [ho.irrefl]
          exact List.mem_of_mem_filter this
        have n1 : lt x y = false := by
          rcases List.mem_cons.1 hx with rfl | hx
          · exact ho.irrefl _
          · exact sc'.1 x hx
        have n2 : lt y x = false := by
          rcases List.mem_cons.1 hy with rfl | hy
          · exact ho.irrefl _
          · exact sb'.1 y hy
        have hh := h x
        simp only [List.filter_cons, ho.irrefl, n1, n2, Bool.not_false, Bool.and_self, if_true, List.cons.injEq] at hh
        have hxy := hh.1
        subst hxy
        congr 1
        refine ih c sb'.2 sc'.2 fun z => ?_
        have := h z
        simp only [List.filter_cons] at this
        by_cases cz : (!lt z x && !lt x z) = true
        · rw [if_pos cz, if_pos cz] at this
          exact (List.cons.inj this).2
        · rw [if_neg cz, if_neg cz] at this
          exact this
  exact key b c h1.sorted h2.sorted fun z => by rw [h1.stable z, h2.stable z]

/-- Sorting stably by `lt2` what has been sorted stably by `lt1`. -/
theorem StableSortOf.step {lt1 lt2 : α → α → Bool} (hi : ∀ x, lt2 x x = false) {a b c : List α} (h1 : StableSortOf lt1 a b) (h2 : StableSortOf lt2 b c) : StableSortOf (lexOf lt2 lt1) a c where
  sorted := by
    rw [List.pairwise_iff_forall_sublist]
    intro x y hs
    have hyx : lt2 y x = false := (List.pairwise_iff_forall_sublist.1 h2.sorted) hs
    unfold lexOf
    rw [hyx]
    cases hxy : lt2 x y with
    | true => simp
    | false =>
      have hsub : [x, y].Sublist b := by
        have e1 : [x, y].filter (fun w => !lt2 x w && !lt2 w x) = [x, y] := by simp [hi, hxy, hyx]
        have := hs.filter (fun w => !lt2 x w && !lt2 w x)
        rw [e1, h2.stable x] at this
        exact this.trans List.filter_sublist
      have := (List.pairwise_iff_forall_sublist.1 h1.sorted) hsub
      simp [this]
  perm := h2.perm.trans h1.perm
  stable := by
    intro z
    have e : ∀ l : List α, l.filter (fun w => !lexOf lt2 lt1 z w && !lexOf lt2 lt1 w z) = (l.filter (fun w => !lt2 z w && !lt2 w z)).filter (fun w => !lt1 z w && !lt1 w z) := by
      intro l
      rw [List.filter_filter]
      congr 1
      funext w
      unfold lexOf
      cases lt2 z w <;> cases lt2 w z <;> cases lt1 z w <;> cases lt1 w z <;> rfl
    have comm : ∀ l : List α, (l.filter (fun w => !lt2 z w && !lt2 w z)).filter (fun w => !lt1 z w && !lt1 w z) = (l.filter (fun w => !lt1 z w && !lt1 w z)).filter (fun w => !lt2 z w && !lt2 w z) := by
      intro l
      rw [List.filter_filter, List.filter_filter]
      congr 1
      funext w
      exact Bool.and_comm _ _
    rw [e, e, h2.stable z, comm, h1.stable z, comm]

theorem StableSortOf.refl {a : List α} (h : a.Pairwise fun x y => lt y x = false) : StableSortOf lt a a := ⟨h, List.Perm.refl _, fun _ => rfl⟩

/-- Only the order of the elements there are counts. -/
theorem StableSortOf.congr {lt' : α → α → Bool} {a b : List α} (ha : ∀ x ∈ a, ∀ y ∈ a, lt x y = lt' x y) (hz : ∀ z, ∃ f : α → Bool, (∀ w ∈ a, (!lt' z w && !lt' w z) = f w) ∧ b.filter f = a.filter f) (h : StableSortOf lt a b) : StableSortOf lt' a b where
  sorted := h.sorted.imp_of_mem fun hx hy hxy => by rw [← ha _ (h.perm.mem_iff.1 hy) _ (h.perm.mem_iff.1 hx)]; exact hxy
  perm := h.perm
  stable := by
    intro z
    obtain ⟨f, f1, f2⟩ := hz z
    rw [List.filter_congr (l := b) (q := f) fun w hw => f1 w (h.perm.mem_iff.1 hw), List.filter_congr (l := a) (q := f) f1, f2]

theorem timsort_stable (ho : SWO lt) (a : List α) (hbig : a.length < 2 ^ 63) : ∃ b, timsort lt a = some b ∧ StableSortOf lt a b := by
  obtain ⟨b, h1, h2, h3, h4⟩ := timsort_spec ho a hbig
  exact ⟨b, h1, h3, h2, fun z => h4 z⟩

theorem lexsort_stable {κ : Type} (less : κ → α → α → Bool) (hi : ∀ k x, less k x x = false) (sorter : κ → List α → Option (List α)) (a0 : List α)
    (hs : ∀ k (b : List α), b.Perm a0 → ∃ c, sorter k b = some c ∧ StableSortOf (less k) b c) :
    ∀ (keys : List κ) (done : List κ) (b : List α), StableSortOf (lexAll (done.map less)) a0 b →
      ∃ c, lexsort sorter keys b = some c ∧ StableSortOf (lexAll ((keys.reverse ++ done).map less)) a0 c := by
  intro keys
  induction keys with
  | nil => intro done b h; exact ⟨b, rfl, h⟩
  | cons k ks ih =>
    intro done b h
    obtain ⟨c, c1, c2⟩ := hs k b h.perm
    have := h.step (hi k) c2
    obtain ⟨d, d1, d2⟩ := ih (k :: done) c this
    refine ⟨d, ?_, by simpa using d2⟩
    unfold lexsort at d1 ⊢
    rw [List.foldlM_cons, c1]
    exact d1
end Codon.NpSort
