import Verif.SortedList.Lemmas
/-! # C41: `SortedList` keeps its contents sorted -/
namespace Codon.SortedList
variable {T : Type}

theorem reach_inv {lt : T → T → Bool} (ho : SWO lt) {load : Int} (hl : 1 ≤ load) {s : SL T} {xs : List T}
    (h : Reach lt load s xs) : Inv lt s ∧ s.lists.flatten = xs ∧ s.load = load := by
  induction h with
  | init => exact ⟨⟨hl, rfl, List.Pairwise.nil, rfl, by simp [init], by simp [init]⟩, rfl, rfl⟩
  | @step s s' xs ys op _ h2 h3 ih =>
    obtain ⟨I, e, el⟩ := ih
    cases op with
    | add x =>
      obtain ⟨s1, e1, e2, e3, e4⟩ := add_ok ho I x
      simp only [step] at h2
      rw [e1] at h2
      cases h2
      refine ⟨e2, ?_, e4.trans el⟩
      rw [e] at e3
      obtain ⟨b, c, f1, f2, f3, f4⟩ := e3
      obtain ⟨b', c', g1, g2, g3, g4⟩ := h3
      have hbc : b = b' ∧ c = c' := by
        rw [f1] at g1
        rcases List.append_eq_append_iff.mp g1 with ⟨d, hd1, hd2⟩ | ⟨d, hd1, hd2⟩
        · cases d with
          | nil => simp at hd1 hd2; exact ⟨hd1.symm, hd2⟩
          | cons y d =>
            have k1 := g3 y (by rw [hd1]; simp)
            have k2 := f4 y (by rw [hd2]; simp)
            rw [k1] at k2
            cases k2
        · cases d with
          | nil => simp at hd1 hd2; exact ⟨hd1, hd2.symm⟩
          | cons y d =>
            have k1 := f3 y (by rw [hd1]; simp)
            have k2 := g4 y (by rw [hd2]; simp)
            rw [k1] at k2
            cases k2
      rw [f2, g2, hbc.1, hbc.2]
    | delete pos idx =>
      obtain ⟨l, i, g1, g2, g3⟩ := h3
      obtain ⟨A, B, k1, k2⟩ := split_at g1
      obtain ⟨s1, e1, e2, e3, e4⟩ := delete_ok I k1 g2
      simp only [step] at h2
      rw [k2] at e1
      rw [e1] at h2
      cases h2
      refine ⟨e2, ?_, e4.trans el⟩
      rw [e3, g3, e]
      congr 2
      unfold before
      rw [k1, ← k2, List.take_left']
      rfl
    | clear =>
      simp only [step] at h2
      cases h2
      exact ⟨⟨I.load, rfl, List.Pairwise.nil, rfl, by simp [clear], by simp [clear]⟩, h3.symm, el⟩

/-- C41.  After any sequence of operations, for any load factor of at least 1: iterating gives exactly the contents,
they are in ascending order, `len` is their number, and `left` is the first of them (`IndexError` when there is none). -/
theorem c41_contents {lt : T → T → Bool} (ho : SWO lt) {load : Int} (hl : 1 ≤ load) {s : SL T} {xs : List T}
    (h : Reach lt load s xs) :
    iter s = xs ∧ Sorted lt xs ∧ length s = xs.length ∧
      left s = xs.head?.elim (.exc .indexError) .ok := by
  obtain ⟨I, rfl, _⟩ := reach_inv ho hl h
  refine ⟨rfl, I.sorted, I.len, ?_⟩
  unfold left
  cases hs : s.lists with
  | nil => simp
  | cons l L =>
    have hne := nonempty I.maxes l (by rw [hs]; simp)
    obtain ⟨x, l', rfl⟩ := List.exists_cons_of_ne_nil hne
    have i1 := item_mid (T := List T) [] L (x :: l')
    have i2 := item_mid (T := T) [] l' x
    simp only [List.nil_append, List.length_nil, Nat.cast_zero] at i1 i2
    simp [i1, i2]

/-- C41.  No operation gets stuck: it does what it should or, when asked to delete what is not there, raises
`IndexError`. -/
theorem c41_progress {lt : T → T → Bool} (ho : SWO lt) {load : Int} (hl : 1 ≤ load) {s : SL T} {xs : List T}
    (h : Reach lt load s xs) (op : Op T) :
    (Fails s op ∧ step lt s op = .exc .indexError) ∨ ∃ s' ys, step lt s op = .ok s' ∧ Change lt s xs op ys ∧
      iter s' = ys := by
  obtain ⟨I, rfl, _⟩ := reach_inv ho hl h
  cases op with
  | add x =>
    obtain ⟨s1, e1, e2, e3, e4⟩ := add_ok ho I x
    exact .inr ⟨s1, _, e1, e3, rfl⟩
  | delete pos idx =>
    by_cases hf : Fails s (.delete pos idx)
    · exact .inl ⟨hf, delete_fails hf⟩
    · right
      unfold Fails at hf
      cases hg : s.lists[pos]? with
      | none => simp [hg] at hf
      | some l =>
        simp only [hg] at hf
        cases hp : ListM.Spec.pos l.length idx with
        | none => exact absurd hp hf
        | some i =>
          obtain ⟨A, B, k1, k2⟩ := split_at hg
          obtain ⟨s1, e1, e2, e3, e4⟩ := delete_ok I k1 hp
          refine ⟨s1, _, by rw [← k2]; exact e1, ⟨l, i, hg, hp, rfl⟩, ?_⟩
          unfold before iter
          rw [e3]
          congr 2
          rw [k1, ← k2, List.take_left']
          rfl
  | clear => exact .inr ⟨clear s, [], rfl, rfl, rfl⟩

/-- C41.  Lists stay between half and double the load factor: none is longer than twice the load factor, and as soon as
there are two, none is as short as half of it. -/
theorem c41_balanced {lt : T → T → Bool} (ho : SWO lt) {load : Int} (hl : 1 ≤ load) {s : SL T} {xs : List T}
    (h : Reach lt load s xs) :
    (∀ l ∈ s.lists, (l.length : Int) ≤ load * 2) ∧ (1 < s.lists.length → ∀ l ∈ s.lists, load / 2 < (l.length : Int)) := by
  obtain ⟨I, _, rfl⟩ := reach_inv ho hl h
  exact ⟨I.upper, I.lower⟩

/-! ### Cases -/

private def lt (a b : Nat × Nat) : Bool := decide (a.1 < b.1)

/-- Load factor 1: adding 3, 1, 2, 1 splits twice; equal values stay in the order of adding. -/
example :
    ((do
      let s ← add lt { init with load := 1 } (3, 0)
      let s ← add lt s (1, 1)
      let s ← add lt s (2, 2)
      let s ← add lt s (1, 3)
      let t ← delete s 0 0
      return (s.lists, t.lists, t.len)) : Bisect.R _) =
    .ok ([[(1, 1)], [(1, 3)], [(2, 2), (3, 0)]], [[(1, 3)], [(2, 2), (3, 0)]], 3) := by decide

end Codon.SortedList
