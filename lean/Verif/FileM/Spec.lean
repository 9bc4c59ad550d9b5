import Verif.FileM.Model
/-!
# Specification of reading files by lines
-/
namespace Codon.FileM

/-- The lines of a file: together they are the contents, none is empty, only the last byte of a line can be a newline, and only the last line can be without one. -/
structure IsLines (data : List Byte) (L : List (List Byte)) : Prop where
  all : L.flatten = data
  nonempty : ∀ l ∈ L, l ≠ []
  inner : ∀ l ∈ L, nl ∉ l.dropLast
  ends : ∀ l ∈ L.dropLast, l.getLast? = some nl

/-- A line without its newline. -/
def chomp (l : List Byte) : List Byte := if l.getLast? = some nl then l.dropLast else l

example : IsLines [97, 10, 10, 98] [[97, 10], [10], [98]] := ⟨rfl, by decide, by decide, by decide⟩

/-- There is only one way to divide a file into lines. -/
theorem isLines_unique : ∀ {L L' : List (List Byte)} {data : List Byte}, IsLines data L → IsLines data L' → L = L'
  | [], [], _, _, _ => rfl
  | [], l :: L', data, h, h' => by
    have := h.all; have h2 := h'.all
    rw [← this] at h2
    simp at h2
    exact absurd h2.1 (h'.nonempty l (by simp))
  | l :: L, [], data, h, h' => by
    have := h.all; have h2 := h'.all
    rw [← h2] at this
    simp at this
    exact absurd this.1 (h.nonempty l (by simp))
  | l :: L, l' :: L', data, h, h' => by
    have tail : ∀ {l L data}, IsLines data (l :: L) → IsLines L.flatten L := fun {l L data} h =>
      ⟨rfl, fun x hx => h.nonempty x (by simp [hx]), fun x hx => h.inner x (by simp [hx]), fun x hx => h.ends x (by
        cases L with
        | nil => simp at hx
        | cons y ys => rw [List.dropLast_cons_cons]; exact List.mem_cons_of_mem _ hx)⟩
    -- the first line does not depend on the division
    have key : ∀ (l l' : List Byte) (r r' : List Byte), l ++ r = l' ++ r' → l ≠ [] → nl ∉ l'.dropLast → (r = [] ∨ l.getLast? = some nl) → l'.length ≤ l.length := by
      intro l l' r r' he hne hin hend
      rcases Nat.lt_or_ge l.length l'.length with hlt | hge
      · exfalso
        rcases hend with hr | hl
        · subst hr
          have := congrArg List.length he
          simp at this
          omega
        · apply hin
          have h1 : l = l'.take l.length := by
            have := congrArg (List.take l.length) he
            rw [List.take_left, List.take_append_of_le_length (by omega)] at this
            exact this
          have h2 : l.dropLast ++ [nl] = l := by
            have hg : l.getLast hne = nl := by
              rw [List.getLast?_eq_some_getLast hne] at hl
              exact Option.some.inj hl
            rw [← hg]; exact List.dropLast_concat_getLast hne
          have h3 : l' = l ++ l'.drop l.length := by rw [← List.take_append_drop l.length l', ← h1]; simp
          have h4 : l'.drop l.length ≠ [] := by
            intro h; have := congrArg List.length h; simp at this; omega
          rw [h3, List.dropLast_append_of_ne_nil h4, List.mem_append]
          left
          rw [← h2]; simp
      · exact hge
    have e1 : l ++ L.flatten = l' ++ L'.flatten := by
      have := h.all; have h2 := h'.all
      simp only [List.flatten_cons] at this h2
      rw [this, h2]
    have end1 : ∀ {l L data}, IsLines data (l :: L) → (L.flatten = [] ∨ l.getLast? = some nl) := fun {l L data} h => by
      cases L with
      | nil => left; rfl
      | cons y ys => right; exact h.ends l (by simp)
    have hlen : l.length = l'.length := Nat.le_antisymm
      (key l' l _ _ e1.symm (h'.nonempty _ (by simp)) (h.inner _ (by simp)) (end1 h'))
      (key l l' _ _ e1 (h.nonempty _ (by simp)) (h'.inner _ (by simp)) (end1 h))
    obtain ⟨rfl, e3⟩ := List.append_inj e1 hlen
    have := isLines_unique (tail h) (e3 ▸ tail h')
    rw [this]

end Codon.FileM
