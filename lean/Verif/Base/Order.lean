/-!
# Element orders

The library code compares elements with `<` only.  `SWO lt` says that `lt` is a strict weak order:
what `<` has to be for sorting to make sense (elements may be equivalent without being equal).
-/

namespace Codon

structure SWO {T : Type} (lt : T → T → Bool) : Prop where
  asymm : ∀ {a b}, lt a b = true → lt b a = false
  negTrans : ∀ {a b c}, lt a b = false → lt b c = false → lt a c = false

namespace SWO
variable {T : Type} {lt : T → T → Bool}

theorem irrefl (h : SWO lt) (a : T) : lt a a = false := by
  cases e : lt a a
  · rfl
  · rw [h.asymm e] at e; cases e

theorem trans (h : SWO lt) {a b c : T} (h1 : lt a b = true) (h2 : lt b c = true) : lt a c = true := by
  cases e : lt a c
  · have := h.negTrans e (h.asymm h2)
    rw [this] at h1; cases h1
  · rfl

/-- `a < b ≤ c`. -/
theorem lt_of_lt_of_le (h : SWO lt) {a b c : T} (h1 : lt a b = true) (h2 : lt c b = false) :
    lt a c = true := by
  cases e : lt a c
  · have := h.negTrans e h2
    rw [this] at h1; cases h1
  · rfl

/-- `a ≤ b < c`. -/
theorem lt_of_le_of_lt (h : SWO lt) {a b c : T} (h1 : lt b a = false) (h2 : lt b c = true) :
    lt a c = true := by
  cases e : lt a c
  · have := h.negTrans h1 e
    rw [this] at h2; cases h2
  · rfl

theorem flip (h : SWO lt) : SWO (fun a b => lt b a) :=
  ⟨fun h1 => h.asymm h1, fun h1 h2 => h.negTrans h2 h1⟩

/-- Comparing by a key. -/
theorem key (h : SWO lt) {S : Type} (f : S → T) : SWO (fun a b => lt (f a) (f b)) :=
  ⟨fun h1 => h.asymm h1, fun h1 h2 => h.negTrans h1 h2⟩

end SWO

/-- In ascending order (with respect to `<`). -/
def Sorted {T : Type} (lt : T → T → Bool) (xs : List T) : Prop := xs.Pairwise fun a b => lt b a = false

theorem natSWO : SWO (fun a b : Nat => decide (a < b)) :=
  ⟨by intro a b h; simp at *; omega, by intro a b c h1 h2; simp at *; omega⟩

/-- Pairs ordered by the first component only: equivalent elements need not be equal. -/
theorem fstSWO : SWO (fun a b : Nat × Nat => decide (a.1 < b.1)) := natSWO.key Prod.fst

end Codon
