import Verif.Demote.Spec

namespace Codon.Demote

/-! ## The owners -/

/-- What the map says after some functions have been scanned. -/
def OwnInv (P : Prog) (seen : Nat → Nat → Prop) (m : Owners) : Prop :=
  ∀ x, (m x = none ↔ ∀ f, ¬ seen f x) ∧ (∀ f, m x = some (some f) ↔ seen f x ∧ ∀ g, seen g x → g = f)

theorem note_inv {P : Prog} {seen : Nat → Nat → Prop} {m : Owners} (h : OwnInv P seen m) (f g : Nat) :
    OwnInv P (fun f' x => seen f' x ∨ (f' = f ∧ x = g)) (note f m g) := by
  intro x
  obtain ⟨h1, h2⟩ := h x
  by_cases hx : x = g
  · subst hx
    unfold note
    rcases hm : m x with _ | _ | f'
    · have hn := h1.mp hm
      simp only [if_true]
      constructor
      · simp only [reduceCtorEq, false_iff]; intro h; exact h f (Or.inr ⟨rfl, trivial⟩)
      · intro k
        simp only [Option.some.injEq]
        constructor
        · rintro rfl
          exact ⟨Or.inr ⟨rfl, trivial⟩, fun g hg => hg.elim (fun h => absurd h (hn g)) (·.1)⟩
        · rintro ⟨hk, -⟩
          exact hk.elim (fun h => absurd h (hn k)) (fun h => h.1.symm)
    · have hn : ¬ ∀ f, ¬ seen f x := fun h => by rw [h1.mpr h] at hm; cases hm
      simp only [hm]
      constructor
      · simp only [reduceCtorEq, false_iff]
        intro h; exact hn fun f hf => h f (Or.inl hf)
      · intro k
        simp only [Option.some.injEq, reduceCtorEq, false_iff]
        rintro ⟨-, hk⟩
        apply hn
        intro f0 hf0
        have e0 := hk f0 (Or.inl hf0)
        subst e0
        have := (h2 f0).mpr ⟨hf0, fun g hg => hk g (Or.inl hg)⟩
        rw [hm] at this; cases this
    · obtain ⟨hs, hu⟩ := (h2 f').mp hm
      by_cases hf : f' = f
      · subst hf
        simp only [ne_eq, not_true_eq_false, if_false]
        rw [hm]
        constructor
        · simp only [reduceCtorEq, false_iff]; intro h; exact h f' (Or.inl hs)
        · intro k
          simp only [Option.some.injEq]
          constructor
          · rintro rfl; exact ⟨Or.inl hs, fun g hg => hg.elim (hu g) (·.1)⟩
          · rintro ⟨-, hk⟩; exact hk f' (Or.inl hs)
      · simp only [ne_eq, hf, not_false_eq_true, if_true]
        constructor
        · simp only [reduceCtorEq, false_iff]; intro h; exact h f' (Or.inl hs)
        · intro k
          simp only [Option.some.injEq, reduceCtorEq, false_iff]
          rintro ⟨-, hk⟩
          have e1 := hk f' (Or.inl hs)
          have e2 := hk f (Or.inr ⟨rfl, trivial⟩)
          exact hf (e1.trans e2.symm)
  · have hm : note f m g x = m x := by
      unfold note
      rcases m g with _ | _ | f'
      · simp [hx]
      · rfl
      · by_cases hf : f' ≠ f
        · simp [hf, hx]
        · simp [hf]
    rw [hm]
    simp only [hx, and_false, or_false]
    exact ⟨h1, h2⟩

theorem notes_inv {P : Prog} (f : Nat) : ∀ (l : List Nat) (seen : Nat → Nat → Prop) (m : Owners), OwnInv P seen m →
    OwnInv P (fun f' x => seen f' x ∨ (f' = f ∧ x ∈ l)) (l.foldl (note f) m)
  | [], seen, m, h => by simpa using h
  | g :: l, seen, m, h => by
    rw [List.foldl_cons]
    have := notes_inv f l _ _ (note_inv h f g)
    have e : (fun f' x => seen f' x ∨ (f' = f ∧ x ∈ g :: l))
        = fun f' x => (seen f' x ∨ (f' = f ∧ x = g)) ∨ (f' = f ∧ x ∈ l) := by
      funext f' x; simp only [List.mem_cons]; apply propext; rw [and_or_left, or_assoc]
    rw [e]; exact this

theorem scan_inv {P : Prog} : ∀ (fs : List Nat) (seen : Nat → Nat → Prop) (m : Owners), OwnInv P seen m →
    OwnInv P (fun f x => seen f x ∨ (f ∈ fs ∧ x ∈ usedGlobals P f))
      (fs.foldl (fun m f => (usedGlobals P f).foldl (note f) m) m)
  | [], seen, m, h => by simpa using h
  | f :: fs, seen, m, h => by
    rw [List.foldl_cons]
    have := scan_inv fs _ _ (notes_inv f (usedGlobals P f) _ _ h)
    have e : (fun f' x => seen f' x ∨ (f' ∈ f :: fs ∧ x ∈ usedGlobals P f'))
        = fun f' x => (seen f' x ∨ (f' = f ∧ x ∈ usedGlobals P f)) ∨ (f' ∈ fs ∧ x ∈ usedGlobals P f') := by
      funext f' x
      apply propext
      simp only [List.mem_cons]
      constructor
      · rintro (h | ⟨rfl | h, h'⟩)
        · exact Or.inl (Or.inl h)
        · exact Or.inl (Or.inr ⟨rfl, h'⟩)
        · exact Or.inr ⟨h, h'⟩
      · rintro ((h | ⟨rfl, h⟩) | ⟨h, h'⟩)
        · exact Or.inl h
        · exact Or.inr ⟨Or.inl rfl, h⟩
        · exact Or.inr ⟨Or.inr h, h'⟩
    rw [e]; exact this

theorem owner_iff (P : Prog) (hm : 0 < P.count) (x f : Nat) :
    owner P x = some f ↔
      P.isGlobal x = true ∧ P.tls x = false ∧ P.fixed x = false ∧ OnlyIn P x f := by
  have inv : OwnInv P (fun f x => False ∨ (f ∈ worklist P ∧ x ∈ usedGlobals P f)) (scan P (worklist P)) :=
    scan_inv (worklist P) (fun _ _ => False) _ (fun x => by simp)
  have hw : ∀ f, f ∈ worklist P ↔ f < P.count := by
    intro f
    simp only [worklist, List.mem_cons, List.mem_range]
    constructor
    · rintro (rfl | h) <;> omega
    · exact Or.inr
  have hu : ∀ f, x ∈ usedGlobals P f ↔ x ∈ used (P.func f).body ∧ P.isGlobal x = true ∧ P.tls x = false := by
    intro f; simp [usedGlobals]
  obtain ⟨-, h2⟩ := inv x
  unfold owner
  have h2 := h2 f
  simp only [false_or, hw, hu] at h2
  constructor
  · intro h
    rcases hs : scan P (worklist P) x with _ | _ | f'
    · rw [hs] at h; cases h
    · rw [hs] at h; cases h
    · rw [hs] at h
      simp only [] at h
      by_cases hf : P.fixed x = true
      · rw [if_pos hf] at h; cases h
      · rw [if_neg hf] at h
        cases h
        obtain ⟨⟨a, b, c, d⟩, e⟩ := h2.mp hs
        exact ⟨c, d, by simpa using hf, b, a, fun g hg hx => e g ⟨hg, hx, c, d⟩⟩
  · rintro ⟨c, d, hf, b, a, e⟩
    rw [h2.mpr ⟨⟨a, b, c, d⟩, fun g hg => e g hg.1 hg.2.1⟩]
    simp [hf]

end Codon.Demote
