import Verif.NpSort.Heap
import Verif.Sort.Heap
import Verif.Sort.Pdq
/-! # The quicksort of NumPy arrays of other types -/
namespace Codon.NpSort
open Codon.Sort hiding pdqSort pdqSort_spec
variable {α : Type} {lt : α → α → Bool}

theorem heapsortPart_spec (ho : SWO lt) {a : List α} {b e : Int} (hb : 0 ≤ b) (hbe : b ≤ e) (he : e ≤ a.length) :
    ∃ a', heapsortPart lt a b e = some a' ∧ Rearr a a' b e ∧ SortedSeg lt a' b e := by
  unfold heapsortPart
  rw [if_pos ⟨hb, hbe, he⟩]
  change ∃ a', ((heapsort lt (seg a b e)).bind fun s => some (a.take b.toNat ++ s ++ a.drop e.toNat)) = some a' ∧ _
  obtain ⟨s, q1, q2, q3⟩ := heapsort_spec ho (seg a b e)
  rw [q1, Option.bind_some]
  obtain ⟨w1, w2⟩ := replace_seg hb hbe he q2
  refine ⟨_, rfl, w1, ?_⟩
  intro i j x y g1 g2 g3 g4 g5
  have e1 := w2 (i - b).toNat (by omega)
  have e2 := w2 (j - b).toNat (by omega)
  rw [show b + ((i - b).toNat : Int) = i by omega, g4] at e1
  rw [show b + ((j - b).toNat : Int) = j by omega, g5] at e2
  obtain ⟨l1, f1⟩ := List.getElem?_eq_some_iff.1 e1.symm
  obtain ⟨l2, f2⟩ := List.getElem?_eq_some_iff.1 e2.symm
  have := List.pairwise_iff_getElem.1 q3 _ _ l1 l2 (by omega)
  rw [f1, f2] at this
  exact this

theorem pdqSort_spec (ho : SWO lt) : ∀ (n : Nat) (a : List α) (b e bad : Int) (lm : Bool),
    0 ≤ b → b ≤ e → e ≤ a.length → e - b < n →
    (lm = false → ∃ v, rd a (b - 1) = some v ∧ AllSeg (fun x => lt x v = false) a b e) →
    ∃ a', NpSort.pdqSort lt n a b e bad lm = some a' ∧ Rearr a a' b e ∧ SortedSeg lt a' b e := by
  intro n
  induction n with
  | zero => intro a b e bad lm h1 h2 h3 h4; omega
  | succ n ih =>
    intro a b e bad lm h1 h2 h3 h4 h5
    unfold NpSort.pdqSort
    by_cases hs : e - b < 24
    · simp only [if_pos hs]
      obtain ⟨a', q1, q2, -, q4⟩ := insertionSort_spec ho h1 h2 h3
      exact ⟨a', q1, q2, q4⟩
    · simp only [if_neg hs]
      obtain ⟨a1, p, s, z, c1, c2, c3, c4, c5, c6, c7⟩ := choosePivot_spec ho h1 (by omega) h3
      rw [c1]
      simp only [Option.bind_eq_bind, Option.bind_some]
      have hl1 : a1.length = a.length := c2.length
      have h5' : lm = false → ∃ v, rd a1 (b - 1) = some v ∧ AllSeg (fun x => lt x v = false) a1 b e := by
        intro hlm
        obtain ⟨v, v1, v2⟩ := h5 hlm
        exact ⟨v, by rw [c2.out _ (by omega), v1], v2.rearr c2 h1 h2 h3⟩
      -- continuation after a partition of the segment
      have fin : ∀ (a2 : List α) (pos bad' : Int), Rearr a1 a2 b e → Part lt a2 b pos e p →
          ∃ a', ((NpSort.pdqSort lt n a2 b pos bad' lm).bind fun a => NpSort.pdqSort lt n a (pos + 1) e bad' false) = some a' ∧
            Rearr a1 a' b e ∧ SortedSeg lt a' b e := by
        intro a2 pos bad' hr hP
        have g1 := hP.lo
        have g2 := hP.hi
        have hl2 : a2.length = a.length := by rw [hr.length, hl1]
        obtain ⟨a3, x1, x2, x3⟩ := ih a2 b pos bad' lm h1 g1 (by omega) (by omega) (by
          intro hlm
          obtain ⟨v, v1, v2⟩ := h5' hlm
          exact ⟨v, by rw [hr.out _ (by omega), v1],
            (v2.rearr hr h1 h2 (by omega)).sub (Int.le_refl _) (by omega)⟩)
        rw [x1, Option.bind_some]
        have hP3 := hP.rearrL x2 h1 (by omega)
        have hl3 : a3.length = a.length := by rw [x2.length, hl2]
        obtain ⟨a4, y1, y2, y3⟩ := ih a3 (pos + 1) e bad' false (by omega) (by omega) (by omega) (by omega) (by
          intro _
          exact ⟨p, by rw [show pos + 1 - 1 = pos by omega]; exact hP3.at_, hP3.right⟩)
        have hP4 := hP3.rearrR y2 h1 (by omega)
        refine ⟨a4, y1, hr.trans ((x2.mono (Int.le_refl _) (by omega)).trans (y2.mono (by omega) (Int.le_refl _))), ?_⟩
        exact hP4.sorted ho (x3.outside y2 (Or.inl (by omega))) y3
      -- the test against the previous pivot
      have test : ∃ ag, pdqAgain lt a1 b lm = some ag ∧
          (ag = true → lm = false ∧ AllSeg (fun x => lt x p = false) a1 b e) := by
        unfold pdqAgain
        cases hlm : lm
        · simp only [Bool.not_false, if_true]
          obtain ⟨v, v1, v2⟩ := h5' hlm
          rw [v1, c3]
          simp only [Option.bind_eq_bind, Option.bind_some, Option.pure_def]
          refine ⟨_, rfl, ?_⟩
          intro hag
          refine ⟨trivial, v2.imp fun x hx => ho.negTrans hx ?_⟩
          simpa using hag
        · exact ⟨false, rfl, by simp⟩
      obtain ⟨ag, t1, t2⟩ := test
      rw [t1, Option.bind_some]
      cases ag
      · rw [if_neg (by simp)]
        obtain ⟨a2, pos, al, d1, d2, d3⟩ := partitionRight_spec ho h1 (by omega) c3 c4 c5 c6 c7
        rw [d1]
        simp only [Option.bind_some]
        have g1 := d3.lo
        have g2 := d3.hi
        have hl2 : a2.length = a.length := by rw [d2.length, hl1]
        by_cases hun : pos - b < Int.tdiv (e - b) 8 ∨ e - (pos + 1) < Int.tdiv (e - b) 8
        · rw [if_pos hun]
          by_cases hbad : bad - 1 = 0
          · rw [if_pos hbad]
            obtain ⟨a3, x1, x2, x3⟩ := heapsortPart_spec ho (a := a2) h1 h2 (by omega)
            exact ⟨a3, x1, (c2.trans d2).trans x2, x3⟩
          · rw [if_neg hbad]
            obtain ⟨a3, x1, x2⟩ := shuffleLeft_spec (a := a2) h1 g1 (by omega)
            rw [x1, Option.bind_some]
            have hP3 := d3.rearrL x2 h1 (by omega)
            obtain ⟨a4, y1, y2⟩ := shuffleRight_spec (a := a3) (pos := pos) (e := e) (by omega) g2 (by rw [x2.length]; omega)
            rw [y1, Option.bind_some]
            have hP4 := hP3.rearrR y2 h1 (by rw [x2.length]; omega)
            obtain ⟨a5, w1, w2, w3⟩ := fin a4 pos (bad - 1)
              (d2.trans ((x2.mono (Int.le_refl _) (by omega)).trans (y2.mono (by omega) (Int.le_refl _)))) hP4
            exact ⟨a5, w1, c2.trans w2, w3⟩
        · rw [if_neg hun]
          obtain ⟨a3, ok, x1, x2, x3, x4⟩ := tryPartial_spec ho al h1 (by omega) d3
          rw [x1]
          simp only [Option.bind_some]
          cases ok
          · rw [if_neg (by simp)]
            obtain ⟨a5, w1, w2, w3⟩ := fin a3 pos bad (d2.trans x2) x3
            exact ⟨a5, w1, c2.trans w2, w3⟩
          · rw [if_pos rfl]
            exact ⟨a3, rfl, (c2.trans d2).trans x2, x4 rfl⟩
      · rw [if_pos rfl]
        obtain ⟨hlm, hge⟩ := t2 rfl
        obtain ⟨a2, pos, d1, d2, d3, d4, d5, d6, d7⟩ := partitionLeft_spec ho (a := a1) (b := b) (e := e) h1 (by omega) (by omega) c3
        rw [d1]
        simp only [Option.bind_some]
        have hl2 : a2.length = a.length := by rw [d2.length, hl1]
        have hge2 := hge.rearr d2 h1 h2 (by omega)
        obtain ⟨a3, x1, x2, x3⟩ := ih a2 (pos + 1) e bad lm (by omega) (by omega) (by omega) (by omega) (by
          intro _
          exact ⟨p, by rw [show pos + 1 - 1 = pos by omega]; exact d5, hge2.sub (by omega) (Int.le_refl _)⟩)
        refine ⟨a3, x1, (c2.trans d2).trans (x2.mono (by omega) (Int.le_refl _)), ?_⟩
        have l1 := d6.outside x2 (Or.inl (Int.le_refl _))
        have l2 : AllSeg (fun x => lt x p = false) a3 b (pos + 1) :=
          (hge2.sub (Int.le_refl _) (by omega)).outside x2 (Or.inl (Int.le_refl _))
        have l3 := (d7.rearr x2 (by omega) (by omega) (by omega)).imp fun x hx => ho.asymm hx
        refine SortedSeg.glue ho p ?_ x3 l1 l3
        intro i j x y i1 i2 i3 i4 i5
        exact ho.negTrans (l2 j y (by omega) i3 i5) (l1 i x i1 (by omega) i4)


theorem quicksort_spec (ho : SWO lt) (a : List α) :
    ∃ a', quicksort lt a = some a' ∧ a'.Perm a ∧ a'.Pairwise fun x y => lt y x = false := by
  unfold quicksort
  obtain ⟨a', q1, q2, q3⟩ := pdqSort_spec ho (a.length + 1) a 0 a.length (floorLog2 a.length a.length 0) true
    (Int.le_refl _) (by omega) (Int.le_refl _) (by omega) (by simp)
  refine ⟨a', q1, q2.perm, List.pairwise_iff_getElem.2 fun i j hi hj hij => ?_⟩
  exact q3 i j _ _ (by omega) (by omega) (by rw [q2.length] at hj; omega) (by rw [rd_nat, List.getElem?_eq_getElem hi]) (by rw [rd_nat, List.getElem?_eq_getElem hj])

end Codon.NpSort
