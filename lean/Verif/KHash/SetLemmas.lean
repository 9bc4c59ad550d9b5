import Verif.KHash.Rel
import Verif.KHash.SetModel

namespace Codon.KHash.SetM

section
set_option linter.unusedSectionVars false
set_option linter.unusedSimpArgs false
set_option linter.unusedVariables false

variable {K : Type} [DecidableEq K] (h : K → BitVec 64)

/-- The table represents the set of elements of `S`. -/
structure RelS (t : CSet K) (S : List K) : Prop where
  inv : Inv h t
  perm : (t.content.map Prod.fst).Perm S

variable {h}

theorem relS_empty : RelS h (Tbl.empty : CSet K) [] := ⟨Or.inl rfl, List.Perm.refl _⟩

theorem RelS.nd {t : CSet K} {S : List K} (r : RelS h t S) : S.Nodup :=
  r.perm.nodup_iff.mp r.inv.nd

theorem RelS.size {t : CSet K} {S : List K} (r : RelS h t S) : t.size = S.length := by
  rw [r.inv.sz, ← r.perm.length_eq, List.length_map]

theorem RelS.congr {t : CSet K} {S S' : List K} (r : RelS h t S) (hp : S.Perm S') : RelS h t S' :=
  ⟨r.inv, r.perm.trans hp⟩

theorem RelS.mem {t : CSet K} {S : List K} (r : RelS h t S) (k : K) :
    k ∈ S ↔ ∃ v, (k, v) ∈ t.content := by
  rw [← r.perm.mem_iff, List.mem_map]
  constructor
  · rintro ⟨⟨a, b⟩, hm, rfl⟩; exact ⟨b, hm⟩
  · rintro ⟨v, hv⟩; exact ⟨_, hv, rfl⟩

theorem keys_relS {t : CSet K} {S : List K} (r : RelS h t S) :
    ∃ l, keysList t = some l ∧ l.Perm S := by
  unfold keysList
  rw [rawItems_inv r.inv]
  exact ⟨_, rfl, r.perm⟩

theorem kget_relS {t : CSet K} {S : List K} (r : RelS h t S) (k : K) :
    (∃ x v, kget h t k = some x ∧ x < t.nb ∧ k ∈ S ∧
      slotOf t.flags t.keys t.vals x = some (k, v) ∧ Full h t) ∨
    (kget h t k = some t.nb ∧ k ∉ S) := by
  rcases kget_inv r.inv k with ⟨x, w, h1, h2, h3⟩ | ⟨h1, h2⟩
  · left
    refine ⟨x, w, h1, h2, (r.mem k).mpr ⟨w, mem_contentOf.mpr ⟨x, h2, h3⟩⟩, h3, ?_⟩
    rcases r.inv with rfl | hf
    · exact absurd h2 (by simp [Tbl.empty])
    · exact hf
  · right
    refine ⟨h1, fun hk => ?_⟩
    obtain ⟨v, hv⟩ := (r.mem k).mp hk
    exact h2 v hv

theorem contains_relS {t : CSet K} {S : List K} (r : RelS h t S) (k : K) :
    contains h t k = some (decide (k ∈ S)) := by
  unfold contains
  rcases kget_relS r k with ⟨x, v, g1, g2, g3, -, -⟩ | ⟨g1, g2⟩
  · rw [g1]; simp [g3, Nat.ne_of_lt g2]
  · rw [g1]; simp [g2]

theorem add_relS {t : CSet K} {S : List K} (r : RelS h t S) (hnb : t.nb ≤ 2 ^ 60) (k : K) :
    ∃ t', add h t k = some t' ∧ RelS h t' (S.insert k) ∧ t'.nb ≤ max t.nb (max 4 (4 * t.size)) := by
  obtain ⟨t', ret, x, v, p1, p2, p3, p4, p5, p6⟩ := kput_spec r.inv hnb k
  refine ⟨t', by unfold add; rw [p1]; rfl, ⟨Or.inr p2, ?_⟩, p4⟩
  rcases p6 with ⟨a, b, c⟩ | ⟨a, b, c⟩
  · have hk : k ∈ S := (r.mem k).mpr ⟨v, b⟩
    rw [List.insert_of_mem hk]
    exact (c.map _).trans r.perm
  · have hk : k ∉ S := fun hk => by
      obtain ⟨w, hw⟩ := (r.mem k).mp hk
      exact b w hw
    rw [List.insert_of_not_mem hk]
    refine (c.map Prod.fst).trans ?_
    rw [List.map_cons]
    exact List.Perm.cons _ r.perm

theorem length_insert_le (S : List K) (k : K) : (S.insert k).length ≤ S.length + 1 := by
  by_cases hk : k ∈ S
  · rw [List.insert_of_mem hk]; omega
  · rw [List.insert_of_not_mem hk]; simp

/-- Bounds that keep the number of buckets far below the 64-bit range. -/
structure Bd (t : CSet K) (S : List K) (n : Nat) : Prop where
  nb : t.nb ≤ 2 ^ 41
  len : S.length + n ≤ 2 ^ 38

theorem Bd.grow {t : CSet K} {S : List K} {n a : Nat} (hb : Bd t S n) (r : RelS h t S)
    (ha : a ≤ max t.nb (max 4 (4 * t.size))) : a ≤ 2 ^ 41 := by
  have h1 := hb.nb
  have h2 := hb.len
  have h3 : 4 * t.size ≤ 2 ^ 40 := by rw [r.size]; omega
  omega

theorem addAll_relS : ∀ (l : List K) (t : CSet K) (S : List K), RelS h t S → Bd t S l.length →
    ∃ t', addAll h t l = some t' ∧ RelS h t' (l.foldl (fun S k => S.insert k) S) ∧
      t'.nb ≤ 2 ^ 41 := by
  intro l
  induction l with
  | nil => intro t S r hb; exact ⟨t, rfl, r, hb.nb⟩
  | cons k l ih =>
    intro t S r hb
    obtain ⟨t1, e1, e2, e3⟩ := add_relS r (by have := hb.nb; omega) k
    have hlen := hb.len
    simp only [List.length_cons] at hlen
    have := length_insert_le S k
    obtain ⟨t2, f1, f2, f3⟩ := ih t1 _ e2 ⟨hb.grow r e3, by omega⟩
    refine ⟨t2, ?_, f2, f3⟩
    unfold addAll
    rw [e1]; exact f1

theorem mem_foldl_insert (l S : List K) (k : K) :
    k ∈ l.foldl (fun S k => S.insert k) S ↔ k ∈ S ∨ k ∈ l := by
  induction l generalizing S with
  | nil => simp
  | cons a l ih =>
    rw [List.foldl_cons, ih, List.mem_insert_iff]
    simp only [List.mem_cons]
    constructor
    · rintro ((h | h) | h)
      · exact Or.inr (Or.inl h)
      · exact Or.inl h
      · exact Or.inr (Or.inr h)
    · rintro (h | h | h)
      · exact Or.inl (Or.inr h)
      · exact Or.inl (Or.inl h)
      · exact Or.inr h

/-- Sets without repetition are determined by membership. -/
theorem relS_of_mem {t : CSet K} {S S' : List K} (r : RelS h t S) (nd : S'.Nodup)
    (hm : ∀ k, k ∈ S ↔ k ∈ S') : RelS h t S' :=
  r.congr ((List.perm_ext_iff_of_nodup r.nd nd).mpr hm)

theorem remove_relS {t : CSet K} {S : List K} (r : RelS h t S) (k : K) :
    (∃ t', remove h t k = some (t', false) ∧ k ∈ S ∧ RelS h t' (S.erase k) ∧ t'.nb = t.nb) ∨
    (remove h t k = some (t, true) ∧ k ∉ S) := by
  rcases kget_relS r k with ⟨x, v, g1, g2, g3, g4, g5⟩ | ⟨g1, g2⟩
  · left
    obtain ⟨t', d1, d2, d3, -, -, -, d7⟩ := kdel_full g5 g2 g4
    refine ⟨t', ?_, g3, ⟨Or.inr d2, ?_⟩, d3⟩
    · unfold remove; rw [g1]; simp [d1, Nat.ne_of_lt g2]
    · have h1 : (k :: t'.content.map Prod.fst).Perm S := by
        have := d7.map Prod.fst
        rw [List.map_cons] at this
        exact this.symm.trans r.perm
      have := h1.erase k
      rwa [List.erase_cons_head] at this
  · right
    refine ⟨?_, g2⟩
    unfold remove; rw [g1]; simp

theorem discard_relS {t : CSet K} {S : List K} (r : RelS h t S) (k : K) :
    ∃ t', discard h t k = some t' ∧ RelS h t' (S.erase k) ∧ t'.nb = t.nb ∧ t'.keys = t.keys ∧
      (∀ j, j < t.nb → live t'.flags j = true → live t.flags j = true) ∧
      (∀ j, j < t.nb → live t.flags j = true → rd t.keys j ≠ some k → live t'.flags j = true) := by
  rcases kget_relS r k with ⟨x, v, g1, g2, g3, g4, g5⟩ | ⟨g1, g2⟩
  · obtain ⟨t', d1, d2, d3, d4, -, d6, d7⟩ := kdel_full g5 g2 g4
    refine ⟨t', ?_, ⟨Or.inr d2, ?_⟩, d3, d4, ?_, ?_⟩
    · unfold discard; rw [g1]; simp [d1, Nat.ne_of_lt g2]
    · have h1 : (k :: t'.content.map Prod.fst).Perm S := by
        have := d7.map Prod.fst
        rw [List.map_cons] at this
        exact this.symm.trans r.perm
      have := h1.erase k
      rwa [List.erase_cons_head] at this
    · intro j _ hl
      rw [d6] at hl
      simp only [Bool.and_eq_true] at hl
      exact hl.1
    · intro j _ hl hne
      rw [d6, hl]
      have : j ≠ x := by
        rintro rfl
        exact hne (slotOf_live g4).2.1
      simp [this]
  · refine ⟨t, ?_, ?_, rfl, rfl, fun j _ hl => hl, fun j _ hl _ => hl⟩
    · unfold discard; rw [g1]; simp
    · rw [List.erase_of_not_mem g2]; exact r

theorem discardAll_relS : ∀ (l : List K) (t : CSet K) (S : List K), RelS h t S →
    ∃ t', discardAll h t l = some t' ∧ RelS h t' (S.filter fun k => decide (k ∉ l)) ∧
      t'.nb = t.nb := by
  intro l
  induction l with
  | nil =>
    intro t S r
    refine ⟨t, rfl, ?_, rfl⟩
    have : S.filter (fun k => decide (k ∉ ([] : List K))) = S := by
      rw [List.filter_eq_self]; intro a _; simp
    rw [this]; exact r
  | cons a l ih =>
    intro t S r
    obtain ⟨t1, e1, e2, e3, -⟩ := discard_relS r a
    obtain ⟨t2, f1, f2, f3⟩ := ih t1 _ e2
    refine ⟨t2, ?_, ?_, f3.trans e3⟩
    · unfold discardAll; rw [e1]; exact f1
    · apply relS_of_mem f2 (r.nd.filter _)
      intro k
      simp only [List.mem_filter, r.nd.mem_erase_iff, decide_eq_true_eq, List.mem_cons, not_or]
      tauto

theorem addIf_relS {other : CSet K} {B : List K} (ro : RelS h other B) (want : Bool) :
    ∀ (l : List K) (t : CSet K) (S : List K), RelS h t S → Bd t S l.length →
    ∃ t', addIf h other want t l = some t' ∧
      RelS h t' (l.foldl (fun S k => if decide (k ∈ B) = want then S.insert k else S) S) ∧
      t'.nb ≤ 2 ^ 41 := by
  intro l
  induction l with
  | nil => intro t S r hb; exact ⟨t, rfl, r, hb.nb⟩
  | cons k l ih =>
    intro t S r hb
    have hlen := hb.len
    simp only [List.length_cons] at hlen
    unfold addIf
    rw [contains_relS ro, List.foldl_cons]
    simp only [Option.bind_eq_bind, Option.bind_some]
    by_cases hk : decide (k ∈ B) = want
    · rw [if_pos hk, if_pos hk]
      obtain ⟨t1, e1, e2, e3⟩ := add_relS r (by have := hb.nb; omega) k
      have := length_insert_le S k
      rw [e1]
      exact ih t1 _ e2 ⟨hb.grow r e3, by omega⟩
    · rw [if_neg hk, if_neg hk]
      exact ih t _ r ⟨hb.nb, by omega⟩

theorem mem_foldl_addIf (B : List K) (want : Bool) (l S : List K) (k : K) :
    k ∈ l.foldl (fun S k => if decide (k ∈ B) = want then S.insert k else S) S ↔
      k ∈ S ∨ (k ∈ l ∧ decide (k ∈ B) = want) := by
  induction l generalizing S with
  | nil => simp
  | cons a l ih =>
    rw [List.foldl_cons, ih]
    by_cases ha : decide (a ∈ B) = want
    · rw [if_pos ha, List.mem_insert_iff]
      simp only [List.mem_cons]
      constructor
      · rintro ((rfl | h) | h)
        · exact Or.inr ⟨Or.inl rfl, ha⟩
        · exact Or.inl h
        · exact Or.inr ⟨Or.inr h.1, h.2⟩
      · rintro (h | ⟨rfl | h, h2⟩)
        · exact Or.inl (Or.inr h)
        · exact Or.inl (Or.inl rfl)
        · exact Or.inr ⟨h, h2⟩
    · rw [if_neg ha]
      simp only [List.mem_cons]
      constructor
      · rintro (h | h)
        · exact Or.inl h
        · exact Or.inr ⟨Or.inr h.1, h.2⟩
      · rintro (h | ⟨rfl | h, h2⟩)
        · exact Or.inl h
        · exact absurd h2 ha
        · exact Or.inr ⟨h, h2⟩

theorem noneIs_relS {other : CSet K} {B : List K} (ro : RelS h other B) (bad : Bool) (l : List K) :
    noneIs h other bad l = some (decide (∀ k ∈ l, decide (k ∈ B) ≠ bad)) := by
  induction l with
  | nil => simp [noneIs]
  | cons a l ih =>
    unfold noneIs
    rw [contains_relS ro]
    simp only [Option.bind_eq_bind, Option.bind_some]
    by_cases ha : decide (a ∈ B) = bad
    · rw [if_pos ha]
      simp [ha]
    · rw [if_neg ha, ih]
      simp only [Option.some.injEq, decide_eq_decide, List.mem_cons, forall_eq_or_imp]
      exact ⟨fun hh => ⟨ha, hh⟩, fun hh => hh.2⟩

/-- Discarding while iterating over the same set removes exactly the elements satisfying the
condition. -/
theorem discardWhileIter_relS (c : K → Bool) :
    ∀ n i (t : CSet K) (S : List K), RelS h t S → i + n = t.nb →
      (∀ j, j < i → j < t.nb → live t.flags j = true → ∀ k, rd t.keys j = some k → c k = false) →
      ∃ t', discardWhileIter h (fun a => some (c a)) t n i = some t' ∧
        RelS h t' (S.filter fun k => !c k) ∧ t'.nb = t.nb := by
  intro n
  induction n with
  | zero =>
    intro i t S r hi hdone
    refine ⟨t, rfl, ?_, rfl⟩
    have : S.filter (fun k => !c k) = S := by
      rw [List.filter_eq_self]
      intro k hk
      obtain ⟨v, hv⟩ := (r.mem k).mp hk
      obtain ⟨j, hj, hs⟩ := mem_contentOf.mp hv
      obtain ⟨hl, hr, -⟩ := slotOf_live hs
      rw [hdone j (by omega) hj hl k hr]; rfl
    rw [this]; exact r
  | succ n ih =>
    intro i t S r hi hdone
    have hf : Full h t := by
      rcases r.inv with rfl | hf
      · simp [Tbl.empty] at hi
      · exact hf
    unfold discardWhileIter
    rw [iseither_eq (hf.flr (by omega))]
    simp only [Option.bind_eq_bind, Option.bind_some]
    by_cases hl : live t.flags i = true
    · obtain ⟨k, hk⟩ := hf.ini i (by omega) hl
      have hl' := hl
      unfold live at hl'
      simp only [Bool.and_eq_true, Bool.not_eq_true'] at hl'
      rw [hl'.1, hl'.2, hk]
      simp only [Bool.or_self, Bool.false_eq_true, if_false, Option.bind_some]
      have hkS : k ∈ S := (r.mem k).mpr ⟨_, mem_contentOf.mpr ⟨i, by omega, slotOf_eq hl hk⟩⟩
      by_cases hc : c k = true
      · rw [if_pos hc]
        obtain ⟨t1, e1, e2, e3, e4, e5, e6⟩ := discard_relS r k
        rw [e1]
        simp only [Option.bind_some]
        obtain ⟨t2, f1, f2, f3⟩ := ih (i + 1) t1 _ e2 (by omega) (by
          intro j hj hjn hjl k' hk'
          rw [e4] at hk'
          have hjl0 := e5 j (by omega) hjl
          by_cases hji : j = i
          · subst hji
            -- bucket i has been removed
            exfalso
            rw [hk] at hk'
            cases hk'
            have hkS' : k ∈ S.erase k := by
              refine (e2.mem k).mpr ⟨_, mem_contentOf.mpr ⟨j, hjn, slotOf_eq hjl ?_⟩⟩
              rw [e4]; exact hk
            exact (r.nd.mem_erase_iff.mp hkS').1 rfl
          · exact hdone j (by omega) (by omega) hjl0 k' hk')
        refine ⟨t2, f1, ?_, f3.trans e3⟩
        apply relS_of_mem f2 (r.nd.filter _)
        intro a
        simp only [List.mem_filter, r.nd.mem_erase_iff]
        constructor
        · rintro ⟨⟨h1, h2⟩, h3⟩; exact ⟨h2, h3⟩
        · rintro ⟨h1, h2⟩
          refine ⟨⟨?_, h1⟩, h2⟩
          rintro rfl
          rw [hc] at h2; cases h2
      · rw [if_neg hc]
        exact ih (i + 1) t S r (by omega) (by
          intro j hj hjn hjl k' hk'
          by_cases hji : j = i
          · subst hji
            rw [hk] at hk'
            cases hk'
            simpa using hc
          · exact hdone j (by omega) hjn hjl k' hk')
    · have : (E t.flags i || D t.flags i) = true := by
        unfold live at hl
        cases hE : E t.flags i <;> cases hD : D t.flags i <;> simp_all
      rw [if_pos this]
      exact ih (i + 1) t S r (by omega) (by
        intro j hj hjn hjl k' hk'
        by_cases hji : j = i
        · subst hji; exact absurd hjl hl
        · exact hdone j (by omega) hjn hjl k' hk')

end

end Codon.KHash.SetM
