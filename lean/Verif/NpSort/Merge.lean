import Verif.NpSort.Model
import Verif.Sort.TimRuns

/-! The two merging loops. -/

namespace Codon.NpSort
open Codon.Sort
variable {α : Type} {lt : α → α → Bool}

theorem rd_at (P : List α) (x : α) (S : List α) (p : Int) (hp : p = P.length) : rd (P ++ x :: S) p = some x := by
  subst hp
  unfold rd
  rw [if_pos (by omega)]
  simp

theorem wr_at (P : List α) (x y : α) (S : List α) (p : Int) (hp : p = P.length) : wr (P ++ x :: S) p y = some (P ++ y :: S) := by
  subst hp
  rw [wr_ok (by omega) (by simp; omega)]
  simp

theorem rd_drop {buf A : List α} {x : α} {i : Nat} (h : buf.drop i = x :: A) : rd buf i = some x ∧ buf.drop (i + 1) = A := by
  obtain ⟨h1, h2⟩ := drop_cons_facts h
  exact ⟨by rw [rd_nat]; exact h1, h2⟩

theorem copy_at (buf : List α) : ∀ (n : Nat) (A : List α) (P gap S : List α) (i : Nat) (rest : List α), gap.length < n → A.length = gap.length →
    buf.drop i = A ++ rest → ∀ k u : Int, k = P.length → u = i + gap.length → ∃ w, copyRun buf 0 n (P ++ (gap ++ S)) i u k = some (P ++ (A ++ S), w) := by
  intro n
  induction n with
  | zero => intro A P gap S i rest h; omega
  | succ n ih =>
    intro A P gap S i rest h1 h2 h3 k u hk hu
    unfold copyRun
    cases gap with
    | nil =>
      rw [if_neg (by simp at hu; omega)]
      cases A with
      | nil => exact ⟨_, rfl⟩
      | cons => simp at h2
    | cons g gap =>
      cases A with
      | nil => simp at h2
      | cons x A =>
        rw [if_pos (by simp at hu; omega)]
        simp only [List.cons_append] at h3
        obtain ⟨r1, r2⟩ := rd_drop h3
        rw [Int.zero_add, r1]
        simp only [Option.bind_eq_bind, Option.bind_some, List.cons_append]
        rw [wr_at P g x _ k hk]
        obtain ⟨w, q⟩ := ih A (P ++ [x]) gap S (i + 1) rest (by simp at h1; omega) (by simpa using h2) r2 (k + 1) u (by simp; omega) (by simp at hu; push_cast; omega)
        refine ⟨w, ?_⟩
        simpa using q

/-- The loop of `_merge_left`, from any point of the merge: `A` is what is left in the buffer, `B` what is left of the second run. -/
theorem mlLoop_spec (buf L R : List α) (end_ : Int) : ∀ (n : Nat) (A B out gap : List α) (i : Nat), A.length + B.length < n → buf.drop i = A → gap.length = A.length →
    ∀ p1 p2 : Int, p1 = L.length + out.length → p2 = p1 + gap.length → end_ = p2 + B.length →
    ∃ A' B' out' gap' : List α, ∃ i' : Nat, mlLoop lt buf end_ n (L ++ (out ++ (gap ++ (B ++ R)))) p1 p2 i = some (L ++ (out' ++ (gap' ++ (B' ++ R))), (L.length : Int) + out'.length, (L.length : Int) + out'.length + gap'.length, ((i' : Nat) : Int)) ∧
      buf.drop i' = A' ∧ gap'.length = A'.length ∧ (A' = [] ∨ B' = []) ∧ out ++ smerge lt A B = out' ++ smerge lt A' B' := by
  intro n
  induction n with
  | zero => intro A B out gap i h; omega
  | succ n ih =>
    intro A B out gap i h1 h2 h3 p1 p2 hp1 hp2 he
    unfold mlLoop
    cases A with
    | nil =>
      simp only [List.length_nil, List.length_eq_zero_iff] at h3
      subst h3
      simp only [List.length_nil] at hp2
      rw [if_neg (by omega)]
      refine ⟨[], B, out, [], i, ?_, h2, rfl, Or.inl rfl, rfl⟩
      subst hp1
      simp at hp2 ⊢
      exact hp2
    | cons x A =>
      cases gap with
      | nil => simp at h3
      | cons g gap =>
      simp only [List.length_cons] at h3 hp2 h1
      cases B with
      | nil =>
        rw [if_neg (by simp at he; omega)]
        refine ⟨x :: A, [], out, g :: gap, i, ?_, h2, by simpa using h3, Or.inr rfl, rfl⟩
        subst hp1 hp2
        simp
      | cons y B =>
        simp only [List.length_cons] at he h1
        rw [if_pos (by omega)]
        have hy : rd (L ++ (out ++ (g :: gap ++ (y :: B ++ R)))) p2 = some y := by
          have := rd_at (L ++ (out ++ (g :: gap))) y (B ++ R) p2 (by simp; omega)
          simpa using this
        obtain ⟨r1, r2⟩ := rd_drop h2
        rw [hy, r1]
        simp only [Option.bind_eq_bind, Option.bind_some]
        have hw : ∀ z, wr (L ++ (out ++ (g :: gap ++ (y :: B ++ R)))) p1 z = some (L ++ ((out ++ [z]) ++ (gap ++ (y :: B ++ R)))) := by
          intro z
          have := wr_at (L ++ out) g z (gap ++ (y :: B ++ R)) p1 (by simp; omega)
          simpa using this
        cases hlt : lt y x with
        | true =>
          rw [if_pos rfl, hw]
          simp only [Option.bind_some]
          obtain ⟨A', B', out', gap', i', q1, q2, q3, q4, q5⟩ := ih (x :: A) B (out ++ [y]) (gap ++ [y]) i (by simp; omega) h2 (by simp; omega) (p1 + 1) (p2 + 1) (by simp; omega) (by simp; omega) (by omega)
          refine ⟨A', B', out', gap', i', ?_, q2, q3, q4, ?_⟩
          · rw [← q1]; simp
          · rw [← q5]
            unfold smerge
            rw [List.cons_merge_cons, if_neg (by simp [hlt])]
            simp
        | false =>
          rw [if_neg (by simp), hw]
          simp only [Option.bind_some]
          obtain ⟨A', B', out', gap', i', q1, q2, q3, q4, q5⟩ := ih A (y :: B) (out ++ [x]) gap (i + 1) (by simp; omega) r2 (by omega) (p1 + 1) p2 (by simp; omega) (by omega) (by simp; omega)
          refine ⟨A', B', out', gap', i', ?_, q2, q3, q4, ?_⟩
          · rw [← q1]; simp
          · rw [← q5]
            unfold smerge
            rw [List.cons_merge_cons, if_pos (by simp [hlt])]
            simp

theorem smerge_done {A B : List α} (h : A = [] ∨ B = []) : smerge lt A B = A ++ B := by
  rcases h with rfl | rfl <;> simp [smerge]

theorem mapM_mid (L A R : List α) (p l : Int) (hp : p = L.length) (hl : l = A.length) :
    (List.range l.toNat).mapM (fun t : Nat => rd (L ++ (A ++ R)) (p + t)) = some A := by
  rw [mapM_seg (by omega) (by omega) (by simp; omega)]
  unfold seg
  subst hp hl
  congr 1
  rw [show ((L.length : Int) + A.length).toNat = L.length + A.length by omega]
  simp [List.take_append]

/-- `_merge_left` of two runs, the first element of the second less than that of the first, is the stable merge. -/
theorem mergeLeft_spec (L R : List α) (x y : α) (A B : List α) (h : lt y x = true) (p1 l1 p2 l2 : Int) (hp1 : p1 = L.length) (hl1 : l1 = A.length + 1) (hp2 : p2 = p1 + l1) (hl2 : l2 = B.length + 1) :
    mergeLeft lt (L ++ ((x :: A) ++ ((y :: B) ++ R))) p1 l1 p2 l2 = some (L ++ (smerge lt (x :: A) (y :: B) ++ R)) := by
  unfold mergeLeft
  rw [mapM_mid L (x :: A) _ p1 l1 hp1 (by simp; omega)]
  have hy : rd (L ++ ((x :: A) ++ ((y :: B) ++ R))) p2 = some y := by
    have := rd_at (L ++ (x :: A)) y (B ++ R) p2 (by simp; omega)
    simpa using this
  have hw : wr (L ++ ((x :: A) ++ ((y :: B) ++ R))) p1 y = some (L ++ ([y] ++ ((A ++ [y]) ++ (B ++ R)))) := by
    have := wr_at L x y (A ++ ((y :: B) ++ R)) p1 hp1
    simpa using this
  simp only [Option.bind_eq_bind, Option.bind_some]
  rw [hy]
  simp only [Option.bind_some]
  rw [hw]
  simp only [Option.bind_some]
  obtain ⟨A', B', out', gap', i', q1, q2, q3, q4, q5⟩ := mlLoop_spec (lt := lt) (x :: A) L R (p2 + l2) ((L ++ ([y] ++ ((A ++ [y]) ++ (B ++ R)))).length + 1) (x :: A) B [y] (A ++ [y]) 0
    (by simp; omega) rfl (by simp) (p1 + 1) (p2 + 1) (by simp; omega) (by simp; omega) (by omega)
  simp only [Int.natCast_zero] at q1
  rw [q1]
  simp only [Option.bind_some]
  have hm : smerge lt (x :: A) (y :: B) = out' ++ (A' ++ B') := by
    rw [smerge_done q4] at q5
    rw [← q5]
    unfold smerge
    rw [List.cons_merge_cons, if_neg (by simp [h])]
    simp
  rw [hm]
  by_cases hg : gap' = []
  · rw [if_neg (by simp [hg])]
    rw [hg] at q3
    have : A' = [] := List.length_eq_zero_iff.1 q3.symm
    simp [hg, this]
  · have hg' : 0 < gap'.length := by cases gap' with
      | nil => exact absurd rfl hg
      | cons => simp
    rw [if_pos (by omega), if_neg (by omega)]
    have hlen : A'.length ≤ (x :: A).length := by rw [← q2]; simp
    obtain ⟨w, e⟩ := copy_at (x :: A) ((x :: A).length + 1) A' (L ++ out') gap' (B' ++ R) i' [] (by omega) q3.symm (by simpa using q2) (L.length + out'.length) (i' + (L.length + out'.length + gap'.length - (L.length + out'.length))) (by simp) (by omega)
    simp only [List.append_assoc] at e ⊢
    rw [e]
    rfl

theorem smerge_snoc_left (ho : SWO lt) (a b : α) : ∀ A B : List α, Sorted lt (B ++ [b]) → lt b a = true → smerge lt (A ++ [a]) (B ++ [b]) = smerge lt A (B ++ [b]) ++ [a] := by
  intro A
  induction A with
  | nil =>
    intro B
    induction B with
    | nil => intro _ h; simp [smerge, List.cons_merge_cons, h]
    | cons y B ih =>
      intro hs h
      have hs' := List.pairwise_cons.1 hs
      have hy : lt y a = true := ho.lt_of_le_of_lt (hs'.1 b (by simp)) h
      have := ih hs'.2 h
      unfold smerge at this ⊢
      simp only [List.nil_append, List.cons_append, List.cons_merge_cons, hy, Bool.not_true, Bool.false_eq_true, if_false] at this ⊢
      rw [this]
      simp
  | cons x A ih =>
    intro B
    induction B with
    | nil =>
      intro hs h
      have := ih [] hs h
      unfold smerge at this ⊢
      simp only [List.nil_append, List.cons_append, List.cons_merge_cons] at this ⊢
      split
      · rw [this]; simp
      · simp
    | cons y B ihB =>
      intro hs h
      have hs' := List.pairwise_cons.1 hs
      have e1 := ih (y :: B) hs h
      have e2 := ihB hs'.2 h
      unfold smerge at e1 e2 ⊢
      simp only [List.cons_append, List.cons_merge_cons] at e1 e2 ⊢
      split
      · rw [e1]; simp
      · rw [e2]; simp

theorem smerge_snoc_right (ho : SWO lt) (a b : α) : ∀ A B : List α, Sorted lt (A ++ [a]) → lt b a = false → smerge lt (A ++ [a]) (B ++ [b]) = smerge lt (A ++ [a]) B ++ [b] := by
  intro A
  induction A with
  | nil =>
    intro B
    induction B with
    | nil => intro _ h; simp [smerge, List.cons_merge_cons, h]
    | cons y B ih =>
      intro hs h
      have := ih hs h
      unfold smerge at this ⊢
      simp only [List.nil_append, List.cons_append, List.cons_merge_cons] at this ⊢
      split
      · simp
      · rw [this]; simp
  | cons x A ih =>
    intro B
    induction B with
    | nil =>
      intro hs h
      have hs' := List.pairwise_cons.1 hs
      have hx : lt b x = false := ho.negTrans h (hs'.1 a (by simp))
      have := ih [] hs'.2 h
      unfold smerge at this ⊢
      simp only [List.nil_append, List.cons_append, List.cons_merge_cons, hx, Bool.not_false, if_true] at this ⊢
      rw [this]; simp
    | cons y B ihB =>
      intro hs h
      have hs' := List.pairwise_cons.1 hs
      have e1 := ih (y :: B) hs'.2 h
      have e2 := ihB hs h
      unfold smerge at e1 e2 ⊢
      simp only [List.cons_append, List.cons_merge_cons] at e1 e2 ⊢
      split
      · rw [e1]; simp
      · rw [e2]; simp

/-- The loop of `_merge_right`, from any point: `A` is what is left of the first run, `B` what is left of the buffer. -/
theorem mrLoop_spec (ho : SWO lt) (buf L R : List α) (start : Int) (hst : start = (L.length : Int) - 1) : ∀ (n : Nat) (A B out gap rest : List α), A.length + B.length < n → buf = B ++ rest → gap.length = B.length →
    Sorted lt A → Sorted lt B → ∀ p1 p2 p3 : Int, p1 = L.length + A.length - 1 → p2 = p1 + gap.length → p3 = B.length - 1 →
    ∃ A' B' out' gap' rest' : List α, mrLoop lt buf start n (L ++ (A ++ (gap ++ (out ++ R)))) p1 p2 p3 = some (L ++ (A' ++ (gap' ++ (out' ++ R))), (L.length : Int) + A'.length - 1, (L.length : Int) + A'.length - 1 + gap'.length, (B'.length : Int) - 1) ∧
      buf = B' ++ rest' ∧ gap'.length = B'.length ∧ (A' = [] ∨ B' = []) ∧ smerge lt A B ++ out = smerge lt A' B' ++ out' := by
  intro n
  induction n with
  | zero => intro A B out gap rest h; omega
  | succ n ih =>
    intro A B out gap rest h1 h2 h3 sA sB p1 p2 p3 hp1 hp2 hp3
    unfold mrLoop
    rcases List.eq_nil_or_concat B with rfl | ⟨B, y, rfl⟩
    · simp only [List.length_nil, List.length_eq_zero_iff] at h3
      subst h3
      simp only [List.length_nil] at hp2 hp3
      rw [if_neg (by omega)]
      refine ⟨A, [], out, [], rest, ?_, h2, rfl, Or.inr rfl, rfl⟩
      subst hp1 hp3
      simp at hp2 ⊢
      exact hp2
    · rcases List.eq_nil_or_concat gap with rfl | ⟨gap, g, rfl⟩
      · simp at h3
      simp only [List.concat_eq_append, List.length_append, List.length_singleton] at h1 h2 h3 hp2 hp3 sB ⊢
      rcases List.eq_nil_or_concat A with rfl | ⟨A, x, rfl⟩
      · rw [if_neg (by simp at hp1; omega)]
        refine ⟨[], B ++ [y], out, gap ++ [g], rest, ?_, h2, by simpa using h3, Or.inl rfl, rfl⟩
        subst hp1 hp3 hp2
        simp
        try omega
      · simp only [List.concat_eq_append, List.length_append, List.length_singleton] at h1 hp1 sA ⊢
        rw [if_pos (by omega)]
        have hy : rd buf p3 = some y := by
          rw [h2]
          have := rd_at B y rest p3 (by omega)
          simpa using this
        have hx : rd (L ++ (A ++ [x] ++ (gap ++ [g] ++ (out ++ R)))) p1 = some x := by
          have := rd_at (L ++ A) x (gap ++ [g] ++ (out ++ R)) p1 (by simp; omega)
          simpa using this
        rw [hy, hx]
        simp only [Option.bind_eq_bind, Option.bind_some]
        have hw : ∀ z, wr (L ++ (A ++ [x] ++ (gap ++ [g] ++ (out ++ R)))) p2 z = some (L ++ (A ++ [x] ++ (gap ++ ((z :: out) ++ R)))) := by
          intro z
          have := wr_at (L ++ (A ++ [x] ++ gap)) g z (out ++ R) p2 (by simp; omega)
          simpa using this
        cases hlt : lt y x with
        | true =>
          rw [if_pos rfl, hw]
          simp only [Option.bind_some]
          obtain ⟨A', B', out', gap', rest', q1, q2, q3, q4, q5⟩ := ih A (B ++ [y]) (x :: out) (x :: gap) rest (by simp; omega) h2 (by simp; omega) (List.pairwise_append.1 sA).1 sB (p1 - 1) (p2 - 1) p3 (by omega) (by simp; omega) (by simp; omega)
          refine ⟨A', B', out', gap', rest', ?_, q2, q3, q4, ?_⟩
          · rw [← q1]; simp
          · rw [← q5, smerge_snoc_left ho x y A B sB hlt]; simp
        | false =>
          rw [if_neg (by simp), hw]
          simp only [Option.bind_some]
          obtain ⟨A', B', out', gap', rest', q1, q2, q3, q4, q5⟩ := ih (A ++ [x]) B (y :: out) gap ([y] ++ rest) (by simp; omega) (by simp [h2]) (by omega) sA (List.pairwise_append.1 sB).1 p1 (p2 - 1) (p3 - 1) (by simp; omega) (by omega) (by omega)
          refine ⟨A', B', out', gap', rest', ?_, q2, q3, q4, ?_⟩
          · rw [← q1]
          · rw [← q5, smerge_snoc_right ho x y A B sA hlt]; simp

/-- `_merge_right` of two runs, the last element of the second less than that of the first, is the stable merge. -/
theorem mergeRight_spec (ho : SWO lt) (L R : List α) (x y : α) (A B : List α) (h : lt y x = true) (sA : Sorted lt (A ++ [x])) (sB : Sorted lt (B ++ [y])) (p1 l1 p2 l2 : Int) (hp1 : p1 = L.length) (hl1 : l1 = A.length + 1)
    (hp2 : p2 = p1 + l1) (hl2 : l2 = B.length + 1) :
    mergeRight lt (L ++ ((A ++ [x]) ++ ((B ++ [y]) ++ R))) p1 l1 p2 l2 = some (L ++ (smerge lt (A ++ [x]) (B ++ [y]) ++ R)) := by
  unfold mergeRight
  have hb := mapM_mid (L ++ (A ++ [x])) (B ++ [y]) R p2 l2 (by simp; omega) (by simp; omega)
  rw [List.append_assoc L] at hb
  simp only
  rw [hb]
  have hy : rd (L ++ ((A ++ [x]) ++ ((B ++ [y]) ++ R))) (p1 + l1 - 1) = some x := by
    have := rd_at (L ++ A) x (B ++ [y] ++ R) (p1 + l1 - 1) (by simp; omega)
    simpa using this
  have hw : wr (L ++ ((A ++ [x]) ++ ((B ++ [y]) ++ R))) (p2 + l2 - 1) x = some (L ++ (A ++ ((x :: B) ++ ([x] ++ R)))) := by
    have := wr_at (L ++ ((A ++ [x]) ++ B)) y x R (p2 + l2 - 1) (by simp; omega)
    simpa using this
  simp only [Option.bind_eq_bind, Option.bind_some]
  rw [hy]
  simp only [Option.bind_some]
  rw [hw]
  simp only [Option.bind_some]
  obtain ⟨A', B', out', gap', rest', q1, q2, q3, q4, q5⟩ := mrLoop_spec ho (B ++ [y]) L R (p1 - 1) (by omega) ((L ++ (A ++ ((x :: B) ++ ([x] ++ R)))).length + 1) A (B ++ [y]) [x] (x :: B) []
    (by simp; omega) (by simp) (by simp) (List.pairwise_append.1 sA).1 sB (p1 + l1 - 2) (p2 + l2 - 2) (l2 - 1) (by omega) (by simp; omega) (by simp; omega)
  rw [q1]
  simp only [Option.bind_some]
  have hm : smerge lt (A ++ [x]) (B ++ [y]) = A' ++ (B' ++ out') := by
    rw [smerge_done q4] at q5
    rw [smerge_snoc_left ho x y A B sB h, q5, List.append_assoc]
  rw [hm]
  by_cases hg : gap' = []
  · rw [if_neg (by simp [hg])]
    rw [hg] at q3
    have : B' = [] := List.length_eq_zero_iff.1 q3.symm
    simp [hg, this]
  · have hg' : 0 < gap'.length := by cases gap' with
      | nil => exact absurd rfl hg
      | cons => simp
    have hA' : A' = [] := by
      rcases q4 with h | h
      · exact h
      · rw [h] at q3; simp at q3; exact absurd q3 hg
    subst hA'
    rw [if_pos (by omega), if_neg (by simp; omega)]
    have hlen : B'.length ≤ (B ++ [y]).length := by rw [q2]; simp
    obtain ⟨w, e⟩ := copy_at (B ++ [y]) ((B ++ [y]).length + 1) B' L gap' (out' ++ R) 0 rest' (by omega) q3.symm (by simpa using q2) (p1 - 1 + 1) (B'.length - 1 + 1) (by omega) (by omega)
    simp only [Int.natCast_zero] at e
    rw [show (B'.length : Int) - 1 - ((L.length : Int) + ([] : List α).length - 1 + gap'.length - (p1 - 1)) + 1 = 0 by simp; omega]
    simp only [List.nil_append, List.append_assoc] at e ⊢
    rw [e]
    rfl
end Codon.NpSort
