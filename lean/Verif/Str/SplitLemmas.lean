import Verif.Str.SplitModel
import Verif.Str.FindLemmas

/-! Lemmas on splitting and joining. -/

set_option linter.unusedSimpArgs false

namespace Codon.Str

open Codon.Sort (rd rd_nat rd_ex rd_some_iff)

theorem snoc_cases {α : Type} (l : List α) : l = [] ∨ ∃ r x, l = r ++ [x] := by
  rcases List.eq_nil_or_concat l with h | ⟨r, x, h⟩
  · exact Or.inl h
  · exact Or.inr ⟨r, x, by rw [h, List.concat_eq_append]⟩

theorem slice_mid (A X C : Str) {a c : Int} (ha : a = A.length) (hc : c = A.length + X.length) :
    slice (A ++ (X ++ C)) a c = some X := by
  subst ha hc
  unfold slice len
  rw [if_pos (by simp only [List.length_append]; omega)]
  simp

theorem slice_end (A X : Str) {a c : Int} (ha : a = A.length) (hc : c = A.length + X.length) :
    slice (A ++ X) a c = some X := by
  have := slice_mid A X [] ha hc
  simpa using this

theorem slice_start (X C : Str) {c : Int} (hc : c = X.length) : slice (X ++ C) 0 c = some X := by
  have := slice_mid [] X C (a := 0) rfl (by simpa using hc)
  simpa using this

theorem len_append (a c : Str) : len (a ++ c) = (a.length : Int) + c.length := by simp [len]

theorem intercalate_cons (sep x : Str) {ps : List Str} (h : ps ≠ []) :
    sep.intercalate (x :: ps) = x ++ (sep ++ sep.intercalate ps) := by
  cases ps with
  | nil => exact absurd rfl h
  | cons y r => simp [List.intercalate, List.intersperse]

theorem intercalate_one (sep x : Str) : sep.intercalate [x] = x := by simp [List.intercalate]

theorem intercalate_concat (sep x : Str) {ps : List Str} (h : ps ≠ []) :
    sep.intercalate (ps ++ [x]) = sep.intercalate ps ++ (sep ++ x) := by
  induction ps with
  | nil => exact absurd rfl h
  | cons y r ih =>
    cases r with
    | nil => rw [List.singleton_append, intercalate_cons sep y (by simp), intercalate_one, intercalate_one]
    | cons z r =>
      rw [List.cons_append, intercalate_cons sep y (by simp), ih (by simp), intercalate_cons sep y (by simp)]
      simp

/-! ### Left split -/

/-- Cutting from the left, at most `m` times. -/
inductive SplitL (sep : Str) : Int → Str → List Str → Prop
  | stop {m s} : 0 ≤ m → (0 < m → ∀ i, ¬ Occurs s sep i) → SplitL sep m s [s]
  | step {m x rest ps} : 0 < m → (∀ i, Occurs (x ++ sep) sep i → (x.length : Int) ≤ i) → SplitL sep (m - 1) rest ps →
      SplitL sep m (x ++ (sep ++ rest)) (x :: ps)

theorem SplitL.ne {sep s : Str} {m : Int} {ps : List Str} (h : SplitL sep m s ps) : ps ≠ [] := by
  cases h <;> simp

theorem SplitL.joined {sep s : Str} {m : Int} {ps : List Str} (h : SplitL sep m s ps) : sep.intercalate ps = s := by
  induction h with
  | stop => simp [List.intercalate]
  | step _ _ h ih => rw [intercalate_cons _ _ h.ne, ih]

theorem SplitL.bound {sep s : Str} {m : Int} {ps : List Str} (h : SplitL sep m s ps) : (ps.length : Int) ≤ m + 1 := by
  induction h with
  | stop => simp; omega
  | step _ _ h ih => simp; omega

theorem SplitL.length {sep s : Str} {m : Int} {ps : List Str} (h : SplitL sep m s ps) (hs : sep ≠ []) : ps.length ≤ s.length + 1 := by
  have := List.length_pos_iff.mpr hs
  induction h with
  | stop => simp
  | step _ _ h ih => simp; omega

theorem SplitL.first {sep s : Str} {m : Int} {ps : List Str} (h : SplitL sep m s ps) :
    ∀ pre x y post, ps = pre ++ x :: y :: post → ∀ i, Occurs (x ++ sep) sep i → (x.length : Int) ≤ i := by
  induction h with
  | stop =>
    intro pre x y post e
    have := congrArg List.length e
    simp at this
    omega
  | step _ h1 h ih =>
    intro pre x y post e
    cases pre with
    | nil => simp at e; rw [← e.1]; exact h1
    | cons a pre => simp at e; exact ih pre x y post e.2

theorem SplitL.last {sep s : Str} {m : Int} {ps : List Str} (h : SplitL sep m s ps) :
    ∀ pre x, ps = pre ++ [x] → (∃ i, Occurs x sep i) → (ps.length : Int) = m + 1 := by
  induction h with
  | @stop m s h0 h1 =>
    rintro pre x e ⟨i, hi⟩
    cases pre with
    | nil =>
      simp at e
      subst e
      by_cases hm : 0 < m
      · exact absurd hi (h1 hm i)
      · simp; omega
    | cons a pre => simp at e
  | @step m x rest ps _ h1 h ih =>
    intro pre y e hy
    cases pre with
    | nil => simp at e; exact absurd e.2 h.ne
    | cons a pre =>
      simp at e
      have := ih pre y e.2 hy
      simp; omega

theorem occurs_mono {s p : Str} {i : Int} (t : Str) (h : Occurs s p i) : Occurs (s ++ t) p i := by
  obtain ⟨a, c, rfl, rfl⟩ := h
  exact ⟨a, c ++ t, by simp, rfl⟩

theorem occurs_mono_left {s p : Str} {i : Int} (t : Str) (h : Occurs s p i) : Occurs (t ++ s) p (t.length + i) := by
  obtain ⟨a, c, rfl, rfl⟩ := h
  exact ⟨t ++ a, c, by simp, by simp⟩

theorem splitLoop_spec {sep : Str} (hsep : sep ≠ []) : ∀ (f : Nat) (m : Int) (done rest : Str) (v : List Str),
    rest.length < f → 0 ≤ m →
    ∃ ps, splitLoop (done ++ rest) sep f m done.length v = some (v ++ ps) ∧ SplitL sep m rest ps := by
  have hpl := List.length_pos_iff.mpr hsep
  intro f
  induction f with
  | zero => intro m done rest v h; omega
  | succ f ih =>
    intro m done rest v hf hm
    unfold splitLoop
    have hsl : slice (done ++ rest) done.length (len (done ++ rest)) = some rest :=
      slice_end done rest rfl (len_append ..)
    by_cases h0 : m > 0
    · rw [if_pos h0, hsl]
      simp only [Option.bind_eq_bind, Option.bind_some]
      obtain ⟨r, r1, r2⟩ := forwardFind_spec rest sep
      rw [r1]
      simp only [Option.bind_some]
      rcases r2 with ⟨h1, h2⟩ | ⟨rfl, h2⟩
      · have hb := h1.bounds
        rw [if_neg (by omega)]
        obtain ⟨x, rest', rfl, rfl⟩ := h1
        have hs2 : slice (done ++ (x ++ (sep ++ rest'))) done.length (done.length + x.length) = some x :=
          slice_mid done x (sep ++ rest') rfl rfl
        rw [hs2]
        simp only [Option.bind_some]
        obtain ⟨ps, p1, p2⟩ := ih (m - 1) (done ++ (x ++ sep)) rest' (v ++ [x]) (by simp at hf; omega) (by omega)
        refine ⟨x :: ps, ?_, SplitL.step (by omega) (fun i hi => ?_) p2⟩
        · have e1 : done ++ (x ++ (sep ++ rest')) = done ++ (x ++ sep) ++ rest' := by simp
          have e2 : (done.length : Int) + x.length + len sep = ((done ++ (x ++ sep)).length : Int) := by
            simp [len]; omega
          rw [e1, e2, p1]
          simp
        · by_contra hc
          refine h2 i (by omega) ?_
          have := occurs_mono rest' hi
          simpa using this
      · rw [if_pos (by omega)]
        exact ⟨[rest], rfl, SplitL.stop hm (fun _ => h2)⟩
    · rw [if_neg h0, hsl]
      exact ⟨[rest], rfl, SplitL.stop hm (fun h => absurd h h0)⟩

theorem occurs_one {s : Str} {c : UInt8} {i : Int} (h : Occurs s [c] i) : c ∈ s := by
  obtain ⟨a, t, rfl, _⟩ := h
  simp

theorem splitCharLoop_spec {c : UInt8} : ∀ (f : Nat) (m : Int) (done cur rest : Str) (v : List Str),
    rest.length < f → 0 ≤ m → c ∉ cur →
    ∃ ps, splitCharLoop (done ++ (cur ++ rest)) c f (done.length + cur.length) done.length m v = some (v ++ ps) ∧
      SplitL [c] m (cur ++ rest) ps := by
  intro f
  induction f with
  | zero => intro m done cur rest v h; omega
  | succ f ih =>
    intro m done cur rest v hf hm hcur
    unfold splitCharLoop
    have hsl : slice (done ++ (cur ++ rest)) done.length (len (done ++ (cur ++ rest))) = some (cur ++ rest) :=
      slice_end done (cur ++ rest) rfl (len_append ..)
    cases rest with
    | nil =>
      rw [if_neg (by simp [len]), hsl]
      refine ⟨[cur ++ []], rfl, SplitL.stop hm (fun _ i hi => ?_)⟩
      have := occurs_one hi
      simp at this
      exact hcur this
    | cons x rest =>
      by_cases h0 : m > 0
      · rw [if_pos (by simp [len]; omega)]
        have hr : rd (done ++ (cur ++ x :: rest)) ((done.length : Int) + cur.length) = some x := by
          rw [show (done.length : Int) + cur.length = ((done.length + cur.length : Nat) : Int) by simp, rd_nat]
          simp
        rw [hr]
        simp only [Option.bind_eq_bind, Option.bind_some]
        by_cases hx : x = c
        · subst hx
          rw [if_pos rfl]
          have hs2 : slice (done ++ (cur ++ x :: rest)) done.length (done.length + cur.length) = some cur :=
            slice_mid done cur (x :: rest) rfl rfl
          rw [hs2]
          simp only [Option.bind_some]
          obtain ⟨ps, p1, p2⟩ := ih (m - 1) (done ++ (cur ++ [x])) [] rest (v ++ [cur]) (by simp at hf; omega) (by omega) (by simp)
          refine ⟨cur :: ps, ?_, ?_⟩
          · have e1 : done ++ (cur ++ x :: rest) = done ++ (cur ++ [x]) ++ ([] ++ rest) := by simp
            have e2 : (done.length : Int) + cur.length + 1 = ((done ++ (cur ++ [x])).length : Int) := by
              simp; omega
            have p1' := p1
            simp only [List.length_nil, Int.natCast_zero, Int.add_zero] at p1'
            rw [e1, e2, p1']
            simp
          · refine SplitL.step (m := m) (x := cur) (sep := [x]) (by omega) (fun i hi => ?_) p2
            by_contra hcc
            obtain ⟨A, C, hA, rfl⟩ := hi
            have hlt : A.length < cur.length := by omega
            have : (cur ++ [x])[A.length]? = some x := by rw [hA]; simp
            rw [List.getElem?_append_left hlt] at this
            exact hcur (List.mem_of_getElem? this)
        · rw [if_neg hx]
          obtain ⟨ps, p1, p2⟩ := ih m done (cur ++ [x]) rest v (by simp at hf; omega) hm (by
            simp only [List.mem_append, List.mem_singleton, not_or]
            exact ⟨hcur, fun h => hx h.symm⟩)
          refine ⟨ps, ?_, ?_⟩
          · have e1 : cur ++ x :: rest = (cur ++ [x]) ++ rest := by simp
            have e2 : (done.length : Int) + cur.length + 1 = done.length + ((cur ++ [x]).length : Int) := by
              simp; omega
            rw [e1, e2, p1]
          · simpa using p2
      · rw [if_neg (by omega), hsl]
        exact ⟨[cur ++ x :: rest], rfl, SplitL.stop hm (fun h => absurd h h0)⟩

/-! ### Right split -/

/-- Cutting from the right, at most `m` times; the pieces from right to left. -/
inductive SplitR (sep : Str) : Int → Str → List Str → Prop
  | stop {m s} : 0 ≤ m → (0 < m → ∀ i, ¬ Occurs s sep i) → SplitR sep m s [s]
  | step {m x rest ps} : 0 < m → (∀ i, Occurs (sep ++ x) sep i → i ≤ 0) → SplitR sep (m - 1) rest ps →
      SplitR sep m (rest ++ (sep ++ x)) (x :: ps)

theorem SplitR.ne {sep s : Str} {m : Int} {ps : List Str} (h : SplitR sep m s ps) : ps ≠ [] := by
  cases h <;> simp

theorem SplitR.joined {sep s : Str} {m : Int} {ps : List Str} (h : SplitR sep m s ps) : sep.intercalate ps.reverse = s := by
  induction h with
  | stop => simp [List.intercalate]
  | step _ _ h ih => rw [List.reverse_cons, intercalate_concat _ _ (by simpa using h.ne), ih]

theorem SplitR.bound {sep s : Str} {m : Int} {ps : List Str} (h : SplitR sep m s ps) : (ps.length : Int) ≤ m + 1 := by
  induction h with
  | stop => simp; omega
  | step _ _ h ih => simp; omega

theorem SplitR.length {sep s : Str} {m : Int} {ps : List Str} (h : SplitR sep m s ps) (hs : sep ≠ []) : ps.length ≤ s.length + 1 := by
  have := List.length_pos_iff.mpr hs
  induction h with
  | stop => simp
  | step _ _ h ih => simp; omega

theorem SplitR.first {sep s : Str} {m : Int} {ps : List Str} (h : SplitR sep m s ps) :
    ∀ pre x y post, ps.reverse = pre ++ x :: y :: post → ∀ i, Occurs (sep ++ y) sep i → i ≤ 0 := by
  induction h with
  | stop =>
    intro pre x y post e
    have := congrArg List.length e
    simp at this
    omega
  | @step m z rest ps _ h1 h ih =>
    intro pre x y post e
    rw [List.reverse_cons] at e
    rcases snoc_cases post with rfl | ⟨post', q, rfl⟩
    · have : ps.reverse ++ [z] = (pre ++ [x]) ++ [y] := by rw [e]; simp
      have := (List.append_inj' this rfl).2
      simp at this
      rw [← this]; exact h1
    · have : ps.reverse ++ [z] = (pre ++ x :: y :: post') ++ [q] := by rw [e]; simp
      exact ih pre x y post' (List.append_inj' this rfl).1

theorem SplitR.last {sep s : Str} {m : Int} {ps : List Str} (h : SplitR sep m s ps) :
    ∀ x post, ps.reverse = x :: post → (∃ i, Occurs x sep i) → (ps.length : Int) = m + 1 := by
  induction h with
  | @stop m s h0 h1 =>
    rintro x post e ⟨i, hi⟩
    simp at e
    obtain ⟨rfl, rfl⟩ := e
    by_cases hm : 0 < m
    · exact absurd hi (h1 hm i)
    · simp; omega
  | @step m z rest ps _ h1 h ih =>
    intro x post e hy
    have hne : ps.reverse ≠ [] := by simpa using h.ne
    obtain ⟨w, t, hw⟩ := List.exists_cons_of_ne_nil hne
    rw [List.reverse_cons, hw] at e
    simp at e
    have := ih w t hw (by rw [e.1]; exact hy)
    simp; omega

theorem rsplitLoop_spec {sep : Str} (hsep : sep ≠ []) : ∀ (f : Nat) (m : Int) (rest done : Str) (v : List Str),
    rest.length < f → 0 ≤ m → rest.length + 1 ≤ sep.length + 9 →
    ∃ ps, rsplitLoop (rest ++ done) sep f m rest.length v = some (v ++ ps) ∧ SplitR sep m rest ps := by
  have hpl := List.length_pos_iff.mpr hsep
  intro f
  induction f with
  | zero => intro m rest done v h; omega
  | succ f ih =>
    intro m rest done v hf hm hshort
    unfold rsplitLoop
    have hsl : slice (rest ++ done) 0 rest.length = some rest := slice_start rest done rfl
    by_cases h0 : m > 0
    · rw [if_pos h0, hsl]
      simp only [Option.bind_eq_bind, Option.bind_some]
      obtain ⟨r, r1, r2⟩ := backwardFind_spec rest sep (by omega)
      rw [r1]
      simp only [Option.bind_some]
      rcases r2 with ⟨h1, h2⟩ | ⟨rfl, h2⟩
      · have hb := h1.bounds
        rw [if_neg (by omega)]
        obtain ⟨rest', x, rfl, rfl⟩ := h1
        have hs2 : slice (rest' ++ (sep ++ x) ++ done) (rest'.length + len sep) ((rest' ++ (sep ++ x)).length : Nat) = some x := by
          have := slice_mid (rest' ++ sep) x done (a := rest'.length + len sep) (c := ((rest' ++ (sep ++ x)).length : Nat))
            (by simp [len]) (by simp; omega)
          simpa using this
        rw [hs2]
        simp only [Option.bind_some]
        obtain ⟨ps, p1, p2⟩ := ih (m - 1) rest' (sep ++ x ++ done) (v ++ [x]) (by simp at hf; omega) (by omega) (by simp at hshort; omega)
        refine ⟨x :: ps, ?_, SplitR.step (by omega) (fun i hi => ?_) p2⟩
        · have e1 : rest' ++ (sep ++ x) ++ done = rest' ++ (sep ++ x ++ done) := by simp
          rw [e1, p1]
          simp
        · by_contra hc
          exact h2 (rest'.length + i) (by omega) (occurs_mono_left rest' hi)
      · rw [if_pos (by omega)]
        exact ⟨[rest], rfl, SplitR.stop hm (fun _ => h2)⟩
    · rw [if_neg h0, hsl]
      exact ⟨[rest], rfl, SplitR.stop hm (fun h => absurd h h0)⟩

theorem rsplitCharLoop_spec {c : UInt8} : ∀ (f : Nat) (m : Int) (rest cur done : Str) (v : List Str),
    rest.length < f → 0 ≤ m → c ∉ cur →
    ∃ ps, rsplitCharLoop (rest ++ cur ++ done) c f (rest.length - 1) (rest.length + cur.length - 1) m v = some (v ++ ps) ∧
      SplitR [c] m (rest ++ cur) ps := by
  intro f
  induction f with
  | zero => intro m done cur rest v h; omega
  | succ f ih =>
    intro m rest cur done v hf hm hcur
    unfold rsplitCharLoop
    have hsl : slice (rest ++ cur ++ done) 0 ((rest.length : Int) + cur.length - 1 + 1) = some (rest ++ cur) :=
      slice_start (rest ++ cur) done (by simp)
    rcases snoc_cases rest with rfl | ⟨rest, x, rfl⟩
    · rw [if_neg (by simp), hsl]
      refine ⟨[[] ++ cur], rfl, SplitR.stop hm (fun _ i hi => ?_)⟩
      have := occurs_one hi
      simp at this
      exact hcur this
    · by_cases h0 : m > 0
      · rw [if_pos (by simp; omega)]
        have hr : rd (rest ++ [x] ++ cur ++ done) (((rest ++ [x]).length : Nat) - 1 : Int) = some x := by
          rw [show (((rest ++ [x]).length : Nat) - 1 : Int) = ((rest.length : Nat) : Int) by simp, rd_nat]
          simp
        rw [hr]
        simp only [Option.bind_eq_bind, Option.bind_some]
        by_cases hx : x = c
        · subst hx
          rw [if_pos rfl]
          have hs2 : slice (rest ++ [x] ++ cur ++ done) (((rest ++ [x]).length : Nat) - 1 + 1) (((rest ++ [x]).length : Nat) + cur.length - 1 + 1) = some cur := by
            have := slice_mid (rest ++ [x]) cur done (a := ((rest ++ [x]).length : Nat) - 1 + 1)
              (c := ((rest ++ [x]).length : Nat) + cur.length - 1 + 1) (by omega) (by omega)
            simpa using this
          rw [hs2]
          simp only [Option.bind_some]
          obtain ⟨ps, p1, p2⟩ := ih (m - 1) rest [] ([x] ++ cur ++ done) (v ++ [cur]) (by simp at hf; omega) (by omega) (by simp)
          refine ⟨cur :: ps, ?_, ?_⟩
          · have e1 : rest ++ [x] ++ cur ++ done = rest ++ [] ++ ([x] ++ cur ++ done) := by simp
            have e2 : (((rest ++ [x]).length : Nat) - 1 - 1 : Int) = (rest.length : Int) - 1 := by simp
            have e3 : (rest.length : Int) + ([] : Str).length - 1 = rest.length - 1 := by simp
            rw [e3] at p1
            rw [e1, e2, p1]
            simp
          · rw [List.append_nil] at p2
            have := SplitR.step (m := m) (x := cur) (sep := [x]) (by omega) (fun i hi => ?_) p2
            · simpa using this
            · by_contra hcc
              obtain ⟨A, C, hA, rfl⟩ := hi
              cases A with
              | nil => simp at hcc
              | cons y A =>
                simp at hA
                exact hcur (by rw [hA.2]; simp)
        · rw [if_neg hx]
          obtain ⟨ps, p1, p2⟩ := ih m rest (x :: cur) done v (by simp at hf; omega) hm (by
            simp only [List.mem_cons, not_or]
            exact ⟨fun h => hx h.symm, hcur⟩)
          refine ⟨ps, ?_, ?_⟩
          · have e1 : rest ++ [x] ++ cur ++ done = rest ++ (x :: cur) ++ done := by simp
            have e2 : (((rest ++ [x]).length : Nat) - 1 - 1 : Int) = (rest.length : Int) - 1 := by simp
            have e3 : (((rest ++ [x]).length : Nat) + cur.length - 1 : Int) = (rest.length : Int) + ((x :: cur).length : Nat) - 1 := by
              simp; omega
            rw [e1, e2, e3, p1]
          · simpa using p2
      · rw [if_neg (by omega), hsl]
        exact ⟨[rest ++ [x] ++ cur], rfl, SplitR.stop hm (fun h => absurd h h0)⟩

/-! ### Join -/

theorem rd_append_cons {α : Type} (p s : List α) (x : α) : rd (p ++ x :: s) p.length = some x := by
  rw [rd_nat]; simp

theorem joinLen_spec (sep : Str) : ∀ (f : Nat) (done todo : List Str) (n : Int), todo.length < f →
    joinLen sep (done ++ todo) f done.length n = some (n + (sep.intercalate todo).length) := by
  intro f
  induction f with
  | zero => intro done todo n h; omega
  | succ f ih =>
    intro done todo n h
    unfold joinLen
    cases todo with
    | nil => rw [if_neg (by simp)]; simp [List.intercalate]
    | cons x todo =>
      rw [if_pos (by simp), rd_append_cons]
      simp only [Option.bind_eq_bind, Option.bind_some]
      have e1 : done ++ x :: todo = (done ++ [x]) ++ todo := by simp
      have e2 : (done.length : Int) + 1 = ((done ++ [x]).length : Nat) := by simp
      rw [e1, e2, ih (done ++ [x]) todo _ (by simpa using h)]
      congr 1
      cases todo with
      | nil => rw [if_neg (by simp)]; simp [List.intercalate, len]
      | cons y todo =>
        rw [if_pos (by simp; omega), intercalate_cons sep x (by simp)]
        simp only [len, List.length_append, Int.natCast_add]
        omega

theorem joinCopy_spec (sep : Str) (cap : Int) : ∀ (f : Nat) (done todo : List Str) (out : Str), todo.length < f →
    len out + (sep.intercalate todo).length ≤ cap →
    joinCopy sep (done ++ todo) cap f done.length out = some (out ++ sep.intercalate todo) := by
  intro f
  induction f with
  | zero => intro done todo out h; omega
  | succ f ih =>
    intro done todo out h hcap
    unfold joinCopy
    cases todo with
    | nil => rw [if_neg (by simp)]; simp [List.intercalate]
    | cons x todo =>
      rw [if_pos (by simp), rd_append_cons]
      simp only [Option.bind_eq_bind, Option.bind_some]
      have e1 : done ++ x :: todo = (done ++ [x]) ++ todo := by simp
      have e2 : (done.length : Int) + 1 = ((done ++ [x]).length : Nat) := by simp
      cases todo with
      | nil =>
        rw [intercalate_one] at hcap
        have he : emit cap out x = some (out ++ x) := by unfold emit; rw [if_pos hcap]
        rw [he]
        simp only [Option.bind_some]
        rw [if_neg (by simp), e1, e2, ih (done ++ [x]) [] _ (by simpa using h)]
        · simp [List.intercalate]
        · rw [len_append]; simp [List.intercalate, len] at hcap ⊢; omega
      | cons y todo =>
        rw [intercalate_cons sep x (by simp)] at hcap ⊢
        simp only [List.length_append, Int.natCast_add] at hcap
        have he : emit cap out x = some (out ++ x) := by unfold emit; rw [if_pos (by unfold len at *; omega)]
        rw [he]
        simp only [Option.bind_some]
        rw [if_pos (by simp; omega)]
        have he2 : emit cap (out ++ x) sep = some (out ++ x ++ sep) := by
          unfold emit; rw [if_pos (by rw [len_append]; unfold len at *; omega)]
        rw [he2]
        simp only [Option.bind_some]
        rw [e1, e2, ih (done ++ [x]) (y :: todo) _ (by simpa using h)]
        · simp
        · rw [len_append, List.length_append]; unfold len at hcap; push_cast; omega

theorem cat_total (l : List Str) (n : Int) : l.foldl (fun n x => n + len x) n = n + (l.flatten.length : Int) := by
  induction l generalizing n with
  | nil => simp
  | cons x l ih =>
    rw [List.foldl_cons, ih, List.flatten_cons, List.length_append]
    unfold len; push_cast; omega

theorem cat_emit (cap : Int) (l : List Str) (out : Str) (h : len out + l.flatten.length ≤ cap) :
    l.foldlM (emit cap) out = some (out ++ l.flatten) := by
  induction l generalizing out with
  | nil => simp
  | cons x l ih =>
    rw [List.flatten_cons, List.length_append] at h
    push_cast at h
    rw [List.foldlM_cons]
    have he : emit cap out x = some (out ++ x) := by unfold emit; rw [if_pos (by unfold len at *; omega)]
    rw [he]
    show List.foldlM (emit cap) (out ++ x) l = _
    rw [ih _ (by rw [len_append]; unfold len at h; omega)]
    simp

theorem cat_spec (l : List Str) : cat l = some l.flatten := by
  unfold cat
  rw [cat_total, Int.zero_add]
  dsimp only
  rw [cat_emit _ l [] (by simp [len])]
  show finish _ _ = _
  unfold finish len
  rw [if_pos (by simp)]
  simp

theorem intercalate_nil_sep (l : List Str) : ([] : Str).intercalate l = l.flatten := by
  induction l with
  | nil => rfl
  | cons x l ih =>
    cases l with
    | nil => simp [List.intercalate]
    | cons y l => rw [intercalate_cons _ _ (by simp), ih]; simp

theorem join_spec (sep : Str) (l : List Str) : join sep l = some (sep.intercalate l) := by
  unfold join
  match l with
  | [] => simp [List.intercalate]
  | [x] => simp [intercalate_one]; rfl
  | x :: y :: l =>
    rw [if_neg (by simp), if_neg (by simp)]
    by_cases hs : len sep = 0
    · have : sep = [] := List.eq_nil_of_length_eq_zero (by unfold len at hs; omega)
      subst this
      rw [if_pos hs, cat_spec, intercalate_nil_sep]
    · rw [if_neg hs]
      have h1 := joinLen_spec sep ((x :: y :: l).length + 1) [] (x :: y :: l) 0 (by omega)
      simp only [List.nil_append, List.length_nil, Int.natCast_zero, Int.zero_add] at h1
      rw [h1]
      simp only [Option.bind_eq_bind, Option.bind_some]
      have h2 := joinCopy_spec sep (sep.intercalate (x :: y :: l)).length ((x :: y :: l).length + 1) [] (x :: y :: l) [] (by omega) (by simp [len])
      simp only [List.nil_append, List.length_nil, Int.natCast_zero, Int.zero_add] at h2
      rw [h2]
      simp [finish, len]

theorem joinGen_spec (sep : Str) (l : List Str) : joinGen sep l = sep.intercalate l := by
  unfold joinGen
  by_cases hs : len sep = 0
  · have : sep = [] := List.eq_nil_of_length_eq_zero (by unfold len at hs; omega)
    subst this
    rw [if_pos hs, intercalate_nil_sep]
    have : ∀ (l : List Str) (o : Str), l.foldl (fun buf a => buf ++ a) o = o ++ l.flatten := by
      intro l
      induction l with
      | nil => simp
      | cons x l ih => intro o; rw [List.foldl_cons, ih]; simp
    rw [this]; simp
  · rw [if_neg hs]
    have : ∀ (l : List Str) (o : Str),
        (l.foldl (fun (st : Str × Bool) a => if st.2 then (st.1 ++ a, false) else (st.1 ++ sep ++ a, false)) (o, false)).1 =
          if l = [] then o else o ++ (sep ++ sep.intercalate l) := by
      intro l
      induction l with
      | nil => simp
      | cons x l ih =>
        intro o
        rw [List.foldl_cons]
        rw [if_neg (by simp), ih]
        cases l with
        | nil => simp [intercalate_one]
        | cons y l => rw [if_neg (by simp), if_neg (by simp), intercalate_cons sep x (by simp)]; simp
    cases l with
    | nil => simp [List.intercalate]
    | cons x l =>
      rw [List.foldl_cons]
      simp only [if_true, List.nil_append]
      rw [this]
      cases l with
      | nil => simp [intercalate_one]
      | cons y l => rw [if_neg (by simp), intercalate_cons sep x (by simp)]

/-! ### Scanning -/

theorem skipFwd_spec (q : UInt8 → Bool) : ∀ (f : Nat) (done rest : Str), rest.length < f →
    skipFwd (done ++ rest) q f done.length = some ((done.length : Int) + (rest.takeWhile q).length) := by
  intro f
  induction f with
  | zero => intro done rest h; omega
  | succ f ih =>
    intro done rest h
    unfold skipFwd
    cases rest with
    | nil => rw [if_neg (by simp [len])]; simp
    | cons x rest =>
      rw [if_pos (by simp [len]), rd_append_cons]
      simp only [Option.bind_eq_bind, Option.bind_some]
      by_cases hq : q x = true
      · rw [if_pos hq]
        have := ih (done ++ [x]) rest (by simpa using h)
        simp only [List.append_assoc, List.singleton_append, List.length_append, List.length_singleton] at this
        push_cast at this
        rw [this, List.takeWhile_cons_of_pos hq]
        simp; omega
      · rw [if_neg hq, List.takeWhile_cons_of_neg hq]
        simp

theorem skipBwd_spec (q : UInt8 → Bool) : ∀ (f : Nat) (rest done : Str), rest.length < f →
    skipBwd (rest ++ done) q f (rest.length - 1) = some ((rest.length : Int) - 1 - (rest.reverse.takeWhile q).length) := by
  intro f
  induction f with
  | zero => intro rest done h; omega
  | succ f ih =>
    intro rest done h
    unfold skipBwd
    rcases snoc_cases rest with rfl | ⟨rest, x, rfl⟩
    · rw [if_neg (by simp)]; simp
    · rw [if_pos (by simp)]
      have hr : rd (rest ++ [x] ++ done) (((rest ++ [x]).length : Nat) - 1 : Int) = some x := by
        rw [show (((rest ++ [x]).length : Nat) - 1 : Int) = ((rest.length : Nat) : Int) by simp, rd_nat]
        simp
      rw [hr]
      simp only [Option.bind_eq_bind, Option.bind_some]
      by_cases hq : q x = true
      · rw [if_pos hq]
        have := ih rest ([x] ++ done) (by simp at h; omega)
        rw [show (((rest ++ [x]).length : Nat) - 1 - 1 : Int) = rest.length - 1 by simp, List.append_assoc, this]
        rw [List.reverse_append, List.reverse_singleton, List.singleton_append, List.takeWhile_cons_of_pos hq]
        simp; omega
      · rw [if_neg hq, List.reverse_append, List.reverse_singleton, List.singleton_append, List.takeWhile_cons_of_neg hq]
        simp

end Codon.Str
