import Verif.Exc.Props
import Verif.Exc.RouteModel

/-!
# C18: routing of a caught exception between nested `try` statements
-/

namespace Codon.Exc

/-! ### Specification -/

/-- A clause handles the exception. -/
def accepts (id : Nat) (bases : List Nat) : Option Nat → Bool
  | none => true
  | some t => t == id || bases.contains t

/-- The first clause in source order, from the innermost `try` outwards, that handles the exception. -/
def firstHandler (id : Nat) (bases : List Nat) : Nat → List Types → Option (Nat × Nat)
  | _, [] => none
  | level, own :: parents =>
    match own.findIdx? (accepts id bases) with
    | some i => some (level, i)
    | none => firstHandler id bases (level + 1) parents

/-- The events of leaving levels `a, …, a + n - 1`. -/
def leave (a n : Nat) : List Ev := (List.range' a n).map Ev.fin

/-! ### Lemmas -/

section
variable {id : Nat} {bases : List Nat}

theorem addTypes_prefix (d : Nat) : ∀ (ts : Types) (acc : List (Option Nat × Nat)), ∃ r, addTypes d ts acc = acc ++ r ∧ ∀ e ∈ r, e.2 = d ∧ e.1 ∈ ts := by
  intro ts
  induction ts with
  | nil => intro acc; exact ⟨[], by simp [addTypes], by simp⟩
  | cons t ts ih =>
    intro acc
    unfold addTypes
    split
    · obtain ⟨r, h1, h2⟩ := ih acc
      exact ⟨r, h1, fun e he => ⟨(h2 e he).1, by simp [(h2 e he).2]⟩⟩
    · obtain ⟨r, h1, h2⟩ := ih (acc ++ [(t, d)])
      refine ⟨(t, d) :: r, by rw [h1]; simp, fun e he => ?_⟩
      rcases List.mem_cons.mp he with rfl | he
      · simp
      · exact ⟨(h2 e he).1, by simp [(h2 e he).2]⟩

theorem addTypes_find (d : Nat) : ∀ (ts : Types) (acc : List (Option Nat × Nat)), acc.find? (fun e => accepts id bases e.1) = none →
    (addTypes d ts acc).find? (fun e => accepts id bases e.1) = (ts.find? (accepts id bases)).map fun t => (t, d) := by
  intro ts
  induction ts with
  | nil => intro acc h; simpa [addTypes] using h
  | cons t ts ih =>
    intro acc h
    have hacc := List.find?_eq_none.mp h
    unfold addTypes
    cases ht : accepts id bases t with
    | true =>
      rw [if_neg, List.find?_cons_of_pos ht]
      · obtain ⟨r, h1, _⟩ := addTypes_prefix d ts (acc ++ [(t, d)])
        rw [h1, List.append_assoc, List.find?_append, h]
        simp [ht]
      · intro hany
        rw [List.any_eq_true] at hany
        obtain ⟨e, he1, he2⟩ := hany
        have : e.1 = t := by simpa using he2
        have := hacc e he1
        simp_all
    | false =>
      rw [List.find?_cons_of_neg (by simp [ht])]
      split
      · exact ih acc h
      · exact ih _ (by rw [List.find?_append, h]; simp [ht])

theorem addParents_prefix : ∀ (ps : List Types) (d : Nat) (acc : List (Option Nat × Nat)), ∃ r, addParents ps d acc = acc ++ r ∧
    ∀ e ∈ r, d ≤ e.2 ∧ ∃ p ∈ ps, e.1 ∈ p := by
  intro ps
  induction ps with
  | nil => intro d acc; exact ⟨[], by simp [addParents], by simp⟩
  | cons p ps ih =>
    intro d acc
    unfold addParents
    split
    · exact ⟨[], by simp, by simp⟩
    · obtain ⟨r1, h1, h2⟩ := addTypes_prefix d p acc
      obtain ⟨r2, h3, h4⟩ := ih (d + 1) (addTypes d p acc)
      refine ⟨r1 ++ r2, by rw [h3, h1]; simp, fun e he => ?_⟩
      rcases List.mem_append.mp he with he | he
      · exact ⟨by rw [(h2 e he).1], p, by simp, (h2 e he).2⟩
      · obtain ⟨q, hq1, hq2⟩ := (h4 e he).2
        exact ⟨by have := (h4 e he).1; omega, q, by simp [hq1], hq2⟩

/-- The first entry of the table that handles the exception is the first handler in source order. -/
theorem addParents_find : ∀ (ps : List Types) (d : Nat) (acc : List (Option Nat × Nat)),
    acc.find? (fun e => accepts id bases e.1) = none →
    match firstHandler id bases d ps with
    | none => (addParents ps d acc).find? (fun e => accepts id bases e.1) = none
    | some (j, i) => ∃ p t, d ≤ j ∧ ps[j - d]? = some p ∧ p.findIdx? (accepts id bases) = some i ∧ p[i]? = some t ∧
        (addParents ps d acc).find? (fun e => accepts id bases e.1) = some (t, j) := by
  intro ps
  induction ps with
  | nil => intro d acc h; simpa [firstHandler, addParents] using h
  | cons p ps ih =>
    intro d acc h
    have hnone : ¬ (acc.any (fun e => e.1 == none)) = true := by
      intro hany
      rw [List.any_eq_true] at hany
      obtain ⟨e, he1, he2⟩ := hany
      have h1 := List.find?_eq_none.mp h e he1
      have : e.1 = none := by simpa using he2
      rw [this] at h1
      exact h1 rfl
    unfold addParents firstHandler
    rw [if_neg hnone]
    have hf := addTypes_find (id := id) (bases := bases) d p acc h
    cases hi : p.findIdx? (accepts id bases) with
    | some i =>
      dsimp only
      have hi' := List.findIdx?_eq_some_iff_getElem.mp hi
      obtain ⟨g1, g2, g3⟩ := hi'
      have hfind : p.find? (accepts id bases) = some p[i] := by
        rw [List.find?_eq_some_iff_getElem]
        exact ⟨g2, i, g1, rfl, fun j hj => by have := g3 j hj; simpa using this⟩
      refine ⟨p, p[i], Nat.le_refl _, by simp, hi, List.getElem?_eq_getElem g1, ?_⟩
      obtain ⟨r, h1, _⟩ := addParents_prefix ps (d + 1) (addTypes d p acc)
      rw [h1, List.find?_append, hf, hfind]
      rfl
    | none =>
      dsimp only
      have hfind : p.find? (accepts id bases) = none := by
        rw [List.find?_eq_none]
        rw [List.findIdx?_eq_none_iff] at hi
        intro x hx
        simp [hi x hx]
      rw [hfind] at hf
      have := ih (d + 1) (addTypes d p acc) hf
      cases hfh : firstHandler id bases (d + 1) ps with
      | none => rw [hfh] at this; exact this
      | some x =>
        obtain ⟨j, i⟩ := x
        rw [hfh] at this
        obtain ⟨q, t, h1, h2, h3, h4, h5⟩ := this
        exact ⟨q, t, by omega, by rw [show j - d = (j - (d + 1)) + 1 by omega, List.getElem?_cons_succ]; exact h2, h3, h4, h5⟩

theorem find_own (own : Types) : (own.map fun t => (t, 0)).find? (fun e => accepts id bases e.1) =
    (own.find? (accepts id bases)).map fun t => (t, 0) := by
  rw [List.find?_map]; rfl

/-- The first handler of a `try` and the ones around it, in the table. -/
theorem table_find (own : Types) (parents : List Types) :
    match firstHandler id bases 0 (own :: parents) with
    | none => (table own parents).find? (fun e => accepts id bases e.1) = none
    | some (j, i) => ∃ p t, (own :: parents)[j]? = some p ∧ p.findIdx? (accepts id bases) = some i ∧ p[i]? = some t ∧
        (table own parents).find? (fun e => accepts id bases e.1) = some (t, j) := by
  unfold firstHandler table
  cases hi : own.findIdx? (accepts id bases) with
  | some i =>
    dsimp only
    obtain ⟨g1, g2, g3⟩ := List.findIdx?_eq_some_iff_getElem.mp hi
    have hfind : own.find? (accepts id bases) = some own[i] := by
      rw [List.find?_eq_some_iff_getElem]
      exact ⟨g2, i, g1, rfl, fun j hj => by have := g3 j hj; simpa using this⟩
    refine ⟨own, own[i], by simp, hi, List.getElem?_eq_getElem g1, ?_⟩
    obtain ⟨r, h1, _⟩ := addParents_prefix parents 1 (own.map fun t => (t, 0))
    rw [h1, List.find?_append, find_own, hfind]
    rfl
  | none =>
    dsimp only
    have hfind : own.find? (accepts id bases) = none := by
      rw [List.find?_eq_none]
      rw [List.findIdx?_eq_none_iff] at hi
      intro x hx
      simp [hi x hx]
    have := addParents_find (id := id) (bases := bases) parents 1 (own.map fun t => (t, 0)) (by rw [find_own, hfind]; rfl)
    cases hfh : firstHandler id bases 1 parents with
    | none => rw [hfh] at this; exact this
    | some x =>
      obtain ⟨j, i⟩ := x
      rw [hfh] at this
      obtain ⟨q, t, h1, h2, h3, h4, h5⟩ := this
      exact ⟨q, t, by rw [show j = (j - 1) + 1 by omega, List.getElem?_cons_succ]; exact h2, h3, h4, h5⟩

/-- Type numbers are positive. -/
def Positive (stack : List Types) : Prop := ∀ p ∈ stack, some 0 ∉ p

theorem table_pos {own : Types} {parents : List Types} (h : Positive (own :: parents)) : ∀ e ∈ table own parents, e.1 ≠ some 0 := by
  intro e he
  unfold table at he
  obtain ⟨r, h1, h2⟩ := addParents_prefix parents 1 (own.map fun t => (t, 0))
  rw [h1] at he
  rcases List.mem_append.mp he with he | he
  · obtain ⟨t, ht, rfl⟩ := List.mem_map.mp he
    rintro rfl
    exact h own (by simp) ht
  · obtain ⟨_, p, hp, hm⟩ := h2 e he
    intro h0
    rw [h0] at hm
    exact h p (by simp [hp]) hm

/-- The selector. -/
theorem selector_eq {own : Types} {parents : List Types} (h : Positive (own :: parents)) :
    (firstClause id bases ((table own parents).map fun e => some (e.1.getD 0))) =
      ((table own parents).find? (fun e => accepts id bases e.1)).map fun e => e.1.getD 0 := by
  unfold firstClause
  rw [List.filterMap_map]
  have : ((fun c : Option Nat => c) ∘ fun e : Option Nat × Nat => some (e.1.getD 0)) = fun e => some (e.1.getD 0) := rfl
  rw [this, List.filterMap_eq_map', List.find?_map]
  congr 1
  have hp := table_pos h
  generalize table own parents = tab at hp
  induction tab with
  | nil => rfl
  | cons e tab ih =>
    have he : (Handles id bases ∘ fun e : Option Nat × Nat => e.1.getD 0) e = accepts id bases e.1 := by
      have := hp e (by simp)
      obtain ⟨c, d⟩ := e
      cases c with
      | none => rfl
      | some t =>
        have ht : (t == 0) = false := by
          simp only [ne_eq, Option.some.injEq] at this
          simpa using this
        simp [Handles, accepts, ht]
    rw [List.find?_cons, List.find?_cons, he, ih (fun e' he' => hp e' (by simp [he']))]

/-- If the first accepted element of a list is `some t`, it is also the first one equal to it. -/
theorem findIdx_of_find {α : Type} {acc : α → Bool} {c : α → Bool} {l : List α} {x : α} (h : l.find? acc = some x) (hc : c x = true)
    (hcacc : ∀ y ∈ l, c y = true → acc y = true) : ∃ k, l.findIdx? c = some k ∧ l.findIdx? acc = some k ∧ l[k]? = some x := by
  obtain ⟨h1, k, h2, h3, h4⟩ := List.find?_eq_some_iff_getElem.mp h
  refine ⟨k, ?_, ?_, by rw [List.getElem?_eq_getElem h2, h3]⟩
  · rw [List.findIdx?_eq_some_iff_getElem]
    refine ⟨h2, by rw [h3]; exact hc, fun j hj => ?_⟩
    have := h4 j hj
    intro hcj
    have := hcacc _ (List.getElem_mem (by omega)) hcj
    simp_all
  · rw [List.findIdx?_eq_some_iff_getElem]
    exact ⟨h2, by rw [h3]; exact h1, fun j hj => by have := h4 j hj; simpa using this⟩

theorem table_eq (own : Types) (parents : List Types) : ∃ r, table own parents = (own.map fun t => (t, 0)) ++ r ∧ ∀ e ∈ r, 1 ≤ e.2 := by
  obtain ⟨r, h1, h2⟩ := addParents_prefix parents 1 (own.map fun t => (t, 0))
  exact ⟨r, h1, fun e he => (h2 e he).1⟩

/-- Going through `finally` blocks up to the level that handles the exception. -/
theorem go_leave (sel : Nat) : ∀ (k level : Nat) (stack : List Types) (_ : k < stack.length) (_ : 0 < k),
    go sel true level k stack = leave level k ++ go sel false (level + k) 0 (stack.drop k) := by
  intro k
  induction k with
  | zero => intro level stack _ h; omega
  | succ k ih =>
    intro level stack hk _
    cases stack with
    | nil => simp at hk
    | cons own parents =>
      have hne : parents ≠ [] := by rintro rfl; simp at hk
      conv_lhs => unfold go
      simp only [if_true, Nat.add_sub_cancel, gt_iff_lt, Nat.succ_pos, if_neg hne]
      rw [List.drop_succ_cons]
      have hl : leave level (k + 1) = .fin level :: leave (level + 1) k := by simp [leave, List.range'_succ]
      rw [hl]
      by_cases h0 : k = 0
      · subst h0
        simp [leave]
      · have : decide (0 < k) = true := by simp; omega
        rw [this, ih (level + 1) parents (by simpa using hk) (by omega), show level + 1 + k = level + (k + 1) by omega]
        rfl

theorem go_fin (sel level depth : Nat) (own : Types) (parents : List Types) (h : dispatch own parents sel depth = .inr d) :
    go sel false level depth (own :: parents) = go sel true level d (own :: parents) := by
  conv_lhs => unfold go
  conv_rhs => unfold go
  simp [h]

theorem go_handler (sel level depth i : Nat) (own : Types) (parents : List Types) (h : dispatch own parents sel depth = .inl i) :
    go sel false level depth (own :: parents) = [.handler level i] := by
  unfold go
  simp [h]

end

/-! ### C18 -/

/-- The dispatch when the first handler is in this `try`. -/
theorem dispatch_own {id : Nat} {bases : List Nat} (own : Types) (parents : List Types) (depth i : Nat) (t : Option Nat)
    (hpos : Positive (own :: parents)) (hi : own.findIdx? (accepts id bases) = some i) (ht : own[i]? = some t) :
    dispatch own parents (t.getD 0) depth = .inl i := by
  obtain ⟨r, hr1, hr2⟩ := table_eq own parents
  obtain ⟨g1, g2, g3⟩ := List.findIdx?_eq_some_iff_getElem.mp hi
  rw [List.getElem?_eq_getElem g1] at ht
  have ht : own[i] = t := by simpa using ht
  have hfind : (own.map fun t => (t, 0)).find? (fun e => accepts id bases e.1) = some (t, 0) := by
    rw [find_own]
    have : own.find? (accepts id bases) = some own[i] := by
      rw [List.find?_eq_some_iff_getElem]
      exact ⟨g2, i, g1, rfl, fun j hj => by have := g3 j hj; simpa using this⟩
    rw [this, ht]; rfl
  have hfindT : (table own parents).find? (fun e => accepts id bases e.1) = some (t, 0) := by
    rw [hr1, List.find?_append, hfind]; rfl
  unfold dispatch
  dsimp only
  have hacc : accepts id bases t = true := by rw [← ht]; exact g2
  cases t with
  | some t =>
    obtain ⟨k, k1, k2, k3⟩ := findIdx_of_find (c := fun e => e.1 == some t) hfindT (by simp)
      (fun y _ hy => by have : y.1 = some t := by simpa using hy
                        rw [this]; exact hacc)
    have hk : k = i := by
      rw [List.findIdx?_eq_some_iff_getElem] at k2
      obtain ⟨m1, m2, m3⟩ := k2
      rcases Nat.lt_trichotomy k i with h | h | h
      · have := g3 k h
        have he : (table own parents)[k] = (own[k], 0) := by
          have : (table own parents)[k]? = some (own[k]'(by omega), 0) := by
            rw [hr1, List.getElem?_append_left (by simp; omega)]
            simp [h, show k < own.length by omega]
          rw [List.getElem?_eq_getElem m1] at this
          simpa using this
        rw [he] at m2
        simp_all
      · exact h
      · have he : (table own parents)[i]'(by omega) = (own[i], 0) := by
          have : (table own parents)[i]? = some (own[i], 0) := by
            rw [hr1, List.getElem?_append_left (by simp; omega)]
            simp [g1]
          rw [List.getElem?_eq_getElem (by omega)] at this
          simpa using this
        have := m3 i h
        rw [he] at this
        simp_all
    simp only [Option.getD_some]
    rw [k1]
    dsimp only
    rw [if_pos (by omega), hk]
  | none =>
    have hnone : (table own parents).findIdx? (fun e => e.1 == some ((none : Option Nat).getD 0)) = none := by
      rw [List.findIdx?_eq_none_iff]
      intro e he
      have := table_pos hpos e he
      simpa using this
    rw [hnone]
    dsimp only
    have hf : (table own parents).find? (fun e => e.1 == none) = some (none, 0) := by
      obtain ⟨k, k1, k2, k3⟩ := findIdx_of_find (c := fun e => e.1 == none) hfindT (by simp)
        (fun y _ hy => by have : y.1 = none := by simpa using hy
                          rw [this]; rfl)
      obtain ⟨m1, m2, m3⟩ := List.findIdx?_eq_some_iff_getElem.mp k1
      rw [List.find?_eq_some_iff_getElem]
      rw [List.getElem?_eq_getElem m1] at k3
      exact ⟨by simp, k, m1, by simpa using k3, fun j hj => by have := m3 j hj; simpa [Option.isSome_iff_ne_none] using this⟩
    rw [hf]
    dsimp only
    rw [if_neg (by omega)]
    congr 1
    have hfo : own.find? (accepts id bases) = some none := by
      rw [List.find?_eq_some_iff_getElem]
      exact ⟨hacc, i, g1, ht, fun j hj => by have := g3 j hj; simpa using this⟩
    obtain ⟨k, k1, k2, k3⟩ := findIdx_of_find (c := fun e : Option Nat => e == none) hfo (by simp)
      (fun y _ hy => by have : y = none := by simpa using hy
                        rw [this]; rfl)
    rw [hi] at k2
    have := List.findIdx?_eq_some_iff_findIdx_eq.mp k1
    rw [this.2]
    simpa using k2.symm

/-- **C18.** An exception raised in the body of nested `try` statements runs exactly the `finally` blocks of the statements
inside the first one with a matching clause (from the innermost outwards), and then the first matching clause of that
statement; if no clause matches, all `finally` blocks run and the exception propagates. -/
theorem c18_routing (id : Nat) (bases : List Nat) (stack : List Types) (hne : stack ≠ []) (hpos : Positive stack) :
    raise id bases stack = match firstHandler id bases 0 stack with
      | some (j, i) => leave 0 j ++ [.handler j i]
      | none => leave 0 stack.length ++ [.resume (stack.length - 1)] := by
  cases stack with
  | nil => exact absurd rfl hne
  | cons own parents =>
    unfold raise
    dsimp only
    have ht := table_find (id := id) (bases := bases) own parents
    rw [selector_eq hpos]
    cases hfh : firstHandler id bases 0 (own :: parents) with
    | some x =>
      obtain ⟨j, i⟩ := x
      rw [hfh] at ht
      obtain ⟨p, t, h1, h2, h3, h4⟩ := ht
      dsimp only
      rw [h4]
      simp only [Option.map_some, Option.getD_some]
      have hposj : Positive ((own :: parents).drop j) := fun q hq => hpos q (List.mem_of_mem_drop hq)
      have hj := (List.getElem?_eq_some_iff.mp h1).1
      have hdrop : (own :: parents).drop j = p :: (own :: parents).drop (j + 1) := by
        rw [List.drop_eq_getElem_cons hj]
        congr 1
        rw [List.getElem?_eq_getElem hj] at h1
        simpa using h1
      by_cases h0 : j = 0
      · subst h0
        simp at h1
        subst h1
        rw [go_handler _ _ _ i _ _ (dispatch_own own parents _ i t hpos h2 h3)]
        rfl
      · -- the dispatch delegates
        have hacc : accepts id bases t = true := by
          have := (List.find?_eq_some_iff_getElem.mp h4).1
          exact this
        have hd : dispatch own parents (t.getD 0) parents.length = .inr j := by
          obtain ⟨r, hr1, hr2⟩ := table_eq own parents
          unfold dispatch
          dsimp only
          cases t with
          | some t =>
            obtain ⟨k, k1, k2, k3⟩ := findIdx_of_find (c := fun e => e.1 == some t) h4 (by simp)
              (fun y _ hy => by have : y.1 = some t := by simpa using hy
                                rw [this]; exact hacc)
            simp only [Option.getD_some]
            rw [k1]
            dsimp only
            rw [if_neg, k3]
            · rfl
            · intro hlt
              rw [hr1, List.getElem?_append_left (by simpa using hlt)] at k3
              simp at k3
              exact h0 (by omega)
          | none =>
            have hnone : (table own parents).findIdx? (fun e => e.1 == some ((none : Option Nat).getD 0)) = none := by
              rw [List.findIdx?_eq_none_iff]
              intro e he
              have := table_pos hpos e he
              simpa using this
            rw [hnone]
            dsimp only
            have hf : (table own parents).find? (fun e => e.1 == none) = some (none, j) := by
              obtain ⟨k, k1, k2, k3⟩ := findIdx_of_find (c := fun e => e.1 == none) h4 (by simp)
                (fun y _ hy => by have : y.1 = none := by simpa using hy
                                  rw [this]; rfl)
              obtain ⟨m1, m2, m3⟩ := List.findIdx?_eq_some_iff_getElem.mp k1
              rw [List.find?_eq_some_iff_getElem]
              rw [List.getElem?_eq_getElem m1] at k3
              exact ⟨by simp, k, m1, by simpa using k3, fun j hj => by have := m3 j hj; simpa [Option.isSome_iff_ne_none] using this⟩
            rw [hf]
            dsimp only
            rw [if_pos (by omega)]
        rw [go_fin _ _ _ _ _ hd, go_leave _ j 0 (own :: parents) hj (by omega), hdrop]
        rw [go_handler _ _ _ i _ _ (dispatch_own p _ 0 i t (by rw [← hdrop]; exact hposj) h2 h3)]
        simp
    | none =>
      rw [hfh] at ht
      dsimp only
      rw [ht]
      simp only [Option.map_none, Option.getD_none]
      -- no clause matches anywhere
      have hnoneT : ∀ (own : Types) (parents : List Types), Positive (own :: parents) → firstHandler id bases 0 (own :: parents) = none → ∀ depth,
          dispatch own parents 0 depth = .inr depth := by
        intro own parents hpos hfh depth
        have ht := table_find (id := id) (bases := bases) own parents
        rw [hfh] at ht
        have h1 : (table own parents).findIdx? (fun e => e.1 == some 0) = none := by
          rw [List.findIdx?_eq_none_iff]
          intro e he
          have := table_pos hpos e he
          simpa using this
        have h2 : (table own parents).find? (fun e => e.1 == none) = none := by
          rw [List.find?_eq_none]
          intro e he hc
          have := List.find?_eq_none.mp ht e he
          have : e.1 = none := by simpa using hc
          simp_all [accepts]
        unfold dispatch
        dsimp only
        rw [h1]
        dsimp only
        rw [h2]
      have hroot : ∀ (own : Types) (level depth : Nat), Positive [own] → firstHandler id bases 0 [own] = none →
          go 0 false level depth [own] = [.fin level, .resume level] := by
        intro own level depth hp hf
        unfold go
        simp [hnoneT own [] hp hf depth]
      by_cases hp0 : parents = []
      · subst hp0
        rw [hroot own 0 _ hpos hfh]
        rfl
      · have hpl := List.length_pos_iff.mpr hp0
        rw [go_fin _ _ _ _ _ (hnoneT own parents hpos hfh parents.length), go_leave _ parents.length 0 (own :: parents) (by simp) hpl]
        have hlast : (own :: parents).drop parents.length = [(own :: parents).getLast (by simp)] := by
          rw [List.getLast_eq_getElem, List.drop_eq_getElem_cons (by simp)]
          simp
        rw [hlast, hroot]
        · simp only [Nat.zero_add, List.length_cons, Nat.add_sub_cancel]
          simp [leave, List.range'_concat]
        · intro q hq
          simp only [List.mem_singleton] at hq
          subst hq
          exact hpos _ (List.getLast_mem _)
        · have hall : ∀ (st : List Types) (l : Nat), firstHandler id bases l st = none → ∀ q ∈ st, q.findIdx? (accepts id bases) = none := by
            intro st
            induction st with
            | nil => intro l _ q hq; cases hq
            | cons a st ih =>
              intro l h q hq
              unfold firstHandler at h
              cases ha : a.findIdx? (accepts id bases) with
              | some i => rw [ha] at h; cases h
              | none =>
                rw [ha] at h
                rcases List.mem_cons.mp hq with rfl | hq
                · exact ha
                · exact ih (l + 1) h q hq
          have := hall _ 0 hfh _ (List.getLast_mem (by simp))
          unfold firstHandler
          rw [this]
          rfl

/-- An exception of class 9 (a subclass of 4): the inner `try` handles 5 and 6, the middle one 5 and 4, the outer one all. -/
example : raise 9 [4] [[some 5, some 6], [some 5, some 4], [none]] = [.fin 0, .handler 1 1] ∧
    Positive [[some 5, some 6], [some 5, some 4], [none]] ∧
    raise 8 [] [[some 5], [some 4], [some 6]] = [.fin 0, .fin 1, .fin 2, .resume 2] := by
  refine ⟨by decide +kernel, ?_, by decide +kernel⟩
  intro p hp
  simp at hp
  rcases hp with rfl | rfl | rfl <;> decide

end Codon.Exc
