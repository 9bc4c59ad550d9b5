import Verif.Flow.CfgTry
/-!
# C08: the graph has every execution

Helper lemmas for `CfgProps`.
-/
namespace Codon.Flow

set_option linter.unusedSimpArgs false

/-! ### `except` clauses -/

def ctchS0 (s : B) (v : Option Instr) : B := (s.newBlock.setCur s.next).push s.next v
def ctchS2 (e : Env) (s s1 : B) : B := (s1.fromRoute e s.next).edge s1.cur e.dst

theorem ctch_parts {F : B} {v : Option Instr} {h rest : Node} {e : Env} {s s' s1 : B} {r : Nat} {o : Option Nat}
    {tl : List (Nat × Option Nat)} (hs : WF s) (ht : e.tcs = (r, o) :: tl)
    (e' : build (.ctch v h rest) e s = s') (e1 : build h e (ctchS0 s v) = s1) (hf : Fin F True s s') :
    build rest e (ctchS2 e s s1) = s' ∧ WF (ctchS0 s v) ∧ Fin F True (ctchS0 s v) s1 ∧
    (ctchS0 s v).code (ctchS0 s v).cur = v.toList ∧ (ctchS0 s v).cur = s.next ∧ (r, s.next) ∈ F.edges ∧
    (s1.cur, e.dst) ∈ F.edges ∧ v.toList <+: F.code s.next ∧
    WF (ctchS2 e s s1) ∧ Fin F True (ctchS2 e s s1) s' := by
  have hsc := hs.cur
  have hsf := hs.fresh
  have w0 : WF (ctchS0 s v) := ⟨by simp [ctchS0], by simp [ctchS0, push_code]; grind⟩
  have h1 := build_frame h e _ w0
  rw [e1] at h1
  have w1 := h1.wf w0
  have ed := (fromRoute_eds e s1 s.next).edge s1.cur e.dst
  have w2 : WF (ctchS2 e s s1) := ed.wf w1
  have h2 := build_frame rest e _ w2
  have hb : build rest e (ctchS2 e s s1) = s' := by
    rw [← e', ← e1]
    simp only [build]
    rw [(fromRoute_eds e _ s.next).cur]
    rfl
  rw [hb] at h2
  have q1 : (r, s.next) ∈ (ctchS2 e s s1).edges := by simp [ctchS2, B.fromRoute, ht]
  have q2 : (s1.cur, e.dst) ∈ (ctchS2 e s s1).edges := by simp [ctchS2]
  have q3 : (ctchS2 e s s1).code = s1.code := ed.code
  have q4 : (ctchS2 e s s1).next = s1.next := ed.next
  have q5 : (ctchS2 e s s1).cur = s1.cur := ed.cur
  have q6 : ∀ x, x ∈ s1.edges → x ∈ (ctchS2 e s s1).edges := ed.edges
  generalize ctchS2 e s s1 = s2 at *
  have y1 := Fin.ofClosed (F := F) h1
  have y2 := Fin.ofClosed (F := F) h2
  have k1 := w1.cur
  have k2 := w2.cur
  have tne : e.tcs ≠ [] := by rw [ht]; simp
  obtain ⟨a1, a2, a3, a4, a5, a6, a7⟩ := h1
  obtain ⟨b1, b2, b3, b4, b5, b6, b7⟩ := h2
  obtain ⟨d1, d2, d3, d4, d5⟩ := hf
  replace a7 := a7 tne
  replace b7 := b7 tne
  have d6 := d5 trivial
  replace q3 := fun b => congrFun q3 b
  simp only [ctchS0] at *
  bsimp
  have g1 : ∀ x, x ∈ s1.edges → x ∈ F.edges := fun x hx => d1 x (b6 x (q6 x hx))
  have c1 : F.code s.next = v.toList := by
    clear y1 y2 a6 b6 q6 g1 d1 a4 b4 d4 q1 q2
    grind
  refine ⟨hb, w0, y1 g1 ?_ ?_, ?_, trivial, d1 _ (b6 _ q1), d1 _ (b6 _ q2), ?_, w2, y2 d1 ?_ ?_⟩
  all_goals clear y1 y2 a6 b6 q6 g1 d1 q1 q2 a4 b4 d4
  · grind
  · grind
  · grind
  · rw [c1]; exact List.prefix_rfl
  · grind
  · grind

/-! ### Operations and jumps -/

theorem go_open {F : B} {c : Prop} {e : Env} {n : Node} {s : B} (hs : WF s) (h : Fin F c s (build n e s)) :
    s.code s.cur <+: F.code s.cur := by
  have hf := build_frame n e s hs
  by_cases hc : (build n e s).cur = s.cur
  · have := h.pre
    rw [hc] at this
    exact hf.pre.trans this
  · rw [h.left hc]; exact hf.pre

theorem insert_go {F : B} {c : Prop} {e : Env} {s : B} {i : Option Instr} (hs : WF s)
    (h : Fin F c s (s.insert e i)) (hc : e.tcs ≠ [] → c) :
    Go F s.cur (s.code s.cur).length i.toList (s.insert e i).cur ((s.insert e i).code (s.insert e i).cur).length ∧
    ∀ r o tl, e.tcs = (r, o) :: tl → Go F s.cur (s.code s.cur).length i.toList r 0 := by
  have hsc := hs.cur
  cases ht : e.tcs with
  | nil =>
    have he : s.insert e i = s.push s.cur i := by unfold B.insert; rw [ht]
    rw [he] at h ⊢
    refine ⟨?_, fun r o tl hx => by cases hx⟩
    have := h.pre
    simp only [push_cur, push_code_same] at this ⊢
    exact go_prefix this
  | cons x tl =>
    obtain ⟨r, o⟩ := x
    have he : s.insert e i = (((s.newBlock.edge s.cur s.next).edge s.next r).setCur s.next).push s.next i := by
      unfold B.insert; rw [ht]
    have hcl := h.clo (hc (by rw [ht]; simp))
    rw [he] at h hcl ⊢
    have hl := h.left (by simp; omega)
    rw [push_code_ne _ (by omega)] at hl
    simp only [push_cur, setCur_cur, push_code_same, setCur_code, edge_code, newBlock_code, hs.fresh s.next (Nat.le_refl _),
      List.nil_append] at hcl hl ⊢
    have g0 : Go F s.cur (s.code s.cur).length [] s.next 0 := by
      refine (Go.refl _ _).edge (by rw [hl]) (h.edges _ (by simp))
    have g1 : Go F s.next 0 i.toList s.next i.toList.length := by
      have := go_prefix (F := F) (b := s.next) (u := []) (l := i.toList) (by rw [hcl]; exact List.prefix_rfl)
      simpa using this
    have g2 := g0.trans g1
    refine ⟨g2, fun r' o' tl' hx => ?_⟩
    cases hx
    exact g2.edge (by rw [hcl]) (h.edges _ (by simp))

theorem jump_go {F : B} {e : Env} {s : B} {cf : Option Nat} {k : Nat} (hs : WF s)
    (h : Fin F True s ((s.jump e cf k).insert e none)) : F.code s.cur = s.code s.cur := by
  have hf := jumpInsert_frame e s hs cf k
  have ed := jump_eds e s cf k
  cases ht : e.tcs with
  | nil =>
    have he : (s.jump e cf k).insert e none = (s.jump e cf k).push (s.jump e cf k).cur none := by
      unfold B.insert; rw [ht]
    rw [he] at h
    have := h.clo trivial
    simp only [push_cur, push_code_same, Option.toList_none, List.append_nil] at this
    rw [ed.cur, ed.code] at this
    exact this
  | cons x tl =>
    have hk := hf.keep (by rw [ht]; simp)
    by_cases hc : ((s.jump e cf k).insert e none).cur = s.cur
    · have := h.clo trivial
      rw [hc] at this
      rw [this, hk]
    · rw [h.left hc, hk]

theorem insert_edges (e : Env) (s : B) (i : Option Instr) : ∀ x, x ∈ s.edges → x ∈ (s.insert e i).edges := by
  intro x hx
  unfold B.insert
  split
  · exact hx
  · simp [hx]

theorem findSome_fin {l : List (Nat × Option Nat)} {rb f : Nat} (h : l.getLast? = some (rb, some f)) :
    l.reverse.findSome? (·.2) = some f := by
  rw [List.getLast?_eq_head?_reverse] at h
  cases hl : l.reverse with
  | nil => rw [hl] at h; cases h
  | cons x tl =>
    rw [hl] at h
    simp at h
    simp [h]

/-- `break` and `continue` -/
theorem loopJump_go {F : B} {e : Env} {s : B} {t k : Nat} (hs : WF s)
    (hg : (∀ x ∈ e.tcs.take (e.tcs.length - k), x.2 = none) ∨ (k = 0 ∧ ∃ rb f, e.tcs.getLast? = some (rb, some f)))
    (h : Fin F True s ((s.jump e (some t) k).insert e none)) :
    ∃ c j, Go F s.cur (s.code s.cur).length [] c j ∧ JumpTo F e t k c j := by
  have hcode := jump_go hs h
  have hed : ∀ x, x ∈ (s.jump e (some t) k).edges → x ∈ F.edges := fun x hx => h.edges x (insert_edges e _ none x hx)
  have direct : (s.cur, t) ∈ F.edges → Go F s.cur (s.code s.cur).length [] t 0 := fun he =>
    (Go.refl _ _).edge (by rw [hcode]) he
  by_cases hk : e.tcs.length ≤ k
  · refine ⟨t, 0, direct (hed _ (by simp [B.jump, hk])), .inl ⟨?_, rfl, rfl⟩⟩
    intro x hx
    rw [show e.tcs.length - k = 0 by omega] at hx
    simp at hx
  · rcases hg with hg | ⟨h0, rb, f, hl⟩
    · have hn : B.nearestFinally e k = none := by
        unfold B.nearestFinally
        rw [List.findSome?_eq_none_iff]
        intro x hx
        exact hg x (by simpa using hx)
      refine ⟨t, 0, direct (hed _ ?_), .inl ⟨hg, rfl, rfl⟩⟩
      simp [B.jump, hk, hn]
    · subst h0
      have hn : B.nearestFinally e 0 = some f := by
        unfold B.nearestFinally
        simp only [Nat.sub_zero, List.take_length]
        exact findSome_fin hl
      cases ht : e.tcs with
      | nil => rw [ht] at hl; cases hl
      | cons x tl =>
        obtain ⟨r, o⟩ := x
        have hk' : ¬ (tl.length + 1 ≤ 0) := by omega
        have hj : s.jump e (some t) 0 = (s.edge s.cur r).edge f t := by
          simp [B.jump, hn, ht]
        rw [hj] at hed
        refine ⟨r, 0, (Go.refl _ _).edge (by rw [hcode]) (hed _ (by simp)), .inr ⟨rfl, rb, f, r, o, tl, hl, hed _ (by simp),
          ht, rfl, rfl⟩⟩

/-- `return` -/
theorem ret_go {F : B} {e : Env} {s : B} (hs : WF s) {c : Prop} (hc : e.tcs ≠ [] → c)
    (h : Fin F c s ((s.jump e none 0).insert e none)) :
    ∃ c j, Go F s.cur (s.code s.cur).length [] c j ∧
      ((∃ x ∈ e.tcs, x.2 ≠ none) → ∃ r o tl, e.tcs = (r, o) :: tl ∧ c = r ∧ j = 0) := by
  cases ht : e.tcs with
  | nil => exact ⟨_, _, .refl _ _, by rintro ⟨x, hx, -⟩; cases hx⟩
  | cons x tl =>
    obtain ⟨r, o⟩ := x
    have hcode := jump_go hs (h.mono fun _ => hc (by rw [ht]; simp))
    have hed : ∀ x, x ∈ (s.jump e none 0).edges → x ∈ F.edges := fun x hx => h.edges x (insert_edges e _ none x hx)
    by_cases hf : ∃ x ∈ e.tcs, x.2 ≠ none
    · have hn : ∃ f, B.nearestFinally e 0 = some f := by
        unfold B.nearestFinally
        simp only [Nat.sub_zero, List.take_length]
        rw [← Option.isSome_iff_exists, List.findSome?_isSome_iff]
        obtain ⟨x, hx, hx'⟩ := hf
        exact ⟨x, by simpa using hx, by cases hh : x.2 <;> simp_all⟩
      obtain ⟨f, hn⟩ := hn
      have hj : s.jump e none 0 = s.edge s.cur r := by simp [B.jump, hn, ht]
      rw [hj] at hed
      exact ⟨r, 0, (Go.refl _ _).edge (by rw [hcode]) (hed _ (by simp)), fun _ => ⟨r, o, tl, rfl, rfl, rfl⟩⟩
    · rw [ht] at hf
      exact ⟨_, _, .refl _ _, fun h => absurd h hf⟩

end Codon.Flow
