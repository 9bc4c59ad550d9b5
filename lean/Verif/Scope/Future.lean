import Verif.Scope.Walk

/-!
# Name resolution: what a point of the program can tell about the final groups
-/

namespace Verif.Scope

/-- The variable that stands for a binding in the end. -/
def rep : List Grp → Bnd → Bnd
  | [], b => b
  | g :: gs, b => if b ∈ g.all then g.lead else rep gs b

theorem rep_of_mem {F : List Grp} (h : (allG F).Nodup) {G : Grp} (hG : G ∈ F) {b : Bnd}
    (hb : b ∈ G.all) : rep F b = G.lead := by
  induction F with
  | nil => cases hG
  | cons g F ih =>
    rw [allG_cons, List.nodup_append] at h
    rw [rep]
    rcases List.mem_cons.1 hG with rfl | hG
    · rw [if_pos hb]
    · rw [if_neg, ih h.2.1 hG]
      intro hm
      exact h.2.2 b hm b (mem_allG.2 ⟨G, hG, hb⟩) rfl

/-- Two bindings are in one group. -/
def Same (gs : List Grp) (b b' : Bnd) : Prop := ∃ g ∈ gs, b ∈ g.all ∧ b' ∈ g.all

theorem Same.rep {F : List Grp} (h : (allG F).Nodup) {b b' : Bnd} (hs : Same F b b') :
    rep F b = rep F b' := by
  obtain ⟨G, hG, h1, h2⟩ := hs
  rw [rep_of_mem h hG h1, rep_of_mem h hG h2]

theorem same_step {c : List Nat} {gs gs' : List Grp} (h : Step c gs gs') {b b' : Bnd}
    (hs : Same gs b b') : Same gs' b b' := by
  obtain ⟨g, hg, h1, h2⟩ := hs
  cases h with
  | add i _ _ => exact ⟨g, List.mem_cons_of_mem _ hg, h1, h2⟩
  | hitD gs₁ d gs₂ _ _ _ =>
    rw [List.mem_append, List.mem_cons] at hg
    rcases hg with hg | rfl | hg
    · refine ⟨_, List.mem_cons_self, ?_, ?_⟩ <;> rw [all_merge]
      · exact List.mem_append_left _ (mem_allG.2 ⟨g, hg, h1⟩)
      · exact List.mem_append_left _ (mem_allG.2 ⟨g, hg, h2⟩)
    · refine ⟨_, List.mem_cons_self, ?_, ?_⟩ <;> rw [all_merge]
      · exact List.mem_append_right _ h1
      · exact List.mem_append_right _ h2
    · exact ⟨g, List.mem_cons_of_mem _ hg, h1, h2⟩
  | hitN _ sc C k _ _ _ _ _ _ _ _ =>
    refine ⟨_, List.mem_cons_self, ?_, ?_⟩ <;> rw [Grp.all]
    · exact List.mem_append_left _ (mem_allG.2 ⟨g, hg, h1⟩)
    · exact List.mem_append_left _ (mem_allG.2 ⟨g, hg, h2⟩)

theorem same_fut {P : List Nat → Prop} {gs F : List Grp} (h : Fut P gs F) {b b' : Bnd}
    (hs : Same gs b b') : Same F b b' := by
  induction h with
  | refl gs => exact hs
  | step _ h _ ih => exact ih (same_step h hs)

/-- The group led by `i` is followed by the group of `b`, or both are in one group. -/
def Adj (gs : List Grp) (i b : Bnd) : Prop :=
  (∃ p h k q, gs = p ++ h :: k :: q ∧ h.lead = i ∧ b ∈ k.all) ∨ Same gs i b

theorem adj_step {c : List Nat} {gs gs' : List Grp} (h : Step c gs gs') {i b : Bnd}
    (ha : Adj gs i b) : Adj gs' i b := by
  rcases ha with ⟨p, a, k, q, he, h1, h2⟩ | hs
  · have hall : i ∈ a.all := by rw [Grp.all, h1]; simp
    cases h with
    | add j _ _ => exact .inl ⟨_ :: p, a, k, q, by rw [he]; rfl, h1, h2⟩
    | hitD gs₁ d gs₂ hd1 hd2 hd3 =>
      rcases List.append_eq_append_iff.1 he with ⟨as, e1, e2⟩ | ⟨bs, e1, e2⟩
      · -- the dominating group comes no later than `a`
        cases as with
        | nil =>
          simp only [List.nil_append, List.cons.injEq] at e2
          obtain ⟨rfl, rfl⟩ := e2
          exact .inl ⟨[], _, k, q, rfl, h1, h2⟩
        | cons z as =>
          simp only [List.cons_append, List.cons.injEq] at e2
          obtain ⟨rfl, rfl⟩ := e2
          exact .inl ⟨_ :: as, a, k, q, by simp; rfl, h1, h2⟩
      · cases bs with
        | nil =>
          simp only [List.nil_append, List.cons.injEq] at e2
          obtain ⟨rfl, rfl⟩ := e2
          exact .inl ⟨[], _, k, q, rfl, h1, h2⟩
        | cons z bs =>
          simp only [List.cons_append, List.cons.injEq] at e2
          obtain ⟨rfl, e2⟩ := e2
          refine .inr ⟨_, List.mem_cons_self, ?_, ?_⟩ <;> rw [all_merge]
          · exact List.mem_append_left _ (mem_allG.2 ⟨a, by rw [e1]; simp, hall⟩)
          · cases bs with
            | nil =>
              simp only [List.nil_append, List.cons.injEq] at e2
              obtain ⟨rfl, rfl⟩ := e2
              exact List.mem_append_right _ h2
            | cons y bs =>
              simp only [List.cons_append, List.cons.injEq] at e2
              obtain ⟨rfl, rfl⟩ := e2
              exact List.mem_append_left _ (mem_allG.2 ⟨k, by rw [e1]; simp, h2⟩)
    | hitN _ sc C k' _ _ _ _ _ _ _ _ =>
      refine .inr ⟨_, List.mem_cons_self, ?_, ?_⟩ <;> rw [Grp.all]
      · exact List.mem_append_left _ (mem_allG.2 ⟨a, by rw [he]; simp, hall⟩)
      · exact List.mem_append_left _ (mem_allG.2 ⟨k, by rw [he]; simp, h2⟩)
  · exact .inr (same_step h hs)

theorem adj_fut {P : List Nat → Prop} {gs F : List Grp} (h : Fut P gs F) {i b : Bnd}
    (ha : Adj gs i b) : (∃ G ∈ F, G.lead = i) ∨ Same F i b := by
  induction h with
  | refl gs =>
    rcases ha with ⟨p, a, k, q, he, h1, _⟩ | hs
    · exact .inl ⟨a, by rw [he]; simp, h1⟩
    · exact .inr hs
  | step _ h _ ih => exact ih (adj_step h ha)

/-- The group of a binding has a scope that contains `sc`. -/
def Within (gs : List Grp) (b : Bnd) (sc : List Nat) : Prop :=
  ∃ g ∈ gs, b ∈ g.all ∧ g.scope <+: sc

theorem within_step {c : List Nat} {gs gs' : List Grp} (h : Step c gs gs') {b : Bnd}
    {sc : List Nat} (hs : Within gs b sc) : Within gs' b sc := by
  obtain ⟨g, hg, h1, h2⟩ := hs
  cases h with
  | add i _ _ => exact ⟨g, List.mem_cons_of_mem _ hg, h1, h2⟩
  | hitD gs₁ d gs₂ _ _ hpre =>
    rw [List.mem_append, List.mem_cons] at hg
    rcases hg with hg | rfl | hg
    · refine ⟨_, List.mem_cons_self, ?_, (hpre g hg).trans h2⟩
      rw [all_merge]
      exact List.mem_append_left _ (mem_allG.2 ⟨g, hg, h1⟩)
    · refine ⟨_, List.mem_cons_self, ?_, h2⟩
      rw [all_merge]
      exact List.mem_append_right _ h1
    · exact ⟨g, List.mem_cons_of_mem _ hg, h1, h2⟩
  | hitN _ s C k _ _ hpre _ _ _ _ _ =>
    refine ⟨_, List.mem_cons_self, ?_, (hpre g hg).trans h2⟩
    rw [Grp.all]
    exact List.mem_append_left _ (mem_allG.2 ⟨g, hg, h1⟩)

theorem within_fut {P : List Nat → Prop} {gs F : List Grp} (h : Fut P gs F) {b : Bnd}
    {sc : List Nat} (hs : Within gs b sc) : Within F b sc := by
  induction h with
  | refl gs => exact hs
  | step _ h _ ih => exact ih (within_step h hs)

/-- The last group is led by `i`, or contains it and is led by a suite. -/
def Single (gs : List Grp) (i : Bnd) : Prop :=
  ∃ p g, gs = p ++ [g] ∧ (g.lead = i ∨ i ∈ g.all ∧ ∃ C, g.lead = .suite C)

theorem last_step {c : List Nat} {gs gs' p : List Grp} {g : Grp} (h : Step c gs gs')
    (he : gs = p ++ [g]) :
    (∃ p' g', gs' = p' ++ [g'] ∧ g'.lead = g.lead ∧ g'.scope = g.scope ∧ ∀ b ∈ g.all, b ∈ g'.all) ∨
    (∃ g' C, gs' = [g'] ∧ g'.lead = .suite C ∧ g'.scope <+: g.scope ∧ g'.scope.getLast? = some C ∧
      (∀ b ∈ allG gs, b ∈ g'.all) ∧ g'.scope ≠ g.scope) := by
  cases h with
  | add i _ _ => exact .inl ⟨_ :: p, g, by rw [he]; rfl, rfl, rfl, fun b hb => hb⟩
  | hitD gs₁ d gs₂ _ _ _ =>
    rcases List.eq_nil_or_concat gs₂ with rfl | ⟨q, z, rfl⟩
    · have : d = g := by
        have := congrArg List.getLast? he
        simpa using this
      subst this
      refine .inl ⟨[], _, rfl, rfl, rfl, ?_⟩
      intro b hb
      rw [all_merge]; exact List.mem_append_right _ hb
    · have : z = g := by
        have := congrArg List.getLast? he
        simpa [List.getLast?_cons] using this
      subst this
      exact .inl ⟨(⟨allG gs₁ ++ d.mem, d.lead, d.scope, d.acc⟩ : Grp) :: q, z, by simp, rfl, rfl,
        fun b hb => hb⟩
  | hitN _ sc C k _ hnd hpre hsc hlast _ _ _ =>
    refine .inr ⟨_, C, rfl, rfl, hpre g (by rw [he]; simp), hlast, ?_, ?_⟩
    · intro b hb
      rw [Grp.all]; exact List.mem_append_left _ hb
    · intro h
      exact hnd g (by rw [he]; simp) (h ▸ hsc)

theorem single_step {c : List Nat} {gs gs' : List Grp} (h : Step c gs gs') {i : Bnd}
    (hs : Single gs i) : Single gs' i := by
  obtain ⟨p, g, he, hi⟩ := hs
  have hall : i ∈ g.all := by
    rcases hi with hi | hi
    · rw [Grp.all, hi]; simp
    · exact hi.1
  rcases last_step h he with ⟨p', g', e1, e2, _, e4⟩ | ⟨g', C, e1, e2, _, _, e4, _⟩
  · refine ⟨p', g', e1, ?_⟩
    rcases hi with hi | ⟨hi, C, hC⟩
    · exact .inl (e2.trans hi)
    · exact .inr ⟨e4 i hi, C, e2.trans hC⟩
  · refine ⟨[], g', e1, .inr ⟨e4 i ?_, C, e2⟩⟩
    exact mem_allG.2 ⟨g, by rw [he]; simp, hall⟩

theorem single_fut {P : List Nat → Prop} {gs F : List Grp} (h : Fut P gs F) {i : Bnd}
    (hs : Single gs i) : Single F i := by
  induction h with
  | refl gs => exact hs
  | step _ h _ ih => exact ih (single_step h hs)

/-- The last group is outside the block `B`. -/
def Apart (gs : List Grp) (B : Nat) : Prop :=
  ∃ p g, gs = p ++ [g] ∧ B ∉ g.scope ∧ g.lead ≠ .suite B

theorem apart_step {c : List Nat} {gs gs' : List Grp} (h : Step c gs gs') {B : Nat}
    (hs : Apart gs B) : Apart gs' B := by
  obtain ⟨p, g, he, h1, h2⟩ := hs
  rcases last_step h he with ⟨p', g', e1, e2, e3, _⟩ | ⟨g', C, e1, e2, e3, e4, _⟩
  · exact ⟨p', g', e1, by rw [e3]; exact h1, by rw [e2]; exact h2⟩
  · have hB : B ∉ g'.scope := fun hm => h1 (prefix_mem e3 hm)
    refine ⟨[], g', e1, hB, ?_⟩
    rw [e2]
    rintro ⟨⟩
    exact hB (List.mem_of_getLast? e4)

theorem apart_fut {P : List Nat → Prop} {gs F : List Grp} (h : Fut P gs F) {B : Nat}
    (hs : Apart gs B) : Apart F B := by
  induction h with
  | refl gs => exact hs
  | step _ h _ ih => exact ih (apart_step h hs)

/-- A block whose first binding is at its own level never declares the variable. -/
theorem near_fut {P : List Nat → Prop} {gs F : List Grp} (h : Fut P gs F) {B : Nat} {q : List Nat}
    (hB : B ∉ q) : ∀ {p : List Grp} {g : Grp}, gs = p ++ [g] → g.scope = q ++ [B] →
    g.lead ≠ .suite B → ∃ p' g', F = p' ++ [g'] ∧ g'.lead ≠ .suite B := by
  induction h with
  | refl gs => exact fun {p g} he _ h2 => ⟨p, g, he, h2⟩
  | step _ h hf ih =>
    intro p g he h1 h2
    rcases last_step h he with ⟨p', g', e1, e2, e3, _⟩ | ⟨g', C, e1, e2, e3, e4, _, e6⟩
    · exact ih e1 (e3.trans h1) (by rw [e2]; exact h2)
    · have hB' : B ∉ g'.scope := by
        intro hm
        rw [h1] at e3 e6
        rcases List.prefix_concat_iff.1 e3 with h | h
        · exact e6 h
        · exact hB (prefix_mem h hm)
      have ha : Apart _ B := ⟨[], g', e1, hB', by
        rw [e2]
        rintro ⟨⟩
        exact hB' (List.mem_of_getLast? e4)⟩
      obtain ⟨p'', g'', k1, _, k3⟩ := apart_fut hf ha
      exact ⟨p'', g'', k1, k3⟩

theorem apart_nil {P : List Nat → Prop} {gs F : List Grp} (h : Fut P gs F) {B : Nat}
    (hP : ∀ c, P c → B ∉ c) (hs : gs = []) : F = [] ∨ Apart F B := by
  induction h with
  | refl gs => exact .inl hs
  | @step c gs gs' F hc h hf ih =>
    refine .inr (apart_fut hf ?_)
    cases h with
    | add i _ _ => exact ⟨[], _, by rw [hs]; rfl, hP c hc, by simp⟩
    | hitD gs₁ d gs₂ _ _ _ => simp at hs
    | hitN _ sc C k hne _ _ _ _ _ _ _ => exact absurd hs hne

/-- The suite that declares the variable in the end. -/
def suiteOf (F : List Grp) : Option Nat :=
  match F.getLast? with
  | some g => match g.lead with
    | .suite C => some C
    | _ => none
  | none => none

theorem suiteOf_iff {F : List Grp} {cur U : List Nat} (hF : Inv F cur U) {C : Nat} :
    suiteOf F = some C ↔ ∃ G ∈ F, G.lead = .suite C := by
  constructor
  · intro h
    rw [suiteOf] at h
    split at h
    · rename_i g hg
      split at h
      · rename_i C' hC'
        cases h
        exact ⟨g, List.mem_of_getLast? hg, hC'⟩
      · cases h
    · cases h
  · rintro ⟨G, hG, hC⟩
    obtain ⟨p, q, rfl⟩ := List.append_of_mem hG
    have := hF.suiteLast p G q rfl C hC
    subst this
    rw [suiteOf]
    simp [hC]

theorem suiteOf_ne {F : List Grp} {B : Nat} (h : F = [] ∨ Apart F B) : suiteOf F ≠ some B := by
  rcases h with rfl | ⟨p, g, rfl, _, h2⟩
  · simp [suiteOf]
  · rw [suiteOf]
    simp only [List.getLast?_append, List.getLast?_singleton, Option.some_or]
    cases hl : g.lead with
    | suite C =>
      rintro ⟨⟩
      exact h2 hl
    | _ => simp

/-! ## The closest dominating group -/

/-- `D` is the first group that dominates the scope `O`; `post` are the older ones. -/
def First (O : List Nat) (gs : List Grp) (D : Grp) (post : List Grp) : Prop :=
  ∃ pre, gs = pre ++ D :: post ∧ D.scope <+: O ∧ ∀ h ∈ pre, ¬ h.scope <+: O

theorem first_back {O c : List Nat} {gs gs' : List Grp} (h : Step c gs gs') (hO : O <+: c)
    (hne : (∃ i, gs' = ⟨[], .site i, c, []⟩ :: gs) → c ≠ O) {D : Grp} {post : List Grp}
    (hf : First O gs' D post) (hs : ∀ C, D.lead ≠ .suite C) :
    ∃ D', First O gs D' post ∧ (∀ C, D'.lead ≠ .suite C) ∧ D'.scope = D.scope := by
  obtain ⟨pre, he, hd, hp⟩ := hf
  cases h with
  | add i _ _ =>
    cases pre with
    | nil =>
      simp only [List.nil_append, List.cons.injEq] at he
      obtain ⟨rfl, rfl⟩ := he
      exfalso
      refine hne ⟨i, rfl⟩ ?_
      exact List.IsPrefix.eq_of_length hd (Nat.le_antisymm hd.length_le hO.length_le)
    | cons a pre =>
      simp only [List.cons_append, List.cons.injEq] at he
      exact ⟨D, ⟨pre, he.2, hd, fun h hh => hp h (List.mem_cons_of_mem _ hh)⟩, hs, rfl⟩
  | hitD gs₁ d gs₂ hd1 hd2 hd3 =>
    have hd2' : ∀ h ∈ gs₁, ¬ h.scope <+: O := fun h hh hhO => hd2 h hh (hhO.trans hO)
    cases pre with
    | nil =>
      simp only [List.nil_append, List.cons.injEq] at he
      obtain ⟨rfl, rfl⟩ := he
      exact ⟨d, ⟨gs₁, rfl, hd, hd2'⟩, hs, rfl⟩
    | cons a pre =>
      simp only [List.cons_append, List.cons.injEq] at he
      obtain ⟨rfl, rfl⟩ := he
      refine ⟨D, ⟨gs₁ ++ d :: pre, by simp, hd, ?_⟩, hs, rfl⟩
      intro h hh
      rw [List.mem_append, List.mem_cons] at hh
      rcases hh with hh | rfl | hh
      · exact hd2' h hh
      · exact hp ⟨allG gs₁ ++ h.mem, h.lead, h.scope, h.acc⟩ List.mem_cons_self
      · exact hp h (List.mem_cons_of_mem _ hh)
  | hitN _ sc C k _ _ _ _ _ _ _ _ =>
    cases pre with
    | nil =>
      simp only [List.nil_append, List.cons.injEq] at he
      obtain ⟨rfl, rfl⟩ := he
      exact absurd rfl (hs C)
    | cons a pre => simp at he

theorem first_fut {P : List Nat → Prop} {O : List Nat} {gs F : List Grp} (h : Fut P gs F)
    (hP : ∀ c, P c → O <+: c ∧ c ≠ O) {D : Grp} {post : List Grp} (hf : First O F D post)
    (hs : ∀ C, D.lead ≠ .suite C) :
    ∃ D', First O gs D' post ∧ (∀ C, D'.lead ≠ .suite C) ∧ D'.scope = D.scope := by
  induction h generalizing D with
  | refl gs => exact ⟨D, hf, hs, rfl⟩
  | step hc h _ ih =>
    obtain ⟨D', h1, h2, h3⟩ := ih hf hs
    obtain ⟨D'', k1, k2, k3⟩ := first_back h (hP _ hc).1 (fun _ => (hP _ hc).2) h1 h2
    exact ⟨D'', k1, k2, k3.trans h3⟩

theorem first_fwd {O c : List Nat} {gs gs' : List Grp} (h : Step c gs gs') (hO : O <+: c)
    (hne : c ≠ O) {D : Grp} {post : List Grp} (hf : First O gs D post) :
    ∃ D', First O gs' D' post ∧ D'.lead = D.lead := by
  obtain ⟨pre, he, hd, hp⟩ := hf
  cases h with
  | add i _ _ =>
    refine ⟨D, ⟨_ :: pre, by rw [he]; rfl, hd, ?_⟩, rfl⟩
    intro h hh
    rcases List.mem_cons.1 hh with rfl | hh
    · intro hc
      exact hne (List.IsPrefix.eq_of_length hc (Nat.le_antisymm hc.length_le hO.length_le))
    · exact hp h hh
  | hitD gs₁ g gs₂ hd1 hd2 hd3 =>
    rcases List.append_eq_append_iff.1 he with ⟨as, e1, e2⟩ | ⟨bs, e1, e2⟩
    · cases as with
      | nil =>
        simp only [List.nil_append, List.cons.injEq] at e2
        obtain ⟨rfl, rfl⟩ := e2
        exact ⟨_, ⟨[], rfl, hd, by simp⟩, rfl⟩
      | cons z as =>
        simp only [List.cons_append, List.cons.injEq] at e2
        obtain ⟨rfl, rfl⟩ := e2
        refine ⟨D, ⟨⟨allG gs₁ ++ g.mem, g.lead, g.scope, g.acc⟩ :: as, by simp, hd, ?_⟩, rfl⟩
        intro h hh
        rcases List.mem_cons.1 hh with rfl | hh
        · exact hp g (by rw [e1]; simp)
        · exact hp h (by rw [e1]; simp [hh])
    · cases bs with
      | nil =>
        simp only [List.nil_append, List.cons.injEq] at e2
        obtain ⟨rfl, rfl⟩ := e2
        exact ⟨_, ⟨[], rfl, hd, by simp⟩, rfl⟩
      | cons z bs =>
        simp only [List.cons_append, List.cons.injEq] at e2
        obtain ⟨rfl, e2⟩ := e2
        exact absurd (hd.trans hO) (hd2 D (by rw [e1]; simp))
  | hitN _ sc C k _ hnd _ _ _ _ _ _ =>
    exact absurd (hd.trans hO) (hnd D (by rw [he]; simp))

theorem first_fwd_fut {P : List Nat → Prop} {O : List Nat} {gs F : List Grp} (h : Fut P gs F)
    (hP : ∀ c, P c → O <+: c ∧ c ≠ O) {D : Grp} {post : List Grp} (hf : First O gs D post) :
    ∃ D', First O F D' post ∧ D'.lead = D.lead := by
  induction h generalizing D with
  | refl gs => exact ⟨D, hf, rfl⟩
  | step hc h _ ih =>
    obtain ⟨D', h1, h2⟩ := first_fwd h (hP _ hc).1 (hP _ hc).2 hf
    obtain ⟨D'', k1, k2⟩ := ih h1
    exact ⟨D'', k1, k2.trans h2⟩

/-- A search in the scope of the dominating group itself. -/
theorem first_hit {O : List Nat} {gs gs' : List Grp} (h : Step O gs gs')
    (honly : ∀ i, Bnd.site i ∈ allG gs' → Bnd.site i ∈ allG gs) {D : Grp} {post : List Grp}
    (hf : First O gs D post) :
    ∃ D', gs' = D' :: post ∧ D'.lead = D.lead ∧ ∀ b ∈ allG gs, b ∉ allG post → b ∈ D'.all := by
  obtain ⟨pre, he, hd, hp⟩ := hf
  cases h with
  | add i _ hi => exact absurd (honly i (by rw [allG_cons]; simp [Grp.all])) hi
  | hitD gs₁ g gs₂ hd1 hd2 hd3 =>
    have key : pre = gs₁ ∧ D = g ∧ post = gs₂ := by
      rcases List.append_eq_append_iff.1 he with ⟨as, e1, e2⟩ | ⟨bs, e1, e2⟩
      · cases as with
        | nil =>
          simp only [List.nil_append, List.cons.injEq] at e2
          exact ⟨by simpa using e1, e2.1.symm, e2.2.symm⟩
        | cons z as =>
          simp only [List.cons_append, List.cons.injEq] at e2
          obtain ⟨rfl, rfl⟩ := e2
          exact absurd hd1 (hp g (by rw [e1]; simp))
      · cases bs with
        | nil =>
          simp only [List.nil_append, List.cons.injEq] at e2
          exact ⟨by simpa using e1.symm, e2.1, e2.2⟩
        | cons z bs =>
          simp only [List.cons_append, List.cons.injEq] at e2
          obtain ⟨rfl, e2⟩ := e2
          exact absurd hd (hd2 D (by rw [e1]; simp))
    obtain ⟨rfl, rfl, rfl⟩ := key
    refine ⟨_, rfl, rfl, ?_⟩
    intro b hb hnb
    rw [all_merge]
    rw [allG_append, allG_cons] at hb
    simp only [List.mem_append] at hb ⊢
    rcases hb with hb | hb | hb
    · exact .inl hb
    · exact .inr hb
    · exact absurd hb hnb
  | hitN _ sc C k _ hnd _ _ _ _ _ _ =>
    exact absurd hd (hnd D (by rw [he]; simp))

/-- All groups are inside the scope `Q`. -/
def Deep (gs : List Grp) (Q : List Nat) : Prop := gs ≠ [] ∧ ∀ h ∈ gs, Q <+: h.scope

theorem deep_step {c Q : List Nat} {gs gs' : List Grp} (h : Step c gs gs') (hQ : Q <+: c)
    (hd : Deep gs Q) : Deep gs' Q := by
  obtain ⟨hne, hd⟩ := hd
  cases h with
  | add i _ _ =>
    refine ⟨by simp, ?_⟩
    intro h hh
    rcases List.mem_cons.1 hh with rfl | hh
    · exact hQ
    · exact hd h hh
  | hitD gs₁ g gs₂ _ _ _ =>
    refine ⟨by simp, ?_⟩
    intro h hh
    rcases List.mem_cons.1 hh with rfl | hh
    · exact hd g (by simp)
    · exact hd h (by simp [hh])
  | hitN _ sc C k _ _ _ _ _ _ _ hmax =>
    refine ⟨by simp, ?_⟩
    intro h hh
    rw [List.mem_singleton] at hh
    subst hh
    exact hmax Q hQ hd

theorem deep_fut {P : List Nat → Prop} {gs F : List Grp} {Q : List Nat} (h : Fut P gs F)
    (hP : ∀ c, P c → Q <+: c) (hd : Deep gs Q) : Deep F Q := by
  induction h with
  | refl gs => exact hd
  | step hc h _ ih => exact ih (deep_step h (hP _ hc) hd)

theorem last_fut {P : List Nat → Prop} {gs F : List Grp} (h : Fut P gs F) {p : List Grp} {g : Grp}
    (he : gs = p ++ [g]) :
    (∃ p' g', F = p' ++ [g'] ∧ g'.lead = g.lead ∧ g'.scope = g.scope) ∨
    (∃ p' g' C, F = p' ++ [g'] ∧ g'.lead = .suite C ∧ ∀ b ∈ allG gs, b ∈ g'.all) := by
  induction h generalizing p g with
  | refl gs => exact .inl ⟨p, g, he, rfl, rfl⟩
  | step hc h hf ih =>
    rcases last_step h he with ⟨p', g', e1, e2, e3, _⟩ | ⟨g', C, e1, e2, _, _, e5, _⟩
    · rcases ih e1 with ⟨p'', g'', k1, k2, k3⟩ | ⟨p'', g'', C, k1, k2, k3⟩
      · exact .inl ⟨p'', g'', k1, k2.trans e2, k3.trans e3⟩
      · exact .inr ⟨p'', g'', C, k1, k2, fun b hb => k3 b (step_keep h b hb)⟩
    · have hs : Single _ (.suite C) := ⟨[], g', e1, .inl e2⟩
      have hsm := single_fut hf hs
      refine .inr ?_
      obtain ⟨q, G, q1, q2⟩ := hsm
      have hmem : Bnd.suite C ∈ G.all ∧ ∃ C', G.lead = .suite C' := by
        rcases q2 with q2 | q2
        · exact ⟨by rw [Grp.all, q2]; simp, C, q2⟩
        · exact q2
      obtain ⟨hm, C', hC'⟩ := hmem
      rcases ih (p := []) (g := g') e1 with ⟨p'', g'', k1, k2, k3⟩ | ⟨p'', g'', C, k1, k2, k3⟩
      · have hGg : G = g'' := by
          have := congrArg List.getLast? (q1.symm.trans k1)
          simpa using this
        subst hGg
        refine ⟨p'', G, C', k1, hC', ?_⟩
        intro b hb
        have h1 : ∀ {gs F : List Grp} {P : List Nat → Prop}, Fut P gs F → ∀ p g, gs = p ++ [g] →
            ∃ p' g', F = p' ++ [g'] ∧ ∀ b ∈ g.all, b ∈ g'.all := by
          intro gs F P hf
          induction hf with
          | refl gs => exact fun p g he => ⟨p, g, he, fun b hb => hb⟩
          | step _ h _ ih =>
            intro p g he
            rcases last_step h he with ⟨p', g', e1, _, _, e4⟩ | ⟨g', C, e1, _, _, _, e4, _⟩
            · obtain ⟨p'', g'', k1, k2⟩ := ih p' g' e1
              exact ⟨p'', g'', k1, fun b hb => k2 b (e4 b hb)⟩
            · obtain ⟨p'', g'', k1, k2⟩ := ih [] g' e1
              exact ⟨p'', g'', k1, fun b hb =>
                k2 b (e4 b (mem_allG.2 ⟨g, by rw [he]; simp, hb⟩))⟩
        obtain ⟨p3, g3, m1, m2⟩ := h1 hf [] g' e1
        have : g3 = G := by
          have := congrArg List.getLast? (m1.symm.trans k1)
          simpa using this
        subst this
        exact m2 b (e5 b hb)
      · exact ⟨p'', g'', C, k1, k2, fun b hb => k3 b (step_keep h b hb)⟩

theorem coh_unique {s t a q a' q' : List Nat} {u : Nat} (h : Coh s t) (hu : u ∈ t)
    (h1 : s = a ++ u :: q) (h2 : s = a' ++ u :: q') : a = a' := by
  obtain ⟨p, r, ht⟩ := List.append_of_mem hu
  exact (h a u q p r h1 ht).trans (h a' u q' p r h2 ht).symm

end Verif.Scope
