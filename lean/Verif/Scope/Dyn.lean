import Verif.Scope.Context

/-!
# Name resolution: the state of one name during a run
-/

namespace Verif.Scope

/-- The part of the two states that concerns one name. -/
structure NS (V : Type) where
  env : Option V
  store : Bnd → Option V
  flags : Nat → Option Bool

def ns {V : Type} (σP : PS V) (σC : CS V) (x : Name) : NS V := ⟨σP.env x, σC.store x, σC.flags x⟩

/-- No suite declaration of the name is in one of the blocks `LB`. -/
def NoLoop (F : List Grp) (LB : List Nat) : Prop := ∀ C, suiteOf F = some C → C ∉ LB

/-- The state of the name when the binding executed last is `l`. -/
structure Dyn {V : Type} (F : List Grp) (LB : List Nat) (Λ : List Lop) (gs : List Grp)
    (c : List Nat) (v : NS V) (l : Option Bnd) : Prop where
  env0 : l = none → v.env = none
  env1 : ∀ b, l = some b → ∃ a, v.env = some a ∧ v.store (rep F b) = some a
  mem : ∀ b, l = some b → b ∈ allG gs ∨ ∃ L ∈ Λ, ∃ i ∈ L.S, b = .site i
  fl : ∀ C, suiteOf F = some C → C ∈ c → ∃ f, v.flags C = some f ∧
    (f = true → ∃ b, l = some b ∧
      (b ∈ allG gs ∨ ∃ L ∈ Λ, C ∈ ids L.O ∧ ∃ i ∈ L.S, b = .site i)) ∧
    (NoLoop F LB → ∀ b, l = some b → rep F b = .suite C → f = true)

/-- The binding that the visitor takes to be the one in force is in force. -/
def Just (Λ : List Lop) (gs : List Grp) (cur : List Nat) (l : Option Bnd) : Prop :=
  ∀ D post, First cur gs D post → (∀ C, D.lead ≠ .suite C) →
    ∃ b, l = some b ∧ b ∉ allG post ∧
      (b ∈ allG gs ∨ ∃ L ∈ Λ, L.b ∉ D.scope ∧ ∃ i ∈ L.S, b = .site i)

/-- The effect of running code with the binding occurrences `S`. -/
def Chg {V : Type} (F : List Grp) (LB : List Nat) (c S : List Nat) (v : NS V) (l : Option Bnd)
    (v' : NS V) (l' : Option Bnd) : Prop :=
  (l' = l ∧ v'.env = v.env ∧ v'.store = v.store ∧
    ∀ C, suiteOf F = some C → C ∈ c → v'.flags C = v.flags C) ∨
  ∃ i ∈ S, l' = some (.site i) ∧ (∃ a, v'.env = some a ∧ v'.store (rep F (.site i)) = some a) ∧
    ∀ C, suiteOf F = some C → C ∈ c → ∃ f, v'.flags C = some f ∧
      (NoLoop F LB → rep F (.site i) = .suite C → f = true)

section
variable {V : Type} {F gs gs' : List Grp} {LB c S S' : List Nat} {Λ : List Lop}
  {v v' v'' : NS V} {l l' l'' : Option Bnd}

theorem Chg.refl (S : List Nat) : Chg F LB c S v l v l := .inl ⟨rfl, rfl, rfl, fun _ _ _ => rfl⟩

theorem Chg.mono (h : Chg F LB c S v l v' l') (hS : ∀ i ∈ S, i ∈ S') : Chg F LB c S' v l v' l' := by
  rcases h with h | ⟨i, hi, h⟩
  · exact .inl h
  · exact .inr ⟨i, hS i hi, h⟩

theorem Chg.trans (h1 : Chg F LB c S v l v' l') (h2 : Chg F LB c S v' l' v'' l'') :
    Chg F LB c S v l v'' l'' := by
  rcases h2 with ⟨rfl, e1, e2, e3⟩ | h2
  · rcases h1 with ⟨rfl, k1, k2, k3⟩ | ⟨i, hi, k1, ⟨a, k2, k3⟩, k4⟩
    · exact .inl ⟨rfl, e1.trans k1, e2.trans k2, fun C hC hm => (e3 C hC hm).trans (k3 C hC hm)⟩
    · refine .inr ⟨i, hi, k1, ⟨a, by rw [e1, k2], by rw [e2, k3]⟩, ?_⟩
      intro C hC hm
      obtain ⟨f, k5, k6⟩ := k4 C hC hm
      exact ⟨f, by rw [e3 C hC hm, k5], k6⟩
  · exact .inr h2

theorem Dyn.keep (h : Dyn F LB Λ gs c v l) (hk : ∀ b ∈ allG gs, b ∈ allG gs') :
    Dyn F LB Λ gs' c v l := by
  refine ⟨h.env0, h.env1, ?_, ?_⟩
  · intro b hb
    rcases h.mem b hb with h | h
    · exact .inl (hk b h)
    · exact .inr h
  · intro C hC hm
    obtain ⟨f, k1, k2, k3⟩ := h.fl C hC hm
    refine ⟨f, k1, ?_, k3⟩
    intro hf
    obtain ⟨b, e1, e2 | e2⟩ := k2 hf
    · exact ⟨b, e1, .inl (hk b e2)⟩
    · exact ⟨b, e1, .inr e2⟩

theorem Dyn.chg (h : Dyn F LB Λ gs c v l) (hc : Chg F LB c S v l v' l')
    (hk : ∀ b ∈ allG gs, b ∈ allG gs') (hS : ∀ i ∈ S, Bnd.site i ∈ allG gs') :
    Dyn F LB Λ gs' c v' l' := by
  rcases hc with ⟨rfl, e1, e2, e3⟩ | ⟨i, hi, rfl, ⟨a, k2, k3⟩, k4⟩
  · have h := h.keep hk
    refine ⟨fun hl => by rw [e1]; exact h.env0 hl, fun b hb => by rw [e1, e2]; exact h.env1 b hb,
      h.mem, ?_⟩
    intro C hC hm
    rw [e3 C hC hm]
    exact h.fl C hC hm
  · refine ⟨by simp, ?_, ?_, ?_⟩
    · rintro b ⟨⟩
      exact ⟨a, k2, k3⟩
    · rintro b ⟨⟩
      exact .inl (hS i hi)
    · intro C hC hm
      obtain ⟨f, e1, e2⟩ := k4 C hC hm
      refine ⟨f, e1, fun _ => ⟨_, rfl, .inl (hS i hi)⟩, ?_⟩
      rintro hn b ⟨⟩
      exact e2 hn

theorem Dyn.push (h : Dyn F LB Λ gs c v l) (L : Lop) : Dyn F LB (L :: Λ) gs c v l := by
  refine ⟨h.env0, h.env1, ?_, ?_⟩
  · intro b hb
    rcases h.mem b hb with h | ⟨M, hM, h⟩
    · exact .inl h
    · exact .inr ⟨M, List.mem_cons_of_mem _ hM, h⟩
  · intro C hC hm
    obtain ⟨f, k1, k2, k3⟩ := h.fl C hC hm
    refine ⟨f, k1, ?_, k3⟩
    intro hf
    obtain ⟨b, e1, e2 | ⟨M, hM, e2⟩⟩ := k2 hf
    · exact ⟨b, e1, .inl e2⟩
    · exact ⟨b, e1, .inr ⟨M, List.mem_cons_of_mem _ hM, e2⟩⟩

/-- An iteration of a loop. -/
theorem Dyn.loop {L : Lop} (h : Dyn F LB (L :: Λ) gs c v l) (hc : Chg F LB c L.S v l v' l')
    (hO : ∀ C ∈ c, C ∈ ids L.O) : Dyn F LB (L :: Λ) gs c v' l' := by
  rcases hc with ⟨rfl, e1, e2, e3⟩ | ⟨i, hi, rfl, ⟨a, k2, k3⟩, k4⟩
  · refine ⟨fun hl => by rw [e1]; exact h.env0 hl, fun b hb => by rw [e1, e2]; exact h.env1 b hb,
      h.mem, ?_⟩
    intro C hC hm
    rw [e3 C hC hm]
    exact h.fl C hC hm
  · refine ⟨by simp, ?_, ?_, ?_⟩
    · rintro b ⟨⟩
      exact ⟨a, k2, k3⟩
    · rintro b ⟨⟩
      exact .inr ⟨L, by simp, i, hi, rfl⟩
    · intro C hC hm
      obtain ⟨f, e1, e2⟩ := k4 C hC hm
      refine ⟨f, e1, fun _ => ⟨_, rfl, .inr ⟨L, by simp, hO C hm, i, hi, rfl⟩⟩, ?_⟩
      rintro hn b ⟨⟩
      exact e2 hn

/-- The start of a suite, for one name. -/
def enterN {V : Type} (b : Nat) (p : Bool) (v : NS V) : NS V :=
  { v with flags := fun C => if C = b ∧ p = true then some false else v.flags C }

theorem Chg.leave {b : Nat} {p : Bool} (hb : b ∉ c)
    (h : Chg F LB (c ++ [b]) S (enterN b p v) l v' l') : Chg F LB c S v l v' l' := by
  rcases h with ⟨rfl, e1, e2, e3⟩ | ⟨i, hi, k1, k2, k4⟩
  · refine .inl ⟨rfl, e1, e2, ?_⟩
    intro C hC hm
    rw [e3 C hC (List.mem_append_left _ hm), enterN]
    dsimp only
    rw [if_neg]
    rintro ⟨rfl, _⟩
    exact hb hm
  · exact .inr ⟨i, hi, k1, k2, fun C hC hm => k4 C hC (List.mem_append_left _ hm)⟩

/-- Restrict to fewer control variables. -/
theorem Chg.sub {c' : List Nat} (hc : ∀ C ∈ c', C ∈ c) (h : Chg F LB c S v l v' l') :
    Chg F LB c' S v l v' l' := by
  rcases h with ⟨rfl, e1, e2, e3⟩ | ⟨i, hi, k1, k2, k4⟩
  · exact .inl ⟨rfl, e1, e2, fun C hC hm => e3 C hC (hc C hm)⟩
  · exact .inr ⟨i, hi, k1, k2, fun C hC hm => k4 C hC (hc C hm)⟩

theorem Dyn.enter {P : List Nat → Prop} {T : St} {cur U : List Nat} {b : Nat} {p : Bool}
    (hp : p = true ↔ suiteOf (grp T.items) = some b)
    (h : Dyn (grp T.items) LB Λ gs cur v l) (hI : Inv gs cur U) (hb : b ∉ U)
    (hf : Fut P gs (grp T.items)) (hΛ : ∀ L ∈ Λ, b ∈ LB) :
    Dyn (grp T.items) LB Λ gs (cur ++ [b]) (enterN b p v) l := by
  refine ⟨h.env0, h.env1, h.mem, ?_⟩
  intro C hC hm
  by_cases hCb : C = b
  · subst hCb
    have hgs : gs = [] := Classical.byContradiction fun hne => not_suite_of_bound hI hb hf hne hC
    refine ⟨false, ?_, by simp, ?_⟩
    · rw [enterN]
      dsimp only
      rw [if_pos ⟨rfl, hp.2 hC⟩]
    · intro hn b' hb' _
      exfalso
      rcases h.mem b' hb' with hm | ⟨L, hL, _⟩
      · rw [hgs] at hm; simp at hm
      · exact hn C hC (hΛ L hL)
  · have hm' : C ∈ cur := by
      rcases List.mem_append.1 hm with h | h
      · exact h
      · exact absurd (List.mem_singleton.1 h) hCb
    obtain ⟨f, k1, k2⟩ := h.fl C hC hm'
    refine ⟨f, ?_, k2⟩
    rw [enterN]
    dsimp only
    rw [if_neg (fun h => hCb h.1), k1]

/-! ## The binding in force -/

theorem Just.keepHit {cur : List Nat} (h : Just Λ gs cur l) (hs : Step cur gs gs')
    (honly : ∀ i, Bnd.site i ∈ allG gs' → Bnd.site i ∈ allG gs) : Just Λ gs' cur l := by
  intro D post hf hn
  have hno : ¬ ∃ i, gs' = ⟨[], .site i, cur, []⟩ :: gs := by
    rintro ⟨i, he⟩
    have hlen : gs'.length ≤ gs.length := by
      cases hs with
      | add j _ hj => exact absurd (honly _ (by rw [allG_cons]; simp [Grp.all])) hj
      | hitD gs₁ g gs₂ _ _ _ => simp
      | hitN _ sc C k hne _ _ _ _ _ _ _ => exact List.length_pos_iff.2 hne
    rw [he, List.length_cons] at hlen
    omega
  obtain ⟨D', h1, h2, h3⟩ := first_back hs (List.prefix_refl _) (fun h => absurd h hno) hf hn
  obtain ⟨b, k1, k2, k3 | ⟨L, hL, k4, k5⟩⟩ := h D' post h1 h2
  · exact ⟨b, k1, k2, .inl (step_keep hs b k3)⟩
  · exact ⟨b, k1, k2, .inr ⟨L, hL, by rw [← h3]; exact k4, k5⟩⟩

theorem Just.enter {cur U : List Nat} {b : Nat} (h : Just Λ gs cur l) (hI : Inv gs cur U)
    (hb : b ∉ U) : Just Λ gs (cur ++ [b]) l := by
  rintro D post ⟨pre, h1, h2, h3⟩ hn
  refine h D post ⟨pre, h1, ?_, ?_⟩ hn
  · exact prefix_of_concat h2 fun hm => hb (hI.sub D (by rw [h1]; simp) b hm)
  · intro k hk hp
    exact h3 k hk (hp.trans (List.prefix_append _ _))

/-- After code in a block. -/
theorem Just.after {P : List Nat → Prop} {cur : List Nat} (h : Just Λ gs cur l)
    (hf : Fut P gs gs') (hP : ∀ c, P c → cur <+: c ∧ c ≠ cur)
    (hc : Chg F LB c S v l v' l') (hfr : ∀ i ∈ S, Bnd.site i ∉ allG gs)
    (hS : ∀ i ∈ S, Bnd.site i ∈ allG gs') : Just Λ gs' cur l' := by
  intro D post hD hn
  obtain ⟨D', h1, h2, h3⟩ := first_fut hf hP hD hn
  rcases hc with ⟨rfl, _⟩ | ⟨i, hi, rfl, _⟩
  · obtain ⟨b, k1, k2, k3 | ⟨L, hL, k4, k5⟩⟩ := h D' post h1 h2
    · exact ⟨b, k1, k2, .inl (fut_keep hf b k3)⟩
    · exact ⟨b, k1, k2, .inr ⟨L, hL, by rw [← h3]; exact k4, k5⟩⟩
  · refine ⟨_, rfl, ?_, .inl (hS i hi)⟩
    intro hm
    obtain ⟨pre, hp, _⟩ := h1
    refine hfr i hi ?_
    rw [hp, allG_append, allG_cons]
    simp [hm]

theorem Just.push {cur : List Nat} (h : Just Λ gs cur l) (L : Lop) : Just (L :: Λ) gs cur l := by
  intro D post hD hn
  obtain ⟨b, k1, k2, k3 | ⟨M, hM, k4⟩⟩ := h D post hD hn
  · exact ⟨b, k1, k2, .inl k3⟩
  · exact ⟨b, k1, k2, .inr ⟨M, List.mem_cons_of_mem _ hM, k4⟩⟩

/-- An iteration of a loop. -/
theorem Just.loop {cur : List Nat} {L : Lop} (h : Just (L :: Λ) gs cur l)
    (hc : Chg F LB c L.S v l v' l') (hfr : ∀ i ∈ L.S, Bnd.site i ∉ allG gs)
    (hb : ∀ g ∈ gs, L.b ∉ g.scope) :
    Just (L :: Λ) gs cur l' := by
  intro D post hD hn
  rcases hc with ⟨rfl, _⟩ | ⟨i, hi, rfl, _⟩
  · exact h D post hD hn
  · obtain ⟨pre, hp, _⟩ := hD
    refine ⟨_, rfl, ?_, .inr ⟨L, by simp, hb D (by rw [hp]; simp), i, hi, rfl⟩⟩
    intro hm
    refine hfr i hi ?_
    rw [hp, allG_append, allG_cons]
    simp [hm]

theorem Just.bind {cur : List Nat} {i : Nat} (hi : Bnd.site i ∉ allG gs) :
    Just Λ (⟨[], .site i, cur, []⟩ :: gs) cur (some (.site i)) := by
  rintro D post ⟨pre, h1, _, h3⟩ _
  cases pre with
  | nil =>
    simp only [List.nil_append, List.cons.injEq] at h1
    obtain ⟨rfl, rfl⟩ := h1
    exact ⟨_, rfl, hi, .inl (by rw [allG_cons]; simp [Grp.all])⟩
  | cons a pre =>
    simp only [List.cons_append, List.cons.injEq] at h1
    obtain ⟨rfl, _⟩ := h1
    exact absurd (List.prefix_refl _) (h3 ⟨[], .site i, cur, []⟩ (by simp))

end

end Verif.Scope
