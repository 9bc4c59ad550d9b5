import Verif.Scope.Spec

/-!
# Name resolution: the list of bindings as a list of groups

Every item that is not ignored leads a group: itself and the ignored items right
before it, which were merged into it.
-/

namespace Verif.Scope

/-! ## Paths of blocks -/

/-- Two paths that share a block agree up to it. -/
def Coh (s t : List Nat) : Prop :=
  ∀ p u q p' q', s = p ++ u :: q → t = p' ++ u :: q' → p = p'

theorem coh_dominates {s t : List Nat} (h : Coh s t) (hs : s ≠ []) :
    dominates s t = true ↔ s <+: t := by
  constructor
  · intro hd
    simp only [dominates, Bool.and_eq_true, decide_eq_true_eq, beq_iff_eq] at hd
    obtain ⟨hl, he⟩ := hd
    obtain ⟨p, u, rfl⟩ : ∃ p u, s = p ++ [u] := ⟨s.dropLast, s.getLast hs, (List.dropLast_concat_getLast hs).symm⟩
    simp only [List.getLast?_append, List.getLast?_singleton, List.length_append,
      List.length_singleton, Nat.add_sub_cancel, Option.some_or] at he hl
    have hp : p.length < t.length := by omega
    have ht : t = t.take p.length ++ u :: t.drop (p.length + 1) := by
      rw [List.getElem?_eq_getElem hp] at he
      rw [Option.some.inj he, List.getElem_cons_drop, List.take_append_drop]
    have hpp := h p u [] _ _ rfl ht
    rw [ht, ← hpp]
    exact ⟨t.drop (p.length + 1), by simp⟩
  · rintro ⟨r, rfl⟩
    obtain ⟨p, u, rfl⟩ : ∃ p u, s = p ++ [u] := ⟨s.dropLast, s.getLast hs, (List.dropLast_concat_getLast hs).symm⟩
    simp [dominates]

theorem shrink_le (s t : List Nat) (c : Nat) : shrink s t c ≤ c := by
  induction c with
  | zero => simp [shrink]
  | succ c ih => rw [shrink]; split <;> omega

theorem shrink_take {s t : List Nat} (h : Coh s t) (c : Nat) (hs : c ≤ s.length)
    (ht : c ≤ t.length) : s.take (shrink s t c) = t.take (shrink s t c) := by
  induction c with
  | zero => simp [shrink]
  | succ c ih =>
    rw [shrink]
    split
    · rename_i he
      have h1 : c < s.length := by omega
      have h2 : c < t.length := by omega
      rw [List.getElem?_eq_getElem h1, List.getElem?_eq_getElem h2] at he
      have e1 : s = s.take c ++ s[c] :: s.drop (c + 1) := by simp
      have e2 : t = t.take c ++ s[c] :: t.drop (c + 1) := by
        rw [Option.some.inj he, List.getElem_cons_drop, List.take_append_drop]
      have := h _ _ _ _ _ e1 e2
      rw [List.take_add_one, List.take_add_one, this, List.getElem?_eq_getElem h1,
        List.getElem?_eq_getElem h2, he]
    · exact ih (by omega) (by omega)

theorem shrink_pos {s t : List Nat} (c : Nat) (hc : 1 ≤ c) (hs : s[0]? = t[0]?) :
    1 ≤ shrink s t c := by
  induction c with
  | zero => omega
  | succ c ih =>
    rw [shrink]
    split
    · omega
    · rename_i hne
      cases c with
      | zero => exact absurd hs hne
      | succ c => exact ih (by omega)

theorem Coh.fresh {s t : List Nat} {b : Nat} (h : Coh s t) (hb : b ∉ s) : Coh s (t ++ [b]) := by
  intro p u q p' q' hs ht
  rcases List.append_eq_append_iff.1 ht with ⟨as, h1, h2⟩ | ⟨bs, h1, h2⟩
  · cases as with
    | nil =>
      simp at h2
      exact absurd (by rw [hs, ← h2.1]; simp) hb
    | cons a as => simp at h2
  · cases bs with
    | nil =>
      simp at h2
      exact absurd (by rw [hs, h2.1]; simp) hb
    | cons a as =>
      simp only [List.cons_append, List.cons.injEq] at h2
      obtain ⟨rfl, rfl⟩ := h2
      exact h _ _ _ _ _ hs h1

theorem Coh.left {s t : List Nat} {b : Nat} (h : Coh s (t ++ [b])) : Coh s t := by
  intro p u q p' q' hs ht
  exact h p u q p' (q' ++ [b]) hs (by rw [ht]; simp)

theorem coh_self {s : List Nat} (h : s.Nodup) : Coh s s := by
  intro p u q p' q' hs ht
  subst hs
  have e : p.length = p'.length := by
    have h1 : (p ++ u :: q)[p.length]? = some u := by simp
    have h2 : (p ++ u :: q)[p'.length]? = some u := by rw [ht]; simp
    have hl1 : p.length < (p ++ u :: q).length := by simp
    have hl2 : p'.length < (p ++ u :: q).length := by rw [ht]; simp
    rw [List.getElem?_eq_getElem hl1] at h1
    rw [List.getElem?_eq_getElem hl2] at h2
    exact (List.getElem_inj h).1 ((Option.some.inj h1).trans (Option.some.inj h2).symm)
  exact List.append_inj_left ht e

/-- A path whose last block lies on a coherent path is a prefix of it. -/
theorem Coh.prefix_of_last {s t : List Nat} (h : Coh s t) {u : Nat} (hs : s.getLast? = some u)
    (ht : u ∈ t) : s <+: t := by
  obtain ⟨p', q', rfl⟩ := List.append_of_mem ht
  obtain ⟨p, rfl⟩ : ∃ p, s = p ++ [u] := by
    exact List.getLast?_eq_some_iff.1 hs
  have := h p u [] p' q' rfl rfl
  subst this
  exact ⟨q', by simp⟩

/-! ## The groups -/

/-- A group: what was merged, most recent first; the binding it was merged into, with its
scope and `accessChecked`. -/
structure Grp where
  mem : List Bnd
  lead : Bnd
  scope : List Nat
  acc : List (List Nat)

/-- The bindings of a group. -/
def Grp.all (g : Grp) : List Bnd := g.mem ++ [g.lead]

/-- The bindings of some groups. -/
def allG (gs : List Grp) : List Bnd := gs.flatMap Grp.all

@[simp] theorem allG_nil : allG [] = [] := rfl
@[simp] theorem allG_cons (g : Grp) (gs) : allG (g :: gs) = g.all ++ allG gs := by
  simp [allG]
@[simp] theorem allG_append (a b : List Grp) : allG (a ++ b) = allG a ++ allG b := by
  simp [allG]

theorem mem_allG {gs : List Grp} {b : Bnd} : b ∈ allG gs ↔ ∃ g ∈ gs, b ∈ g.all := by
  simp [allG]

/-- The groups of a list of items. -/
def grp : List Item → List Grp
  | [] => []
  | a :: r =>
    if a.ignore then
      match grp r with
      | [] => []
      | g :: gs => { g with mem := a.bnd :: g.mem } :: gs
    else ⟨[], a.bnd, a.scope, a.acc⟩ :: grp r

theorem grp_live {a : Item} (h : a.ignore = false) (r : List Item) :
    grp (a :: r) = ⟨[], a.bnd, a.scope, a.acc⟩ :: grp r := by
  rw [grp]; simp [h]

theorem grp_ignored {a : Item} (h : a.ignore = true) (r : List Item) :
    grp (a :: r) = match grp r with
      | [] => []
      | g :: gs => { g with mem := a.bnd :: g.mem } :: gs := by
  rw [grp]; simp [h]

/-- Groups around an item that is not ignored. -/
theorem grp_split (m : List Item) (d : Item) (r : List Item) (hd : d.ignore = false) :
    ∃ gs g, grp (m ++ d :: r) = gs ++ g :: grp r ∧ g.lead = d.bnd ∧ g.scope = d.scope ∧
      g.acc = d.acc ∧ allG gs ++ g.mem = m.map Item.bnd ∧
      ∀ h ∈ gs, ∃ a ∈ m, a.ignore = false ∧ a.bnd = h.lead ∧ a.scope = h.scope := by
  induction m with
  | nil => exact ⟨[], ⟨[], d.bnd, d.scope, d.acc⟩, by simp [grp_live hd]⟩
  | cons a m ih =>
    obtain ⟨gs, g, h1, h2, h3, h4, h5, h6⟩ := ih
    cases ha : a.ignore with
    | false =>
      refine ⟨⟨[], a.bnd, a.scope, a.acc⟩ :: gs, g, ?_, h2, h3, h4, ?_, ?_⟩
      · rw [List.cons_append, grp_live ha, h1]; rfl
      · simp [Grp.all, h5]
      · intro h hh
        rcases List.mem_cons.1 hh with rfl | hh
        · exact ⟨a, by simp, ha, rfl, rfl⟩
        · obtain ⟨b, hb, hb'⟩ := h6 h hh
          exact ⟨b, List.mem_cons_of_mem _ hb, hb'⟩
    | true =>
      cases gs with
      | nil =>
        refine ⟨[], { g with mem := a.bnd :: g.mem }, ?_, h2, h3, h4, ?_, by simp⟩
        · rw [List.cons_append, grp_ignored ha, h1]; rfl
        · simp only [allG_nil, List.nil_append] at h5 ⊢
          simp [h5]
      | cons k gs =>
        refine ⟨{ k with mem := a.bnd :: k.mem } :: gs, g, ?_, h2, h3, h4, ?_, ?_⟩
        · rw [List.cons_append, grp_ignored ha, h1]; rfl
        · simp only [allG_cons, Grp.all, List.cons_append, List.map_cons] at h5 ⊢
          rw [h5]
        · intro h hh
          rcases List.mem_cons.1 hh with rfl | hh
          · obtain ⟨b, hb, hb'⟩ := h6 k (by simp)
            exact ⟨b, List.mem_cons_of_mem _ hb, hb'⟩
          · obtain ⟨b, hb, hb'⟩ := h6 h (List.mem_cons_of_mem _ hh)
            exact ⟨b, List.mem_cons_of_mem _ hb, hb'⟩

/-- Absorbing the items before `d` makes one group of them. -/
theorem grp_absorb (sc : List Nat) (m : List Item) (d : Item) (r : List Item)
    (hd : d.ignore = false) :
    grp (m.map (absorb sc) ++ d :: r) = ⟨m.map Item.bnd, d.bnd, d.scope, d.acc⟩ :: grp r := by
  induction m with
  | nil => simp [grp_live hd]
  | cons a m ih =>
    rw [List.map_cons, List.cons_append, grp_ignored (by rfl), ih]
    rfl

/-- Every item that is not ignored leads a group. -/
theorem grp_lead {items : List Item} {a : Item} (ha : a ∈ items) (hl : a.ignore = false) :
    ∃ g ∈ grp items, g.lead = a.bnd ∧ g.scope = a.scope := by
  obtain ⟨m, r, rfl⟩ := List.append_of_mem ha
  obtain ⟨gs, g, h1, h2, h3, _⟩ := grp_split m a r hl
  exact ⟨g, by rw [h1]; simp, h2, h3⟩

/-! ## The search -/

/-- What the search finds. -/
theorem scan_spec (cur : List Nat) (items : List Item) :
    ∀ c, c ≤ cur.length → 1 ≤ c →
    (∀ a ∈ items, a.ignore = false → a.scope ≠ [] ∧ Coh a.scope cur ∧ a.scope[0]? = cur[0]?) →
    (∀ a ∈ items, a.ignore = true) ∧ scan cur c items = none ∨
    (∃ m d r, items = m ++ d :: r ∧ d.ignore = false ∧ d.scope <+: cur ∧
      (∀ a ∈ m, a.ignore = false → ¬ a.scope <+: cur) ∧
      scan cur c items = some ⟨m, d, r, d.scope.length⟩) ∨
    (∃ m d r c', items = m ++ d :: r ∧ d.ignore = false ∧ (∀ a ∈ r, a.ignore = true) ∧
      (∀ a ∈ items, a.ignore = false → ¬ a.scope <+: cur ∧ cur.take c' <+: a.scope) ∧
      1 ≤ c' ∧ c' ≤ c ∧ c' < d.scope.length ∧ scan cur c items = some ⟨m, d, r, c'⟩) := by
  induction items with
  | nil => intro c _ _ _; left; simp [scan]
  | cons i r ih =>
    intro c hc h1 hall
    have hr := fun a (ha : a ∈ r) => hall a (List.mem_cons_of_mem _ ha)
    cases hi : i.ignore with
    | true =>
      rcases ih c hc h1 hr with ⟨ha, hs⟩ | ⟨m, d, r', he, hd, hp, hm, hs⟩ |
        ⟨m, d, r', c', he, hd, hr', hm, hc1, hc2, hc3, hs⟩
      · left
        refine ⟨?_, by simp [scan, hi, hs]⟩
        intro a ha'
        rcases List.mem_cons.1 ha' with rfl | h
        · exact hi
        · exact ha a h
      · right; left
        refine ⟨i :: m, d, r', by rw [he]; rfl, hd, hp, ?_, by simp [scan, hi, hs]⟩
        intro a ha
        rcases List.mem_cons.1 ha with rfl | h
        · simp [hi]
        · exact hm a h
      · right; right
        refine ⟨i :: m, d, r', c', by rw [he]; rfl, hd, hr', ?_, hc1, hc2, hc3,
          by simp [scan, hi, hs]⟩
        intro a ha
        rcases List.mem_cons.1 ha with rfl | h
        · simp [hi]
        · exact hm a h
    | false =>
      obtain ⟨hne, hcoh, h0⟩ := hall i (by simp) hi
      cases hdom : dominates i.scope cur with
      | true =>
        right; left
        exact ⟨[], i, r, rfl, hi, (coh_dominates hcoh hne).1 hdom, by simp,
          by simp [scan, hi, hdom]⟩
      | false =>
        have hnp : ¬ i.scope <+: cur := fun h => by
          rw [(coh_dominates hcoh hne).2 h] at hdom; exact absurd hdom (by simp)
        have hlen : 1 ≤ i.scope.length := by
          cases hs : i.scope with
          | nil => exact absurd hs hne
          | cons => simp
        generalize hk : shrink i.scope cur (min c i.scope.length) = k
        have hkle : k ≤ min c i.scope.length := hk ▸ shrink_le _ _ _
        have hk1 : 1 ≤ k := hk ▸ shrink_pos _ (by omega) h0
        have htake : i.scope.take k = cur.take k :=
          hk ▸ shrink_take hcoh _ (by omega) (by omega)
        have hklt : k < i.scope.length := by
          rcases Nat.lt_or_ge k i.scope.length with h | h
          · exact h
          · exfalso
            rw [List.take_of_length_le h] at htake
            exact hnp (htake ▸ List.take_prefix _ _)
        have hpre : ∀ j ≤ k, cur.take j <+: i.scope := by
          intro j hj
          have : cur.take j = i.scope.take j := by
            have := congrArg (List.take j) htake
            rw [List.take_take, List.take_take, Nat.min_eq_left hj] at this
            exact this.symm
          rw [this]; exact List.take_prefix _ _
        have hscan : scan cur c (i :: r) = match scan cur k r with
            | none => some ⟨[], i, r, k⟩
            | some h => some { h with pre := i :: h.pre } := by
          rw [scan]; simp only [hi, hdom, Bool.false_eq_true, if_false, hk]; rfl
        rcases ih k (by omega) hk1 hr with ⟨ha, hs⟩ | ⟨m, d, r', he, hd, hp, hm, hs⟩ |
          ⟨m, d, r', c', he, hd, hr', hm, hc1, hc2, hc3, hs⟩
        · right; right
          refine ⟨[], i, r, k, rfl, hi, ha, ?_, hk1, by omega, hklt, by rw [hscan, hs]⟩
          intro a ha' hl
          rcases List.mem_cons.1 ha' with rfl | h
          · exact ⟨hnp, hpre k (Nat.le_refl _)⟩
          · rw [ha a h] at hl; exact absurd hl (by simp)
        · right; left
          refine ⟨i :: m, d, r', by rw [he]; rfl, hd, hp, ?_, by rw [hscan, hs]⟩
          intro a ha hl
          rcases List.mem_cons.1 ha with rfl | h
          · exact hnp
          · exact hm a h hl
        · right; right
          refine ⟨i :: m, d, r', c', by rw [he]; rfl, hd, hr', ?_, hc1, by omega, hc3,
            by rw [hscan, hs]⟩
          intro a ha hl
          rcases List.mem_cons.1 ha with rfl | h
          · exact ⟨hnp, hpre c' hc2⟩
          · exact hm a h hl

theorem shrink_ge {p s t : List Nat} (hs : p <+: s) (ht : p <+: t) (c : Nat)
    (hc : p.length ≤ c) : p.length ≤ shrink s t c := by
  induction c with
  | zero => omega
  | succ c ih =>
    rw [shrink]
    split
    · exact hc
    · rename_i hne
      refine ih (Nat.le_of_not_lt fun hlt => hne ?_)
      obtain ⟨q, rfl⟩ := hs
      obtain ⟨q', rfl⟩ := ht
      rw [List.getElem?_append_left hlt, List.getElem?_append_left hlt]

/-- The search keeps every common part of the scopes. -/
theorem scan_max (cur p : List Nat) (hp : p <+: cur) (items : List Item) : ∀ c h,
    p.length ≤ c → (∀ a ∈ items, a.ignore = false → p <+: a.scope) →
    scan cur c items = some h → p.length ≤ h.common := by
  induction items with
  | nil => intro c h _ _ hs; simp [scan] at hs
  | cons i r ih =>
    intro c h hc hall hs
    have hr := fun a (ha : a ∈ r) => hall a (List.mem_cons_of_mem _ ha)
    rw [scan] at hs
    split at hs
    · cases hs' : scan cur c r with
      | none => rw [hs'] at hs; cases hs
      | some h' =>
        rw [hs'] at hs
        cases hs
        exact ih c h' hc hr hs'
    · rename_i hi
      have hpi := hall i (by simp) (by simpa using hi)
      split at hs
      · cases hs
        exact hpi.length_le
      · have hk : p.length ≤ shrink i.scope cur (min c i.scope.length) :=
          shrink_ge hpi hp _ (by have := hpi.length_le; omega)
        dsimp only at hs
        split at hs
        · cases hs
          exact hk
        · rename_i h' hs'
          cases hs
          exact ih _ h' hk hr hs'

/-! ## The attributes -/

theorem foldl_switch (used : Bool) (pre : List Item) (st : St) :
    (pre.foldl (switch used) st).items = st.items ∧
    (pre.foldl (switch used) st).cap = st.cap ∧
    (pre.foldl (switch used) st).seen = st.seen ∧
    (pre.foldl (switch used) st).chk = st.chk ∧
    (∀ n, (pre.foldl (switch used) st).attr n =
      if .site n ∈ pre.map Item.bnd then
        (if used then { st.attr n with used := true } else ⟨true, false⟩) else st.attr n) ∧
    (∀ c, (pre.foldl (switch used) st).sdecl c =
      if .suite c ∈ pre.map Item.bnd then none else st.sdecl c) ∧
    (pre.foldl (switch used) st).err = (st.err || decide (.param ∈ pre.map Item.bnd)) := by
  induction pre generalizing st with
  | nil => simp
  | cons a pre ih =>
    obtain ⟨h1, h2, h3, h4, h5, h6, h7⟩ := ih (switch used st a)
    simp only [List.foldl_cons]
    have hb : switch used st a = match a.bnd with
      | .param => { st with err := true }
      | .site n =>
        { st with attr := fun m =>
          if m = n then (if used then { st.attr n with used := true } else ⟨true, false⟩)
          else st.attr m }
      | .suite b => { st with sdecl := fun c => if c = b then none else st.sdecl c } := rfl
    rw [h1, h2, h3, h4, h7]
    cases hbnd : a.bnd with
    | param =>
      rw [hbnd] at hb
      simp only at hb
      rw [hb] at h5 h6 ⊢
      refine ⟨rfl, rfl, rfl, rfl, ?_, ?_, ?_⟩
      · intro n; rw [h5]; simp [hbnd]
      · intro c; rw [h6]; simp [hbnd]
      · simp [hbnd]
    | site k =>
      rw [hbnd] at hb
      simp only at hb
      rw [hb] at h5 h6 ⊢
      refine ⟨rfl, rfl, rfl, rfl, ?_, ?_, ?_⟩
      · intro n
        rw [h5]
        by_cases hnk : n = k
        · subst hnk
          cases used <;> simp [hbnd]
        · simp [hbnd, hnk]
      · intro c; rw [h6]; simp [hbnd]
      · simp [hbnd]
    | suite b =>
      rw [hbnd] at hb
      simp only at hb
      rw [hb] at h5 h6 ⊢
      refine ⟨rfl, rfl, rfl, rfl, ?_, ?_, ?_⟩
      · intro n; rw [h5]; simp [hbnd]
      · intro c
        rw [h6]
        by_cases hcb : c = b
        · subst hcb; simp [hbnd]
        · simp [hbnd, hcb]
      · simp [hbnd]

end Verif.Scope
