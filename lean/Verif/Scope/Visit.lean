import Verif.Scope.Steps
import Verif.Scope.Spec

/-!
# Name resolution: the visitor as a sequence of steps
-/

namespace Verif.Scope

/-- What holds of the state of the visitor in the scope `cur`. -/
structure Good (cur : List Blk) (U : List Nat) (st : St) : Prop where
  tabs : Tabs st
  inv : Inv (grp st.items) (ids cur) U
  suite : ∀ b ∈ cur, b.suite = true
  cap : st.cap = true → st.items = []
  seen : ∀ u ∈ st.seen, u ∈ U

theorem tabs_congr {st st' : St} (h : Tabs st) (h1 : st'.items = st.items)
    (h2 : st'.attr = st.attr) (h3 : st'.sdecl = st.sdecl) : Tabs st' := by
  obtain ⟨a, b, c, d, e, f, g⟩ := h
  constructor <;> rw [h1] <;> try rw [h2]
  all_goals first | assumption | (rw [h3]; assumption)

theorem Good.enter {cur : List Blk} {U : List Nat} {st : St} {b : Nat} (l : Bool)
    (h : Good cur U st) (hb : b ∉ U) : Good (cur ++ [⟨b, true, l⟩]) (b :: U) st where
  tabs := h.tabs
  inv := by
    have := h.inv.enter hb
    simpa [ids] using this
  suite := by
    intro c hc
    rcases List.mem_append.1 hc with hc | hc
    · exact h.suite c hc
    · simp only [List.mem_singleton] at hc; subst hc; rfl
  cap := h.cap
  seen := fun u hu => List.mem_cons_of_mem _ (h.seen u hu)

theorem Good.leave {cur : List Blk} {U U' : List Nat} {st st' : St} {b : Blk}
    (h : Good (cur ++ [b]) U st) (h0 : Good cur U' st') : Good cur U st where
  tabs := h.tabs
  inv := by
    have := h.inv
    rw [ids, List.map_append] at this
    exact this.leave h0.inv.cur0
  suite := h0.suite
  cap := h.cap
  seen := h.seen

theorem Good.mono {cur : List Blk} {U U' : List Nat} {st : St} (h : Good cur U st)
    (hU : ∀ u ∈ U, u ∈ U') : Good cur U' st :=
  ⟨h.tabs, h.inv.mono hU, h.suite, h.cap, fun u hu => hU u (h.seen u hu)⟩

theorem Good.congr {cur : List Blk} {U : List Nat} {st st' : St} (h : Good cur U st)
    (h1 : st'.items = st.items) (h2 : st'.attr = st.attr) (h3 : st'.sdecl = st.sdecl)
    (h4 : st'.cap = true → st'.items = []) (h5 : ∀ u ∈ st'.seen, u ∈ U) : Good cur U st' :=
  ⟨tabs_congr h.tabs h1 h2 h3, by rw [h1]; exact h.inv, h.suite, h4, h5⟩

theorem seenAt_sub (cur : List Blk) (vs : List Nat) : ∀ n, ∀ u ∈ seenAt cur vs n, u ∈ ids cur := by
  intro n
  induction n with
  | zero => intro u hu; simp [seenAt] at hu
  | succ n ih =>
    intro u hu
    rw [seenAt] at hu
    split at hu
    · simp at hu
    · rename_i b hb
      split at hu
      · split at hu
        · simp at hu
        · rcases List.mem_cons.1 hu with rfl | hu
          · exact List.mem_map_of_mem (List.mem_of_getElem? hb)
          · exact ih u hu
      · exact ih u hu

/-- The loops inside the scope of the binding found are entered. -/
theorem seenAt_mem {cur : List Blk} {vs : List Nat} {n : Nat} {b : Blk} (hb : cur[n]? = some b)
    (hl : b.loop = true) (hn : vs.length ≤ n) : ∀ m, n < m → m ≤ cur.length →
    b.id ∈ seenAt cur vs m := by
  intro m
  induction m with
  | zero => intro h; omega
  | succ m ih =>
    intro h1 h2
    have hlt : m < cur.length := by omega
    rw [seenAt, List.getElem?_eq_getElem hlt]
    dsimp only
    have hv : vs[m]? = none := List.getElem?_eq_none (by omega)
    by_cases hm : m = n
    · subst hm
      rw [List.getElem?_eq_getElem hlt] at hb
      cases hb
      rw [if_pos hl, if_neg (by rw [hv]; simp)]
      simp
    · have := ih (by omega) (by omega)
      split
      · rw [if_neg (by rw [hv]; simp)]
        exact List.mem_cons_of_mem _ this
      · exact this

theorem seenAt_self (cur : List Blk) : ∀ n, seenAt cur (ids cur) n = [] := by
  intro n
  induction n with
  | zero => rfl
  | succ n ih =>
    rw [seenAt]
    split
    · rfl
    · rename_i b hb
      split
      · rw [if_pos]
        rw [ids, List.getElem?_map, hb]; rfl
      · exact ih

theorem items_nil {st : St} (h : Tabs st) (hg : grp st.items = []) : st.items = [] := by
  have := h.bnds
  rw [hg, allG_nil, List.map_eq_nil_iff] at this
  exact this

/-- The binding read by an occurrence is tested if it is a declaration of a suite. -/
def Grp.isSuite (g : Grp) : Bool :=
  match g.lead with
  | .suite _ => true
  | _ => false

theorem isSuite_iff {g : Grp} : g.isSuite = true ↔ ∃ C, g.lead = .suite C := by
  unfold Grp.isSuite
  split
  · rename_i C h; exact ⟨fun _ => ⟨C, h⟩, fun _ => rfl⟩
  · rename_i h
    exact ⟨fun h => by simp at h, fun ⟨C, hC⟩ => absurd hC (h C)⟩

/-- The test of `accessChecked` never succeeds for a declaration of a suite. -/
theorem acc_fails {cur : List Blk} {U : List Nat} {gs : List Grp} {g : Grp}
    (h : Inv gs (ids cur) U) (hg : g ∈ gs) :
    (if g.acc.isEmpty then false else if g.acc.any (accOK (ids cur)) then false else true) =
      g.isSuite := by
  by_cases hs : ∃ C, g.lead = .suite C
  · obtain ⟨C, hC⟩ := hs
    have hi : g.isSuite = true := isSuite_iff.2 ⟨C, hC⟩
    obtain ⟨h1, h2⟩ := h.acc g hg C hC
    have h3 : g.acc.isEmpty = false := by
      cases he : g.acc with
      | nil => exact absurd he h1
      | cons => rfl
    have h4 : g.acc.any (accOK (ids cur)) = false := by
      rw [List.any_eq_false]
      intro a ha hok
      obtain ⟨k1, k2, k3, _⟩ := h2 a ha
      exact k2 ((coh_dominates k3 k1).1 hok)
    rw [h3, h4, hi]; rfl
  · have hi : g.isSuite = false := by
      cases he : g.isSuite with
      | false => rfl
      | true => exact absurd (isSuite_iff.1 he) hs
    rw [h.acc0 g hg fun C hC => hs ⟨C, hC⟩, hi]; rfl

/-- Reading an occurrence of a name that was not bound so far. -/
theorem visitRead_nil {cur : List Blk} {st : St} (r : Nat) (h : st.items = []) :
    visitRead cur r st = { st with cap := true } := by
  have e : ({ st with cap := true } : St).items = [] := h
  have h0 : st.items.isEmpty = true := by rw [h]; rfl
  rw [visitRead, if_pos h0, lookup, find_nil cur _ e]

/-- Reading an occurrence of a name that was bound before. -/
theorem visitRead_spec {cur : List Blk} {U : List Nat} {st : St} (r : Nat)
    (hG : Good cur U st) (hne : st.items ≠ []) :
    ∃ g gs, grp (visitRead cur r st).items = g :: gs ∧
      Step (ids cur) (grp st.items) (g :: gs) ∧ g.scope <+: ids cur ∧
      Good cur U (visitRead cur r st) ∧ (visitRead cur r st).err = st.err ∧
      (visitRead cur r st).seen = seenAt cur g.scope cur.length ++ st.seen ∧
      (∀ i, Bnd.site i ∈ allG (g :: gs) → Bnd.site i ∈ allG (grp st.items)) ∧
      (∀ m, m ≠ r → (visitRead cur r st).chk m = st.chk m) ∧
      (st.chk r = false → (visitRead cur r st).chk r = g.isSuite) := by
  obtain ⟨st', v, g, gs, hf, F⟩ := find_spec cur st U hG.suite hG.tabs hG.inv hne
  have hcap : st.cap = false := by
    cases h : st.cap with
    | false => rfl
    | true => exact absurd (hG.cap h) hne
  have hinv : Inv (g :: gs) (ids cur) U := hG.inv.step F.step
  have hacc := acc_fails hinv (List.mem_cons_self (a := g) (l := gs))
  have hgood : ∀ st₂ : St, st₂.items = st'.items → st₂.attr = st'.attr → st₂.sdecl = st'.sdecl →
      st₂.cap = st'.cap → st₂.seen = seenAt cur g.scope cur.length ++ st'.seen →
      Good cur U st₂ := by
    intro st₂ e1 e2 e3 e4 e5
    refine ⟨tabs_congr F.tabs e1 e2 e3, by rw [e1, F.grps]; exact hinv, hG.suite, ?_, ?_⟩
    · intro h
      rw [e4, F.cap, hcap] at h
      cases h
    · intro u hu
      rw [e5, F.seen] at hu
      rcases List.mem_append.1 hu with hu | hu
      · exact hG.inv.curSub u (seenAt_sub _ _ _ u hu)
      · exact hG.seen u hu
  refine ⟨g, gs, ?_⟩
  have hl : lookup cur st =
      ({ st' with seen := seenAt cur g.scope cur.length ++ st'.seen }, g.isSuite) := by
    rw [← hacc, lookup, hf]
    simp only [F.scope, F.acc]
    split
    · rfl
    · split <;> rfl
  have hv : visitRead cur r st =
      (if g.isSuite then
        { st' with seen := seenAt cur g.scope cur.length ++ st'.seen
                   chk := fun m => if m = r then true else st'.chk m }
      else { st' with seen := seenAt cur g.scope cur.length ++ st'.seen }) := by
    have he : st.items.isEmpty = false := by
      cases h : st.items with
      | nil => exact absurd h hne
      | cons => rfl
    rw [visitRead]
    simp only [he, Bool.false_eq_true, if_false]
    rw [hl]
    cases g.isSuite <;> rfl
  have honly : ∀ i, Bnd.site i ∈ allG (g :: gs) → Bnd.site i ∈ allG (grp st.items) := by
    intro i hi
    exact F.only i (by rw [F.grps]; exact hi)
  rw [hv]
  cases hi : g.isSuite with
  | true =>
    simp only [if_true]
    refine ⟨F.grps, F.step, F.dom, hgood _ rfl rfl rfl rfl rfl, F.err, by simp [F.seen], honly, ?_, ?_⟩
    · intro m hm
      simp [hm, F.chk]
    · intro _; simp
  | false =>
    simp only [Bool.false_eq_true, if_false]
    refine ⟨F.grps, F.step, F.dom, hgood _ rfl rfl rfl rfl rfl, F.err, by simp [F.seen], honly, ?_, ?_⟩
    · intro m _
      simp [F.chk]
    · intro h; simp [F.chk, h]

/-- A binding occurrence, when no error is reported. -/
theorem visitAdd_spec {cur : List Blk} {U : List Nat} {st : St} (i : Nat)
    (hG : Good cur U st) (hcap : st.cap = false) (hi : Bnd.site i ∉ allG (grp st.items)) :
    grp (visitAdd cur i st).items = ⟨[], .site i, ids cur, []⟩ :: grp st.items ∧
      Good cur U (visitAdd cur i st) ∧ (visitAdd cur i st).err = st.err ∧
      (visitAdd cur i st).seen = st.seen ∧
      (visitAdd cur i st).chk = st.chk ∧ (visitAdd cur i st).cap = false := by
  have hne := ne_nil_of_zero hG.inv.cur0
  have hdom : dominates (ids cur) (ids cur) = true :=
    (coh_dominates (coh_self hG.inv.curNodup) hne).2 (List.prefix_refl _)
  let n : Item := ⟨ids cur, .site i, false, []⟩
  let st1 : St := { st with items := n :: st.items }
  have hfind : find cur st1 = (st1, some n) := by
    rw [find]
    have hs : scan (ids cur) cur.length st1.items = some ⟨[], n, st.items, (ids cur).length⟩ := by
      show scan (ids cur) cur.length (n :: st.items) = _
      rw [scan]
      simp [n, hdom]
    rw [hs]
    simp only [n, ne_eq, not_true_eq_false, if_false]
    rfl
  have hv : visitAdd cur i st =
      st1 := by
    have h0 : ¬ st.cap = true := by rw [hcap]; simp
    rw [visitAdd, if_neg h0]
    show (lookup cur st1).1 = _
    rw [lookup, hfind]
    simp only [n, seenAt_self, List.nil_append, List.isEmpty_nil, if_true]
  have hgrp : grp st1.items = ⟨[], .site i, ids cur, []⟩ :: grp st.items := by
    show grp (n :: st.items) = _
    rw [grp_live rfl]
  rw [hv]
  refine ⟨hgrp, ⟨?_, ?_, hG.suite, ?_, hG.seen⟩, rfl, rfl, rfl, hcap⟩
  · have hT := hG.tabs
    refine tabs_congr (st := st1) ?_ rfl rfl rfl
    constructor
    · show List.map Item.bnd (n :: st.items) = _
      rw [hgrp, allG_cons, List.map_cons, hT.bnds]
      rfl
    · intro j hj
      rw [hgrp, allG_cons] at hj
      exact hT.attrOut j fun h => hj (List.mem_append_right _ h)
    · intro g hg j hj
      rw [hgrp] at hg
      rcases List.mem_cons.1 hg with rfl | hg
      · cases hj
        exact hT.attrOut i hi
      · exact hT.attrLead g hg j hj
    · intro g hg j hj
      rw [hgrp] at hg
      rcases List.mem_cons.1 hg with rfl | hg
      · cases hj
      · exact hT.attrMem g hg j hj
    · intro g hg j hj
      rw [hgrp] at hg
      rcases List.mem_cons.1 hg with rfl | hg
      · cases hj
      · exact hT.attrSuite g hg j hj
    · intro g hg C hC
      rw [hgrp] at hg
      rcases List.mem_cons.1 hg with rfl | hg
      · cases hC
      · exact hT.sdeclLead g hg C hC
    · intro C hC
      rw [hgrp] at hC
      exact hT.sdeclNone C fun g hg => hC g (List.mem_cons_of_mem _ hg)
  · show Inv (grp st1.items) _ _
    rw [hgrp]
    exact hG.inv.step (Step.add i _ hi)
  · intro h
    have : st.cap = true := h
    rw [hcap] at this; cases this

end Verif.Scope
