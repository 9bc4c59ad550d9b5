import Verif.Scope.Dyn

/-!
# Name resolution: reading an occurrence
-/

namespace Verif.Scope

/-- What holds for a name at a point of the run: the static point is the state `st` of the
visitor in the scope `cur`; the type checker has entered the blocks `c`. -/
structure Pt {V : Type} (LB : List Nat) (Λ : List Lop) (cur : List Blk) (c : List Nat) (τ : Ctx)
    (st T : St) (v : NS V) (l : Option Bnd) : Prop where
  dyn : Dyn (grp T.items) LB Λ (grp st.items) c v l
  just : Just Λ (grp st.items) (ids cur) l
  ctx : CtxOK (grp T.items) (grp st.items) c τ
  hc : grp st.items ≠ [] → ∀ C, suiteOf (grp T.items) = some C → C ∈ ids cur → C ∈ c

/-- What the analysis as a whole says about a name. -/
structure Whole (T : St) (loc : Bool) : Prop where
  fin : Fin T
  capItems : T.cap = true → T.items = []
  capLoc : T.cap = true → loc = false
  locItems : loc = false → T.items = []

section
variable {V : Type} {x : Name} {Λ : List Lop} {cur : List Blk} {U c LB : List Nat} {st T : St}
  {τ : Ctx} {v : NS V} {l : Option Bnd} {loc : Bool}

theorem Pt.read {R : List Nat} {r : Nat} (hW : Whole T loc) (hG : Good cur U st)
    (hA : At R Λ cur U (visitRead cur r st) T) (h : Pt LB Λ cur c τ st T v l) :
    Pt LB Λ cur c τ (visitRead cur r st) T v l := by
  by_cases hne : st.items = []
  · rw [visitRead_nil r hne]
    exact ⟨h.dyn, h.just, h.ctx, h.hc⟩
  · have hx := h.ctx.read hW.fin hG hA
    obtain ⟨g, gs, h1, h2, _, _, _, _, h6, _⟩ := visitRead_spec r hG hne
    refine ⟨h.dyn.keep ?_, ?_, hx, fun _ => h.hc fun h0 => hne (items_nil hG.tabs h0)⟩
    · rw [h1]; exact step_keep h2
    · rw [h1]; exact h.just.keepHit h2 h6

theorem Pt.reads (hW : Whole T loc) (rs : List Rd) : ∀ {st : St}, VisR x Λ cur U rs st T →
    Pt LB Λ cur c τ st T v l → Pt LB Λ cur c τ (visitReads x cur rs st) T v l := by
  induction rs with
  | nil => intro st _ h; exact h
  | cons r rs ih =>
    intro st hV h
    by_cases hx : r.x = x
    · obtain ⟨v1, v2, v3⟩ := hV.cons_eq hx
      rw [v3]
      exact ih v1 (h.read hW hV.good v2)
    · obtain ⟨v1, v2⟩ := hV.cons_ne hx
      rw [v2]
      exact ih v1 h

/-- A prefix of a path that avoids a block on it ends before the block. -/
theorem prefix_before {s a e : List Nat} {b : Nat} (h : s <+: a ++ b :: e) (hb : b ∉ s) :
    s <+: a := by
  rcases List.prefix_or_prefix_of_prefix h (List.prefix_append a (b :: e)) with h' | h'
  · exact h'
  · obtain ⟨q, rfl⟩ := h'
    cases q with
    | nil => simp
    | cons u q =>
      exfalso
      rw [List.prefix_append_right_inj, List.cons_prefix_cons] at h
      exact hb (by rw [h.1]; simp)

/-- The binding executed last in an enclosing loop has the variable of the group read. -/
theorem loop_rep {R : List Nat} {g : Grp} {gs : List Grp} {r i : Nat} {L : Lop}
    (hA : At R Λ cur U (visitRead cur r st) T) (h1 : grp (visitRead cur r st).items = g :: gs)
    (h3 : g.scope <+: ids cur)
    (h5 : (visitRead cur r st).seen = seenAt cur g.scope cur.length ++ st.seen)
    (hL : L ∈ Λ) (hi : i ∈ L.S) (hb : L.b ∉ g.scope) :
    rep (grp T.items) (.site i) = rep (grp T.items) g.lead := by
  obtain ⟨e, he, _⟩ := hA.loops.shape L hL
  have hpre : g.scope <+: ids L.O := by
    refine prefix_before (b := L.b) (e := ids e) ?_ hb
    rw [he] at h3
    simpa [ids] using h3
  refine hA.loops.hl L hL ?_ g gs ?_ i hi
  · rw [h5]
    refine List.mem_append_left _ ?_
    have hlen : g.scope.length ≤ L.O.length := by
      have := hpre.length_le
      simpa [ids] using this
    exact seenAt_mem (b := ⟨L.b, true, true⟩) (n := L.O.length) (by rw [he]; simp) rfl hlen _
      (by rw [he]; simp) (Nat.le_refl _)
  · rw [h1]
    exact ⟨[], rfl, hpre, by simp⟩

/-- What a reading occurrence does. -/
theorem read_one {r : Rd} {rs : List Rd} (hW : Whole T loc) (hV : VisR x Λ cur U (r :: rs) st T)
    (hx : r.x = x) (h : Pt LB Λ cur c τ st T v l) (hΛ : ∀ L ∈ Λ, ∀ u ∈ L.B, u ∈ LB) :
    (loc = false ∧ τ.var = none ∧ T.chk r.id = false) ∨
    (loc = true ∧ ∃ w a, τ.var = some w ∧ v.store w = some a ∧
      ((v.env = some a ∧ T.chk r.id = false) ∨
       ∃ C, T.chk r.id = true ∧ τ.used = some C ∧ v.flags C = some true ∧ v.env = some a)) ∨
    (loc = true ∧ ∃ C, T.chk r.id = true ∧ τ.used = some C ∧ v.flags C = some false ∧
      (v.env = none ∨ ¬ NoLoop (grp T.items) LB)) := by
  obtain ⟨v1, v2, v3⟩ := hV.cons_eq hx
  have hck := v2.chk r.id (by simp)
  have hc0 := hV.chk0 r (by simp)
  have hn := hW.fin.nodup
  by_cases hne : st.items = []
  · rw [visitRead_nil r.id hne] at hck v2
    have hcap := v2.cap rfl
    have hTi := hW.capItems hcap
    refine .inl ⟨hW.capLoc hcap, ?_, hck.trans hc0⟩
    refine h.ctx.varNone (by rw [hne]; rfl) ?_
    intro C hC
    rw [hTi] at hC
    simp [suiteOf, grp] at hC
  · obtain ⟨g, gs, h1, h2, h3, h4, _, h5, h6, _, h8⟩ := visitRead_spec r.id hV.good hne
    have h' := h.read hW hV.good v2
    have hloc : loc = true := by
      cases hl : loc with
      | true => rfl
      | false =>
        exfalso
        have hTi := hW.locItems hl
        have hg : g.lead ∈ allG (grp (visitRead cur r.id st).items) := by
          rw [h1, allG_cons]; simp [Grp.all]
        have := fut_keep v2.fut _ hg
        rw [hTi] at this
        simp [grp] at this
    have hlead : g.lead ∈ g.all := by simp [Grp.all]
    have hvar := h'.ctx.var g gs h1 g.lead hlead
    have hsame : ∀ b ∈ g.all, rep (grp T.items) b = rep (grp T.items) g.lead := by
      intro b hb
      exact (same_fut v2.fut ⟨g, by rw [h1]; simp, hb, hlead⟩).rep hn
    rw [h8 hc0] at hck
    by_cases hsu : ∃ C, g.lead = .suite C
    · obtain ⟨C₀, hC₀⟩ := hsu
      have hinv := h4.inv
      rw [h1] at hinv
      have hgs : gs = [] := hinv.suiteLast [] g gs rfl C₀ hC₀
      subst hgs
      obtain ⟨fc, fU, hF⟩ := hW.fin.inv
      -- the suite that declares the name in the end
      obtain ⟨C, hC, hrep, hCc⟩ : ∃ C, suiteOf (grp T.items) = some C ∧
          rep (grp T.items) g.lead = .suite C ∧ C ∈ ids cur := by
        obtain ⟨G, hG, hGl, hGs⟩ := within_fut v2.fut
          (b := g.lead) (sc := g.scope) ⟨g, by rw [h1]; simp, hlead, List.prefix_refl _⟩
        have hl : ∃ C, G.lead = .suite C := by
          rcases last_fut v2.fut (p := []) (g := g) h1 with ⟨p', g', k1, k2, _⟩ |
            ⟨p', g', C', k1, k2, k3⟩
          · have : g' ∈ grp T.items := by rw [k1]; simp
            have e := rep_of_mem hn this (b := g.lead) (by rw [Grp.all, k2]; simp)
            rw [rep_of_mem hn hG hGl, k2, hC₀] at e
            exact ⟨_, e⟩
          · have : g' ∈ grp T.items := by rw [k1]; simp
            have e := rep_of_mem hn this (b := g.lead)
              (k3 _ (by rw [h1, allG_cons]; exact List.mem_append_left _ hlead))
            rw [rep_of_mem hn hG hGl, k2] at e
            exact ⟨_, e⟩
        obtain ⟨C, hC⟩ := hl
        exact ⟨C, (suiteOf_iff hF).2 ⟨G, hG, hC⟩, by rw [rep_of_mem hn hG hGl, hC],
          prefix_mem (hGs.trans h3) (List.mem_of_getLast? (hF.scopeLast G hG C hC))⟩
      have hCc' := h.hc (fun h0 => hne (items_nil hV.good.tabs h0)) C hC hCc
      have hchk : T.chk r.id = true := by rw [hck]; exact isSuite_iff.2 ⟨C₀, hC₀⟩
      have hused := h.ctx.used C hC hCc'
      obtain ⟨f, k1, k2, k3⟩ := h'.dyn.fl C hC hCc'
      -- any binding that may have been executed last
      have hall : ∀ b, (b ∈ allG (grp (visitRead cur r.id st).items) ∨
          ∃ L ∈ Λ, C ∈ ids L.O ∧ ∃ i ∈ L.S, b = .site i) → rep (grp T.items) b = .suite C := by
        intro b hb
        rcases hb with hb | ⟨L, hL, hCO, i, hi, rfl⟩
        · rw [h1] at hb
          simp only [allG_cons, allG_nil, List.append_nil] at hb
          rw [hsame b hb, hrep]
        · by_cases hLb : L.b ∈ g.scope
          · refine v2.loops.hq L hL ?_ C hC hCO i hi
            rw [h1]
            refine ⟨by simp, ?_⟩
            intro k hk
            rw [List.mem_singleton] at hk
            subst hk
            obtain ⟨e, he, _⟩ := v2.loops.shape L hL
            have hQ : L.Q <+: ids cur := ⟨ids e, by rw [he]; simp [Lop.Q, ids]⟩
            rcases List.prefix_or_prefix_of_prefix hQ h3 with h' | h'
            · exact h'
            · have hbO : L.b ∉ ids L.O := by
                have := hV.good.inv.curNodup
                rw [he] at this
                simp only [ids, List.map_append, List.map_cons, List.nodup_append] at this
                intro hm
                exact this.2.2 _ hm L.b (by simp) rfl
              rcases List.prefix_concat_iff.1 h' with h'' | h''
              · exact h'' ▸ List.prefix_refl _
              · exact absurd (prefix_mem h'' hLb) hbO
          · rw [loop_rep v2 h1 h3 h5 hL hi hLb, hrep]
      cases f with
      | true =>
        obtain ⟨b, e1, e2⟩ := k2 rfl
        obtain ⟨a, e3, e4⟩ := h.dyn.env1 b e1
        rw [hall b e2] at e4
        exact .inr (.inl ⟨hloc, .suite C, a, by rw [hvar, hrep], e4, .inr ⟨C, hchk, hused, k1, e3⟩⟩)
      | false =>
        refine .inr (.inr ⟨hloc, C, hchk, hused, k1, ?_⟩)
        cases hl : l with
        | none => exact .inl (h.dyn.env0 hl)
        | some b =>
          refine .inr fun hnl => ?_
          have : rep (grp T.items) b = .suite C := by
            refine hall b ?_
            rcases h'.dyn.mem b hl with hm | ⟨L, hL, hi⟩
            · exact .inl hm
            · refine .inr ⟨L, hL, ?_, hi⟩
              obtain ⟨e, he, heB⟩ := v2.loops.shape L hL
              rw [he] at hCc
              simp only [ids, List.map_append, List.map_cons, List.mem_append] at hCc
              rcases hCc with hm | hm
              · exact hm
              · exact absurd (hΛ L hL C (heB C hm)) (hnl C hC)
          have := k3 hnl b hl this
          cases this
    · have hsu' : ∀ C, g.lead ≠ .suite C := fun C hC => hsu ⟨C, hC⟩
      have hchk : T.chk r.id = false := by
        rw [hck]
        cases hh : g.isSuite with
        | false => rfl
        | true => exact absurd (isSuite_iff.1 hh) hsu
      obtain ⟨b, e1, e2, e3⟩ := h'.just g gs (by rw [h1]; exact ⟨[], rfl, h3, by simp⟩) hsu'
      have hrep : rep (grp T.items) b = rep (grp T.items) g.lead := by
        rcases e3 with e3 | ⟨L, hL, hLb, i, hi, rfl⟩
        · rw [h1, allG_cons, List.mem_append] at e3
          rcases e3 with e3 | e3
          · exact hsame b e3
          · exact absurd e3 e2
        · exact loop_rep v2 h1 h3 h5 hL hi hLb
      obtain ⟨a, e4, e5⟩ := h.dyn.env1 b e1
      rw [hrep] at e5
      exact .inr (.inl ⟨hloc, _, a, hvar, e5, .inl ⟨e4, hchk⟩⟩)

end

end Verif.Scope
