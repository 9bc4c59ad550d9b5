import Verif.Scope.Static

/-!
# Name resolution: visiting loops
-/

namespace Verif.Scope

section
variable {V : Type} {x : Name} {Λ : List Lop} {cur : List Blk} {U : List Nat} {st T : St}

theorem strict_ext {cur : List Blk} {b : Blk} {B c : List Nat} (h : Ext (ids (cur ++ [b])) B c) :
    ids cur <+: c ∧ c ≠ ids cur := by
  obtain ⟨e, rfl, _⟩ := h
  refine ⟨⟨b.id :: e, by simp [ids]⟩, ?_⟩
  intro he
  have := congrArg List.length he
  simp [ids] at this

/-- The end of the body of a loop. -/
theorem At.loopEnd {b : Nat} {B S R R' : List Nat} {stE : St} (hG : Good cur U st)
    (hr : Res (cur ++ [⟨b, true, true⟩]) B S R' (b :: U) st stE)
    (hfr : ∀ i ∈ S, Bnd.site i ∉ allG (grp st.items))
    (he : (endLoop cur b stE).err = false)
    (hlb : ∀ L ∈ Λ, b ∈ L.B) (hinv : ∃ c W, Inv (grp T.items) c W)
    (hf : At R Λ cur (b :: B ++ U) (endLoop cur b stE) T) :
    At R (⟨cur, b, S, b :: B⟩ :: Λ) (cur ++ [⟨b, true, true⟩]) (B ++ b :: U) stE T := by
  obtain ⟨fc, fU, hF⟩ := hinv
  have hmem : ∀ u, u ∈ b :: B ++ U ↔ u ∈ B ++ b :: U := by
    intro u
    simp only [List.cons_append, List.mem_cons, List.mem_append]
    constructor
    · rintro (h | h | h) <;> simp [h]
    · rintro (h | h | h) <;> simp [h]
  have hGE : Good cur (B ++ b :: U) stE := hr.good.leave hG
  have hend := (res_end b hGE he).1
  have hf2 : At R Λ cur (B ++ b :: U) stE T :=
    At.back (B := []) (hf.mono hmem) hend hGE (by simp) (fun r h => ⟨h, by simp⟩)
  have hf3 : At R Λ (cur ++ [⟨b, true, true⟩]) (B ++ b :: U) stE T :=
    hf2.inside hr.good (fun r h => h) hlb
  refine ⟨hf3.good, hf3.fut, hf3.cap, hf3.chk, ?_, ?_, ?_⟩
  · intro L hL
    rcases List.mem_cons.1 hL with rfl | hL
    · exact ⟨[], rfl, by simp [ids]⟩
    · exact hf3.loops.shape L hL
  · intro L hL
    rcases List.mem_cons.1 hL with rfl | hL
    · intro hseen D post hfst i hi
      simp only at hseen hfst hi
      have hne : stE.items ≠ [] := by
        intro h0
        obtain ⟨pre, hp, _⟩ := hfst
        rw [h0] at hp
        simp [grp] at hp
      obtain ⟨st', v, g, gs, hfind, Fd⟩ := find_spec cur stE _ hGE.suite hGE.tabs hGE.inv hne
      have hE : endLoop cur b stE = st' := by
        rw [endLoop, if_pos (by simpa using hseen), hfind]
      have hnpost : Bnd.site i ∉ allG post := by
        by_cases hsu : ∃ C, D.lead = .suite C
        · obtain ⟨C, hC⟩ := hsu
          obtain ⟨pre, hp, _⟩ := hfst
          rw [hGE.inv.suiteLast pre D post hp C hC]
          simp
        · obtain ⟨D', ⟨pre, hp, _⟩, _⟩ := first_fut hr.fut (fun c hc => strict_ext hc) hfst
            (fun C hC => hsu ⟨C, hC⟩)
          intro hm
          refine hfr i hi ?_
          rw [hp, allG_append, allG_cons]
          simp [hm]
      have hstep := Fd.step
      rw [← Fd.grps] at hstep
      obtain ⟨D', e1, e2, e3⟩ := first_hit hstep Fd.only hfst
      have hDmem : D.lead ∈ D'.all := by rw [Grp.all, e2]; simp
      have hsame : Same (grp (endLoop cur b stE).items) (.site i) D.lead := by
        rw [hE, e1]
        exact ⟨D', by simp, e3 _ (hr.has i hi) hnpost, hDmem⟩
      exact (same_fut hf.fut hsame).rep hF.nodup
    · exact hf3.loops.hl L hL
  · intro L hL
    rcases List.mem_cons.1 hL with rfl | hL
    · intro hdeep C hC hCO i hi
      simp only [Lop.Q] at hdeep hCO hi
      obtain ⟨p, g, hp⟩ : ∃ p g, grp stE.items = p ++ [g] := by
        rcases List.eq_nil_or_concat (grp stE.items) with h | ⟨p, g, h⟩
        · exact absurd h hdeep.1
        · exact ⟨p, g, by simpa using h⟩
      obtain ⟨G, hG1, hG2⟩ := (suiteOf_iff hF).1 hC
      obtain ⟨p₁, q₁, hsp⟩ := List.append_of_mem hG1
      have hq := hF.suiteLast p₁ G q₁ hsp C hG2
      subst hq
      rcases last_fut hf3.fut hp with ⟨p', g', k1, k2, k3⟩ | ⟨p', g', C', k1, k2, k3⟩
      · exfalso
        have hgG : g' = G := by
          have := congrArg List.getLast? (k1.symm.trans hsp)
          simpa using this
        subst hgG
        have hgm : g ∈ grp stE.items := by rw [hp]; simp
        have hlast : g.scope.getLast? = some C :=
          hGE.inv.scopeLast g hgm C (by rw [← k2]; exact hG2)
        obtain ⟨r, hr'⟩ := hdeep.2 g hgm
        obtain ⟨a, c, hac⟩ := List.append_of_mem hCO
        obtain ⟨w, hw⟩ := List.getLast?_eq_some_iff.1 hlast
        have e1 : g.scope = a ++ C :: (c ++ [b] ++ r) := by rw [← hr', hac]; simp
        have := coh_unique (hGE.inv.coh g hgm) hCO e1 (hw)
        rw [hw, this] at e1
        have := List.append_cancel_left e1
        simp at this
      · have hgG : g' = G := by
          have := congrArg List.getLast? (k1.symm.trans hsp)
          simpa using this
        subst hgG
        rw [rep_of_mem hF.nodup hG1 (k3 _ (hr.has i hi)), hG2]
    · exact hf3.loops.hq L hL

theorem Vis.whl {rs : List Rd} {p : List V → Option Bool} {b : Nat} {s : Stmt V}
    (hinv : ∃ c W, Inv (grp T.items) c W) (h : Vis x Λ cur U (.whl rs p b s) st T) :
    VisR x (⟨cur, b, sites x s, b :: blocks s⟩ :: Λ) (cur ++ [⟨b, true, true⟩]) (b :: U) rs st T ∧
    Vis x (⟨cur, b, sites x s, b :: blocks s⟩ :: Λ) (cur ++ [⟨b, true, true⟩]) (b :: U) s
      (visitReads x (cur ++ [⟨b, true, true⟩]) rs st) T := by
  obtain ⟨hp, hG, hb, hbU, hs, hfr, hr, hc, he, hlb, hf⟩ := h
  simp only [Scope.plain] at hp
  simp only [visit] at he hf
  simp only [blocks, sites, reads] at hb hbU hs hfr hr hc hlb hf
  have he2 := err_false (endLoop_err cur b _) he
  have he1 := err_false (visit_err x s _ _) he2
  rw [List.nodup_cons] at hb
  rw [List.nodup_append] at hr
  have hG' := hG.enter true (hbU b (by simp))
  have h0 := (res_reads x rs hG' he1).1
  have d : ∀ c ∈ blocks s, c ∉ b :: U := by
    intro c h hm
    rcases List.mem_cons.1 hm with rfl | hm
    · exact hb.1 h
    · exact hbU c (by simp [h]) hm
  have fr : ∀ i ∈ sites x s,
      Bnd.site i ∉ allG (grp (visitReads x (cur ++ [⟨b, true, true⟩]) rs st).items) := by
    intro i h hm
    rcases h0.only i hm with hm | hm
    · exact hfr i h hm
    · simp at hm
  have h1 := visit_spec x s _ (b :: U) _ hp h0.good hb.2 d hs fr he2
  have hend := At.loopEnd (R := rs.map Rd.id ++ reads s) hG
    ((h0.trans h1).cast (by simp) (by simp) rfl) hfr he
    (fun L hL => hlb L hL b (by simp)) hinv hf
  refine ⟨⟨hG', hr.1, fun r h => hc r.id (by simp [List.mem_map_of_mem h]), he1, ?_⟩,
    ⟨hp, h0.good, hb.2, d, hs, fr, hr.2.1, ?_, he2, ?_, hend.weaken fun r h => by simp [h]⟩⟩
  · exact At.back hend h1 h0.good d fun r h => ⟨by simp [h], fun hm => hr.2.2 r h r hm rfl⟩
  · intro r h
    rw [h0.chk r fun hm => hr.2.2 r hm r h rfl]
    exact hc r (by simp [h])
  · intro L hL u hu
    rcases List.mem_cons.1 hL with rfl | hL
    · exact List.mem_cons_of_mem _ hu
    · exact hlb L hL u (List.mem_cons_of_mem _ hu)

/-- The state after the loop variable of a `for` loop. -/
def forVar (x : Name) (cur : List Blk) (rs : List Rd) (b i : Nat) (y : Name) (st : St) : St :=
  if y = x then visitAdd (cur ++ [⟨b, true, true⟩]) i (visitReads x cur rs st)
  else visitReads x cur rs st

theorem forVar_seen {rs : List Rd} {b i : Nat} {y : Name} (hG : Good cur U st) (hb : b ∉ U)
    (hfr : y = x → Bnd.site i ∉ allG (grp st.items))
    (he : (forVar x cur rs b i y st).err = false) : b ∉ (forVar x cur rs b i y st).seen := by
  have he1 : (visitReads x cur rs st).err = false := by
    rw [forVar] at he
    split at he
    · exact err_false (visitAdd_err _ i _) he
    · exact he
  have h0 := (res_reads x rs hG he1).1
  have : (forVar x cur rs b i y st).seen = (visitReads x cur rs st).seen := by
    rw [forVar] at he ⊢
    split
    · rename_i hy
      rw [if_pos hy] at he
      refine (visitAdd_spec i (h0.good.enter true hb) (visitAdd_cap he) ?_).2.2.2.1
      intro hm
      rcases h0.only i hm with hm | hm
      · exact hfr hy hm
      · simp at hm
    · rfl
  rw [this]
  exact fun h => hb (h0.good.seen b h)

theorem visit_forr {rs : List Rd} {f : List V → Option (List V)} {b i : Nat} {y : Name}
    {s : Stmt V} (hG : Good cur U st) (hb : b ∉ U)
    (hfr : y = x → Bnd.site i ∉ allG (grp st.items))
    (he : (visit x cur (.forr rs f b i y s) st).err = false) :
    visit x cur (.forr rs f b i y s) st =
      endLoop cur b (visit x (cur ++ [⟨b, true, true⟩]) s (forVar x cur rs b i y st)) ∧
    (forVar x cur rs b i y st).err = false := by
  have hv : visit x cur (.forr rs f b i y s) st =
      (if (forVar x cur rs b i y st).seen.contains b then
        visit x (cur ++ [⟨b, true, true⟩]) s
          { forVar x cur rs b i y st with seen := (forVar x cur rs b i y st).seen.filter (· != b) }
      else endLoop cur b (visit x (cur ++ [⟨b, true, true⟩]) s
          { forVar x cur rs b i y st with
            seen := (forVar x cur rs b i y st).seen.filter (· != b) })) := by
    rw [visit]; rfl
  have he2 : (forVar x cur rs b i y st).err = false := by
    rw [hv] at he
    split at he
    · exact err_false (visit_err x s _ { forVar x cur rs b i y st with
        seen := (forVar x cur rs b i y st).seen.filter (· != b) }) he
    · exact err_false (visit_err x s _ { forVar x cur rs b i y st with
        seen := (forVar x cur rs b i y st).seen.filter (· != b) })
          (err_false (endLoop_err cur b _) he)
  have hs := forVar_seen hG hb hfr he2
  refine ⟨?_, he2⟩
  have hfil : (forVar x cur rs b i y st).seen.filter (· != b) = (forVar x cur rs b i y st).seen := by
    rw [List.filter_eq_self]
    intro u hu
    simp only [bne_iff_ne, ne_eq]
    rintro rfl
    exact hs hu
  rw [hv, hfil, if_neg (by simpa using hs)]

theorem Vis.forr {rs : List Rd} {f : List V → Option (List V)} {b i : Nat} {y : Name}
    {s : Stmt V} (hinv : ∃ c W, Inv (grp T.items) c W) {S : List Nat}
    (hS : S = (if y = x then [i] else []) ++ sites x s)
    (h : Vis x Λ cur U (.forr rs f b i y s) st T) :
    VisR x Λ cur U rs st T ∧
    Res (cur ++ [⟨b, true, true⟩]) [] (if y = x then [i] else []) [] (b :: U)
      (visitReads x cur rs st) (forVar x cur rs b i y st) ∧
    (y = x → (visitReads x cur rs st).cap = false) ∧
    (y = x → Bnd.site i ∉ allG (grp (visitReads x cur rs st).items)) ∧
    At [] (⟨cur, b, S, b :: blocks s⟩ :: Λ) (cur ++ [⟨b, true, true⟩]) (b :: U)
      (visitReads x cur rs st) T ∧
    Vis x (⟨cur, b, S, b :: blocks s⟩ :: Λ) (cur ++ [⟨b, true, true⟩]) (b :: U) s
      (forVar x cur rs b i y st) T := by
  obtain ⟨hp, hG, hb, hbU, hs, hfr, hr, hc, he, hlb, hf⟩ := h
  simp only [Scope.plain] at hp
  simp only [blocks, sites, reads] at hb hbU hs hfr hr hc hlb hf
  have hbU' := hbU b (by simp)
  have hyi : y = x → Bnd.site i ∉ allG (grp st.items) := by
    intro hy
    exact hfr i (by simp [hy])
  obtain ⟨hv, he2⟩ := visit_forr hG hbU' hyi he
  rw [hv] at hf he
  have he3 := err_false (endLoop_err cur b _) he
  have he1 : (visitReads x cur rs st).err = false := by
    rw [forVar] at he2
    split at he2
    · exact err_false (visitAdd_err _ i _) he2
    · exact he2
  rw [List.nodup_cons] at hb
  rw [List.nodup_append] at hs
  rw [List.nodup_append] at hr
  have h0 := (res_reads x rs hG he1).1
  have hyi' : y = x → Bnd.site i ∉ allG (grp (visitReads x cur rs st).items) := by
    intro hy hm
    rcases h0.only i hm with hm | hm
    · exact hyi hy hm
    · simp at hm
  have hG0 := h0.good.enter true hbU'
  have h1 : Res (cur ++ [⟨b, true, true⟩]) [] (if y = x then [i] else []) [] (b :: U)
      (visitReads x cur rs st) (forVar x cur rs b i y st) := by
    rw [forVar] at he2 ⊢
    split
    · rename_i hy
      rw [if_pos hy] at he2
      exact (res_add i hG0 (hyi' hy) he2).1
    · exact Res.refl hG0
  have d : ∀ c ∈ blocks s, c ∉ b :: U := by
    intro c h hm
    rcases List.mem_cons.1 hm with rfl | hm
    · exact hb.1 h
    · exact hbU c (by simp [h]) hm
  have fr : ∀ j ∈ sites x s, Bnd.site j ∉ allG (grp (forVar x cur rs b i y st).items) := by
    intro j h hm
    rcases h1.only j hm with hm | hm
    · rcases h0.only j hm with hm | hm
      · exact hfr j (by simp [h]) hm
      · simp at hm
    · exact hs.2.2 j hm j h rfl
  have h2 := visit_spec x s _ (b :: U) _ hp h1.good hb.2 d hs.2.1 fr he3
  have h12 : Res (cur ++ [⟨b, true, true⟩]) (blocks s) S (reads s) (b :: U)
      (visitReads x cur rs st) (visit x (cur ++ [⟨b, true, true⟩]) s (forVar x cur rs b i y st)) :=
    (h1.trans h2).cast (by simp) hS.symm (by simp)
  have hfr0 : ∀ j ∈ S, Bnd.site j ∉ allG (grp (visitReads x cur rs st).items) := by
    intro j hj hm
    rcases h0.only j hm with hm | hm
    · exact hfr j (hS ▸ hj) hm
    · simp at hm
  have hend := At.loopEnd (R := rs.map Rd.id ++ reads s) h0.good h12 hfr0 he
    (fun L hL => hlb L hL b (by simp)) hinv hf
  refine ⟨⟨hG, hr.1, fun r h => hc r.id (by simp [List.mem_map_of_mem h]), he1, ?_⟩, h1, ?_, hyi',
    ?_, ⟨hp, h1.good, hb.2, d, hs.2.1, fr, hr.2.1, ?_, he3, ?_, hend.weaken fun r h => by simp [h]⟩⟩
  · -- the end of the visit of the iterable
    have r12 := (h12.enter h0.good).trans (res_end b (h12.enter h0.good).good he).1
    refine At.back (U := U) (B := b :: blocks s) hf (r12.cast (by simp) rfl rfl) h0.good hbU ?_
    intro r h
    exact ⟨by simp [h], fun hm => hr.2.2 r h r (by simpa using hm) rfl⟩
  · intro hy
    rw [forVar, if_pos hy] at he2
    exact visitAdd_cap he2
  · exact At.back (B := blocks s) hend h12 hG0 d (by simp)
  · intro r h
    rw [h1.chk r (by simp), h0.chk r fun hm => hr.2.2 r hm r h rfl]
    exact hc r (by simp [h])
  · intro L hL u hu
    rcases List.mem_cons.1 hL with rfl | hL
    · exact List.mem_cons_of_mem _ hu
    · exact hlb L hL u (List.mem_cons_of_mem _ hu)

end

end Verif.Scope
