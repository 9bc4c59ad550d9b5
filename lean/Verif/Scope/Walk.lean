import Verif.Scope.Visit

/-!
# Name resolution: visiting a statement
-/

namespace Verif.Scope

/-- The groups reached by steps in scopes that satisfy `P`. -/
inductive Fut (P : List Nat → Prop) : List Grp → List Grp → Prop where
  | refl (gs : List Grp) : Fut P gs gs
  | step {c : List Nat} {gs gs' F : List Grp} : P c → Step c gs gs' → Fut P gs' F → Fut P gs F

theorem Fut.mono {P Q : List Nat → Prop} (h : ∀ c, P c → Q c) {gs F : List Grp}
    (hf : Fut P gs F) : Fut Q gs F := by
  induction hf with
  | refl gs => exact .refl gs
  | step hc hs _ ih => exact .step (h _ hc) hs ih

theorem Fut.trans {P : List Nat → Prop} {gs hs F : List Grp} (h1 : Fut P gs hs)
    (h2 : Fut P hs F) : Fut P gs F := by
  induction h1 with
  | refl gs => exact h2
  | step hc hs _ ih => exact .step hc hs (ih h2)

theorem Fut.one {P : List Nat → Prop} {c : List Nat} {gs hs : List Grp} (hc : P c)
    (h : Step c gs hs) : Fut P gs hs := .step hc h (.refl _)

/-- The scopes inside `cur` that use the blocks `B`. -/
def Ext (cur B c : List Nat) : Prop := ∃ e, c = cur ++ e ∧ ∀ u ∈ e, u ∈ B

theorem Ext.self (cur B : List Nat) : Ext cur B cur := ⟨[], by simp, by simp⟩

theorem Ext.mono {cur B B' : List Nat} (h : ∀ u ∈ B, u ∈ B') {c : List Nat} (hc : Ext cur B c) :
    Ext cur B' c := by
  obtain ⟨e, h1, h2⟩ := hc
  exact ⟨e, h1, fun u hu => h u (h2 u hu)⟩

theorem Ext.enter {cur B : List Nat} {b : Nat} {c : List Nat} (h : Ext (cur ++ [b]) B c) :
    Ext cur (b :: B) c := by
  obtain ⟨e, h1, h2⟩ := h
  refine ⟨b :: e, by rw [h1]; simp, ?_⟩
  intro u hu
  rcases List.mem_cons.1 hu with rfl | hu
  · simp
  · exact List.mem_cons_of_mem _ (h2 u hu)

/-! ## Errors stay -/

theorem switch_err (used : Bool) (st : St) (i : Item) (h : st.err = true) :
    (switch used st i).err = true := by
  rw [switch]; split <;> simp [h]

theorem foldl_switch_err (used : Bool) (l : List Item) : ∀ st : St, st.err = true →
    (l.foldl (switch used) st).err = true := by
  induction l with
  | nil => intro st h; exact h
  | cons a l ih => intro st h; exact ih _ (switch_err used st a h)

theorem finish_err (used : Bool) (pre : List Item) (lg : Item) (post : List Item) (st : St)
    (h : st.err = true) : (finish used pre lg post st).1.err = true := by
  unfold finish
  dsimp only
  split <;> exact foldl_switch_err _ pre st h

theorem find_err (cur : List Blk) (st : St) (h : st.err = true) : (find cur st).1.err = true := by
  rw [find]
  split
  · exact h
  · split
    · split
      · exact finish_err _ _ _ _ _ h
      · exact finish_err _ _ _ _ _ h
    · exact finish_err _ _ _ _ _ h

theorem lookup_err (cur : List Blk) (st : St) (h : st.err = true) :
    (lookup cur st).1.err = true := by
  have hf := find_err cur st h
  rw [lookup]
  rcases hfs : find cur st with ⟨st', o⟩
  rw [hfs] at hf
  cases o with
  | none => exact hf
  | some v =>
    dsimp only
    split
    · exact hf
    · split <;> exact hf

theorem visitAdd_err (cur : List Blk) (i : Nat) (st : St) (h : st.err = true) :
    (visitAdd cur i st).err = true := by
  rw [visitAdd]
  split
  · rfl
  · exact lookup_err _ _ h

theorem visitRead_err (cur : List Blk) (r : Nat) (st : St) (h : st.err = true) :
    (visitRead cur r st).err = true := by
  rw [visitRead]
  have h2 := lookup_err cur (if st.items.isEmpty = true then { st with cap := true } else st)
    (by split <;> exact h)
  split
  · rename_i st' he; rw [he] at h2; exact h2
  · rename_i st' he; rw [he] at h2; exact h2

theorem visitReads_err (x : Name) (cur : List Blk) (rs : List Rd) : ∀ st : St, st.err = true →
    (visitReads x cur rs st).err = true := by
  induction rs with
  | nil => intro st h; exact h
  | cons r rs ih =>
    intro st h
    rw [visitReads, List.foldl_cons]
    refine ih _ ?_
    split
    · exact visitRead_err _ _ _ h
    · exact h

theorem endLoop_err (cur : List Blk) (b : Nat) (st : St) (h : st.err = true) :
    (endLoop cur b st).err = true := by
  rw [endLoop]
  split
  · exact find_err _ _ h
  · exact h

theorem visit_err {V : Type} (x : Name) (s : Stmt V) : ∀ (cur : List Blk) (st : St),
    st.err = true → (visit x cur s st).err = true := by
  induction s with
  | skip => intro cur st h; exact h
  | out rs f => intro cur st h; exact visitReads_err _ _ _ _ h
  | asg i y rs f =>
    intro cur st h
    rw [visit]
    split
    · exact visitAdd_err _ _ _ (visitReads_err _ _ _ _ h)
    · exact visitReads_err _ _ _ _ h
  | seq s t ihs iht => intro cur st h; exact iht _ _ (ihs _ _ h)
  | ite k rs p b₁ s₁ b₂ s₂ ih1 ih2 =>
    intro cur st h
    exact ih2 _ _ (ih1 _ _ (visitReads_err _ _ _ _ h))
  | whl rs p b s ih =>
    intro cur st h
    exact endLoop_err _ _ _ (ih _ _ (visitReads_err _ _ _ _ h))
  | forr rs f b i y s ih =>
    intro cur st h
    rw [visit]
    have h1 := visitReads_err x cur rs st h
    have h2 : ∀ st2 : St, st2.err = true →
        (visit x (cur ++ [⟨b, true, true⟩]) s
          { st2 with seen := st2.seen.filter (· != b) }).err = true := fun st2 h2 => ih _ _ h2
    split
    · split
      · exact h2 _ (visitAdd_err _ _ _ h1)
      · exact endLoop_err _ _ _ (h2 _ (visitAdd_err _ _ _ h1))
    · split
      · exact h2 _ h1
      · exact endLoop_err _ _ _ (h2 _ h1)
  | try_ b₁ s₁ b₂ s₂ ih1 ih2 => intro cur st h; exact ih2 _ _ (ih1 _ _ h)
  | brk => intro cur st h; exact h
  | cont => intro cur st h; exact h
  | ret rs f => intro cur st h; exact visitReads_err _ _ _ _ h

theorem err_false {a b : Bool} (h : a = true → b = true) (hb : b = false) : a = false := by
  cases a with
  | false => rfl
  | true => rw [h rfl] at hb; cases hb

/-! ## The result of a visit -/

/-- The state `st'` after visiting, from `st` in the scope `cur`, code with blocks `B`,
binding occurrences `S` and reading occurrences `R`. -/
structure Res (cur : List Blk) (B S R U : List Nat) (st st' : St) : Prop where
  good : Good cur (B ++ U) st'
  fut : Fut (Ext (ids cur) B) (grp st.items) (grp st'.items)
  has : ∀ i ∈ S, Bnd.site i ∈ allG (grp st'.items)
  only : ∀ i, Bnd.site i ∈ allG (grp st'.items) → Bnd.site i ∈ allG (grp st.items) ∨ i ∈ S
  keep : ∀ b ∈ allG (grp st.items), b ∈ allG (grp st'.items)
  chk : ∀ r, r ∉ R → st'.chk r = st.chk r
  cap : st.cap = true → st'.cap = true
  seen : ∀ u ∈ st.seen, u ∉ B → u ∈ st'.seen

theorem step_keep {c : List Nat} {gs gs' : List Grp} (h : Step c gs gs') :
    ∀ b ∈ allG gs, b ∈ allG gs' := by
  intro b hb
  cases h with
  | add i _ _ => rw [allG_cons]; exact List.mem_append_right _ hb
  | hitD gs₁ g gs₂ _ _ _ =>
    rw [allG_append, allG_cons] at hb
    rw [allG_cons, all_merge, List.append_assoc]
    exact hb
  | hitN _ sc C k _ _ _ _ _ _ _ _ =>
    simp only [allG_cons, allG_nil, Grp.all, List.append_nil]
    exact List.mem_append_left _ hb

theorem fut_keep {P : List Nat → Prop} {gs F : List Grp} (h : Fut P gs F) :
    ∀ b ∈ allG gs, b ∈ allG F := by
  induction h with
  | refl gs => exact fun b hb => hb
  | step _ hs _ ih => exact fun b hb => ih b (step_keep hs b hb)

theorem Res.refl {cur : List Blk} {U : List Nat} {st : St} (h : Good cur U st) :
    Res cur [] [] [] U st st :=
  ⟨h, .refl _, by simp, fun i hi => .inl hi, fun b hb => hb, fun _ _ => rfl, fun h => h,
    fun _ hu _ => hu⟩

theorem Res.trans {cur : List Blk} {B₁ S₁ R₁ B₂ S₂ R₂ U : List Nat} {st st₁ st₂ : St}
    (h1 : Res cur B₁ S₁ R₁ U st st₁) (h2 : Res cur B₂ S₂ R₂ (B₁ ++ U) st₁ st₂) :
    Res cur (B₁ ++ B₂) (S₁ ++ S₂) (R₁ ++ R₂) U st st₂ where
  good := h2.good.mono (by
    intro u hu
    simp only [List.mem_append] at hu ⊢
    rcases hu with hu | hu | hu
    · exact .inl (.inr hu)
    · exact .inl (.inl hu)
    · exact .inr hu)
  fut := (h1.fut.mono fun c hc => hc.mono fun u hu => List.mem_append_left _ hu).trans
    (h2.fut.mono fun c hc => hc.mono fun u hu => List.mem_append_right _ hu)
  has := by
    intro i hi
    rcases List.mem_append.1 hi with hi | hi
    · exact h2.keep _ (h1.has i hi)
    · exact h2.has i hi
  only := by
    intro i hi
    rcases h2.only i hi with h | h
    · rcases h1.only i h with h | h
      · exact .inl h
      · exact .inr (List.mem_append_left _ h)
    · exact .inr (List.mem_append_right _ h)
  keep := fun b hb => h2.keep b (h1.keep b hb)
  chk := by
    intro r hr
    rw [List.mem_append, not_or] at hr
    rw [h2.chk r hr.2, h1.chk r hr.1]
  cap := fun h => h2.cap (h1.cap h)
  seen := fun u hu hB => h2.seen u (h1.seen u hu fun h => hB (List.mem_append_left _ h))
    fun h => hB (List.mem_append_right _ h)

theorem Res.enter {cur : List Blk} {B S R U U' : List Nat} {st st' st₀ : St} {b : Nat} {l : Bool}
    (h : Res (cur ++ [⟨b, true, l⟩]) B S R (b :: U) st st') (h0 : Good cur U' st₀) :
    Res cur (b :: B) S R U st st' where
  good := (h.good.leave h0).mono (by
    intro u hu
    simp only [List.mem_append, List.mem_cons] at hu ⊢
    rcases hu with hu | hu | hu
    · exact .inl (.inr hu)
    · exact .inl (.inl hu)
    · exact .inr hu)
  fut := by
    refine h.fut.mono fun c hc => Ext.enter (b := b) ?_
    simpa [ids] using hc
  has := h.has
  only := h.only
  keep := h.keep
  chk := h.chk
  cap := h.cap
  seen := fun u hu hB => h.seen u hu fun h => hB (List.mem_cons_of_mem _ h)

/-! ## Visiting the parts of a statement -/

theorem res_read {cur : List Blk} {U : List Nat} {st : St} (r : Nat) (hG : Good cur U st)
    (he : (visitRead cur r st).err = false) :
    Res cur [] [] [r] U st (visitRead cur r st) ∧ st.err = false := by
  by_cases hne : st.items = []
  · rw [visitRead_nil r hne] at he ⊢
    exact ⟨⟨hG.congr rfl rfl rfl (fun _ => hne) hG.seen, .refl _, by simp, fun i hi => .inl hi,
      fun b hb => hb, fun _ _ => rfl, fun _ => rfl, fun _ hu _ => hu⟩, he⟩
  · obtain ⟨g, gs, h1, h2, h3, h4, h5, hsn, h6, h7, h8⟩ := visitRead_spec r hG hne
    refine ⟨⟨h4, ?_, by simp, ?_, ?_, ?_, fun h => absurd (hG.cap h) hne,
      fun u hu _ => by rw [hsn]; exact List.mem_append_right _ hu⟩, by rw [← h5]; exact he⟩
    · rw [h1]; exact Fut.one (Ext.self _ _) h2
    · intro i hi; rw [h1] at hi; exact .inl (h6 i hi)
    · intro b hb; rw [h1]; exact step_keep h2 b hb
    · intro m hm; exact h7 m (by simpa using hm)

theorem res_reads (x : Name) {cur : List Blk} {U : List Nat} (rs : List Rd) : ∀ {st : St},
    Good cur U st → (visitReads x cur rs st).err = false →
    Res cur [] [] (rs.map Rd.id) U st (visitReads x cur rs st) ∧ st.err = false := by
  induction rs with
  | nil => intro st hG he; exact ⟨Res.refl hG, he⟩
  | cons r rs ih =>
    intro st hG he
    rw [visitReads, List.foldl_cons] at he ⊢
    by_cases hx : r.x = x
    · rw [if_pos hx] at he ⊢
      have he1 : (visitRead cur r.id st).err = false :=
        err_false (visitReads_err x cur rs _) he
      obtain ⟨h1, h2⟩ := res_read r.id hG he1
      exact ⟨h1.trans (ih h1.good he).1, h2⟩
    · rw [if_neg hx] at he ⊢
      obtain ⟨h1, h2⟩ := ih hG he
      exact ⟨{ h1 with chk := fun m hm => h1.chk m fun h => hm (List.mem_cons_of_mem _ h) }, h2⟩

theorem visitAdd_cap {cur : List Blk} {i : Nat} {st : St} (h : (visitAdd cur i st).err = false) :
    st.cap = false := by
  cases hc : st.cap with
  | false => rfl
  | true => rw [visitAdd, if_pos hc] at h; cases h

theorem res_add {cur : List Blk} {U : List Nat} {st : St} (i : Nat) (hG : Good cur U st)
    (hi : Bnd.site i ∉ allG (grp st.items)) (he : (visitAdd cur i st).err = false) :
    Res cur [] [i] [] U st (visitAdd cur i st) ∧ st.err = false := by
  have hc := visitAdd_cap he
  obtain ⟨h1, h2, h3, h4, h5, h6⟩ := visitAdd_spec i hG hc hi
  refine ⟨⟨h2, ?_, ?_, ?_, ?_, fun _ _ => by rw [h5], (fun h => by rw [hc] at h; cases h),
    fun u hu _ => by rw [h4]; exact hu⟩,
    by rw [← h3]; exact he⟩
  · rw [h1]; exact Fut.one (Ext.self _ _) (Step.add i _ hi)
  · intro j hj
    rw [List.mem_singleton] at hj
    subst hj
    rw [h1, allG_cons]; simp [Grp.all]
  · intro j hj
    rw [h1, allG_cons] at hj
    simp only [Grp.all, List.nil_append, List.singleton_append, List.mem_cons,
      Bnd.site.injEq] at hj
    rcases hj with rfl | hj
    · exact .inr (by simp)
    · exact .inl hj
  · intro b hb
    rw [h1, allG_cons]; exact List.mem_append_right _ hb

theorem res_end {cur : List Blk} {U : List Nat} {st : St} (b : Nat) (hG : Good cur U st)
    (he : (endLoop cur b st).err = false) :
    Res cur [] [] [] U st (endLoop cur b st) ∧ st.err = false := by
  have h0 := err_false (endLoop_err cur b st) he
  refine ⟨?_, h0⟩
  rw [endLoop]
  split
  · by_cases hne : st.items = []
    · rw [find_nil cur st hne]; exact Res.refl hG
    · obtain ⟨st', v, g, gs, hf, F⟩ := find_spec cur st U hG.suite hG.tabs hG.inv hne
      rw [hf]
      refine ⟨⟨F.tabs, by rw [F.grps]; exact hG.inv.step F.step, hG.suite, ?_,
        fun u hu => hG.seen u (by rw [← F.seen]; exact hu)⟩, ?_, by simp,
        fun i hi => .inl (F.only i hi), ?_, fun m _ => by rw [F.chk], ?_,
        fun u hu _ => by rw [F.seen]; exact hu⟩
      · intro h
        rw [F.cap] at h
        exact absurd (hG.cap h) hne
      · rw [F.grps]; exact Fut.one (Ext.self _ _) F.step
      · intro b hb; rw [F.grps]; exact step_keep F.step b hb
      · intro h; rw [F.cap]; exact h
  · exact Res.refl hG

theorem Res.cast {cur : List Blk} {B S R B' S' R' U : List Nat} {st st' : St}
    (h : Res cur B S R U st st') (hB : B = B') (hS : S = S') (hR : R = R') :
    Res cur B' S' R' U st st' := by subst hB hS hR; exact h

/-- Visiting a statement. -/
theorem visit_spec {V : Type} (x : Name) (s : Stmt V) : ∀ (cur : List Blk) (U : List Nat)
    (st : St), plain s = true → Good cur U st → (blocks s).Nodup → (∀ b ∈ blocks s, b ∉ U) →
    (sites x s).Nodup → (∀ i ∈ sites x s, Bnd.site i ∉ allG (grp st.items)) →
    (visit x cur s st).err = false →
    Res cur (blocks s) (sites x s) (reads s) U st (visit x cur s st) := by
  induction s with
  | skip => intro cur U st _ hG _ _ _ _ _; exact Res.refl hG
  | brk => intro cur U st _ hG _ _ _ _ _; exact Res.refl hG
  | cont => intro cur U st _ hG _ _ _ _ _; exact Res.refl hG
  | out rs f => intro cur U st _ hG _ _ _ _ he; exact (res_reads x rs hG he).1
  | ret rs f => intro cur U st _ hG _ _ _ _ he; exact (res_reads x rs hG he).1
  | asg i y rs f =>
    intro cur U st _ hG _ _ _ hfr he
    by_cases hy : y = x
    · simp only [visit, sites, if_pos hy] at he hfr ⊢
      have he1 := err_false (visitAdd_err cur i _) he
      have h1 := (res_reads x rs hG he1).1
      have hi : Bnd.site i ∉ allG (grp (visitReads x cur rs st).items) := by
        intro h
        rcases h1.only i h with h | h
        · exact hfr i (by simp) h
        · simp at h
      exact (h1.trans (res_add i h1.good hi he).1).cast rfl rfl (by simp [reads])
    · simp only [visit, sites, if_neg hy] at he hfr ⊢
      exact (res_reads x rs hG he).1
  | seq s t ihs iht =>
    intro cur U st hp hG hb hbU hs hfr he
    simp only [plain, Bool.and_eq_true] at hp
    simp only [visit] at he ⊢
    simp only [blocks, sites, reads] at hb hbU hs hfr ⊢
    have he1 := err_false (visit_err x t cur _) he
    rw [List.nodup_append] at hb hs
    have h1 := ihs cur U st hp.1 hG hb.1 (fun b h => hbU b (by simp [h])) hs.1
      (fun i h => hfr i (by simp [h])) he1
    refine h1.trans (iht cur _ _ hp.2 h1.good hb.2.1 ?_ hs.2.1 ?_ he)
    · intro b hbt hm
      rcases List.mem_append.1 hm with hm | hm
      · exact hb.2.2 b hm b hbt rfl
      · exact hbU b (by simp [hbt]) hm
    · intro i hi hm
      rcases h1.only i hm with hm | hm
      · exact hfr i (by simp [hi]) hm
      · exact hs.2.2 i hm i hi rfl
  | ite k rs p b₁ s₁ b₂ s₂ ih1 ih2 =>
    intro cur U st hp hG hb hbU hs hfr he
    simp only [plain, Bool.and_eq_true] at hp
    obtain ⟨⟨rfl, hp1⟩, hp2⟩ := hp
    simp only [visit] at he ⊢
    simp only [blocks, sites, reads] at hb hbU hs hfr ⊢
    have he2 := err_false (visit_err x s₂ _ _) he
    have he1 := err_false (visit_err x s₁ _ _) he2
    have h0 := (res_reads x rs hG he1).1
    rw [List.nodup_append] at hs
    rw [List.cons_append, List.nodup_cons, List.nodup_append, List.nodup_cons] at hb
    obtain ⟨hb1, hb2, ⟨hb3, hb4⟩, hb5⟩ := hb
    have h1 := (ih1 (cur ++ [⟨b₁, true, false⟩]) (b₁ :: U) _ hp1
      (h0.good.enter false (hbU b₁ (by simp))) hb2
      (fun b h hm => by
        rcases List.mem_cons.1 hm with rfl | hm
        · exact hb1 (by simp [h])
        · exact hbU b (by simp [h]) hm) hs.1
      (fun i h hm => by
        rcases h0.only i hm with hm | hm
        · exact hfr i (by simp [h]) hm
        · simp at hm) he2).enter hG
    have h2 := (ih2 (cur ++ [⟨b₂, true, false⟩]) (b₂ :: (b₁ :: blocks s₁ ++ U)) _ hp2
      (h1.good.enter false (by
        intro hm
        rcases List.mem_append.1 hm with hm | hm
        · rcases List.mem_cons.1 hm with rfl | hm
          · exact hb1 (by simp)
          · exact hb5 _ hm b₂ (by simp) rfl
        · exact hbU b₂ (by simp) hm)) hb4
      (fun b h hm => by
        rcases List.mem_cons.1 hm with rfl | hm
        · exact hb3 h
        · rcases List.mem_append.1 hm with hm | hm
          · rcases List.mem_cons.1 hm with rfl | hm
            · exact hb1 (by simp [h])
            · exact hb5 _ hm b (by simp [h]) rfl
          · exact hbU b (by simp [h]) hm) hs.2.1
      (fun i h hm => by
        rcases h1.only i hm with hm | hm
        · rcases h0.only i hm with hm | hm
          · exact hfr i (by simp [h]) hm
          · simp at hm
        · exact hs.2.2 i hm i h rfl) he).enter hG
    exact ((h0.trans h1).trans h2).cast (by simp) (by simp) (by simp)
  | whl rs p b s ih =>
    intro cur U st hp hG hb hbU hs hfr he
    simp only [plain] at hp
    simp only [visit] at he ⊢
    simp only [blocks, sites, reads] at hb hbU hs hfr ⊢
    have he2 := err_false (endLoop_err cur b _) he
    have he1 := err_false (visit_err x s _ _) he2
    rw [List.nodup_cons] at hb
    have h0 := (res_reads x rs (hG.enter true (hbU b (by simp))) he1).1
    have h1 := ih (cur ++ [⟨b, true, true⟩]) (b :: U) _ hp h0.good hb.2
      (fun c h hm => by
        rcases List.mem_cons.1 hm with rfl | hm
        · exact hb.1 h
        · exact hbU c (by simp [h]) hm) hs
      (fun i h hm => by
        rcases h0.only i hm with hm | hm
        · exact hfr i h hm
        · simp at hm) he2
    have h2 := (h0.trans h1).enter hG
    exact (h2.trans (res_end b h2.good he).1).cast (by simp) (by simp) (by simp)
  | forr rs f b i y s ih =>
    intro cur U st hp hG hb hbU hs hfr he
    simp only [plain] at hp
    simp only [visit] at he ⊢
    simp only [blocks, sites, reads] at hb hbU hs hfr ⊢
    rw [List.nodup_cons] at hb
    rw [List.nodup_append] at hs
    generalize hst1 : (if y = x then visitAdd (cur ++ [⟨b, true, true⟩]) i (visitReads x cur rs st)
      else visitReads x cur rs st) = st1 at he ⊢
    generalize hst2 : visit x (cur ++ [⟨b, true, true⟩]) s
      { st1 with seen := st1.seen.filter (· != b) } = st2 at he ⊢
    have he3 : st2.err = false := by
      split at he
      · exact he
      · exact err_false (endLoop_err cur b _) he
    have he2 : st1.err = false := by
      rw [← hst2] at he3
      exact err_false (visit_err x s _ { st1 with seen := st1.seen.filter (· != b) }) he3
    have he1 : (visitReads x cur rs st).err = false := by
      rw [← hst1] at he2
      split at he2
      · exact err_false (visitAdd_err _ i _) he2
      · exact he2
    have h0 := (res_reads x rs hG he1).1
    have hbU' : b ∉ U := hbU b (by simp)
    have h1 : Res (cur ++ [⟨b, true, true⟩]) [] (if y = x then [i] else []) [] (b :: U)
        (visitReads x cur rs st) st1 := by
      rw [← hst1] at he2 ⊢
      split at he2
      · rename_i hy
        simp only [if_pos hy] at hfr ⊢
        refine (res_add i (h0.good.enter true hbU') ?_ he2).1
        intro hm
        rcases h0.only i hm with hm | hm
        · exact hfr i (by simp) hm
        · simp at hm
      · rename_i hy
        simp only [if_neg hy] at hfr ⊢
        exact Res.refl (h0.good.enter true hbU')
    have h2 : Res (cur ++ [⟨b, true, true⟩]) (blocks s) (sites x s) (reads s) (b :: U) st1 st2 := by
      rw [← hst2] at he3 ⊢
      have := ih (cur ++ [⟨b, true, true⟩]) (b :: U) _ hp
        (h1.good.congr (st' := { st1 with seen := st1.seen.filter (· != b) }) rfl rfl rfl
          h1.good.cap fun u hu => h1.good.seen u (List.mem_filter.1 hu).1) hb.2
        (fun c h hm => by
          rcases List.mem_cons.1 hm with rfl | hm
          · exact hb.1 h
          · exact hbU c (by simp [h]) hm) hs.2.1
        (fun j h hm => by
          rcases h1.only j hm with hm | hm
          · rcases h0.only j hm with hm | hm
            · exact hfr j (by simp [h]) hm
            · simp at hm
          · exact hs.2.2 j hm j h rfl) he3
      have hbs : b ∉ st1.seen := by
        have : st1.seen = (visitReads x cur rs st).seen := by
          rw [← hst1] at he2 ⊢
          split
          · rename_i hy
            rw [if_pos hy] at he2
            simp only [if_pos hy] at hfr
            refine (visitAdd_spec i (h0.good.enter true hbU') (visitAdd_cap he2) ?_).2.2.2.1
            intro hm
            rcases h0.only i hm with hm | hm
            · exact hfr i (by simp) hm
            · simp at hm
          · rfl
        rw [this]
        exact fun h => hbU' (h0.good.seen b h)
      exact ⟨this.good, this.fut, this.has, this.only, this.keep, this.chk, this.cap,
        fun u hu hB => this.seen u (List.mem_filter.2 ⟨hu, by
          simp only [bne_iff_ne, ne_eq]
          rintro rfl
          exact hbs hu⟩) hB⟩
    have h3 := h0.trans ((h1.trans h2).enter hG)
    have h3 := h3.cast (B' := b :: blocks s) (S' := (if y = x then [i] else []) ++ sites x s)
      (R' := rs.map Rd.id ++ reads s) (by simp) (by simp) (by simp)
    split at he
    · rename_i hd
      rw [if_pos hd]
      exact h3
    · rename_i hd
      rw [if_neg hd]
      exact (h3.trans (res_end b h3.good he).1).cast (by simp) (by simp) (by simp)
  | try_ b₁ s₁ b₂ s₂ ih1 ih2 =>
    intro cur U st hp hG hb hbU hs hfr he
    simp only [plain, Bool.and_eq_true] at hp
    obtain ⟨hp1, hp2⟩ := hp
    simp only [visit] at he ⊢
    simp only [blocks, sites, reads] at hb hbU hs hfr ⊢
    have he2 := err_false (visit_err x s₂ _ _) he
    rw [List.nodup_append] at hs
    rw [List.cons_append, List.nodup_cons, List.nodup_append, List.nodup_cons] at hb
    obtain ⟨hb1, hb2, ⟨hb3, hb4⟩, hb5⟩ := hb
    have h1 := (ih1 (cur ++ [⟨b₁, true, false⟩]) (b₁ :: U) _ hp1
      (hG.enter false (hbU b₁ (by simp))) hb2
      (fun b h hm => by
        rcases List.mem_cons.1 hm with rfl | hm
        · exact hb1 (by simp [h])
        · exact hbU b (by simp [h]) hm) hs.1
      (fun i h hm => hfr i (by simp [h]) hm) he2).enter hG
    have h2 := (ih2 (cur ++ [⟨b₂, true, false⟩]) (b₂ :: (b₁ :: blocks s₁ ++ U)) _ hp2
      (h1.good.enter false (by
        intro hm
        rcases List.mem_append.1 hm with hm | hm
        · rcases List.mem_cons.1 hm with rfl | hm
          · exact hb1 (by simp)
          · exact hb5 _ hm b₂ (by simp) rfl
        · exact hbU b₂ (by simp) hm)) hb4
      (fun b h hm => by
        rcases List.mem_cons.1 hm with rfl | hm
        · exact hb3 h
        · rcases List.mem_append.1 hm with hm | hm
          · rcases List.mem_cons.1 hm with rfl | hm
            · exact hb1 (by simp [h])
            · exact hb5 _ hm b (by simp [h]) rfl
          · exact hbU b (by simp [h]) hm) hs.2.1
      (fun i h hm => by
        rcases h1.only i hm with hm | hm
        · exact hfr i (by simp [h]) hm
        · exact hs.2.2 i hm i h rfl) he).enter hG
    exact (h1.trans h2).cast (by simp) (by simp) (by simp)

end Verif.Scope
