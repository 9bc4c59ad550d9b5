import Verif.Scope.Future

/-!
# Name resolution: the points of a program, and what the type checker finds there
-/

namespace Verif.Scope

/-- The scopes visited later than a point in the scope `cur`, when the blocks `U` have
been entered. -/
def Pf (cur U c : List Nat) : Prop := ∀ u ∈ c, u ∈ cur ∨ u ∉ U

/-- A loop that encloses a point: the scope outside, its block, its binding
occurrences of the name, its blocks. -/
structure Lop where
  O : List Blk
  b : Nat
  S : List Nat
  B : List Nat

/-- The scope of the body of a loop. -/
def Lop.Q (L : Lop) : List Nat := ids L.O ++ [L.b]

/-- What is known of the enclosing loops at a point. -/
structure Loops (Λ : List Lop) (cur : List Blk) (gs : List Grp) (seen : List Nat)
    (F : List Grp) : Prop where
  shape : ∀ L ∈ Λ, ∃ e, cur = L.O ++ ⟨L.b, true, true⟩ :: e ∧ ∀ u ∈ L.b :: ids e, u ∈ L.B
  hl : ∀ L ∈ Λ, L.b ∈ seen → ∀ D post, First (ids L.O) gs D post →
    ∀ i ∈ L.S, rep F (.site i) = rep F D.lead
  hq : ∀ L ∈ Λ, Deep gs L.Q → ∀ C, suiteOf F = some C → C ∈ ids L.O →
    ∀ i ∈ L.S, rep F (.site i) = .suite C

/-- The visitor is at a point in the state `st`, its final state is `T`, the
reading occurrences `R` are done, and the loops `Λ` enclose the point. -/
structure At (R : List Nat) (Λ : List Lop) (cur : List Blk) (U : List Nat) (st T : St) : Prop where
  good : Good cur U st
  fut : Fut (Pf (ids cur) U) (grp st.items) (grp T.items)
  cap : st.cap = true → T.cap = true
  chk : ∀ r ∈ R, T.chk r = st.chk r
  loops : Loops Λ cur (grp st.items) st.seen (grp T.items)

theorem Loops.q_pre {Λ : List Lop} {cur : List Blk} {gs F : List Grp} {seen : List Nat}
    (h : Loops Λ cur gs seen F) {L : Lop} (hL : L ∈ Λ) {B c : List Nat} (hc : Ext (ids cur) B c) :
    L.Q <+: c ∧ ids L.O <+: c ∧ c ≠ ids L.O := by
  obtain ⟨e, rfl, _⟩ := hc
  obtain ⟨e', rfl, _⟩ := h.shape L hL
  refine ⟨⟨ids e' ++ e, by simp [Lop.Q, ids]⟩, ⟨L.b :: ids e' ++ e, by simp [ids]⟩, ?_⟩
  intro he
  have := congrArg List.length he
  simp [ids] at this

theorem At.back {R R₀ R' B S U : List Nat} {Λ : List Lop} {cur : List Blk} {st st' T : St}
    (h : At R Λ cur (B ++ U) st' T) (hr : Res cur B S R' U st st') (hG : Good cur U st)
    (hB : ∀ u ∈ B, u ∉ U) (h0 : ∀ r ∈ R₀, r ∈ R ∧ r ∉ R') : At R₀ Λ cur U st T where
  good := hG
  fut := by
    refine (hr.fut.mono ?_).trans (h.fut.mono ?_)
    · rintro c ⟨e, rfl, he⟩ u hu
      rcases List.mem_append.1 hu with hu | hu
      · exact .inl hu
      · exact .inr (hB u (he u hu))
    · intro c hc u hu
      rcases hc u hu with h | h
      · exact .inl h
      · exact .inr fun hm => h (List.mem_append_right _ hm)
  cap := fun hc => h.cap (hr.cap hc)
  chk := fun r hr' => by rw [h.chk r (h0 r hr').1, hr.chk r (h0 r hr').2]
  loops := by
    refine ⟨h.loops.shape, ?_, ?_⟩
    · intro L hL hs D post hf i hi
      obtain ⟨D', h1, h2⟩ := first_fwd_fut hr.fut (fun c hc => (h.loops.q_pre hL hc).2) hf
      rw [← h2]
      refine h.loops.hl L hL (hr.seen L.b hs ?_) D' post h1 i hi
      intro hm
      refine hB _ hm (hG.inv.curSub _ ?_)
      obtain ⟨e, he, _⟩ := h.loops.shape L hL
      rw [he]; simp [ids]
    · intro L hL hd
      exact h.loops.hq L hL (deep_fut hr.fut (fun c hc => (h.loops.q_pre hL hc).1) hd)

/-- From the end of a block to the end of the block seen from inside. -/
theorem At.inside {R R' U : List Nat} {Λ : List Lop} {cur : List Blk} {b : Blk} {st T : St}
    (h : At R Λ cur U st T) (hG : Good (cur ++ [b]) U st) (hR : ∀ r ∈ R', r ∈ R)
    (hb : ∀ L ∈ Λ, b.id ∈ L.B) : At R' Λ (cur ++ [b]) U st T where
  good := hG
  fut := h.fut.mono fun c hc u hu => by
    rcases hc u hu with h | h
    · exact .inl (by simp only [ids, List.map_append]; exact List.mem_append_left _ h)
    · exact .inr h
  cap := h.cap
  chk := fun r hr => h.chk r (hR r hr)
  loops := by
    refine ⟨?_, h.loops.hl, h.loops.hq⟩
    intro L hL
    obtain ⟨e, he, hB⟩ := h.loops.shape L hL
    refine ⟨e ++ [b], by rw [he]; simp, ?_⟩
    intro u hu
    simp only [ids, List.map_append, List.map_cons, List.map_nil, List.mem_cons, List.mem_append,
      List.mem_singleton, List.not_mem_nil, or_false] at hu
    rcases hu with rfl | hu | rfl
    · exact hB _ (by simp)
    · exact hB _ (List.mem_cons_of_mem _ hu)
    · exact hb L hL

theorem At.weaken {R R' U : List Nat} {Λ : List Lop} {cur : List Blk} {st T : St}
    (h : At R Λ cur U st T) (hR : ∀ r ∈ R', r ∈ R) : At R' Λ cur U st T :=
  ⟨h.good, h.fut, h.cap, fun r hr => h.chk r (hR r hr), h.loops⟩

theorem At.mono {R U U' : List Nat} {Λ : List Lop} {cur : List Blk} {st T : St}
    (h : At R Λ cur U st T) (hU : ∀ u, u ∈ U ↔ u ∈ U') : At R Λ cur U' st T :=
  ⟨h.good.mono fun u hu => (hU u).1 hu, h.fut.mono fun c hc u hu => by
    rcases hc u hu with h | h
    · exact .inl h
    · exact .inr fun hm => h ((hU u).2 hm), h.cap, h.chk, h.loops⟩

/-! ## Visiting the parts of a statement -/

/-- The reading occurrences of an expression are visited without error. -/
structure VisR (x : Name) (Λ : List Lop) (cur : List Blk) (U : List Nat) (rs : List Rd) (st T : St) : Prop where
  good : Good cur U st
  rn : (rs.map Rd.id).Nodup
  chk0 : ∀ r ∈ rs, st.chk r.id = false
  err : (visitReads x cur rs st).err = false
  fin : At (rs.map Rd.id) Λ cur U (visitReads x cur rs st) T

theorem VisR.res {x : Name} {Λ : List Lop} {cur : List Blk} {U : List Nat} {rs : List Rd} {st T : St}
    (h : VisR x Λ cur U rs st T) :
    Res cur [] [] (rs.map Rd.id) U st (visitReads x cur rs st) := (res_reads x rs h.good h.err).1

theorem VisR.at0 {x : Name} {Λ : List Lop} {cur : List Blk} {U : List Nat} {rs : List Rd} {st T : St}
    (h : VisR x Λ cur U rs st T) : At [] Λ cur U st T :=
  At.back (B := []) h.fin h.res h.good (by simp) (by simp)

/-- The statement `s` is visited without error. -/
structure Vis {V : Type} (x : Name) (Λ : List Lop) (cur : List Blk) (U : List Nat) (s : Stmt V) (st T : St) :
    Prop where
  plain : plain s = true
  good : Good cur U st
  bn : (blocks s).Nodup
  bU : ∀ b ∈ blocks s, b ∉ U
  sn : (sites x s).Nodup
  sfr : ∀ i ∈ sites x s, Bnd.site i ∉ allG (grp st.items)
  rn : (reads s).Nodup
  chk0 : ∀ r ∈ reads s, st.chk r = false
  err : (visit x cur s st).err = false
  lb : ∀ L ∈ Λ, ∀ u ∈ blocks s, u ∈ L.B
  fin : At (reads s) Λ cur (blocks s ++ U) (visit x cur s st) T

section
variable {V : Type} {x : Name} {Λ : List Lop} {cur : List Blk} {U : List Nat} {st T : St}

theorem Vis.res {s : Stmt V} (h : Vis x Λ cur U s st T) :
    Res cur (blocks s) (sites x s) (reads s) U st (visit x cur s st) :=
  visit_spec x s cur U st h.plain h.good h.bn h.bU h.sn h.sfr h.err

theorem Vis.at0 {s : Stmt V} (h : Vis x Λ cur U s st T) : At [] Λ cur U st T :=
  h.fin.back h.res h.good h.bU (by simp)

theorem Vis.out {rs : List Rd} {f : List V → Option V} (h : Vis x Λ cur U (.out rs f) st T) :
    VisR x Λ cur U rs st T :=
  ⟨h.good, h.rn, fun r hr => h.chk0 _ (List.mem_map_of_mem hr), h.err, h.fin⟩

theorem Vis.ret {rs : List Rd} {f : List V → Option V} (h : Vis x Λ cur U (.ret rs f) st T) :
    VisR x Λ cur U rs st T :=
  ⟨h.good, h.rn, fun r hr => h.chk0 _ (List.mem_map_of_mem hr), h.err, h.fin⟩

/-- An assignment to another name. -/
theorem Vis.asg_ne {i : Nat} {y : Name} {rs : List Rd} {f : List V → Option V} (hy : y ≠ x)
    (h : Vis x Λ cur U (.asg i y rs f) st T) : VisR x Λ cur U rs st T := by
  have e := h.err
  have g := h.fin
  simp only [visit, if_neg hy] at e g
  exact ⟨h.good, h.rn, fun r hr => h.chk0 _ (List.mem_map_of_mem hr), e, g⟩

/-- An assignment to the name. -/
theorem Vis.asg_eq {i : Nat} {rs : List Rd} {f : List V → Option V}
    (h : Vis x Λ cur U (.asg i x rs f) st T) : VisR x Λ cur U rs st T ∧
      Bnd.site i ∉ allG (grp (visitReads x cur rs st).items) ∧
      At [] Λ cur U (visitAdd cur i (visitReads x cur rs st)) T ∧
      (visitAdd cur i (visitReads x cur rs st)).err = false := by
  have e := h.err
  have g := h.fin
  have fr := h.sfr
  simp only [visit, if_true] at e g
  simp only [sites, if_true] at fr
  have he1 := err_false (visitAdd_err cur i _) e
  have h1 := (res_reads x rs h.good he1).1
  have hi : Bnd.site i ∉ allG (grp (visitReads x cur rs st).items) := by
    intro hm
    rcases h1.only i hm with hm | hm
    · exact fr i (by simp) hm
    · simp at hm
  have h2 := (res_add i h1.good hi e).1
  refine ⟨⟨h.good, h.rn, fun r hr => h.chk0 _ (List.mem_map_of_mem hr), he1, ?_⟩, hi,
    g.weaken (by simp), e⟩
  exact At.back (B := []) g h2 h1.good (by simp) (fun r hr => ⟨hr, by simp⟩)

theorem Vis.seq {s t : Stmt V} (h : Vis x Λ cur U (.seq s t) st T) :
    Vis x Λ cur U s st T ∧ Vis x Λ cur (blocks s ++ U) t (visit x cur s st) T := by
  obtain ⟨hp, hG, hb, hbU, hs, hfr, hr, hc, he, hlb, hf⟩ := h
  simp only [Scope.plain, Bool.and_eq_true] at hp
  simp only [visit] at he hf
  simp only [blocks, sites, reads] at hb hbU hs hfr hr hc hf
  have he1 := err_false (visit_err x t cur _) he
  rw [List.nodup_append] at hb hs hr
  have h1 := visit_spec x s cur U st hp.1 hG hb.1 (fun b h => hbU b (by simp [h])) hs.1
      (fun i h => hfr i (by simp [h])) he1
  have d1 : ∀ b ∈ blocks t, b ∉ blocks s ++ U := by
    intro b hbt hm
    rcases List.mem_append.1 hm with hm | hm
    · exact hb.2.2 b hm b hbt rfl
    · exact hbU b (by simp [hbt]) hm
  have d2 : ∀ i ∈ sites x t, Bnd.site i ∉ allG (grp (visit x cur s st).items) := by
    intro i hi hm
    rcases h1.only i hm with hm | hm
    · exact hfr i (by simp [hi]) hm
    · exact hs.2.2 i hm i hi rfl
  have h2 := visit_spec x t cur _ _ hp.2 h1.good hb.2.1 d1 hs.2.1 d2 he
  have hf' : At (reads s ++ reads t) Λ cur (blocks t ++ (blocks s ++ U))
      (visit x cur t (visit x cur s st)) T := hf.mono (by
    intro u; simp only [List.mem_append]
    constructor
    · rintro ((h | h) | h)
      · exact .inr (.inl h)
      · exact .inl h
      · exact .inr (.inr h)
    · rintro (h | h | h)
      · exact .inl (.inr h)
      · exact .inl (.inl h)
      · exact .inr h)
  refine ⟨⟨hp.1, hG, hb.1, fun b h => hbU b (by simp [h]), hs.1, fun i h => hfr i (by simp [h]),
    hr.1, fun r h => hc r (by simp [h]), he1, fun L hL u hu => hlb L hL u (by simp [blocks, hu]),
    ?_⟩, ⟨hp.2, h1.good, hb.2.1, d1, hs.2.1, d2, hr.2.1,
    ?_, he, fun L hL u hu => hlb L hL u (by simp [blocks, hu]), hf'.weaken fun r h => by simp [h]⟩⟩
  · exact hf'.back h2 h1.good d1 fun r h => ⟨by simp [h], fun hm => hr.2.2 r h r hm rfl⟩
  · intro r h
    rw [h1.chk r fun hm => hr.2.2 r hm r h rfl]
    exact hc r (by simp [h])

/-- A block: from the visit inside to the visit outside. -/
theorem Vis.block {s : Stmt V} {b : Nat} {l : Bool} (hp : Scope.plain s = true)
    (hG : Good cur U st)
    (hb : b ∉ U) (hbs : b ∉ blocks s) (hn : (blocks s).Nodup) (hbU : ∀ c ∈ blocks s, c ∉ U)
    (hs : (sites x s).Nodup) (hfr : ∀ i ∈ sites x s, Bnd.site i ∉ allG (grp st.items))
    (hr : (reads s).Nodup) (hc : ∀ r ∈ reads s, st.chk r = false)
    (he : (visit x (cur ++ [⟨b, true, l⟩]) s st).err = false) {R : List Nat}
    (hR : ∀ r ∈ reads s, r ∈ R) (hlb : ∀ L ∈ Λ, ∀ u ∈ b :: blocks s, u ∈ L.B)
    (hf : At R Λ cur (b :: blocks s ++ U) (visit x (cur ++ [⟨b, true, l⟩]) s st) T) :
    Vis x Λ (cur ++ [⟨b, true, l⟩]) (b :: U) s st T := by
  have d : ∀ c ∈ blocks s, c ∉ b :: U := by
    intro c hc hm
    rcases List.mem_cons.1 hm with rfl | hm
    · exact hbs hc
    · exact hbU c hc hm
  have hG' := hG.enter l hb
  have h1 := visit_spec x s _ _ st hp hG' hn d hs hfr he
  refine ⟨hp, hG', hn, d, hs, hfr, hr, hc, he,
    fun L hL u hu => hlb L hL u (List.mem_cons_of_mem _ hu), ?_⟩
  refine At.inside (hf.mono ?_) h1.good hR fun L hL => hlb L hL b (by simp)
  intro u
  simp only [List.cons_append, List.mem_cons, List.mem_append]
  constructor
  · rintro (h | h | h)
    · exact .inr (.inl h)
    · exact .inl h
    · exact .inr (.inr h)
  · rintro (h | h | h)
    · exact .inr (.inl h)
    · exact .inl h
    · exact .inr (.inr h)

/-- Two blocks one after the other, as in `if` and `try`. -/
theorem Vis.two {s₁ s₂ : Stmt V} {b₁ b₂ : Nat} (hp1 : Scope.plain s₁ = true)
    (hp2 : Scope.plain s₂ = true)
    (hG : Good cur U st) (hb : (b₁ :: blocks s₁ ++ b₂ :: blocks s₂).Nodup)
    (hbU : ∀ c ∈ b₁ :: blocks s₁ ++ b₂ :: blocks s₂, c ∉ U)
    (hs : (sites x s₁ ++ sites x s₂).Nodup)
    (hfr : ∀ i ∈ sites x s₁ ++ sites x s₂, Bnd.site i ∉ allG (grp st.items))
    (hr : (reads s₁ ++ reads s₂).Nodup) (hc : ∀ r ∈ reads s₁ ++ reads s₂, st.chk r = false)
    (he : (visit x (cur ++ [⟨b₂, true, false⟩]) s₂
      (visit x (cur ++ [⟨b₁, true, false⟩]) s₁ st)).err = false)
    {R : List Nat} (hR : ∀ r ∈ reads s₁ ++ reads s₂, r ∈ R)
    (hlb : ∀ L ∈ Λ, ∀ u ∈ b₁ :: blocks s₁ ++ b₂ :: blocks s₂, u ∈ L.B)
    (hf : At R Λ cur (b₁ :: blocks s₁ ++ b₂ :: blocks s₂ ++ U) (visit x (cur ++ [⟨b₂, true, false⟩]) s₂
      (visit x (cur ++ [⟨b₁, true, false⟩]) s₁ st)) T) :
    Vis x Λ (cur ++ [⟨b₁, true, false⟩]) (b₁ :: U) s₁ st T ∧
    Vis x Λ (cur ++ [⟨b₂, true, false⟩]) (b₂ :: (b₁ :: blocks s₁ ++ U)) s₂
      (visit x (cur ++ [⟨b₁, true, false⟩]) s₁ st) T ∧
    Res cur (b₁ :: blocks s₁) (sites x s₁) (reads s₁) U st
      (visit x (cur ++ [⟨b₁, true, false⟩]) s₁ st) := by
  have he1 := err_false (visit_err x s₂ _ _) he
  rw [List.nodup_append] at hs hr
  rw [List.cons_append, List.nodup_cons, List.nodup_append, List.nodup_cons] at hb
  obtain ⟨hb1, hb2, ⟨hb3, hb4⟩, hb5⟩ := hb
  have d1 : ∀ c ∈ blocks s₁, c ∉ b₁ :: U := by
    intro c h hm
    rcases List.mem_cons.1 hm with rfl | hm
    · exact hb1 (by simp [h])
    · exact hbU c (by simp [h]) hm
  have r1 := (visit_spec x s₁ _ _ st hp1 (hG.enter false (hbU b₁ (by simp))) hb2 d1 hs.1
    (fun i h hm => hfr i (by simp [h]) hm) he1).enter hG
  have hb₂ : b₂ ∉ b₁ :: blocks s₁ ++ U := by
    intro hm
    rcases List.mem_append.1 hm with hm | hm
    · rcases List.mem_cons.1 hm with rfl | hm
      · exact hb1 (by simp)
      · exact hb5 _ hm b₂ (by simp) rfl
    · exact hbU b₂ (by simp) hm
  have d2 : ∀ c ∈ blocks s₂, c ∉ b₁ :: blocks s₁ ++ U := by
    intro c h hm
    rcases List.mem_append.1 hm with hm | hm
    · rcases List.mem_cons.1 hm with rfl | hm
      · exact hb1 (by simp [h])
      · exact hb5 _ hm c (by simp [h]) rfl
    · exact hbU c (by simp [h]) hm
  have f2 : ∀ i ∈ sites x s₂,
      Bnd.site i ∉ allG (grp (visit x (cur ++ [⟨b₁, true, false⟩]) s₁ st).items) := by
    intro i h hm
    rcases r1.only i hm with hm | hm
    · exact hfr i (by simp [h]) hm
    · exact hs.2.2 i hm i h rfl
  have c2 : ∀ r ∈ reads s₂, (visit x (cur ++ [⟨b₁, true, false⟩]) s₁ st).chk r = false := by
    intro r h
    rw [r1.chk r fun hm => hr.2.2 r hm r h rfl]
    exact hc r (by simp [h])
  have hf' : At R Λ cur (b₂ :: blocks s₂ ++ (b₁ :: blocks s₁ ++ U))
      (visit x (cur ++ [⟨b₂, true, false⟩]) s₂
        (visit x (cur ++ [⟨b₁, true, false⟩]) s₁ st)) T := hf.mono (by
    intro u
    simp only [List.cons_append, List.mem_cons, List.mem_append]
    constructor
    · rintro (h | (h | h | h) | h) <;> simp [h]
    · rintro (h | h | h | h | h) <;> simp [h])
  have v2 : Vis x Λ (cur ++ [⟨b₂, true, false⟩]) (b₂ :: (b₁ :: blocks s₁ ++ U)) s₂
      (visit x (cur ++ [⟨b₁, true, false⟩]) s₁ st) T :=
    Vis.block hp2 r1.good hb₂ hb3 hb4 d2 hs.2.1 f2 hr.2.1 c2 he
      (fun r h => hR r (by simp [h]))
      (fun L hL u hu => hlb L hL u (List.mem_append_right _ hu)) hf'
  have r2 := v2.res.enter hG
  have hf1 : At (reads s₁) Λ cur (b₁ :: blocks s₁ ++ U)
      (visit x (cur ++ [⟨b₁, true, false⟩]) s₁ st) T := by
    refine At.back hf' r2 r1.good ?_ ?_
    · intro u hu
      rcases List.mem_cons.1 hu with rfl | hu
      · exact hb₂
      · exact d2 u hu
    · intro r h
      exact ⟨hR r (by simp [h]), fun hm => hr.2.2 r h r hm rfl⟩
  have v1 : Vis x Λ (cur ++ [⟨b₁, true, false⟩]) (b₁ :: U) s₁ st T :=
    Vis.block hp1 hG (hbU b₁ (by simp)) (fun h => hb1 (by simp [h])) hb2
      (fun c h => hbU c (by simp [h])) hs.1 (fun i h => hfr i (by simp [h])) hr.1
      (fun r h => hc r (by simp [h])) he1 (fun r h => h)
      (fun L hL u hu => hlb L hL u (List.mem_append_left _ hu)) hf1
  exact ⟨v1, v2, r1⟩

theorem Vis.ite {k : Bool} {rs : List Rd} {p : List V → Option Bool} {b₁ b₂ : Nat}
    {s₁ s₂ : Stmt V} (h : Vis x Λ cur U (.ite k rs p b₁ s₁ b₂ s₂) st T) :
    VisR x Λ cur U rs st T ∧
    Vis x Λ (cur ++ [⟨b₁, true, false⟩]) (b₁ :: U) s₁ (visitReads x cur rs st) T ∧
    Vis x Λ (cur ++ [⟨b₂, true, false⟩]) (b₂ :: (b₁ :: blocks s₁ ++ U)) s₂
      (visit x (cur ++ [⟨b₁, true, false⟩]) s₁ (visitReads x cur rs st)) T ∧ k = true := by
  obtain ⟨hp, hG, hb, hbU, hs, hfr, hr, hc, he, hlb, hf⟩ := h
  simp only [Scope.plain, Bool.and_eq_true] at hp
  obtain ⟨⟨rfl, hp1⟩, hp2⟩ := hp
  simp only [visit] at he hf
  simp only [blocks, sites, reads] at hb hbU hs hfr hr hc hf
  have he2 := err_false (visit_err x s₂ _ _) he
  have he1 := err_false (visit_err x s₁ _ _) he2
  have h0 := (res_reads x rs hG he1).1
  rw [List.append_assoc, List.nodup_append] at hr
  have fr : ∀ i ∈ sites x s₁ ++ sites x s₂,
      Bnd.site i ∉ allG (grp (visitReads x cur rs st).items) := by
    intro i h hm
    rcases h0.only i hm with hm | hm
    · exact hfr i h hm
    · simp at hm
  obtain ⟨v1, v2, r1⟩ := Vis.two hp1 hp2 h0.good hb hbU hs fr hr.2.1
    (fun r h => by
      rw [h0.chk r fun hm => hr.2.2 r hm r h rfl]
      exact hc r (by simpa [or_assoc] using Or.inr h)) he
    (fun r h => by rw [List.append_assoc]; exact List.mem_append_right _ h) hlb hf
  refine ⟨⟨hG, hr.1, fun r h => hc r.id (by simp [List.mem_map_of_mem h]), he1, ?_⟩, v1, v2, rfl⟩
  have r2 := v2.res.enter hG
  have r12 := r1.trans r2
  exact At.back hf (r12.cast rfl rfl rfl) h0.good hbU
    (fun r h => ⟨by simp [h], fun hm => hr.2.2 r h r hm rfl⟩)

theorem Vis.try_ {b₁ b₂ : Nat} {s₁ s₂ : Stmt V} (h : Vis x Λ cur U (.try_ b₁ s₁ b₂ s₂) st T) :
    Vis x Λ (cur ++ [⟨b₁, true, false⟩]) (b₁ :: U) s₁ st T ∧
    Vis x Λ (cur ++ [⟨b₂, true, false⟩]) (b₂ :: (b₁ :: blocks s₁ ++ U)) s₂
      (visit x (cur ++ [⟨b₁, true, false⟩]) s₁ st) T := by
  obtain ⟨hp, hG, hb, hbU, hs, hfr, hr, hc, he, hlb, hf⟩ := h
  simp only [Scope.plain, Bool.and_eq_true] at hp
  simp only [visit] at he hf
  simp only [blocks, sites, reads] at hb hbU hs hfr hr hc hf
  obtain ⟨v1, v2, _⟩ := Vis.two hp.1 hp.2 hG hb hbU hs hfr hr hc he (fun r h => h) hlb hf
  exact ⟨v1, v2⟩

end

end Verif.Scope
