import Verif.Demote.Lemmas

namespace Codon.Demote

theorem Good.not_reaches {P : Prog} {x f : Nat} (h : Good P x f) : ¬ Reaches P f f := by
  rcases h with ⟨rfl, h⟩ | ⟨h, -⟩
  · intro hr
    cases hr with
    | single h' => exact h _ h'
    | tail _ h' => exact h _ h'
  · exact h

/-- The statement is part of the function. -/
def Belongs (P : Prog) (f : Nat) (s : Stmt) : Prop :=
  (∀ x ∈ used s, x ∈ used (P.func f).body) ∧ ∀ g ∈ callees s, Calls P f g

theorem Belongs.self (P : Prog) (f : Nat) : Belongs P f (P.func f).body := ⟨fun _ h => h, fun _ h => h⟩
theorem Belongs.seq {P f a b} (h : Belongs P f (.seq a b)) : Belongs P f a ∧ Belongs P f b :=
  ⟨⟨fun x hx => h.1 x (by simp [used, hx]), fun x hx => h.2 x (by simp [callees, hx])⟩,
   ⟨fun x hx => h.1 x (by simp [used, hx]), fun x hx => h.2 x (by simp [callees, hx])⟩⟩
theorem Belongs.ite {P f c a b} (h : Belongs P f (.ite c a b)) : Belongs P f a ∧ Belongs P f b :=
  ⟨⟨fun x hx => h.1 x (by simp [used, hx]), fun x hx => h.2 x (by simp [callees, hx])⟩,
   ⟨fun x hx => h.1 x (by simp [used, hx]), fun x hx => h.2 x (by simp [callees, hx])⟩⟩
theorem Belongs.loop {P f c a} (h : Belongs P f (.loop c a)) : Belongs P f a :=
  ⟨fun x hx => h.1 x (by simp [used, hx]), fun x hx => h.2 x (by simp [callees, hx])⟩

theorem owner_fun {P : Prog} (hok : Ok P) {x f g : Nat} (ho : owner P x = some g) (hf : f < P.count)
    (hx : x ∈ used (P.func f).body) : g = f :=
  (((owner_iff P hok.main x g).mp ho).2.2.2.2.2 f hf hx).symm

theorem owner_global {P : Prog} (hok : Ok P) {x g : Nat} (ho : owner P x = some g) : P.isGlobal x = true :=
  ((owner_iff P hok.main x g).mp ho).1

/-- Functions from which `f` cannot be reached leave the variables of `f` alone. -/
theorem keep {P : Prog} (hok : Ok P) (op : Nat → List Nat → Nat) {x f : Nat} (ho : owner P x = some f) :
    ∀ (n h : Nat) (s : Stmt) (st : St) (r : Res) (t : St), h < P.count → h ≠ f → ¬ Reaches P h f → Belongs P h s →
    exec P op n s st = some (r, t) → t.glob x = st.glob x
  | 0, _, _, _, _, _, _, _, _, _, he => by simp [exec] at he
  | n + 1, h, s, st, r, t, hc, hne, hr, hb, he => by
    have hw : ∀ (y v : Nat) (st : St), y ∈ used s → (write P st y v).glob x = st.glob x := by
      intro y v st hy
      have : x ≠ y := by
        rintro rfl
        exact hne (owner_fun hok ho hc (hb.1 _ hy)).symm
      unfold write
      split
      · simp [upd, this]
      · rfl
    cases s with
    | skip => simp only [exec, Option.some.injEq, Prod.mk.injEq] at he; rw [← he.2]
    | assign y o args =>
      simp only [exec] at he
      rcases hv : readAll P st args with _ | vs
      · simp only [hv, Option.some.injEq, Prod.mk.injEq] at he; rw [← he.2]
      · simp only [hv, Option.some.injEq, Prod.mk.injEq] at he; rw [← he.2]; exact hw _ _ _ (by simp [used])
    | emit args =>
      simp only [exec] at he
      rcases hv : readAll P st args with _ | vs
      · simp only [hv, Option.some.injEq, Prod.mk.injEq] at he; rw [← he.2]
      · simp only [hv, Option.some.injEq, Prod.mk.injEq] at he; rw [← he.2]
    | call y g args =>
      simp only [exec] at he
      rcases hv : readAll P st args with _ | vs
      · simp only [hv, Option.some.injEq, Prod.mk.injEq] at he; rw [← he.2]
      · simp only [hv] at he
        have hcg : Calls P h g := hb.2 g (by simp [callees])
        rcases hx : exec P op n (P.func g).body { st with loc := frame (P.func g).params vs } with _ | ⟨r1, t1⟩
        · simp [hx] at he
        · have ih := keep hok op ho n g _ _ r1 t1 (hok.closed _ _ hcg)
            (fun e => hr (e ▸ Relation.TransGen.single hcg))
            (fun e => hr (Relation.TransGen.head hcg e)) (Belongs.self P g) hx
          simp only [hx] at he
          rcases hrv : r1.value with _ | v
          · simp only [hrv, Option.some.injEq, Prod.mk.injEq] at he; rw [← he.2]; exact ih
          · simp only [hrv, Option.some.injEq, Prod.mk.injEq] at he
            rw [← he.2, hw _ _ _ (by simp [used])]; exact ih
    | seq a b =>
      simp only [exec] at he
      rcases hx : exec P op n a st with _ | ⟨r1, t1⟩
      · simp [hx] at he
      · have ih := keep hok op ho n h a st r1 t1 hc hne hr hb.seq.1 hx
        simp only [hx] at he
        cases r1 with
        | normal =>
          simp only [] at he
          exact (keep hok op ho n h b t1 r t hc hne hr hb.seq.2 he).trans ih
        | ret v => simp only [Option.some.injEq, Prod.mk.injEq] at he; rw [← he.2]; exact ih
        | unset => simp only [Option.some.injEq, Prod.mk.injEq] at he; rw [← he.2]; exact ih
    | ite c a b =>
      simp only [exec] at he
      rcases hv : read P st c with _ | v
      · simp only [hv, Option.some.injEq, Prod.mk.injEq] at he; rw [← he.2]
      · simp only [hv] at he
        by_cases h0 : v ≠ 0
        · rw [if_pos h0] at he; exact keep hok op ho n h a st r t hc hne hr hb.ite.1 he
        · rw [if_neg h0] at he; exact keep hok op ho n h b st r t hc hne hr hb.ite.2 he
    | loop c a =>
      simp only [exec] at he
      rcases hv : read P st c with _ | v
      · simp only [hv, Option.some.injEq, Prod.mk.injEq] at he; rw [← he.2]
      · simp only [hv] at he
        by_cases h0 : v ≠ 0
        · rw [if_pos h0] at he
          rcases hx : exec P op n a st with _ | ⟨r1, t1⟩
          · simp [hx] at he
          · have ih := keep hok op ho n h a st r1 t1 hc hne hr hb.loop hx
            simp only [hx] at he
            cases r1 with
            | normal =>
              simp only [] at he
              exact (keep hok op ho n h (.loop c a) t1 r t hc hne hr hb he).trans ih
            | ret v => simp only [Option.some.injEq, Prod.mk.injEq] at he; rw [← he.2]; exact ih
            | unset => simp only [Option.some.injEq, Prod.mk.injEq] at he; rw [← he.2]; exact ih
        · rw [if_neg h0] at he
          simp only [Option.some.injEq, Prod.mk.injEq] at he; rw [← he.2]
    | ret y =>
      simp only [exec] at he
      rcases hv : read P st y with _ | v
      · simp only [hv, Option.some.injEq, Prod.mk.injEq] at he; rw [← he.2]
      · simp only [hv, Option.some.injEq, Prod.mk.injEq] at he; rw [← he.2]

/-! ## Definite assignment -/

theorem assigned_mono (x : Nat) : ∀ (s : Stmt) (b b' : Bool), assigned x b s = some b' → b = true → b' = true := by
  intro s
  induction s with
  | skip => intro b b' h hb; simp_all [assigned]
  | assign y o args => intro b b' h hb; subst hb; simp [assigned] at h; exact h
  | emit args => intro b b' h hb; subst hb; simp [assigned] at h; exact h
  | call y f args => intro b b' h hb; subst hb; simp [assigned] at h; exact h
  | seq s t ih1 ih2 =>
    intro b b' h hb
    simp only [assigned] at h
    rcases h1 : assigned x b s with _ | b1
    · simp [h1] at h
    · simp only [h1] at h; exact ih2 _ _ h (ih1 _ _ h1 hb)
  | ite c s t ih1 ih2 =>
    intro b b' h hb
    simp only [assigned] at h
    rw [if_neg (by simp [hb])] at h
    rcases h1 : assigned x b s with _ | b1
    · simp [h1] at h
    · rcases h2 : assigned x b t with _ | b2
      · simp [h1, h2] at h
      · simp only [h1, h2, Option.some.injEq] at h
        rw [← h, ih1 _ _ h1 hb, ih2 _ _ h2 hb]; rfl
  | loop c s ih =>
    intro b b' h hb
    simp only [assigned] at h
    rw [if_neg (by simp [hb])] at h
    rcases h1 : assigned x b s with _ | b1
    · simp [h1] at h
    · simp only [h1, Option.some.injEq] at h; rw [← h]; exact hb
  | ret y => intro b b' h hb; subst hb; simp [assigned] at h; exact h

theorem assigned_true (x : Nat) : ∀ s : Stmt, assigned x true s = some true := by
  intro s
  induction s with
  | skip => rfl
  | assign y o args => simp [assigned]
  | emit args => simp [assigned]
  | call y f args => simp [assigned]
  | seq s t ih1 ih2 => simp [assigned, ih1, ih2]
  | ite c s t ih1 ih2 => simp [assigned, ih1, ih2]
  | loop c s ih => simp [assigned, ih]
  | ret y => simp [assigned]

/-! ## Simulation -/

/-- The states of the two programs inside a call of `f`, where `k` tells which variables moved to `f` have a value. -/
structure Rel (P : Prog) (f : Nat) (k : Nat → Bool) (st st' : St) : Prop where
  out : st.out = st'.out
  glob : ∀ x, P.isGlobal x = true → owner P x = none → st.glob x = st'.glob x
  loc : ∀ x, P.isGlobal x = false → st.loc x = st'.loc x
  moved : ∀ x, owner P x = some f → k x = true → st.glob x = st'.loc x

theorem Rel.weaken {P f k k' st st'} (h : Rel P f k st st') (hk : ∀ x, owner P x = some f → k' x = true → k x = true) :
    Rel P f k' st st' := ⟨h.out, h.glob, h.loc, fun x hx hx' => h.moved x hx (hk x hx hx')⟩

theorem Rel.read {P : Prog} (hok : Ok P) {f k st st'} (h : Rel P f k st st') (hf : f < P.count) {x : Nat}
    (hx : x ∈ used (P.func f).body) (hk : owner P x = some f → k x = true) : read P st x = read (demote P) st' x := by
  have hd : (demote P).isGlobal x = (P.isGlobal x && (owner P x).isNone) := rfl
  unfold Demote.read
  rw [hd]
  by_cases hg : P.isGlobal x = true
  · rw [if_pos hg]
    rcases ho : owner P x with _ | g
    · rw [if_pos (by simp [hg])]; exact h.glob x hg ho
    · obtain rfl := owner_fun hok ho hf hx
      rw [if_neg (by simp)]
      exact h.moved x ho (hk ho)
  · rw [if_neg hg, if_neg (by simp [hg])]
    exact h.loc x (by simpa using hg)

theorem Rel.readAll {P : Prog} (hok : Ok P) {f k st st'} (h : Rel P f k st st') (hf : f < P.count) : ∀ (l : List Nat),
    (∀ x ∈ l, x ∈ used (P.func f).body) → (∀ x ∈ l, owner P x = some f → k x = true) →
    readAll P st l = readAll (demote P) st' l
  | [], _, _ => rfl
  | x :: l, h1, h2 => by
    simp only [Demote.readAll]
    rw [h.read hok hf (h1 x (by simp)) (h2 x (by simp)),
      h.readAll hok hf l (fun y hy => h1 y (by simp [hy])) (fun y hy => h2 y (by simp [hy]))]

theorem Rel.write {P : Prog} (hok : Ok P) {f k st st'} (h : Rel P f k st st') (hf : f < P.count) {x : Nat}
    (hx : x ∈ used (P.func f).body) (v : Nat) :
    Rel P f (fun y => k y || x == y) (write P st x v) (write (demote P) st' x v) := by
  have hd : (demote P).isGlobal x = (P.isGlobal x && (owner P x).isNone) := rfl
  rcases hg : P.isGlobal x with _ | _
  · rw [hg, Bool.false_and] at hd
    simp only [Demote.write, hg, hd, Bool.false_eq_true, if_false]
    refine ⟨h.out, h.glob, fun y hy => ?_, fun y hy hk => ?_⟩
    · simp only [upd]; split
      · rfl
      · exact h.loc y hy
    · have : x ≠ y := by rintro rfl; rw [owner_global hok hy] at hg; cases hg
      have e : k y = true := by simpa [this] using hk
      simp only [upd, Ne.symm this, if_false]
      exact h.moved y hy e
  · rcases ho : owner P x with _ | g
    · rw [hg, ho] at hd
      have hd : (demote P).isGlobal x = true := hd
      simp only [Demote.write, hg, hd, if_true]
      refine ⟨h.out, fun y hy hy' => ?_, h.loc, fun y hy hk => ?_⟩
      · simp only [upd]; split
        · rfl
        · exact h.glob y hy hy'
      · have : x ≠ y := by rintro rfl; rw [hy] at ho; cases ho
        have e : k y = true := by simpa [this] using hk
        simp only [upd, Ne.symm this, if_false]
        exact h.moved y hy e
    · obtain rfl := owner_fun hok ho hf hx
      rw [hg, ho] at hd
      have hd : (demote P).isGlobal x = false := hd
      simp only [Demote.write, hg, hd, if_true, Bool.false_eq_true, if_false]
      refine ⟨h.out, fun y hy hy' => ?_, fun y hy => ?_, fun y hy hk => ?_⟩
      · have : y ≠ x := by rintro rfl; rw [ho] at hy'; cases hy'
        simp only [upd, this, if_false]; exact h.glob y hy hy'
      · have : y ≠ x := by rintro rfl; rw [hg] at hy; cases hy
        simp only [upd, this, if_false]; exact h.loc y hy
      · by_cases hxy : y = x
        · simp [upd, hxy]
        · have e : k y = true := by simpa [Ne.symm hxy] using hk
          simp only [upd, hxy, if_false]; exact h.moved y hy e

/-- The results of the two programs. -/
def SimR (P : Prog) (f : Nat) (k : Nat → Bool) (a b : Option (Res × St)) : Prop :=
  (a = none ∧ b = none) ∨
  ∃ r t t', a = some (r, t) ∧ b = some (r, t') ∧ Rel P f (if r = .normal then k else fun _ => false) t t'

theorem SimR.stuck {P f k r st st' k0} (h : Rel P f k0 st st') (hr : r ≠ .normal) :
    SimR P f k (some (r, st)) (some (r, st')) :=
  Or.inr ⟨r, st, st', rfl, rfl, by rw [if_neg hr]; exact h.weaken (by simp)⟩

theorem SimR.normal {P f k st st'} (h : Rel P f k st st') :
    SimR P f k (some (.normal, st)) (some (.normal, st')) := Or.inr ⟨_, st, st', rfl, rfl, by simpa using h⟩

theorem sim {P : Prog} (hok : Ok P) (hg : ∀ x f, owner P x = some f → Good P x f) (op : Nat → List Nat → Nat) :
    ∀ (n f : Nat) (s : Stmt) (k k' : Nat → Bool) (st st' : St), f < P.count → Belongs P f s →
    (∀ x, owner P x = some f → assigned x (k x) s = some (k' x)) → Rel P f k st st' →
    SimR P f k' (exec P op n s st) (exec (demote P) op n s st')
  | 0, _, _, _, _, _, _, _, _, _, _ => Or.inl ⟨by simp [exec], by simp [exec]⟩
  | n + 1, f, s, k, k', st, st', hf, hb, ha, hR => by
    cases s with
    | skip =>
      simp only [exec]
      refine SimR.normal (hR.weaken fun x hx => ?_)
      have := ha x hx
      simp only [assigned, Option.some.injEq] at this
      rw [this]; exact id
    | assign y o args =>
      have hk : ∀ x ∈ args, owner P x = some f → k x = true := by
        intro x hx ho
        have := ha x ho
        simp only [assigned] at this
        by_cases hc : x ∈ args ∧ k x = false
        · rw [if_pos hc] at this; cases this
        · simpa [hx] using hc
      have e := hR.readAll hok hf args (fun x hx => hb.1 x (by simp [used, hx])) hk
      simp only [exec, ← e]
      rcases readAll P st args with _ | vs
      · exact SimR.stuck hR (by simp)
      · refine SimR.normal ((hR.write hok hf (hb.1 y (by simp [used])) _).weaken fun x hx hx' => ?_)
        have := ha x hx
        simp only [assigned] at this
        by_cases hc : x ∈ args ∧ k x = false
        · rw [if_pos hc] at this; cases this
        · rw [if_neg hc] at this
          simp only [Option.some.injEq] at this
          rw [this]; exact hx'
    | emit args =>
      have hk : ∀ x ∈ args, owner P x = some f → k x = true := by
        intro x hx ho
        have := ha x ho
        simp only [assigned] at this
        by_cases hc : x ∈ args ∧ k x = false
        · rw [if_pos hc] at this; cases this
        · simpa [hx] using hc
      have e := hR.readAll hok hf args (fun x hx => hb.1 x (by simp [used, hx])) hk
      simp only [exec, ← e]
      rcases readAll P st args with _ | vs
      · exact SimR.stuck hR (by simp)
      · have hR' : Rel P f k { st with out := st.out ++ [vs] } { st' with out := st'.out ++ [vs] } :=
          ⟨by simp [hR.out], hR.glob, hR.loc, hR.moved⟩
        refine SimR.normal (hR'.weaken fun x hx hx' => ?_)
        have := ha x hx
        simp only [assigned] at this
        by_cases hc : x ∈ args ∧ k x = false
        · rw [if_pos hc] at this; cases this
        · rw [if_neg hc] at this
          simp only [Option.some.injEq] at this
          rw [this]; exact hx'
    | call y g args =>
      have hk : ∀ x ∈ args, owner P x = some f → k x = true := by
        intro x hx ho
        have := ha x ho
        simp only [assigned] at this
        by_cases hc : x ∈ args ∧ k x = false
        · rw [if_pos hc] at this; cases this
        · simpa [hx] using hc
      have e := hR.readAll hok hf args (fun x hx => hb.1 x (by simp [used, hx])) hk
      simp only [exec, ← e]
      have hcg : Calls P f g := hb.2 g (by simp [callees])
      rcases readAll P st args with _ | vs
      · exact SimR.stuck hR (by simp)
      · have ih := sim hok hg op n g (P.func g).body (fun _ => false)
          (fun x => (assigned x false (P.func g).body).getD false)
          { st with loc := frame (P.func g).params vs } { st' with loc := frame (P.func g).params vs }
          (hok.closed _ _ hcg) (Belongs.self P g) (fun x hx => ?_)
          ⟨hR.out, hR.glob, fun _ _ => rfl, fun _ _ h => by cases h⟩
        · rcases ih with ⟨e1, e2⟩ | ⟨r, t, t', e1, e2, hR'⟩
          · simp only [e1]
            rw [show (demote P).func g = P.func g from rfl, e2]
            exact Or.inl ⟨rfl, rfl⟩
          · simp only [e1]
            rw [show (demote P).func g = P.func g from rfl, e2]
            simp only []
            have hR2 : Rel P f k { t with loc := st.loc } { t' with loc := st'.loc } := by
              refine ⟨hR'.out, hR'.glob, hR.loc, fun x hx hkx => ?_⟩
              have hnr := (hg x f hx).not_reaches
              have hkeep := keep hok op hx n g _ _ r t (hok.closed _ _ hcg)
                (fun e => hnr (Relation.TransGen.single (by rw [e] at hcg; exact hcg)))
                (fun e => hnr (Relation.TransGen.head hcg e)) (Belongs.self P g) e1
              exact hkeep.trans (hR.moved x hx hkx)
            rcases r.value with _ | v
            · exact SimR.stuck hR2 (by simp)
            · refine SimR.normal ((hR2.write hok hf (hb.1 y (by simp [used])) _).weaken fun x hx hx' => ?_)
              have := ha x hx
              simp only [assigned] at this
              by_cases hc : x ∈ args ∧ k x = false
              · rw [if_pos hc] at this; cases this
              · rw [if_neg hc] at this
                simp only [Option.some.injEq] at this
                rw [this]; exact hx'
        · rcases hg x g hx with ⟨rfl, h⟩ | ⟨-, h⟩
          · exact absurd hcg (h f)
          · obtain ⟨b, hb⟩ := Option.isSome_iff_exists.mp h
            simp [hb]
    | seq a b =>
      simp only [exec]
      have h1 : ∀ x, owner P x = some f → assigned x (k x) a = some ((assigned x (k x) a).getD false) ∧
          assigned x ((assigned x (k x) a).getD false) b = some (k' x) := by
        intro x hx
        have := ha x hx
        simp only [assigned] at this
        rcases h : assigned x (k x) a with _ | b1
        · simp [h] at this
        · simp only [h] at this; exact ⟨rfl, this⟩
      have ih := sim hok hg op n f a k _ st st' hf hb.seq.1 (fun x hx => (h1 x hx).1) hR
      rcases ih with ⟨e1, e2⟩ | ⟨r, t, t', e1, e2, hR'⟩
      · rw [e1, e2]; exact Or.inl ⟨rfl, rfl⟩
      · rw [e1, e2]
        cases r with
        | normal =>
          simp only [if_true] at hR'
          exact sim hok hg op n f b _ k' t t' hf hb.seq.2 (fun x hx => (h1 x hx).2) hR'
        | ret v => exact SimR.stuck hR' (by simp)
        | unset => exact SimR.stuck hR' (by simp)
    | ite c a b =>
      have h1 : ∀ x, owner P x = some f → (c = x → k x = true) ∧ ∃ b1 b2, assigned x (k x) a = some b1 ∧
          assigned x (k x) b = some b2 ∧ (k' x = true → b1 = true ∧ b2 = true) := by
        intro x hx
        have := ha x hx
        simp only [assigned] at this
        by_cases hc : c = x ∧ k x = false
        · rw [if_pos hc] at this; cases this
        · rw [if_neg hc] at this
          refine ⟨fun h => by simpa [h] using hc, ?_⟩
          rcases ha' : assigned x (k x) a with _ | b1
          · simp [ha'] at this
          · rcases hb' : assigned x (k x) b with _ | b2
            · simp [ha', hb'] at this
            · simp only [ha', hb', Option.some.injEq] at this
              refine ⟨b1, b2, rfl, rfl, fun h => ?_⟩
              rw [h] at this
              simpa using this
      have e := hR.read hok hf (x := c) (hb.1 c (by simp [used])) (fun h => (h1 c h).1 rfl)
      simp only [exec, ← e]
      rcases read P st c with _ | v
      · exact SimR.stuck hR (by simp)
      · simp only []
        have weak : ∀ {k1 : Nat → Bool} {a b}, SimR P f k1 a b → (∀ x, owner P x = some f → k' x = true → k1 x = true) →
            SimR P f k' a b := by
          intro k1 a b h hk
          rcases h with h | ⟨r, t, t', e1, e2, h⟩
          · exact Or.inl h
          · refine Or.inr ⟨r, t, t', e1, e2, ?_⟩
            by_cases hr : r = .normal
            · rw [if_pos hr] at h ⊢; exact h.weaken hk
            · rw [if_neg hr] at h ⊢; exact h
        by_cases h0 : v ≠ 0
        · rw [if_pos h0]
          refine weak (sim hok hg op n f a k (fun x => (assigned x (k x) a).getD false) st st' hf hb.ite.1
            (fun x hx => ?_) hR) (fun x hx hx' => ?_)
          · obtain ⟨-, b1, b2, e1, e2, e3⟩ := h1 x hx; rw [e1]; rfl
          · obtain ⟨-, b1, b2, e1, e2, e3⟩ := h1 x hx; rw [e1]; exact (e3 hx').1
        · rw [if_neg h0]
          refine weak (sim hok hg op n f b k (fun x => (assigned x (k x) b).getD false) st st' hf hb.ite.2
            (fun x hx => ?_) hR) (fun x hx hx' => ?_)
          · obtain ⟨-, b1, b2, e1, e2, e3⟩ := h1 x hx; rw [e2]; rfl
          · obtain ⟨-, b1, b2, e1, e2, e3⟩ := h1 x hx; rw [e2]; exact (e3 hx').2
    | loop c a =>
      have h1 : ∀ x, owner P x = some f → (c = x → k x = true) ∧ k' x = k x ∧
          assigned x (k x) a = some ((assigned x (k x) a).getD false) := by
        intro x hx
        have := ha x hx
        simp only [assigned] at this
        by_cases hc : c = x ∧ k x = false
        · rw [if_pos hc] at this; cases this
        · rw [if_neg hc] at this
          refine ⟨fun h => by simpa [h] using hc, ?_⟩
          rcases ha' : assigned x (k x) a with _ | b1
          · simp [ha'] at this
          · simp only [ha', Option.some.injEq] at this
            exact ⟨this.symm, rfl⟩
      have e := hR.read hok hf (x := c) (hb.1 c (by simp [used])) (fun h => (h1 c h).1 rfl)
      simp only [exec, ← e]
      rcases read P st c with _ | v
      · exact SimR.stuck hR (by simp)
      · simp only []
        by_cases h0 : v ≠ 0
        · rw [if_pos h0, if_pos h0]
          have ih := sim hok hg op n f a k _ st st' hf hb.loop (fun x hx => (h1 x hx).2.2) hR
          rcases ih with ⟨e1, e2⟩ | ⟨r, t, t', e1, e2, hR'⟩
          · rw [e1, e2]; exact Or.inl ⟨rfl, rfl⟩
          · rw [e1, e2]
            cases r with
            | normal =>
              simp only [if_true] at hR'
              refine sim hok hg op n f (.loop c a) k k' t t' hf hb ha (hR'.weaken fun x hx hx' => ?_)
              exact assigned_mono x a _ _ (h1 x hx).2.2 hx'
            | ret v => exact SimR.stuck hR' (by simp)
            | unset => exact SimR.stuck hR' (by simp)
        · rw [if_neg h0, if_neg h0]
          exact SimR.normal (hR.weaken fun x hx hx' => by rw [← (h1 x hx).2.1]; exact hx')
    | ret y =>
      have e := hR.read hok hf (x := y) (hb.1 y (by simp [used])) (fun ho => by
        have := ha y ho
        simp only [assigned] at this
        rcases hy : k y with _ | _
        · simp [hy] at this
        · rfl)
      simp only [exec, ← e]
      rcases read P st y with _ | v
      · exact SimR.stuck hR (by simp)
      · exact SimR.stuck hR (by simp)

theorem run_demote {P : Prog} (hok : Ok P) (hg : ∀ x f, owner P x = some f → Good P x f)
    (op : Nat → List Nat → Nat) (n : Nat) : observe (run (demote P) op n) = observe (run P op n) := by
  have := sim hok hg op n 0 (P.func 0).body (fun _ => true) (fun _ => true) ⟨fun _ => none, fun _ => none, []⟩
    ⟨fun _ => none, fun _ => none, []⟩ hok.main (Belongs.self P 0) (fun x _ => assigned_true x _)
    ⟨rfl, fun _ _ _ => rfl, fun _ _ => rfl, fun _ _ _ => rfl⟩
  unfold run
  rw [show (demote P).func 0 = P.func 0 from rfl]
  rcases this with ⟨e1, e2⟩ | ⟨r, t, t', e1, e2, hR⟩
  · rw [e1, e2]
  · rw [e1, e2]; simp [observe, hR.out]

end Codon.Demote
