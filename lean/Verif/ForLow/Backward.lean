import Verif.ForLow.Forward
/-!
# The lowered program does only what the source does
-/
namespace Codon.ForLow
open Codon.Omp (w)

variable {W : World} {N : Nat}

/-- What the lowered term does, the source does. -/
def B1 (W : World) (N : Nat) (t' : Term) (s' : St W) (r : Res) (s1' : St W) : Prop :=
  ∀ t c, Low W N t t' c → ∀ s, S N s s' → c s' → ∃ s1, Ev W t s r s1 ∧ S N s1 s1'

/-- The same for the argument of an operation. -/
def B2 (W : World) (N : Nat) (t' : Term) (s' : St W) (r : Res) (s1' : St W) : Prop :=
  ∀ f a', t' = .op f a' → ∀ t, Low W N t a' (fun _ => True) → ∀ s, S N s s' →
    (¬ r.isVal ∧ ∃ s1, Ev W t s r s1 ∧ S N s1 s1') ∨
    ∃ v sm sm', Ev W t s (.val v) sm ∧ S N sm sm' ∧ OpEv W f v sm' r s1'

/-- The same for the second part of a sequence. -/
def B3 (W : World) (N : Nat) (t' : Term) (s' : St W) (r : Res) (s1' : St W) : Prop :=
  ∀ a b', t' = .seq a b' → (¬ r.isVal ∧ Ev W a s' r s1') ∨
    ∃ v sm, Ev W a s' (.val v) sm ∧ Ev W b' sm r s1' ∧ ∀ t, Low W N t b' (fun _ => True) → ∀ s, S N s sm → ∃ s1, Ev W t s r s1 ∧ S N s1 s1'

def Back (W : World) (N : Nat) (t' : Term) (s' : St W) (r : Res) (s1' : St W) : Prop :=
  B1 W N t' s' r s1' ∧ B2 W N t' s' r s1' ∧ B3 W N t' s' r s1'

theorem Back.mk1 {t' : Term} {s' s1' : St W} {r : Res} (h : B1 W N t' s' r s1') (h2 : ∀ f a, t' ≠ .op f a) (h3 : ∀ a b, t' ≠ .seq a b) :
    Back W N t' s' r s1' := ⟨h, fun f a e => absurd e (h2 f a), fun a b e => absurd e (h3 a b)⟩

theorem op_val_inv {f : Op} {a : Term} {s s2 : St W} {r : Res} (h : Ev W (.op f a) s r s2) :
    (r = .cut ∧ s2 = s) ∨ (∃ v s1, Ev W a s (.val v) s1 ∧ OpEv W f v s1 r s2) ∨ (Ev W a s r s2 ∧ ¬ r.isVal) := by
  cases h with
  | cut => exact .inl ⟨rfl, rfl⟩
  | op h1 h2 => exact .inr (.inl ⟨_, _, h1, h2⟩)
  | opL h1 h2 => exact .inr (.inr ⟨h1, h2⟩)

theorem var_inv {x : Nat} {s s2 : St W} {r : Res} (h : Ev W (.var x) s r s2) : s2 = s ∧ (r = .cut ∨ r = .val (s.vars x)) := by
  cases h with
  | cut => exact ⟨rfl, .inl rfl⟩
  | var => exact ⟨rfl, .inr rfl⟩

/-- `n = v.len` -/
theorem len_inv {n v r0 : Nat} {s s2 : St W} {r : Res} (hv : s.vars v = .lst r0) (h : Ev W (.op (.assign n) (.op .len (.var v))) s r s2) :
    (r = .cut ∧ s2 = s) ∨ (r = .ub ∧ s2 = s ∧ W.len s.heap r0 = none) ∨
    ∃ l, W.len s.heap r0 = some l ∧ r = .val .unit ∧ s2 = s.set n (.int l) := by
  have inner : ∀ {q : Res} {s1 : St W}, Ev W (.op .len (.var v)) s q s1 → s1 = s ∧ (q = .cut ∨ (q = .ub ∧ W.len s.heap r0 = none) ∨
      ∃ l, W.len s.heap r0 = some l ∧ q = .val (.int l)) := by
    intro q s1 h
    rcases op_val_inv h with ⟨rfl, rfl⟩ | ⟨v0, s0, h1, h2⟩ | ⟨h1, h2⟩
    · exact ⟨rfl, .inl rfl⟩
    · obtain ⟨rfl, e | e⟩ := var_inv h1
      · cases e
      · cases e
        generalize e0 : s0.vars v = u at h2
        rw [hv] at e0
        subst e0
        cases h2 with
        | len _ _ l hl => exact ⟨rfl, .inr (.inr ⟨l, hl, rfl⟩)⟩
        | lenUb _ _ hl => exact ⟨rfl, .inr (.inl ⟨rfl, hl⟩)⟩
        | lenType _ _ hl => exact absurd rfl (hl r0)
    · obtain ⟨rfl, rfl | rfl⟩ := var_inv h1
      · exact ⟨rfl, .inl rfl⟩
      · exact absurd trivial h2
  rcases op_val_inv h with ⟨rfl, rfl⟩ | ⟨v0, s0, h1, h2⟩ | ⟨h1, h2⟩
  · exact .inl ⟨rfl, rfl⟩
  · obtain ⟨rfl, e | ⟨e, _⟩ | ⟨l, hl, e⟩⟩ := inner h1
    · cases e
    · cases e
    · cases e; cases h2; exact .inr (.inr ⟨l, hl, rfl, rfl⟩)
  · obtain ⟨rfl, rfl | ⟨rfl, e⟩ | ⟨l, hl, rfl⟩⟩ := inner h1
    · exact .inl ⟨rfl, rfl⟩
    · exact .inr (.inl ⟨rfl, rfl, e⟩)
    · exact absurd trivial h2

/-- `n = v.len` if `v` is not a list -/
theorem len_inv_type {n v : Nat} {s s2 : St W} {r : Res} (hv : ∀ r0, s.vars v ≠ .lst r0) (h : Ev W (.op (.assign n) (.op .len (.var v))) s r s2) :
    s2 = s ∧ (r = .cut ∨ r = .ub) := by
  have inner : ∀ {q : Res} {s1 : St W}, Ev W (.op .len (.var v)) s q s1 → s1 = s ∧ (q = .cut ∨ q = .ub) := by
    intro q s1 h
    rcases op_val_inv h with ⟨rfl, rfl⟩ | ⟨v0, s0, h1, h2⟩ | ⟨h1, h2⟩
    · exact ⟨rfl, .inl rfl⟩
    · obtain ⟨rfl, e | e⟩ := var_inv h1
      · cases e
      · cases e
        generalize e0 : s0.vars v = u at h2
        cases h2 with
        | len r _ l hl => exact absurd e0 (hv r)
        | lenUb r _ hl => exact absurd e0 (hv r)
        | lenType _ _ hl => exact ⟨rfl, .inr rfl⟩
    · obtain ⟨rfl, rfl | rfl⟩ := var_inv h1
      · exact ⟨rfl, .inl rfl⟩
      · exact absurd trivial h2
  rcases op_val_inv h with ⟨rfl, rfl⟩ | ⟨v0, s0, h1, h2⟩ | ⟨h1, h2⟩
  · exact ⟨rfl, .inl rfl⟩
  · obtain ⟨rfl, e | e⟩ := inner h1 <;> cases e
  · exact inner h1

/-- `p = v.arr.ptr` -/
theorem ptr_inv {p v r0 : Nat} {s s2 : St W} {r : Res} (hv : s.vars v = .lst r0) (h : Ev W (.op (.assign p) (.op .ptr (.var v))) s r s2) :
    (r = .cut ∧ s2 = s) ∨ (r = .ub ∧ s2 = s ∧ W.ptr s.heap r0 = none) ∨
    ∃ q, W.ptr s.heap r0 = some q ∧ r = .val .unit ∧ s2 = s.set p (.ptr q) := by
  have inner : ∀ {q : Res} {s1 : St W}, Ev W (.op .ptr (.var v)) s q s1 → s1 = s ∧ (q = .cut ∨ (q = .ub ∧ W.ptr s.heap r0 = none) ∨
      ∃ l, W.ptr s.heap r0 = some l ∧ q = .val (.ptr l)) := by
    intro q s1 h
    rcases op_val_inv h with ⟨rfl, rfl⟩ | ⟨v0, s0, h1, h2⟩ | ⟨h1, h2⟩
    · exact ⟨rfl, .inl rfl⟩
    · obtain ⟨rfl, e | e⟩ := var_inv h1
      · cases e
      · cases e
        generalize e0 : s0.vars v = u at h2
        rw [hv] at e0
        subst e0
        cases h2 with
        | ptr _ _ l hl => exact ⟨rfl, .inr (.inr ⟨l, hl, rfl⟩)⟩
        | ptrUb _ _ hl => exact ⟨rfl, .inr (.inl ⟨rfl, hl⟩)⟩
        | ptrType _ _ hl => exact absurd rfl (hl r0)
    · obtain ⟨rfl, rfl | rfl⟩ := var_inv h1
      · exact ⟨rfl, .inl rfl⟩
      · exact absurd trivial h2
  rcases op_val_inv h with ⟨rfl, rfl⟩ | ⟨v0, s0, h1, h2⟩ | ⟨h1, h2⟩
  · exact .inl ⟨rfl, rfl⟩
  · obtain ⟨rfl, e | ⟨e, _⟩ | ⟨l, hl, e⟩⟩ := inner h1
    · cases e
    · cases e
    · cases e; cases h2; exact .inr (.inr ⟨l, hl, rfl, rfl⟩)
  · obtain ⟨rfl, rfl | ⟨rfl, e⟩ | ⟨l, hl, rfl⟩⟩ := inner h1
    · exact .inl ⟨rfl, rfl⟩
    · exact .inr (.inl ⟨rfl, rfl, e⟩)
    · exact absurd trivial h2

/-- `x = p[j]` -/
theorem idx_inv {x p j q : Nat} {i : Int} {s s2 : St W} {r : Res} (hp : s.vars p = .ptr q) (hj : s.vars j = .int i)
    (h : Ev W (.op (.assign x) (.op .index (.pair (.var p) (.var j)))) s r s2) :
    (r = .cut ∧ s2 = s) ∨ (r = .ub ∧ s2 = s ∧ W.load s.heap q i = none) ∨
    ∃ v, W.load s.heap q i = some v ∧ r = .val .unit ∧ s2 = s.set x v := by
  have pr : ∀ {z : Res} {s1 : St W}, Ev W (.pair (.var p) (.var j)) s z s1 → s1 = s ∧ (z = .cut ∨ z = .val (.pair (.ptr q) (.int i))) := by
    intro z s1 h
    cases h with
    | cut => exact ⟨rfl, .inl rfl⟩
    | pair h1 h2 =>
      obtain ⟨rfl, e | e⟩ := var_inv h1 <;> cases e
      obtain ⟨rfl, e | e⟩ := var_inv h2 <;> cases e
      exact ⟨rfl, .inr (by rw [hp, hj])⟩
    | pairL h1 hz =>
      obtain ⟨rfl, rfl | rfl⟩ := var_inv h1
      · exact ⟨rfl, .inl rfl⟩
      · exact absurd trivial hz
    | pairR h1 h2 hz =>
      obtain ⟨rfl, e | e⟩ := var_inv h1 <;> cases e
      obtain ⟨rfl, rfl | rfl⟩ := var_inv h2
      · exact ⟨rfl, .inl rfl⟩
      · exact absurd trivial hz
  have inner : ∀ {z : Res} {s1 : St W}, Ev W (.op .index (.pair (.var p) (.var j))) s z s1 → s1 = s ∧ (z = .cut ∨ (z = .ub ∧ W.load s.heap q i = none) ∨
      ∃ l, W.load s.heap q i = some l ∧ z = .val l) := by
    intro z s1 h
    rcases op_val_inv h with ⟨rfl, rfl⟩ | ⟨v0, s0, h1, h2⟩ | ⟨h1, h2⟩
    · exact ⟨rfl, .inl rfl⟩
    · obtain ⟨rfl, e | e⟩ := pr h1
      · cases e
      · cases e
        cases h2 with
        | index _ _ _ l hl => exact ⟨rfl, .inr (.inr ⟨l, hl, rfl⟩)⟩
        | indexUb _ _ _ hl => exact ⟨rfl, .inr (.inl ⟨rfl, hl⟩)⟩
        | indexType _ _ hl => exact absurd rfl (hl q i)
    · obtain ⟨rfl, rfl | rfl⟩ := pr h1
      · exact ⟨rfl, .inl rfl⟩
      · exact absurd trivial h2
  rcases op_val_inv h with ⟨rfl, rfl⟩ | ⟨v0, s0, h1, h2⟩ | ⟨h1, h2⟩
  · exact .inl ⟨rfl, rfl⟩
  · obtain ⟨rfl, e | ⟨e, _⟩ | ⟨l, hl, e⟩⟩ := inner h1
    · cases e
    · cases e
    · cases e; cases h2; exact .inr (.inr ⟨_, hl, rfl, rfl⟩)
  · obtain ⟨rfl, rfl | ⟨rfl, e⟩ | ⟨l, hl, rfl⟩⟩ := inner h1
    · exact .inl ⟨rfl, rfl⟩
    · exact .inr (.inl ⟨rfl, rfl, e⟩)
    · exact absurd trivial h2

/-- One turn of the counted loop over a list, from its derivation. -/
theorem lbody_back {x p j q : Nat} {i : Int} {b b' : Term} {s s' s1' : St W} {r : Res} (hp : s'.vars p = .ptr q) (hj : s'.vars j = .int i)
    (hx : x < N) (lb : Low W N b b' (fun _ => True)) (hs : S N s s') (h3 : B3 W N (lbody x p j b') s' r s1') :
    (r = .cut ∧ S N s s1') ∨ (r = .ub ∧ S N s s1' ∧ W.load s.heap q i = none) ∨
    ∃ v, W.load s.heap q i = some v ∧ Ev W b' (s'.set x v) r s1' ∧ ∃ s1, Ev W b (s.set x v) r s1 ∧ S N s1 s1' := by
  rcases h3 _ _ rfl with ⟨hr, h⟩ | ⟨v, sm, h, hb, k⟩
  · rcases idx_inv hp hj h with ⟨rfl, rfl⟩ | ⟨rfl, rfl, hl⟩ | ⟨u, hl, rfl, rfl⟩
    · exact .inl ⟨rfl, hs⟩
    · exact .inr (.inl ⟨rfl, hs, by rw [hs.heap_eq]; exact hl⟩)
    · exact absurd trivial hr
  · rcases idx_inv hp hj h with ⟨e, _⟩ | ⟨e, _⟩ | ⟨u, hl, _, rfl⟩
    · cases e
    · cases e
    · exact .inr (.inr ⟨u, by rw [hs.heap_eq]; exact hl, hb, k _ lb _ (hs.setL hx u)⟩)

theorem check_of {h : W.H} {i l : Int} {q : Nat} (hd : impDone i 1 l = false) :
    ListGen.check W h i l q = match W.load h q i with
      | some v => .yield v (.yielded i l q) h
      | none => .stop .ub h := by
  unfold ListGen.check
  rw [if_pos (by simpa [impDone] using hd)]
  cases W.load h q i <;> rfl

theorem check_of_done {h : W.H} {i l : Int} {q : Nat} (hd : impDone i 1 l = true) : ListGen.check W h i l q = .done h := by
  unfold ListGen.check
  rw [if_neg]
  simpa [impDone] using hd

theorem St.with_heap (s : St W) {h : W.H} (e : h = s.heap) : ({ s with heap := h } : St W) = s := by subst e; rfl

theorem backward {t' : Term} {s' s1' : St W} {r : Res} (h : Ev W t' s' r s1') : Back W N t' s' r s1' := by
  induction h with
  | cut t s =>
    refine ⟨fun t0 c hl s0 hs hc => ⟨s0, .cut _ _, hs⟩, fun f a e t0 hl s0 hs => .inl ⟨fun h => h, s0, .cut _ _, hs⟩, ?_⟩
    intro a b e
    exact .inl ⟨fun h => h, .cut _ _⟩
  | const v s =>
    refine .mk1 ?_ (by simp) (by simp)
    intro t c hl s0 hs hc; cases hl; exact ⟨s0, .const v s0, hs⟩
  | var x s =>
    refine .mk1 ?_ (by simp) (by simp)
    intro t c hl s0 hs hc; cases hl with
    | var _ hx => exact ⟨s0, hs.1 x hx ▸ .var x s0, hs⟩
  | pair h1 h2 i1 i2 =>
    refine .mk1 ?_ (by simp) (by simp)
    intro t c hl s0 hs hc; cases hl with
    | pair la lb =>
      obtain ⟨q1, e1, g1⟩ := i1.1 _ _ la s0 hs trivial
      obtain ⟨q2, e2, g2⟩ := i2.1 _ _ lb q1 g1 trivial
      exact ⟨q2, .pair e1 e2, g2⟩
  | pairL h1 hr i1 =>
    refine .mk1 ?_ (by simp) (by simp)
    intro t c hl s0 hs hc; cases hl with
    | pair la lb =>
      obtain ⟨q1, e1, g1⟩ := i1.1 _ _ la s0 hs trivial
      exact ⟨q1, .pairL e1 hr, g1⟩
  | pairR h1 h2 hr i1 i2 =>
    refine .mk1 ?_ (by simp) (by simp)
    intro t c hl s0 hs hc; cases hl with
    | pair la lb =>
      obtain ⟨q1, e1, g1⟩ := i1.1 _ _ la s0 hs trivial
      obtain ⟨q2, e2, g2⟩ := i2.1 _ _ lb q1 g1 trivial
      exact ⟨q2, .pairR e1 e2 hr, g2⟩
  | @op f a s v s1 r s2 h1 h2 i1 =>
    refine ⟨?_, ?_, fun _ _ e => by cases e⟩
    · intro t c hl s0 hs hc; cases hl with
      | op hf la =>
        obtain ⟨q1, e1, g1⟩ := i1.1 _ _ la s0 hs trivial
        obtain ⟨q2, e2, g2⟩ := S.symm_op h2 hf g1
        exact ⟨q2, .op e1 e2, g2⟩
    · intro f' a' e t hl s0 hs
      cases e
      obtain ⟨q1, e1, g1⟩ := i1.1 _ _ hl s0 hs trivial
      exact .inr ⟨_, _, _, e1, g1, h2⟩
  | @opL f a s r s1 h1 hr i1 =>
    refine ⟨?_, ?_, fun _ _ e => by cases e⟩
    · intro t c hl s0 hs hc; cases hl with
      | op hf la =>
        obtain ⟨q1, e1, g1⟩ := i1.1 _ _ la s0 hs trivial
        exact ⟨q1, .opL e1 hr, g1⟩
    · intro f' a' e t hl s0 hs
      cases e
      obtain ⟨q1, e1, g1⟩ := i1.1 _ _ hl s0 hs trivial
      exact .inl ⟨hr, _, e1, g1⟩
  | @seq a b s v s1 r s2 h1 h2 i1 i2 =>
    refine ⟨?_, (fun _ _ e => by cases e), ?_⟩
    · intro t c hl s0 hs hc; cases hl with
      | seq la lb =>
        obtain ⟨q1, e1, g1⟩ := i1.1 _ _ la s0 hs trivial
        obtain ⟨q2, e2, g2⟩ := i2.1 _ _ lb q1 g1 trivial
        exact ⟨q2, .seq e1 e2, g2⟩
      | @list x vv n p j a a' b b' hf la lb =>
        rcases i1.2.1 _ _ rfl _ la s0 hs with ⟨hr, _⟩ | ⟨u, sm, sm', e1, g1, ho⟩
        · exact absurd trivial hr
        · cases ho
          by_cases hu : ∃ r0, u = .lst r0
          · obtain ⟨r0, rfl⟩ := hu
            obtain ⟨q2, e2, g2⟩ := i2.1 _ _ (.list1 hf lb) sm (g1.setR hf.hv _) set_same
            exact ⟨q2, .for e1 rfl e2, g2⟩
          · have hne : ∀ r0, u ≠ .lst r0 := fun r0 e => hu ⟨r0, e⟩
            have hub : s2 = sm'.set vv u ∧ (r = .cut ∨ r = .ub) := by
              have key : ∀ {q : Res} {sq : St W}, Ev W (.op (.assign n) (.op .len (.var vv))) (sm'.set vv u) q sq → sq = sm'.set vv u ∧ (q = .cut ∨ q = .ub) :=
                fun h => len_inv_type (by rw [set_same]; exact hne) h
              cases h2 with
              | cut => exact ⟨rfl, .inl rfl⟩
              | seq k1 k2 => obtain ⟨_, e | e⟩ := key k1 <;> cases e
              | seqL k1 _ => exact key k1
            obtain ⟨rfl, rfl | rfl⟩ := hub
            · exact ⟨sm, .forCut e1, g1.setR hf.hv _⟩
            · refine ⟨sm, .forErr e1 ?_, g1.setR hf.hv _⟩
              cases u <;> first | rfl | exact absurd rfl (hne _)
      | @list1 x vv n p j r0 b b' hf lb =>
        rcases len_inv hc h1 with ⟨e, _⟩ | ⟨e, _⟩ | ⟨l, hlen, _, rfl⟩
        · cases e
        · cases e
        · exact i2.1 _ _ (.list2 hf lb) s0 (hs.setR hf.hn _) ⟨by rw [set_ne hf.nv]; exact hc, set_same, hlen⟩
      | @list2 x vv n p j r0 l b b' hf lb =>
        obtain ⟨hv, hn, hlen⟩ := hc
        rcases ptr_inv hv h1 with ⟨e, _⟩ | ⟨e, _⟩ | ⟨q, hq, _, rfl⟩
        · cases e
        · cases e
        · exact i2.1 _ _ (.list3 (v := vv) hf lb) s0 (hs.setR hf.hp _) ⟨by rw [set_ne hf.pn]; exact hn, hlen, set_same, hq⟩
    · intro a' b' e
      cases e
      exact .inr ⟨v, s1, h1, h2, fun t hl s0 hs => i2.1 _ _ hl s0 hs trivial⟩
  | @seqL a b s r s1 h1 hr i1 =>
    refine ⟨?_, (fun _ _ e => by cases e), ?_⟩
    · intro t c hl s0 hs hc; cases hl with
      | seq la lb =>
        obtain ⟨q1, e1, g1⟩ := i1.1 _ _ la s0 hs trivial
        exact ⟨q1, .seqL e1 hr, g1⟩
      | @list x vv n p j a a' b b' hf la lb =>
        rcases i1.2.1 _ _ rfl _ la s0 hs with ⟨hr, q1, e1, g1⟩ | ⟨u, sm, sm', e1, g1, ho⟩
        · exact ⟨q1, .forL e1 hr, g1⟩
        · cases ho
          exact absurd trivial hr
      | @list1 x vv n p j r0 b b' hf lb =>
        rcases len_inv hc h1 with ⟨rfl, rfl⟩ | ⟨rfl, rfl, hlen⟩ | ⟨l, hlen, rfl, rfl⟩
        · exact ⟨s0, .cut _ _, hs⟩
        · refine ⟨_, .genStop (.listStop _ _ _ ?_), ?_⟩
          · simp only [ListGen.resume]
            rw [hs.heap_eq, hlen]
          · exact hs
        · exact absurd trivial hr
      | @list2 x vv n p j r0 l b b' hf lb =>
        obtain ⟨hv, hn, hlen⟩ := hc
        rcases ptr_inv hv h1 with ⟨rfl, rfl⟩ | ⟨rfl, rfl, hq⟩ | ⟨q, hq, rfl, rfl⟩
        · exact ⟨s0, .cut _ _, hs⟩
        · refine ⟨_, .genStop (.listStop _ _ _ ?_), ?_⟩
          · simp only [ListGen.resume]
            rw [hs.heap_eq, hlen, hq]
          · exact hs
        · exact absurd trivial hr
    · intro a' b' e
      cases e
      exact .inl ⟨hr, h1⟩
  | iteT h1 hv h2 i1 i2 =>
    refine .mk1 ?_ (by simp) (by simp)
    intro t c hl s0 hs hc; cases hl with
    | ite lc la lb =>
      obtain ⟨q1, e1, g1⟩ := i1.1 _ _ lc s0 hs trivial
      obtain ⟨q2, e2, g2⟩ := i2.1 _ _ la q1 g1 trivial
      exact ⟨q2, .iteT e1 hv e2, g2⟩
  | iteF h1 hv h2 i1 i2 =>
    refine .mk1 ?_ (by simp) (by simp)
    intro t c hl s0 hs hc; cases hl with
    | ite lc la lb =>
      obtain ⟨q1, e1, g1⟩ := i1.1 _ _ lc s0 hs trivial
      obtain ⟨q2, e2, g2⟩ := i2.1 _ _ lb q1 g1 trivial
      exact ⟨q2, .iteF e1 hv e2, g2⟩
  | iteL h1 hr i1 =>
    refine .mk1 ?_ (by simp) (by simp)
    intro t c hl s0 hs hc; cases hl with
    | ite lc la lb =>
      obtain ⟨q1, e1, g1⟩ := i1.1 _ _ lc s0 hs trivial
      exact ⟨q1, .iteL e1 hr, g1⟩
  | whileEnd h1 hv i1 =>
    refine .mk1 ?_ (by simp) (by simp)
    intro t c hl s0 hs hc; cases hl with
    | «while» lc la =>
      obtain ⟨q1, e1, g1⟩ := i1.1 _ _ lc s0 hs trivial
      exact ⟨q1, .whileEnd e1 hv, g1⟩
  | whileL h1 hr i1 =>
    refine .mk1 ?_ (by simp) (by simp)
    intro t c hl s0 hs hc; cases hl with
    | «while» lc la =>
      obtain ⟨q1, e1, g1⟩ := i1.1 _ _ lc s0 hs trivial
      exact ⟨q1, .whileL e1 hr, g1⟩
  | whileLeave h1 hv h2 hr i1 i2 =>
    refine .mk1 ?_ (by simp) (by simp)
    intro t c hl s0 hs hc; cases hl with
    | «while» lc la =>
      obtain ⟨q1, e1, g1⟩ := i1.1 _ _ lc s0 hs trivial
      obtain ⟨q2, e2, g2⟩ := i2.1 _ _ la q1 g1 trivial
      exact ⟨q2, .whileLeave e1 hv e2 hr, g2⟩
  | whileNext h1 hv h2 hr h3 i1 i2 i3 =>
    refine .mk1 ?_ (by simp) (by simp)
    intro t c hl s0 hs hc
    have hl' := hl
    cases hl with
    | «while» lc la =>
      obtain ⟨q1, e1, g1⟩ := i1.1 _ _ lc s0 hs trivial
      obtain ⟨q2, e2, g2⟩ := i2.1 _ _ la q1 g1 trivial
      obtain ⟨q3, e3, g3⟩ := i3.1 _ _ hl' q2 g2 trivial
      exact ⟨q3, .whileNext e1 hv e2 hr e3, g3⟩
  | brk s =>
    refine .mk1 ?_ (by simp) (by simp)
    intro t c hl s0 hs hc; cases hl; exact ⟨s0, .brk s0, hs⟩
  | cont s =>
    refine .mk1 ?_ (by simp) (by simp)
    intro t c hl s0 hs hc; cases hl; exact ⟨s0, .cont s0, hs⟩
  | tryExc h1 h2 i1 i2 =>
    refine .mk1 ?_ (by simp) (by simp)
    intro t c hl s0 hs hc; cases hl with
    | «try» hx la lb =>
      obtain ⟨q1, e1, g1⟩ := i1.1 _ _ la s0 hs trivial
      obtain ⟨q2, e2, g2⟩ := i2.1 _ _ lb _ (g1.setL hx _) trivial
      exact ⟨q2, .tryExc e1 e2, g2⟩
  | tryOk h1 hr i1 =>
    refine .mk1 ?_ (by simp) (by simp)
    intro t c hl s0 hs hc; cases hl with
    | «try» hx la lb =>
      obtain ⟨q1, e1, g1⟩ := i1.1 _ _ la s0 hs trivial
      exact ⟨q1, .tryOk e1 hr, g1⟩
  | «for» h1 hm h2 i1 i2 =>
    refine .mk1 ?_ (by simp) (by simp)
    intro t c hl s0 hs hc; cases hl with
    | «for» hx la lb =>
      obtain ⟨q1, e1, g1⟩ := i1.1 _ _ la s0 hs trivial
      obtain ⟨q2, e2, g2⟩ := i2.1 _ _ (.genLoop hx lb) q1 g1 trivial
      exact ⟨q2, .for e1 hm e2, g2⟩
  | forErr h1 hm i1 =>
    refine .mk1 ?_ (by simp) (by simp)
    intro t c hl s0 hs hc; cases hl with
    | «for» hx la lb =>
      obtain ⟨q1, e1, g1⟩ := i1.1 _ _ la s0 hs trivial
      exact ⟨q1, .forErr e1 hm, g1⟩
  | forCut h1 i1 =>
    refine .mk1 ?_ (by simp) (by simp)
    intro t c hl s0 hs hc; cases hl with
    | «for» hx la lb =>
      obtain ⟨q1, e1, g1⟩ := i1.1 _ _ la s0 hs trivial
      exact ⟨q1, .forCut e1, g1⟩
  | forL h1 hr i1 =>
    refine .mk1 ?_ (by simp) (by simp)
    intro t c hl s0 hs hc; cases hl with
    | «for» hx la lb =>
      obtain ⟨q1, e1, g1⟩ := i1.1 _ _ la s0 hs trivial
      exact ⟨q1, .forL e1 hr, g1⟩
  | @genDone x g body s h hres =>
    refine .mk1 ?_ (by simp) (by simp)
    intro t c hl s0 hs hc; cases hl with
    | genLoop hx lb => exact ⟨_, .genDone (by rw [hs.heap_eq]; exact hres), hs.heap h⟩
  | @genStop x g body s r h hres =>
    refine .mk1 ?_ (by simp) (by simp)
    intro t c hl s0 hs hc; cases hl with
    | genLoop hx lb => exact ⟨_, .genStop (by rw [hs.heap_eq]; exact hres), hs.heap h⟩
  | @genLeave x g body s v g' h r s1 hres hb hr ib =>
    refine .mk1 ?_ (by simp) (by simp)
    intro t c hl s0 hs hc; cases hl with
    | genLoop hx lb =>
      obtain ⟨q1, e1, g1⟩ := ib.1 _ _ lb _ ((hs.heap h).setL hx v) trivial
      exact ⟨q1, .genLeave (by rw [hs.heap_eq]; exact hres) e1 hr, g1⟩
  | @genNext x g body s v g' h r s1 q s2 hres hb hr hn ib ih =>
    refine .mk1 ?_ (by simp) (by simp)
    intro t c hl s0 hs hc; cases hl with
    | genLoop hx lb =>
      obtain ⟨q1, e1, g1⟩ := ib.1 _ _ lb _ ((hs.heap h).setL hx v) trivial
      obtain ⟨q2, e2, g2⟩ := ih.1 _ _ (.genLoop hx lb) _ g1 trivial
      exact ⟨q2, .genNext (by rw [hs.heap_eq]; exact hres) e1 hr e2, g2⟩
  | @impFor x a step body s i stop s1 r s2 h1 h2 i1 i2 =>
    refine .mk1 ?_ (by simp) (by simp)
    intro t c hl s0 hs hc; cases hl with
    | impFor hx la lb =>
      obtain ⟨q1, e1, g1⟩ := i1.1 _ _ la s0 hs trivial
      obtain ⟨q2, e2, g2⟩ := i2.1 _ _ (.impLoop hx lb) q1 g1 trivial
      exact ⟨q2, .impFor e1 e2, g2⟩
    | range1 hx la lb =>
      obtain ⟨q1, e1, g1⟩ := i1.1 _ _ (.pair (.const _) la) s0 hs trivial
      obtain ⟨va, sa, u, e, ha, hb⟩ := pair_inv e1
      cases e
      cases ha
      obtain ⟨q2, e2, g2⟩ := i2.1 _ _ (.rangeLoop hx (.fresh _ _ _ (by omega)) lb) q1 g1 trivial
      exact ⟨q2, .for hb rfl e2, g2⟩
    | range2 hx la ld lb =>
      obtain ⟨q1, e1, g1⟩ := i1.1 _ _ (.pair la ld) s0 hs trivial
      obtain ⟨q2, e2, g2⟩ := i2.1 _ _ (.rangeLoop hx (.fresh _ _ _ (by omega)) lb) q1 g1 trivial
      exact ⟨q2, .for e1 rfl e2, g2⟩
    | range3 hx hc0 la ld lb =>
      obtain ⟨q1, e1, g1⟩ := i1.1 _ _ (.pair la ld) s0 hs trivial
      obtain ⟨va, sa, u, e, ha, hb⟩ := pair_inv e1
      cases e
      obtain ⟨q2, e2, g2⟩ := i2.1 _ _ (.rangeLoop hx (.fresh _ _ _ hc0) lb) q1 g1 trivial
      exact ⟨q2, .for (.pair ha (.pair hb (.const _ _))) (by simp only [mkIter]; rw [if_neg hc0]) e2, g2⟩
    | @list3 x v n p j r0 l q b b' hf lb =>
      obtain ⟨hn, hlen, hp, hptr⟩ := hc
      obtain ⟨va, sa, u, e, ha, hb⟩ := pair_inv h1
      cases ha
      obtain ⟨rfl, eu | eu⟩ := var_inv hb
      · cases eu
      · cases eu
        rw [hn] at e
        cases e
        exact i2.1 _ _ (.list4 (v := v) (n := n) hf lb) s0 hs ⟨hlen, hp, hptr⟩
  | @impForType x a step body s v s1 h1 hne i1 =>
    refine .mk1 ?_ (by simp) (by simp)
    intro t c hl s0 hs hc; cases hl with
    | impFor hx la lb =>
      obtain ⟨q1, e1, g1⟩ := i1.1 _ _ la s0 hs trivial
      exact ⟨q1, .impForType e1 hne, g1⟩
    | range1 hx la lb =>
      obtain ⟨q1, e1, g1⟩ := i1.1 _ _ (.pair (.const _) la) s0 hs trivial
      obtain ⟨va, sa, u, e, ha, hb⟩ := pair_inv e1
      cases e
      cases ha
      refine ⟨q1, .forErr hb ?_, g1⟩
      cases u <;> first | rfl | exact absurd rfl (hne _ _)
    | range2 hx la ld lb =>
      obtain ⟨q1, e1, g1⟩ := i1.1 _ _ (.pair la ld) s0 hs trivial
      obtain ⟨va, sa, u, rfl, ha, hb⟩ := pair_inv e1
      refine ⟨q1, .forErr e1 ?_, g1⟩
      cases va <;> cases u <;> first | rfl | exact absurd rfl (hne _ _)
    | range3 hx hc0 la ld lb =>
      obtain ⟨q1, e1, g1⟩ := i1.1 _ _ (.pair la ld) s0 hs trivial
      obtain ⟨va, sa, u, rfl, ha, hb⟩ := pair_inv e1
      refine ⟨q1, .forErr (.pair ha (.pair hb (.const _ _))) ?_, g1⟩
      cases va <;> cases u <;> first | rfl | exact absurd rfl (hne _ _)
    | @list3 x v n p j r0 l q b b' hf lb =>
      obtain ⟨hn, hlen, hp, hptr⟩ := hc
      obtain ⟨va, sa, u, rfl, ha, hb⟩ := pair_inv h1
      cases ha
      obtain ⟨rfl, eu | eu⟩ := var_inv hb
      · cases eu
      · cases eu
        exact absurd (by rw [hn]) (hne 0 l)
  | @impForCut x a step body s v s1 h1 i1 =>
    refine .mk1 ?_ (by simp) (by simp)
    intro t c hl s0 hs hc; cases hl with
    | impFor hx la lb =>
      obtain ⟨q1, e1, g1⟩ := i1.1 _ _ la s0 hs trivial
      exact ⟨q1, .impForCut e1, g1⟩
    | range1 hx la lb =>
      obtain ⟨q1, e1, g1⟩ := i1.1 _ _ (.pair (.const _) la) s0 hs trivial
      obtain ⟨va, sa, u, e, ha, hb⟩ := pair_inv e1
      cases ha
      exact ⟨q1, .forCut hb, g1⟩
    | range2 hx la ld lb =>
      obtain ⟨q1, e1, g1⟩ := i1.1 _ _ (.pair la ld) s0 hs trivial
      exact ⟨q1, .forCut e1, g1⟩
    | range3 hx hc0 la ld lb =>
      obtain ⟨q1, e1, g1⟩ := i1.1 _ _ (.pair la ld) s0 hs trivial
      obtain ⟨va, sa, u, rfl, ha, hb⟩ := pair_inv e1
      exact ⟨q1, .forCut (.pair ha (.pair hb (.const _ _))), g1⟩
    | @list3 x v n p j r0 l q b b' hf lb =>
      obtain ⟨va, sa, u, rfl, ha, hb⟩ := pair_inv h1
      cases ha
      obtain ⟨rfl, _⟩ := var_inv hb
      exact ⟨s0, .cut _ _, hs⟩
  | @impForL x a step body s r s1 h1 hr i1 =>
    refine .mk1 ?_ (by simp) (by simp)
    intro t c hl s0 hs hc; cases hl with
    | impFor hx la lb =>
      obtain ⟨q1, e1, g1⟩ := i1.1 _ _ la s0 hs trivial
      exact ⟨q1, .impForL e1 hr, g1⟩
    | range1 hx la lb =>
      obtain ⟨q1, e1, g1⟩ := i1.1 _ _ (.pair (.const _) la) s0 hs trivial
      cases e1 with
      | cut => exact ⟨_, .cut _ _, g1⟩
      | pair => exact absurd trivial hr
      | pairL ha _ =>
        cases ha with
        | cut => exact ⟨_, .cut _ _, g1⟩
        | const => exact absurd trivial hr
      | pairR ha hb _ =>
        cases ha
        exact ⟨_, .forL hb hr, g1⟩
    | range2 hx la ld lb =>
      obtain ⟨q1, e1, g1⟩ := i1.1 _ _ (.pair la ld) s0 hs trivial
      exact ⟨q1, .forL e1 hr, g1⟩
    | range3 hx hc0 la ld lb =>
      obtain ⟨q1, e1, g1⟩ := i1.1 _ _ (.pair la ld) s0 hs trivial
      cases e1 with
      | cut => exact ⟨_, .cut _ _, g1⟩
      | pair => exact absurd trivial hr
      | pairL ha _ => exact ⟨_, .forL (.pairL ha hr) hr, g1⟩
      | pairR ha hb _ => exact ⟨_, .forL (.pairR ha (.pairL hb hr) hr) hr, g1⟩
    | @list3 x v n p j r0 l q b b' hf lb =>
      have : r = .cut ∧ s1 = s := by
        cases h1 with
        | cut => exact ⟨rfl, rfl⟩
        | pair => exact absurd trivial hr
        | pairL ha _ =>
          cases ha with
          | cut => exact ⟨rfl, rfl⟩
          | const => exact absurd trivial hr
        | pairR ha hb _ =>
          cases ha
          obtain ⟨rfl, rfl | rfl⟩ := var_inv hb
          · exact ⟨rfl, rfl⟩
          · exact absurd trivial hr
      obtain ⟨rfl, rfl⟩ := this
      exact ⟨s0, .cut _ _, hs⟩
  | @impDone x i step stop body s hd =>
    refine .mk1 ?_ (by simp) (by simp)
    intro t c hl s0 hs hc
    cases hl with
    | impLoop hx lb => exact ⟨s0, .impDone hd, hs⟩
    | rangeLoop hx hm lb =>
      rcases match_resume hm with ⟨_, h2⟩ | ⟨h1, _, _⟩
      · exact ⟨s0, .genDone (.rangeDone _ _ h2), hs⟩
      · rw [hd] at h1; cases h1
    | @list4 x v n p j r0 l q b b' hf lb =>
      obtain ⟨hlen, hp, hptr⟩ := hc
      rw [← hs.heap_eq] at hlen hptr
      have a : At W s0.heap (.fresh r0) 0 stop q := .fresh _ _ _ hlen hptr
      exact ⟨s0, .genDone (.listDone _ _ (by rw [a.resume, check_of_done hd])), hs⟩
    | @list5 x v n p j i l q b b' hf lb =>
      have a : At W s0.heap (.yielded i stop q) (w (i + 1)) stop q := .yielded _ _ _
      exact ⟨s0, .genDone (.listDone _ _ (by rw [a.resume, check_of_done hd])), hs⟩
  | @impLeave x i step stop body s r s1 hd hb hr ib =>
    refine .mk1 ?_ (by simp) (by simp)
    intro t c hl s0 hs hc
    have listCase : ∀ {x v n p j q : Nat} {g : ListGen} {b b' : Term}, Fresh N x v n p j b' → Low W N b b' (fun _ => True) →
        At W s0.heap g i stop q → s.vars p = .ptr q → impDone i 1 stop = false →
        B3 W N (lbody x p j b') (s.set j (.int i)) r s1 → ∃ s1', Ev W (.genLoop x (.list g) b) s0 r.leave s1' ∧ S N s1' s1 := by
      intro x v n p j q g b b' hf lb a hp hd h3
      rcases lbody_back (q := q) (i := i) (by rw [set_ne (Ne.symm hf.pj)]; exact hp) set_same hf.hx lb (hs.setR hf.hj _) h3 with
        ⟨rfl, hs1⟩ | ⟨rfl, hs1, hload⟩ | ⟨u, hload, _, s2, e2, g2⟩
      · exact ⟨s0, .cut _ _, hs1⟩
      · refine ⟨s0, .genStop (h := s0.heap) (.listStop _ _ _ ?_), hs1⟩
        rw [a.resume, check_of hd, hload]
        rfl
      · refine ⟨s2, .genLeave (h := s0.heap) (v := u) (.listYield _ _ _ (.yielded i stop q) ?_) e2 hr, g2⟩
        rw [a.resume, check_of hd, hload]
    cases hl with
    | impLoop hx lb =>
      obtain ⟨q1, e1, g1⟩ := ib.1 _ _ lb _ (hs.setL hx _) trivial
      exact ⟨q1, .impLeave hd e1 hr, g1⟩
    | rangeLoop hx hm lb =>
      rcases match_resume hm with ⟨h1, _⟩ | ⟨_, h2, _⟩
      · rw [hd] at h1; cases h1
      · obtain ⟨q1, e1, g1⟩ := ib.1 _ _ lb _ (hs.setL hx _) trivial
        exact ⟨q1, .genLeave (.rangeYield _ _ _ _ h2) e1 hr, g1⟩
    | @list4 x v n p j r0 l q b b' hf lb =>
      obtain ⟨hlen, hp, hptr⟩ := hc
      rw [← hs.heap_eq] at hlen hptr
      exact listCase hf lb (.fresh _ _ _ hlen hptr) hp hd ib.2.2
    | @list5 x v n p j i l q b b' hf lb => exact listCase hf lb (.yielded _ _ _) hc hd ib.2.2
  | @impNext x i step stop body s r s1 q s2 hd hb hr hn ib ih =>
    refine .mk1 ?_ (by simp) (by simp)
    intro t c hl s0 hs hc
    have listCase : ∀ {x v n p j q0 : Nat} {g : ListGen} {b b' : Term}, Fresh N x v n p j b' → Low W N b b' (fun _ => True) →
        At W s0.heap g i stop q0 → s.vars p = .ptr q0 → impDone i 1 stop = false →
        B3 W N (lbody x p j b') (s.set j (.int i)) r s1 → B1 W N (.impLoop j (w (i + 1)) 1 stop (lbody x p j b')) s1 q s2 →
        ∃ s1', Ev W (.genLoop x (.list g) b) s0 q s1' ∧ S N s1' s2 := by
      intro x v n p j q0 g b b' hf lb a hp hd h3 h4
      rcases lbody_back (q := q0) (i := i) (by rw [set_ne (Ne.symm hf.pj)]; exact hp) set_same hf.hx lb (hs.setR hf.hj _) h3 with
        ⟨rfl, hs1⟩ | ⟨rfl, hs1, hload⟩ | ⟨u, hload, eb, s3, e2, g2⟩
      · exact absurd hr (fun h => h)
      · exact absurd hr (fun h => h)
      · have hp1 : s1.vars p = .ptr q0 := by
          have := hf.hx; have := hf.hp
          rw [frame eb hf.pb, set_ne (by omega), set_ne (Ne.symm hf.pj)]; exact hp
        obtain ⟨s4, e4, g4⟩ := h4 _ _ (.list5 (v := v) (n := n) hf lb) s3 g2 hp1
        refine ⟨s4, .genNext (h := s0.heap) (v := u) (.listYield _ _ _ _ ?_) e2 hr e4, g4⟩
        rw [a.resume, check_of hd, hload]
    cases hl with
    | impLoop hx lb =>
      obtain ⟨q1, e1, g1⟩ := ib.1 _ _ lb _ (hs.setL hx _) trivial
      obtain ⟨q2, e2, g2⟩ := ih.1 _ _ (.impLoop hx lb) _ g1 trivial
      exact ⟨q2, .impNext hd e1 hr e2, g2⟩
    | rangeLoop hx hm lb =>
      rcases match_resume hm with ⟨h1, _⟩ | ⟨_, h2, hm'⟩
      · rw [hd] at h1; cases h1
      · obtain ⟨q1, e1, g1⟩ := ib.1 _ _ lb _ (hs.setL hx _) trivial
        obtain ⟨q2, e2, g2⟩ := ih.1 _ _ (.rangeLoop hx hm' lb) _ g1 trivial
        exact ⟨q2, .genNext (.rangeYield _ _ _ _ h2) e1 hr e2, g2⟩
    | @list4 x v n p j r0 l q b b' hf lb =>
      obtain ⟨hlen, hp, hptr⟩ := hc
      rw [← hs.heap_eq] at hlen hptr
      exact listCase hf lb (.fresh _ _ _ hlen hptr) hp hd ib.2.2 ih.1
    | @list5 x v n p j i l q b b' hf lb => exact listCase hf lb (.yielded _ _ _) hc hd ib.2.2 ih.1

end Codon.ForLow
