import Verif.Ctl.Spec
/-!
# What the code for a pattern does

`semP p v k`: the effect of the lowered pattern `p` on the value `v` when `k` is the
effect of the suite.
-/

namespace Verif.Ctl

mutual
def semP (k : St → St × Out) : Pat → Val → St → St × Out
  | .int i, .int j, s => if j = i then k s else (s, .norm)
  | .bool b, .bool c, s => if c = b then k s else (s, .norm)
  | .str b, .str c, s => if c = b then k s else (s, .norm)
  | .range a b, .int j, s => if a ≤ j ∧ j ≤ b then k s else (s, .norm)
  | .tup ps, .tup vs, s => if vs.length = ps.length then semPs k ps vs s else (s, .norm)
  | .lst ps, .lst vs, s => if vs.length = ps.length then semPs k ps vs s else (s, .norm)
  | .lstE ps qs, .lst vs, s =>
    if ps.length + qs.length ≤ vs.length then
      semPs (semPs k qs (vs.drop (vs.length - qs.length))) ps (vs.take ps.length) s
    else (s, .norm)
  | .alt p q, v, s =>
    match semP k p v s with
    | (s, .norm) => semP k q v s
    | r => r
  | .wild, _, s => k s
  | .var x, v, s => k (s.set x v)
  | .bind x p, v, s => semP k p v (s.set x v)
  | _, _, s => (s, .norm)
def semPs (k : St → St × Out) : Pats → List Val → St → St × Out
  | .cons p ps, v :: vs, s => semP (semPs k ps vs) p v s
  | _, _, s => k s
end

/-- Equal but for the variables in `D`. -/
def Same (D : List Nat) (s t : St) : Prop :=
  (∀ x, x ∉ D → t.vars x = s.vars x) ∧ t.tups = s.tups ∧ t.out = s.out

theorem Same.refl (D s) : Same D s s := ⟨fun _ _ => rfl, rfl, rfl⟩

theorem Same.trans {D s t u} (h : Same D s t) (g : Same D t u) : Same D s u :=
  ⟨fun x hx => (g.1 x hx).trans (h.1 x hx), g.2.1.trans h.2.1, g.2.2.trans h.2.2⟩

theorem Same.mono {D E s t} (h : Same D s t) (g : ∀ x, x ∈ D → x ∈ E) : Same E s t :=
  ⟨fun x hx => h.1 x fun hd => hx (g x hd), h.2⟩

theorem Same.set {D s x v} (h : x ∈ D) : Same D s (s.set x v) :=
  ⟨fun y hy => by
    have : y ≠ x := fun e => hy (e ▸ h)
    simp [St.set, this], rfl, rfl⟩

theorem St.ext' {s t : St} (h1 : ∀ x, t.vars x = s.vars x) (h2 : t.tups = s.tups)
    (h3 : t.out = s.out) : t = s := by
  cases s; cases t; simp at *; exact ⟨funext h1, h2, h3⟩

theorem bindAll_append (s : St) (a b) : s.bindAll (a ++ b) = (s.bindAll a).bindAll b := by
  induction a generalizing s with
  | nil => rfl
  | cons x a ih => exact ih _

theorem bindAll_same (bs : List (Nat × Val)) {D s t} (h : Same D s t)
    (hd : ∀ x, x ∈ D → x ∈ bs.map Prod.fst) : t.bindAll bs = s.bindAll bs := by
  induction bs generalizing D s t with
  | nil =>
    refine St.ext' (fun x => h.1 x fun hx => ?_) h.2.1 h.2.2
    exact absurd (hd x hx) (by simp)
  | cons b bs ih =>
    obtain ⟨y, v⟩ := b
    refine ih (D := D.filter (· ≠ y)) ⟨fun x hx => ?_, h.2⟩ fun x hx => ?_
    · simp only [St.set]
      by_cases e : x = y
      · simp [e]
      · simp only [e, if_false]
        exact h.1 x fun hd' => hx (List.mem_filter.2 ⟨hd', by simp [e]⟩)
    · have := List.mem_filter.1 hx
      have h2 := hd x this.1
      simp only [List.map_cons, List.mem_cons] at h2
      rcases h2 with h2 | h2
      · exact absurd h2 (by simpa using this.2)
      · exact h2

mutual
theorem cover : ∀ (p : Pat) (v bs), p.even → matches? p v = some bs →
    ∀ x, x ∈ p.caps → x ∈ bs.map Prod.fst
  | .int _, _, _, _, _, _, hx => by simp [Pat.caps] at hx
  | .bool _, _, _, _, _, _, hx => by simp [Pat.caps] at hx
  | .str _, _, _, _, _, _, hx => by simp [Pat.caps] at hx
  | .range _ _, _, _, _, _, _, hx => by simp [Pat.caps] at hx
  | .wild, _, _, _, _, _, hx => by simp [Pat.caps] at hx
  | .var y, v, bs, _, h, x, hx => by
    simp only [matches?, Option.some.injEq] at h
    subst h; simpa [Pat.caps] using hx
  | .bind y p, v, bs, he, h, x, hx => by
    simp only [matches?] at h
    split at h
    · rename_i cs hc
      cases h
      simp only [Pat.caps, List.mem_cons] at hx
      rcases hx with hx | hx
      · simp [hx]
      · simp only [List.map_cons, List.mem_cons]
        exact .inr (cover p v cs he hc x hx)
    · cases h
  | .alt p q, v, bs, he, h, x, hx => by
    simp only [matches?] at h
    simp only [Pat.even] at he
    simp only [Pat.caps, List.mem_append] at hx
    split at h
    · rename_i cs hc
      cases h
      exact cover p v _ he.1 hc x (hx.elim id fun g => (he.2.2 x).2 g)
    · exact cover q v bs he.2.1 h x (hx.elim (fun g => (he.2.2 x).1 g) id)
  | .tup ps, v, bs, he, h, x, hx => by
    cases v <;> simp only [matches?, reduceCtorEq] at h
    exact covers ps _ bs he h x hx
  | .lst ps, v, bs, he, h, x, hx => by
    cases v <;> simp only [matches?, reduceCtorEq] at h
    exact covers ps _ bs he h x hx
  | .lstE ps qs, v, bs, he, h, x, hx => by
    cases v <;> simp only [matches?, reduceCtorEq] at h
    split at h
    · cases h
    split at h
    · rename_i a b ha hb
      cases h
      simp only [Pat.caps, List.mem_append] at hx
      simp only [List.map_append, List.mem_append]
      rcases hx with hx | hx
      · exact .inl (covers ps _ _ he.1 ha x hx)
      · exact .inr (covers qs _ _ he.2 hb x hx)
    · cases h
theorem covers : ∀ (ps : Pats) (vs bs), ps.even → matchAll ps vs = some bs →
    ∀ x, x ∈ ps.caps → x ∈ bs.map Prod.fst
  | .nil, _, _, _, _, _, hx => by simp [Pats.caps] at hx
  | .cons p ps, vs, bs, he, h, x, hx => by
    cases vs with
    | nil => simp [matchAll] at h
    | cons v vs =>
      simp only [matchAll] at h
      split at h
      · rename_i a b ha hb
        cases h
        simp only [Pats.caps, List.mem_append] at hx
        simp only [List.map_append, List.mem_append]
        rcases hx with hx | hx
        · exact .inl (cover p _ _ he.1 ha x hx)
        · exact .inr (covers ps _ _ he.2 hb x hx)
      · cases h
end

theorem matchAll_len : ∀ (ps : Pats) (vs bs), matchAll ps vs = some bs → vs.length = ps.length
  | .nil, [], _, _ => rfl
  | .nil, _ :: _, _, h => by simp [matchAll] at h
  | .cons _ _, [], _, h => by simp [matchAll] at h
  | .cons p ps, v :: vs, bs, h => by
    simp only [matchAll] at h
    split at h
    · rename_i a b ha hb
      simp [Pats.length, matchAll_len ps vs b hb]
    · cases h

mutual
/-- If the suite always falls through, so does the pattern. -/
theorem fall : ∀ (p : Pat) (v) (k : St → St × Out) (D),
    (∀ s, ∃ s1, k s = (s1, .norm) ∧ Same D s s1) →
    ∀ s, ∃ s1, semP k p v s = (s1, .norm) ∧ Same (p.caps ++ D) s s1
  | .int i, v, k, D, hk, s => by
    cases v <;> simp only [semP] <;>
      first
      | exact ⟨s, rfl, .refl _ _⟩
      | (split
         · exact hk s
         · exact ⟨s, rfl, .refl _ _⟩)
  | .bool i, v, k, D, hk, s => by
    cases v <;> simp only [semP] <;>
      first
      | exact ⟨s, rfl, .refl _ _⟩
      | (split
         · exact hk s
         · exact ⟨s, rfl, .refl _ _⟩)
  | .str i, v, k, D, hk, s => by
    cases v <;> simp only [semP] <;>
      first
      | exact ⟨s, rfl, .refl _ _⟩
      | (split
         · exact hk s
         · exact ⟨s, rfl, .refl _ _⟩)
  | .range a b, v, k, D, hk, s => by
    cases v <;> simp only [semP] <;>
      first
      | exact ⟨s, rfl, .refl _ _⟩
      | (split
         · exact hk s
         · exact ⟨s, rfl, .refl _ _⟩)
  | .tup ps, v, k, D, hk, s => by
    cases v <;> simp only [semP] <;>
      first
      | exact ⟨s, rfl, .refl _ _⟩
      | (split
         · exact falls ps _ k D hk s
         · exact ⟨s, rfl, .refl _ _⟩)
  | .lst ps, v, k, D, hk, s => by
    cases v <;> simp only [semP] <;>
      first
      | exact ⟨s, rfl, .refl _ _⟩
      | (split
         · exact falls ps _ k D hk s
         · exact ⟨s, rfl, .refl _ _⟩)
  | .lstE ps qs, v, k, D, hk, s => by
    cases v <;> simp only [semP] <;> try exact ⟨s, rfl, .refl _ _⟩
    split
    · obtain ⟨s1, h1, h2⟩ := falls ps _ _ (qs.caps ++ D) (falls qs _ k D hk) s
      exact ⟨s1, h1, by simpa [Pat.caps] using h2⟩
    · exact ⟨s, rfl, .refl _ _⟩
  | .alt p q, v, k, D, hk, s => by
    obtain ⟨s1, h1, g1⟩ := fall p v k D hk s
    obtain ⟨s2, h2, g2⟩ := fall q v k D hk s1
    refine ⟨s2, by simp only [semP, h1, h2], (g1.mono ?_).trans (g2.mono ?_)⟩ <;>
      (intro x hx; simp only [Pat.caps, List.mem_append] at *; grind)
  | .wild, v, k, D, hk, s => by simpa [semP, Pat.caps] using hk s
  | .var x, v, k, D, hk, s => by
    obtain ⟨s1, h1, g1⟩ := hk (s.set x v)
    refine ⟨s1, by simp only [semP, h1], (Same.set (by simp [Pat.caps])).trans (g1.mono ?_)⟩
    intro y hy; simp [hy]
  | .bind x p, v, k, D, hk, s => by
    obtain ⟨s1, h1, g1⟩ := fall p v k D hk (s.set x v)
    refine ⟨s1, by simp only [semP, h1], (Same.set (by simp [Pat.caps])).trans (g1.mono ?_)⟩
    intro y hy; simp only [Pat.caps, List.mem_append, List.mem_cons] at *; grind
theorem falls : ∀ (ps : Pats) (vs) (k : St → St × Out) (D),
    (∀ s, ∃ s1, k s = (s1, .norm) ∧ Same D s s1) →
    ∀ s, ∃ s1, semPs k ps vs s = (s1, .norm) ∧ Same (ps.caps ++ D) s s1
  | .nil, vs, k, D, hk, s => by simpa [semPs, Pats.caps] using hk s
  | .cons p ps, [], k, D, hk, s => by
    obtain ⟨s1, h1, g1⟩ := hk s
    exact ⟨s1, by simp only [semPs, h1], g1.mono (by intro y hy; simp [hy])⟩
  | .cons p ps, v :: vs, k, D, hk, s => by
    obtain ⟨s1, h1, h2⟩ := fall p v _ (ps.caps ++ D) (falls ps vs k D hk) s
    exact ⟨s1, by simp only [semPs, h1], by simpa [Pats.caps] using h2⟩
end

mutual
/-- A pattern that does not match falls through, whatever the suite. -/
theorem fails : ∀ (p : Pat) (v), matches? p v = none →
    ∀ s, ∃ s1, (∀ k, semP k p v s = (s1, .norm)) ∧ Same p.caps s s1
  | .int i, v, h, s => by
    cases v <;> simp only [matches?] at h <;> simp only [semP] <;>
      first
      | exact ⟨s, fun _ => rfl, .refl _ _⟩
      | (split at h
         · cases h
         · rename_i hn; exact ⟨s, fun _ => by rw [if_neg hn], .refl _ _⟩)
  | .bool i, v, h, s => by
    cases v <;> simp only [matches?] at h <;> simp only [semP] <;>
      first
      | exact ⟨s, fun _ => rfl, .refl _ _⟩
      | (split at h
         · cases h
         · rename_i hn; exact ⟨s, fun _ => by rw [if_neg hn], .refl _ _⟩)
  | .str i, v, h, s => by
    cases v <;> simp only [matches?] at h <;> simp only [semP] <;>
      first
      | exact ⟨s, fun _ => rfl, .refl _ _⟩
      | (split at h
         · cases h
         · rename_i hn; exact ⟨s, fun _ => by rw [if_neg hn], .refl _ _⟩)
  | .range a b, v, h, s => by
    cases v <;> simp only [matches?] at h <;> simp only [semP] <;>
      first
      | exact ⟨s, fun _ => rfl, .refl _ _⟩
      | (split at h
         · cases h
         · rename_i hn; exact ⟨s, fun _ => by rw [if_neg hn], .refl _ _⟩)
  | .tup ps, v, h, s => by
    cases v <;> simp only [matches?] at h <;> simp only [semP] <;>
      try exact ⟨s, fun _ => rfl, .refl _ _⟩
    split
    · exact failss ps _ h (by assumption) s
    · exact ⟨s, fun _ => rfl, .refl _ _⟩
  | .lst ps, v, h, s => by
    cases v <;> simp only [matches?] at h <;> simp only [semP] <;>
      try exact ⟨s, fun _ => rfl, .refl _ _⟩
    split
    · exact failss ps _ h (by assumption) s
    · exact ⟨s, fun _ => rfl, .refl _ _⟩
  | .lstE ps qs, v, h, s => by
    cases v <;> simp only [matches?] at h <;> simp only [semP] <;>
      try exact ⟨s, fun _ => rfl, .refl _ _⟩
    rename_i vs
    split
    · rename_i hl
      rw [if_neg (by omega)] at h
      have l1 : (vs.take ps.length).length = ps.length := by simp; omega
      have l2 : (vs.drop (vs.length - qs.length)).length = qs.length := by simp; omega
      cases ha : matchAll ps (vs.take ps.length) with
      | none =>
        obtain ⟨s1, h1, g1⟩ := failss ps _ ha l1 s
        exact ⟨s1, fun k => h1 _, g1.mono (by intro y hy; simp [Pat.caps, hy])⟩
      | some a =>
        cases hb : matchAll qs (vs.drop (vs.length - qs.length)) with
        | some b => simp [ha, hb] at h
        | none =>
          have hq := failss qs _ hb l2
          have e : ∀ k k', semPs k qs (vs.drop (vs.length - qs.length)) =
              semPs k' qs (vs.drop (vs.length - qs.length)) := by
            intro k k'; funext t
            obtain ⟨t1, ht, _⟩ := hq t
            rw [ht, ht]
          obtain ⟨s1, h1, g1⟩ := falls ps (vs.take ps.length)
            (semPs (fun s => (s, .norm)) qs (vs.drop (vs.length - qs.length))) qs.caps
            (fun t => by
              obtain ⟨t1, ht, gt⟩ := hq t
              exact ⟨t1, ht _, gt⟩) s
          refine ⟨s1, fun k => ?_, g1⟩
          rw [e k (fun s => (s, .norm)), h1]
    · exact ⟨s, fun _ => rfl, .refl _ _⟩
  | .alt p q, v, h, s => by
    simp only [matches?] at h
    split at h
    · cases h
    rename_i hp
    obtain ⟨s1, h1, g1⟩ := fails p v hp s
    obtain ⟨s2, h2, g2⟩ := fails q v h s1
    refine ⟨s2, fun k => by simp only [semP, h1, h2], (g1.mono ?_).trans (g2.mono ?_)⟩ <;>
      (intro x hx; simp [Pat.caps, hx])
  | .wild, v, h, s => by simp [matches?] at h
  | .var x, v, h, s => by simp [matches?] at h
  | .bind x p, v, h, s => by
    simp only [matches?] at h
    split at h
    · cases h
    rename_i hp
    obtain ⟨s1, h1, g1⟩ := fails p v hp (s.set x v)
    refine ⟨s1, fun k => by simp only [semP, h1],
      (Same.set (by simp [Pat.caps])).trans (g1.mono ?_)⟩
    intro y hy; simp [Pat.caps, hy]
theorem failss : ∀ (ps : Pats) (vs), matchAll ps vs = none → vs.length = ps.length →
    ∀ s, ∃ s1, (∀ k, semPs k ps vs s = (s1, .norm)) ∧ Same ps.caps s s1
  | .nil, [], h, _, s => by simp [matchAll] at h
  | .nil, _ :: _, h, hl, s => by simp [Pats.length] at hl
  | .cons p ps, [], h, hl, s => by simp [Pats.length] at hl
  | .cons p ps, v :: vs, h, hl, s => by
    simp only [Pats.length, List.length_cons, Nat.add_right_cancel_iff] at hl
    cases hp : matches? p v with
    | none =>
      obtain ⟨s1, h1, g1⟩ := fails p v hp s
      exact ⟨s1, fun k => by simp only [semPs, h1],
        g1.mono (by intro y hy; simp [Pats.caps, hy])⟩
    | some a =>
      cases hb : matchAll ps vs with
      | some b => simp [matchAll, hp, hb] at h
      | none =>
        have hq := failss ps vs hb hl
        have e : ∀ k k', semPs k ps vs = semPs k' ps vs := by
          intro k k'; funext t
          obtain ⟨t1, ht, _⟩ := hq t
          rw [ht, ht]
        obtain ⟨s1, h1, g1⟩ := fall p v (semPs (fun s => (s, .norm)) ps vs) ps.caps
          (fun t => by
            obtain ⟨t1, ht, gt⟩ := hq t
            exact ⟨t1, ht _, gt⟩) s
        refine ⟨s1, fun k => ?_, g1⟩
        simp only [semPs]
        rw [e k (fun s => (s, .norm)), h1]
end

mutual
/-- A pattern that matches runs the suite once if the suite does not fall through. -/
theorem succeeds : ∀ (p : Pat) (v bs) (k : St → St × Out) (s), p.even →
    matches? p v = some bs → (k (s.bindAll bs)).2 ≠ .norm →
    semP k p v s = k (s.bindAll bs)
  | .int i, v, bs, k, s, _, h, hk => by
    cases v <;> simp only [matches?, reduceCtorEq] at h
    split at h <;> simp at h
    subst h; rename_i e; simp only [semP, if_pos e, St.bindAll]
  | .bool i, v, bs, k, s, _, h, hk => by
    cases v <;> simp only [matches?, reduceCtorEq] at h
    split at h <;> simp at h
    subst h; rename_i e; simp only [semP, if_pos e, St.bindAll]
  | .str i, v, bs, k, s, _, h, hk => by
    cases v <;> simp only [matches?, reduceCtorEq] at h
    split at h <;> simp at h
    subst h; rename_i e; simp only [semP, if_pos e, St.bindAll]
  | .range a b, v, bs, k, s, _, h, hk => by
    cases v <;> simp only [matches?, reduceCtorEq] at h
    split at h <;> simp at h
    subst h; rename_i e; simp only [semP, if_pos e, St.bindAll]
  | .tup ps, v, bs, k, s, he, h, hk => by
    cases v <;> simp only [matches?, reduceCtorEq] at h
    simp only [semP, if_pos (matchAll_len _ _ _ h)]
    exact succeedss ps _ bs k s he h hk
  | .lst ps, v, bs, k, s, he, h, hk => by
    cases v <;> simp only [matches?, reduceCtorEq] at h
    simp only [semP, if_pos (matchAll_len _ _ _ h)]
    exact succeedss ps _ bs k s he h hk
  | .lstE ps qs, v, bs, k, s, he, h, hk => by
    cases v <;> simp only [matches?, reduceCtorEq] at h
    split at h
    · cases h
    rename_i hl
    split at h
    · rename_i a b ha hb
      cases h
      rw [bindAll_append] at hk ⊢
      have h2 := succeedss qs _ b k (s.bindAll a) he.2 hb hk
      simp only [semP, if_pos (Nat.le_of_not_lt hl)]
      rw [succeedss ps _ a _ s he.1 ha (by rw [h2]; exact hk), h2]
    · cases h
  | .alt p q, v, bs, k, s, he, h, hk => by
    simp only [Pat.even] at he
    simp only [matches?] at h
    split at h
    · rename_i cs hc
      cases h
      have := succeeds p v bs k s he.1 hc hk
      simp only [semP, this]
      split
      · rename_i e; rw [e] at hk; exact absurd rfl hk
      · rfl
    · rename_i hp
      obtain ⟨s1, h1, g1⟩ := fails p v hp s
      have e : s1.bindAll bs = s.bindAll bs :=
        bindAll_same bs g1 fun x hx => cover q v bs he.2.1 h x ((he.2.2 x).1 hx)
      have := succeeds q v bs k s1 he.2.1 h (by rw [e]; exact hk)
      simp only [semP, h1, this, e]
  | .wild, v, bs, k, s, _, h, hk => by
    simp only [matches?, Option.some.injEq] at h; subst h; rfl
  | .var x, v, bs, k, s, _, h, hk => by
    simp only [matches?, Option.some.injEq] at h; subst h; rfl
  | .bind x p, v, bs, k, s, he, h, hk => by
    simp only [matches?] at h
    split at h
    · rename_i cs hc
      cases h
      simp only [semP]
      exact succeeds p v cs k (s.set x v) he hc hk
    · cases h
theorem succeedss : ∀ (ps : Pats) (vs bs) (k : St → St × Out) (s), ps.even →
    matchAll ps vs = some bs → (k (s.bindAll bs)).2 ≠ .norm →
    semPs k ps vs s = k (s.bindAll bs)
  | .nil, [], bs, k, s, _, h, hk => by
    simp only [matchAll, Option.some.injEq] at h; subst h; rfl
  | .nil, _ :: _, bs, k, s, _, h, hk => by simp [matchAll] at h
  | .cons p ps, [], bs, k, s, _, h, hk => by simp [matchAll] at h
  | .cons p ps, v :: vs, bs, k, s, he, h, hk => by
    simp only [matchAll] at h
    split at h
    · rename_i a b ha hb
      cases h
      rw [bindAll_append] at hk ⊢
      have h2 := succeedss ps vs b k (s.bindAll a) he.2 hb hk
      simp only [semPs]
      rw [succeeds p v a _ s he.1 ha (by rw [h2]; exact hk), h2]
    · cases h
end

mutual
/-- A pattern without alternatives runs the suite once. -/
theorem single : ∀ (p : Pat) (v bs) (k : St → St × Out) (s), p.single →
    matches? p v = some bs → semP k p v s = k (s.bindAll bs)
  | .int i, v, bs, k, s, _, h => by
    cases v <;> simp only [matches?, reduceCtorEq] at h
    split at h <;> simp at h
    subst h; rename_i e; simp only [semP, if_pos e, St.bindAll]
  | .bool i, v, bs, k, s, _, h => by
    cases v <;> simp only [matches?, reduceCtorEq] at h
    split at h <;> simp at h
    subst h; rename_i e; simp only [semP, if_pos e, St.bindAll]
  | .str i, v, bs, k, s, _, h => by
    cases v <;> simp only [matches?, reduceCtorEq] at h
    split at h <;> simp at h
    subst h; rename_i e; simp only [semP, if_pos e, St.bindAll]
  | .range a b, v, bs, k, s, _, h => by
    cases v <;> simp only [matches?, reduceCtorEq] at h
    split at h <;> simp at h
    subst h; rename_i e; simp only [semP, if_pos e, St.bindAll]
  | .tup ps, v, bs, k, s, he, h => by
    cases v <;> simp only [matches?, reduceCtorEq] at h
    simp only [semP, if_pos (matchAll_len _ _ _ h)]
    exact singles ps _ bs k s he h
  | .lst ps, v, bs, k, s, he, h => by
    cases v <;> simp only [matches?, reduceCtorEq] at h
    simp only [semP, if_pos (matchAll_len _ _ _ h)]
    exact singles ps _ bs k s he h
  | .lstE ps qs, v, bs, k, s, he, h => by
    cases v <;> simp only [matches?, reduceCtorEq] at h
    split at h
    · cases h
    rename_i hl
    split at h
    · rename_i a b ha hb
      cases h
      rw [bindAll_append]
      simp only [semP, if_pos (Nat.le_of_not_lt hl)]
      rw [singles ps _ a _ s he.1 ha, singles qs _ b k _ he.2 hb]
    · cases h
  | .alt p q, v, bs, k, s, he, h => by simp [Pat.single] at he
  | .wild, v, bs, k, s, _, h => by
    simp only [matches?, Option.some.injEq] at h; subst h; rfl
  | .var x, v, bs, k, s, _, h => by
    simp only [matches?, Option.some.injEq] at h; subst h; rfl
  | .bind x p, v, bs, k, s, he, h => by
    simp only [matches?] at h
    split at h
    · rename_i cs hc
      cases h
      simp only [semP]
      exact single p v cs k (s.set x v) he hc
    · cases h
theorem singles : ∀ (ps : Pats) (vs bs) (k : St → St × Out) (s), ps.single →
    matchAll ps vs = some bs → semPs k ps vs s = k (s.bindAll bs)
  | .nil, [], bs, k, s, _, h => by
    simp only [matchAll, Option.some.injEq] at h; subst h; rfl
  | .nil, _ :: _, bs, k, s, _, h => by simp [matchAll] at h
  | .cons p ps, [], bs, k, s, _, h => by simp [matchAll] at h
  | .cons p ps, v :: vs, bs, k, s, he, h => by
    simp only [matchAll] at h
    split at h
    · rename_i a b ha hb
      cases h
      rw [bindAll_append]
      simp only [semPs]
      rw [single p v a _ s he.1 ha, singles ps vs b k _ he.2 hb]
    · cases h
end

/-- Two states that differ in no variable are the same. -/
theorem Same.eq_of_nil {s t} (h : Same [] s t) : t = s :=
  St.ext' (fun x => h.1 x (by simp)) h.2.1 h.2.2

mutual
/-- A pattern that captures nothing leaves alone a state on which the suite falls
through unchanged. -/
theorem inert : ∀ (p : Pat) (v) (k : St → St × Out) (s), p.caps = [] →
    k s = (s, .norm) → semP k p v s = (s, .norm)
  | .int i, v, k, s, _, hk => by cases v <;> simp only [semP, hk, ite_self]
  | .bool i, v, k, s, _, hk => by cases v <;> simp only [semP, hk, ite_self]
  | .str i, v, k, s, _, hk => by cases v <;> simp only [semP, hk, ite_self]
  | .range a b, v, k, s, _, hk => by cases v <;> simp only [semP, hk, ite_self]
  | .tup ps, v, k, s, hc, hk => by
    cases v <;> simp only [semP, inerts ps _ k s hc hk, ite_self]
  | .lst ps, v, k, s, hc, hk => by
    cases v <;> simp only [semP, inerts ps _ k s hc hk, ite_self]
  | .lstE ps qs, v, k, s, hc, hk => by
    simp only [Pat.caps, List.append_eq_nil_iff] at hc
    cases v <;> simp only [semP,
      inerts ps _ _ s hc.1 (inerts qs _ k s hc.2 hk), ite_self]
  | .alt p q, v, k, s, hc, hk => by
    simp only [Pat.caps, List.append_eq_nil_iff] at hc
    simp only [semP, inert p v k s hc.1 hk, inert q v k s hc.2 hk]
  | .wild, v, k, s, _, hk => by simp only [semP, hk]
  | .var x, v, k, s, hc, hk => by simp [Pat.caps] at hc
  | .bind x p, v, k, s, hc, hk => by simp [Pat.caps] at hc
theorem inerts : ∀ (ps : Pats) (vs) (k : St → St × Out) (s), ps.caps = [] →
    k s = (s, .norm) → semPs k ps vs s = (s, .norm)
  | .nil, vs, k, s, _, hk => by simp only [semPs, hk]
  | .cons p ps, [], k, s, _, hk => by simp only [semPs, hk]
  | .cons p ps, v :: vs, k, s, hc, hk => by
    simp only [Pats.caps, List.append_eq_nil_iff] at hc
    simp only [semPs, inert p v _ s hc.1 (inerts ps vs k s hc.2 hk)]
end

mutual
/-- A pattern that captures nothing binds nothing. -/
theorem caps_nil : ∀ (p : Pat) (v bs), p.caps = [] → matches? p v = some bs → bs = []
  | .int i, v, bs, _, h => by
    cases v <;> simp only [matches?, reduceCtorEq] at h
    split at h <;> simp at h; exact h
  | .bool i, v, bs, _, h => by
    cases v <;> simp only [matches?, reduceCtorEq] at h
    split at h <;> simp at h; exact h
  | .str i, v, bs, _, h => by
    cases v <;> simp only [matches?, reduceCtorEq] at h
    split at h <;> simp at h; exact h
  | .range a b, v, bs, _, h => by
    cases v <;> simp only [matches?, reduceCtorEq] at h
    split at h <;> simp at h; exact h
  | .tup ps, v, bs, hc, h => by
    cases v <;> simp only [matches?, reduceCtorEq] at h
    exact caps_nils ps _ bs hc h
  | .lst ps, v, bs, hc, h => by
    cases v <;> simp only [matches?, reduceCtorEq] at h
    exact caps_nils ps _ bs hc h
  | .lstE ps qs, v, bs, hc, h => by
    simp only [Pat.caps, List.append_eq_nil_iff] at hc
    cases v <;> simp only [matches?, reduceCtorEq] at h
    split at h
    · cases h
    split at h
    · rename_i a b ha hb
      cases h
      rw [caps_nils ps _ _ hc.1 ha, caps_nils qs _ _ hc.2 hb]; rfl
    · cases h
  | .alt p q, v, bs, hc, h => by
    simp only [Pat.caps, List.append_eq_nil_iff] at hc
    simp only [matches?] at h
    split at h
    · rename_i cs hcs
      cases h
      exact caps_nil p v _ hc.1 hcs
    · exact caps_nil q v _ hc.2 h
  | .wild, v, bs, _, h => by simp [matches?] at h; exact h
  | .var x, v, bs, hc, h => by simp [Pat.caps] at hc
  | .bind x p, v, bs, hc, h => by simp [Pat.caps] at hc
theorem caps_nils : ∀ (ps : Pats) (vs bs), ps.caps = [] → matchAll ps vs = some bs → bs = []
  | .nil, [], bs, _, h => by simp [matchAll] at h; exact h
  | .nil, _ :: _, bs, _, h => by simp [matchAll] at h
  | .cons p ps, [], bs, _, h => by simp [matchAll] at h
  | .cons p ps, v :: vs, bs, hc, h => by
    simp only [Pats.caps, List.append_eq_nil_iff] at hc
    simp only [matchAll] at h
    split at h
    · rename_i a b ha hb
      cases h
      rw [caps_nil p _ _ hc.1 ha, caps_nils ps _ _ hc.2 hb]; rfl
    · cases h
end

end Verif.Ctl
