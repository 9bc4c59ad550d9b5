import Verif.PassMgr.Spec
import Mathlib.Data.List.Basic
/-! # Facts about the pass manager -/
namespace Codon.PassMgr

variable {σ ρ : Type}

theorem set_same {α : Type} (m : String → α) (k : String) (v : α) : set m k v k = v := by simp [set]
theorem set_ne {α : Type} (m : String → α) {k j : String} (v : α) (h : j ≠ k) : set m k v j = m j := by simp [set, h]

/-! ### Keys -/

/-- The key was handed out. -/
def Issued (keys : String → Nat) (s : String) : Prop :=
  ∃ raw, ':' ∉ raw.toList ∧ ((s = raw ∧ 1 ≤ keys raw) ∨ ∃ n, 2 ≤ n ∧ n ≤ keys raw ∧ s = raw ++ ":" ++ n.repr)

theorem colon_split {a b c d : List Char} (ha : ':' ∉ a) (hb : ':' ∉ b) (h : a ++ ':' :: c = b ++ ':' :: d) :
    a = b ∧ c = d := by
  induction a generalizing b with
  | nil =>
    cases b with
    | nil => simpa using h
    | cons y b =>
      simp only [List.nil_append, List.cons_append, List.cons.injEq] at h
      exact absurd (by rw [← h.1]; exact List.mem_cons_self) hb
  | cons x a ih =>
    cases b with
    | nil =>
      simp only [List.nil_append, List.cons_append, List.cons.injEq] at h
      exact absurd (by rw [h.1]; exact List.mem_cons_self) ha
    | cons y b =>
      simp only [List.cons_append, List.cons.injEq] at h
      obtain ⟨h1, h2⟩ := ih (fun h => ha (List.mem_cons_of_mem _ h)) (fun h => hb (List.mem_cons_of_mem _ h)) h.2
      exact ⟨by rw [h.1, h1], h2⟩

theorem key_toList (raw : String) (n : Nat) : (raw ++ ":" ++ n.repr).toList = raw.toList ++ ':' :: n.repr.toList := by
  simp

theorem key_inj {r1 r2 : String} {n1 n2 : Nat} (h1 : ':' ∉ r1.toList) (h2 : ':' ∉ r2.toList)
    (h : r1 ++ ":" ++ n1.repr = r2 ++ ":" ++ n2.repr) : r1 = r2 ∧ n1 = n2 := by
  have h3 := congrArg String.toList h
  rw [key_toList, key_toList] at h3
  obtain ⟨h4, h5⟩ := colon_split h1 h2 h3
  exact ⟨String.toList_inj.1 h4, Nat.repr_injective (String.toList_inj.1 h5)⟩

theorem uniqueKey_ok {keys keys' : String → Nat} {raw key : String} (h : uniqueKey keys raw = some (key, keys')) :
    ¬ Issued keys key ∧ Issued keys' key ∧ (∀ s, Issued keys s → Issued keys' s) := by
  unfold uniqueKey at h
  split at h
  · cases h
  · rename_i hc
    split at h
    · rename_i h0
      simp only [Option.some.injEq, Prod.mk.injEq] at h
      obtain ⟨rfl, rfl⟩ := h
      refine ⟨?_, ⟨raw, hc, .inl ⟨rfl, by simp [set]⟩⟩, ?_⟩
      · rintro ⟨r, hr, ⟨rfl, h1⟩ | ⟨n, _, _, rfl⟩⟩
        · omega
        · rw [key_toList] at hc
          simp at hc
      · rintro s ⟨r, hr, ⟨rfl, h1⟩ | ⟨n, h1, h2, rfl⟩⟩
        · exact ⟨_, hr, .inl ⟨rfl, by unfold set; split <;> omega⟩⟩
        · refine ⟨r, hr, .inr ⟨n, h1, ?_, rfl⟩⟩
          unfold set
          split
          · rename_i he; subst he; omega
          · exact h2
    · rename_i n0 h0
      simp only [Option.some.injEq, Prod.mk.injEq] at h
      obtain ⟨rfl, rfl⟩ := h
      refine ⟨?_, ⟨raw, hc, .inr ⟨n0 + 2, by omega, by simp [set], rfl⟩⟩, ?_⟩
      · rintro ⟨r, hr, ⟨h1, _⟩ | ⟨n, h1, h2, h3⟩⟩
        · rw [← h1, key_toList] at hr
          simp at hr
        · obtain ⟨rfl, rfl⟩ := key_inj hc hr h3
          omega
      · rintro s ⟨r, hr, ⟨rfl, h1⟩ | ⟨n, h1, h2, rfl⟩⟩
        · exact ⟨_, hr, .inl ⟨rfl, by unfold set; split <;> omega⟩⟩
        · refine ⟨r, hr, .inr ⟨n, h1, ?_, rfl⟩⟩
          unfold set
          split
          · rename_i he; subst he; omega
          · exact h2

/-! ### Registration -/

theorem addDeps_ok (key : String) (qs : List String) : ∀ {deps deps' : String → Option (List String)},
    addDeps key qs deps = some deps' →
    (∀ q ∈ qs, ∃ l, deps q = some l) ∧
    ∀ q, (deps q = none → deps' q = none) ∧
      (∀ l, deps q = some l → ∃ l', deps' q = some l' ∧ (∀ x, x ∈ l' ↔ x ∈ l ∨ (x = key ∧ q ∈ qs))) := by
  induction qs with
  | nil =>
    intro deps deps' h
    simp only [addDeps, Option.some.injEq] at h
    subst h
    refine ⟨by simp, fun q => ⟨id, fun l hl => ⟨l, hl, by simp⟩⟩⟩
  | cons q qs ih =>
    intro deps deps' h
    simp only [addDeps] at h
    split at h
    · cases h
    · rename_i l hl
      obtain ⟨h1, h2⟩ := ih h
      refine ⟨?_, fun q' => ⟨fun hn => ?_, fun l' hl' => ?_⟩⟩
      · intro q' hq'
        rcases List.mem_cons.1 hq' with rfl | hq'
        · exact ⟨l, hl⟩
        · obtain ⟨l', hl'⟩ := h1 q' hq'
          by_cases he : q' = q
          · subst he; exact ⟨l, hl⟩
          · rw [set_ne _ _ he] at hl'; exact ⟨l', hl'⟩
      · have he : q' ≠ q := by rintro rfl; rw [hl] at hn; cases hn
        exact (h2 q').1 (by rw [set_ne _ _ he]; exact hn)
      · by_cases he : q' = q
        · subst he
          rw [hl] at hl'
          injection hl' with hl'
          subst hl'
          obtain ⟨l'', h3, h4⟩ := (h2 q').2 (l ++ [key]) (set_same _ _ _)
          refine ⟨l'', h3, fun x => ?_⟩
          rw [h4]
          simp only [List.mem_append, List.mem_singleton, List.mem_cons, true_or, and_true]
          tauto
        · obtain ⟨l'', h3, h4⟩ := (h2 q').2 l' (by rw [set_ne _ _ he]; exact hl')
          refine ⟨l'', h3, fun x => ?_⟩
          rw [h4]
          simp only [List.mem_cons, he, false_or]

/-- What holds of the tables. -/
structure Tables (m : Mgr σ ρ) (rank : String → Nat) : Prop where
  issuedA : ∀ k a, m.analyses k = some a → Issued m.keys k
  issuedP : ∀ k p, m.passes k = some p → Issued m.keys k
  issuedD : ∀ q l x, m.deps q = some l → x ∈ l → Issued m.keys x
  depsA : ∀ q l, m.deps q = some l → ∃ a, m.analyses q = some a
  aDeps : ∀ q a, m.analyses q = some a → ∃ l, m.deps q = some l
  edge : ∀ k a q, m.analyses k = some a → q ∈ a.reqs → ∃ l, m.deps q = some l ∧ k ∈ l
  back : ∀ q l k a, m.deps q = some l → k ∈ l → m.analyses k = some a → q ∈ a.reqs
  rankLt : ∀ k a, m.analyses k = some a → rank k < m.numAnalyses
  rankReq : ∀ k a q, m.analyses k = some a → q ∈ a.reqs → rank q < rank k
  passReq : ∀ k p q, m.passes k = some p → q ∈ p.reqs → ∃ a, m.analyses q = some a
  orderP : ∀ k ∈ m.order, ∃ p, m.passes k = some p
  closed : ∀ k r, (k, r) ∈ m.results → ∃ a, m.analyses k = some a ∧ ∀ q ∈ a.reqs, ∃ r', (q, r') ∈ m.results

theorem insertBeforeKey_mem {b key : String} {l l' : List String} (h : insertBeforeKey b key l = some l') :
    ∀ x, x ∈ l' ↔ x = key ∨ x ∈ l := by
  induction l generalizing l' with
  | nil => cases h
  | cons y l ih =>
    simp only [insertBeforeKey] at h
    split at h
    · simp only [Option.some.injEq] at h
      subst h
      simp
    · simp only [Option.map_eq_some_iff] at h
      obtain ⟨l'', h1, rfl⟩ := h
      intro x
      simp only [List.mem_cons, ih h1]
      tauto

theorem tables_init (disabled : List String) : Tables (Mgr.init disabled : Mgr σ ρ) (fun _ => 0) := by
  constructor <;> simp [Mgr.init]

theorem registerPass_cases {m m' : Mgr σ ρ} {raw key before : String} {p : Pass σ ρ}
    (h : registerPass m raw p before = some (key, m')) : m' = m ∨ ∃ keys deps order,
      uniqueKey m.keys raw = some (key, keys) ∧ addDeps key p.reqs m.deps = some deps ∧
      (∀ x, x ∈ order ↔ x = key ∨ x ∈ m.order) ∧
      m' = { m with keys := keys, deps := deps, passes := set m.passes key (some p), order := order } := by
  unfold registerPass at h
  split at h
  · simp only [Option.some.injEq, Prod.mk.injEq] at h
    exact .inl h.2.symm
  · simp only [Option.bind_eq_bind, Option.bind_eq_some_iff, Option.some.injEq, Prod.mk.injEq] at h
    obtain ⟨⟨k, keys⟩, h1, deps, h2, order, h3, h4, h5⟩ := h
    simp only at h2 h4
    subst h4
    refine .inr ⟨keys, deps, order, h1, h2, ?_, h5.symm⟩
    unfold newOrder at h3
    split at h3
    · simp only [Option.some.injEq] at h3
      subst h3
      simp [or_comm]
    · exact insertBeforeKey_mem h3

theorem registerAnalysis_cases {m m' : Mgr σ ρ} {raw key : String} {a : Analysis σ ρ}
    (h : registerAnalysis m raw a = some (key, m')) : m' = m ∨ ∃ keys deps,
      uniqueKey m.keys raw = some (key, keys) ∧ addDeps key a.reqs m.deps = some deps ∧
      m' = { m with keys := keys, analyses := set m.analyses key (some a), deps := set deps key (some []),
                    numAnalyses := m.numAnalyses + 1 } := by
  unfold registerAnalysis at h
  split at h
  · simp only [Option.some.injEq, Prod.mk.injEq] at h
    exact .inl h.2.symm
  · simp only [Option.bind_eq_bind, Option.bind_eq_some_iff, Option.some.injEq, Prod.mk.injEq] at h
    obtain ⟨⟨k, keys⟩, h1, deps, h2, h4, h5⟩ := h
    simp only at h2 h4
    subst h4
    exact .inr ⟨keys, deps, h1, h2, h5.symm⟩

theorem tables_pass {m : Mgr σ ρ} {rank : String → Nat} (T : Tables m rank) {raw key : String} {p : Pass σ ρ}
    {keys : String → Nat} {deps : String → Option (List String)} {order : List String}
    (h1 : uniqueKey m.keys raw = some (key, keys)) (h2 : addDeps key p.reqs m.deps = some deps)
    (h3 : ∀ x, x ∈ order ↔ x = key ∨ x ∈ m.order) :
    Tables { m with keys := keys, deps := deps, passes := set m.passes key (some p), order := order } rank := by
  obtain ⟨u1, u2, u3⟩ := uniqueKey_ok h1
  obtain ⟨d1, d2⟩ := addDeps_ok _ _ h2
  have hA : ∀ k a, m.analyses k = some a → k ≠ key := by
    rintro k a h rfl; exact u1 (T.issuedA _ _ h)
  have hD : ∀ q l, deps q = some l → ∃ l0, m.deps q = some l0 ∧ ∀ x, x ∈ l ↔ x ∈ l0 ∨ (x = key ∧ q ∈ p.reqs) := by
    intro q l h
    cases h0 : m.deps q with
    | none => rw [(d2 q).1 h0] at h; cases h
    | some l0 =>
      obtain ⟨l', h4, h5⟩ := (d2 q).2 l0 h0
      rw [h4] at h
      injection h with h
      subst h
      exact ⟨l0, rfl, h5⟩
  constructor <;> dsimp only
  · exact fun k a h => u3 _ (T.issuedA k a h)
  · intro k q h
    by_cases he : k = key
    · subst he; exact u2
    · rw [set_ne _ _ he] at h; exact u3 _ (T.issuedP k q h)
  · intro q l x h hx
    obtain ⟨l0, h4, h5⟩ := hD q l h
    rcases (h5 x).1 hx with h6 | ⟨rfl, _⟩
    · exact u3 _ (T.issuedD q l0 x h4 h6)
    · exact u2
  · intro q l h
    obtain ⟨l0, h4, _⟩ := hD q l h
    exact T.depsA q l0 h4
  · intro q a h
    obtain ⟨l, hl⟩ := T.aDeps q a h
    obtain ⟨l', h4, _⟩ := (d2 q).2 l hl
    exact ⟨l', h4⟩
  · intro k a q h hq
    obtain ⟨l, hl, hk⟩ := T.edge k a q h hq
    obtain ⟨l', h4, h5⟩ := (d2 q).2 l hl
    exact ⟨l', h4, (h5 k).2 (.inl hk)⟩
  · intro q l k a h hk ha
    obtain ⟨l0, h4, h5⟩ := hD q l h
    rcases (h5 k).1 hk with h6 | ⟨rfl, _⟩
    · exact T.back q l0 k a h4 h6 ha
    · exact absurd rfl (hA _ _ ha)
  · exact T.rankLt
  · exact T.rankReq
  · intro k q x h hx
    by_cases he : k = key
    · subst he
      rw [set_same] at h
      injection h with h
      subst h
      obtain ⟨l, hl⟩ := d1 x hx
      exact T.depsA x l hl
    · rw [set_ne _ _ he] at h; exact T.passReq k q x h hx
  · intro k hk
    by_cases he : k = key
    · subst he; exact ⟨p, set_same _ _ _⟩
    · rw [set_ne _ _ he]
      exact T.orderP k (((h3 k).1 hk).resolve_left he)
  · exact T.closed

theorem tables_analysis {m : Mgr σ ρ} {rank : String → Nat} (T : Tables m rank) {raw key : String} {a : Analysis σ ρ}
    {keys : String → Nat} {deps : String → Option (List String)}
    (h1 : uniqueKey m.keys raw = some (key, keys)) (h2 : addDeps key a.reqs m.deps = some deps) :
    Tables { m with keys := keys, analyses := set m.analyses key (some a), deps := set deps key (some []),
                    numAnalyses := m.numAnalyses + 1 } (set rank key m.numAnalyses) := by
  obtain ⟨u1, u2, u3⟩ := uniqueKey_ok h1
  obtain ⟨d1, d2⟩ := addDeps_ok _ _ h2
  have hA : ∀ k a, m.analyses k = some a → k ≠ key := by
    rintro k a h rfl; exact u1 (T.issuedA _ _ h)
  have hD : ∀ q l, deps q = some l → ∃ l0, m.deps q = some l0 ∧ ∀ x, x ∈ l ↔ x ∈ l0 ∨ (x = key ∧ q ∈ a.reqs) := by
    intro q l h
    cases h0 : m.deps q with
    | none => rw [(d2 q).1 h0] at h; cases h
    | some l0 =>
      obtain ⟨l', h4, h5⟩ := (d2 q).2 l0 h0
      rw [h4] at h
      injection h with h
      subst h
      exact ⟨l0, rfl, h5⟩
  have hR : ∀ q ∈ a.reqs, ∃ b, m.analyses q = some b := by
    intro q hq
    obtain ⟨l, hl⟩ := d1 q hq
    exact T.depsA q l hl
  constructor <;> dsimp only
  · intro k b h
    by_cases he : k = key
    · subst he; exact u2
    · rw [set_ne _ _ he] at h; exact u3 _ (T.issuedA k b h)
  · exact fun k a h => u3 _ (T.issuedP k a h)
  · intro q l x h hx
    by_cases he : q = key
    · subst he
      rw [set_same] at h
      injection h with h
      subst h
      cases hx
    · rw [set_ne _ _ he] at h
      obtain ⟨l0, h4, h5⟩ := hD q l h
      rcases (h5 x).1 hx with h6 | ⟨rfl, _⟩
      · exact u3 _ (T.issuedD q l0 x h4 h6)
      · exact u2
  · intro q l h
    by_cases he : q = key
    · subst he; exact ⟨a, set_same _ _ _⟩
    · rw [set_ne _ _ he] at h ⊢
      obtain ⟨l0, h4, _⟩ := hD q l h
      exact T.depsA q l0 h4
  · intro q b h
    by_cases he : q = key
    · subst he; exact ⟨[], set_same _ _ _⟩
    · rw [set_ne _ _ he] at h ⊢
      obtain ⟨l, hl⟩ := T.aDeps q b h
      obtain ⟨l', h4, _⟩ := (d2 q).2 l hl
      exact ⟨l', h4⟩
  · intro k b q h hq
    by_cases he : k = key
    · subst he
      rw [set_same] at h
      injection h with h
      subst h
      obtain ⟨l, hl⟩ := d1 q hq
      obtain ⟨c, hc⟩ := T.depsA q l hl
      obtain ⟨l', h4, h5⟩ := (d2 q).2 l hl
      exact ⟨l', by rw [set_ne _ _ (hA _ _ hc)]; exact h4, (h5 _).2 (.inr ⟨rfl, hq⟩)⟩
    · rw [set_ne _ _ he] at h
      obtain ⟨l, hl, hk⟩ := T.edge k b q h hq
      obtain ⟨c, hc⟩ := T.depsA q l hl
      obtain ⟨l', h4, h5⟩ := (d2 q).2 l hl
      exact ⟨l', by rw [set_ne _ _ (hA _ _ hc)]; exact h4, (h5 k).2 (.inl hk)⟩
  · intro q l k b h hk hb
    by_cases hq : q = key
    · subst hq
      rw [set_same] at h
      injection h with h
      subst h
      cases hk
    · rw [set_ne _ _ hq] at h
      obtain ⟨l0, h4, h5⟩ := hD q l h
      by_cases he : k = key
      · subst he
        rw [set_same] at hb
        injection hb with hb
        subst hb
        rcases (h5 k).1 hk with h6 | ⟨_, h6⟩
        · exact absurd (T.issuedD q l0 k h4 h6) u1
        · exact h6
      · rw [set_ne _ _ he] at hb
        rcases (h5 k).1 hk with h6 | ⟨h6, _⟩
        · exact T.back q l0 k b h4 h6 hb
        · exact absurd h6 he
  · intro k b h
    by_cases he : k = key
    · subst he; rw [set_same]; omega
    · rw [set_ne _ _ he] at h ⊢
      have := T.rankLt k b h
      omega
  · intro k b q h hq
    by_cases he : k = key
    · subst he
      rw [set_same] at h ⊢
      injection h with h
      subst h
      obtain ⟨c, hc⟩ := hR q hq
      rw [set_ne _ _ (hA _ _ hc)]
      exact T.rankLt q c hc
    · rw [set_ne _ _ he] at h ⊢
      obtain ⟨l, hl, _⟩ := T.edge k b q h hq
      obtain ⟨c, hc⟩ := T.depsA q l hl
      rw [set_ne _ _ (hA _ _ hc)]
      exact T.rankReq k b q h hq
  · intro k p q h hq
    obtain ⟨b, hb⟩ := T.passReq k p q h hq
    exact ⟨b, by rw [set_ne _ _ (hA _ _ hb)]; exact hb⟩
  · exact T.orderP
  · intro k r h
    obtain ⟨b, hb, h4⟩ := T.closed k r h
    exact ⟨b, by rw [set_ne _ _ (hA _ _ hb)]; exact hb, h4⟩

end Codon.PassMgr
