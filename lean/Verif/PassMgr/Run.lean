import Verif.PassMgr.Lemmas
/-! # Running analyses and passes -/
namespace Codon.PassMgr

variable {σ ρ : Type}

theorem look_mem {res : List (String × ρ)} {k : String} {r : ρ} (h : look res k = some r) : (k, r) ∈ res := by
  induction res with
  | nil => cases h
  | cons e res ih =>
    obtain ⟨j, r'⟩ := e
    simp only [look] at h
    split at h
    · rename_i he
      injection h with h
      subst h he
      exact List.mem_cons_self
    · exact List.mem_cons_of_mem _ (ih h)

theorem mem_look {res : List (String × ρ)} {k : String} {r : ρ} (h : (k, r) ∈ res) : ∃ r', look res k = some r' := by
  induction res with
  | nil => cases h
  | cons e res ih =>
    obtain ⟨j, r'⟩ := e
    simp only [look]
    split
    · exact ⟨_, rfl⟩
    · rename_i he
      rcases List.mem_cons.1 h with h | h
      · injection h with h1 h2; exact absurd h1.symm he
      · exact ih h

theorem isSome_look {res : List (String × ρ)} {k : String} : (look res k).isSome = true ↔ ∃ r, (k, r) ∈ res := by
  constructor
  · intro h
    obtain ⟨r, hr⟩ := Option.isSome_iff_exists.1 h
    exact ⟨r, look_mem hr⟩
  · rintro ⟨r, hr⟩
    obtain ⟨r', h⟩ := mem_look hr
    rw [h]
    rfl

/-- With a result there are the results it needs. -/
def Closed (an : String → Option (Analysis σ ρ)) (res : List (String × ρ)) : Prop :=
  ∀ k r, (k, r) ∈ res → ∃ a, an k = some a ∧ ∀ q ∈ a.reqs, ∃ r', (q, r') ∈ res

structure Step (an : String → Option (Analysis σ ρ)) (V : String → ρ → List Ev → Prop)
    (names : List String) (st st' : List (String × ρ) × List Ev) : Prop where
  keep : ∀ e ∈ st.1, e ∈ st'.1
  closed : Closed an st'.1
  found : ∀ q ∈ names, ∃ r, (q, r) ∈ st'.1
  valid : ∀ k r, (k, r) ∈ st'.1 → V k r st'.2
  hist : st.2 <+: st'.2

variable {an : String → Option (Analysis σ ρ)} {V : String → ρ → List Ev → Prop}

theorem fold_ok {f : List (String × ρ) × List Ev → String → Option (List (String × ρ) × List Ev)} (qs : List String)
    (hf : ∀ q ∈ qs, ∀ st, Closed an st.1 → (∀ k r, (k, r) ∈ st.1 → V k r st.2) →
      ∃ st', f st q = some st' ∧ Step an V [q] st st') :
    ∀ st, Closed an st.1 → (∀ k r, (k, r) ∈ st.1 → V k r st.2) →
    ∃ st', qs.foldlM f st = some st' ∧ Step an V qs st st' := by
  induction qs with
  | nil => intro st h1 h2; exact ⟨st, rfl, ⟨fun _ h => h, h1, by simp, h2, List.prefix_rfl⟩⟩
  | cons q qs ih =>
    intro st h1 h2
    obtain ⟨st1, e1, s1⟩ := hf q List.mem_cons_self st h1 h2
    obtain ⟨st2, e2, s2⟩ := ih (fun q hq => hf q (List.mem_cons_of_mem _ hq)) st1 s1.closed s1.valid
    refine ⟨st2, ?_, ⟨fun e he => s2.keep e (s1.keep e he), s2.closed, ?_, s2.valid, s1.hist.trans s2.hist⟩⟩
    · rw [List.foldlM_cons, e1]; exact e2
    · intro q' hq'
      rcases List.mem_cons.1 hq' with rfl | hq'
      · obtain ⟨r, hr⟩ := s1.found q' List.mem_cons_self
        exact ⟨r, s2.keep _ hr⟩
      · exact s2.found q' hq'

theorem runAnalysis_ok {ir : σ} {rank : String → Nat}
    (hreg : ∀ k a q, an k = some a → q ∈ a.reqs → ∃ b, an q = some b)
    (hrank : ∀ k a q, an k = some a → q ∈ a.reqs → rank q < rank k)
    (hV1 : ∀ k a h lk, an k = some a → (∀ q ∈ a.reqs, ∃ r, lk q = some r ∧ V q r h) →
      V k (a.run ir lk) (h ++ [.computed k]))
    (hV2 : ∀ k j r h, V k r h → V k r (h ++ [.computed j])) (fuel : Nat) :
    ∀ name st, rank name < fuel → (∃ a, an name = some a) → Closed an st.1 → (∀ k r, (k, r) ∈ st.1 → V k r st.2) →
    ∃ st', runAnalysis an ir fuel name st = some st' ∧ Step an V [name] st st' := by
  induction fuel with
  | zero => intro name st h; omega
  | succ fuel ih =>
    intro name st hf ⟨a, ha⟩ hc hv
    rw [runAnalysis]
    by_cases hl : (look st.1 name).isSome = true
    · rw [if_pos hl]
      refine ⟨st, rfl, ⟨fun _ h => h, hc, ?_, hv, List.prefix_rfl⟩⟩
      intro q hq
      rw [List.mem_singleton] at hq
      subst hq
      exact isSome_look.1 hl
    · rw [if_neg hl, ha]
      obtain ⟨st1, e1, s1⟩ := fold_ok (an := an) (V := V) (f := fun st q => runAnalysis an ir fuel q st) a.reqs
        (fun q hq st h1 h2 => ih q st (by have := hrank name a q ha hq; omega) (hreg name a q ha hq) h1 h2) st hc hv
      simp only [e1]
      refine ⟨_, rfl, ⟨fun e he => List.mem_cons_of_mem _ (s1.keep e he), ?_, ?_, ?_, ?_⟩⟩
      · intro k r h
        rcases List.mem_cons.1 h with h | h
        · injection h with h3 h4
          subst h3
          refine ⟨a, ha, fun q hq => ?_⟩
          obtain ⟨r', h5⟩ := s1.found q hq
          exact ⟨r', List.mem_cons_of_mem _ h5⟩
        · obtain ⟨b, h3, h4⟩ := s1.closed k r h
          refine ⟨b, h3, fun q hq => ?_⟩
          obtain ⟨r', h5⟩ := h4 q hq
          exact ⟨r', List.mem_cons_of_mem _ h5⟩
      · intro q hq
        rw [List.mem_singleton] at hq
        subst hq
        exact ⟨_, List.mem_cons_self⟩
      · intro k r h
        rcases List.mem_cons.1 h with h | h
        · injection h with h3 h4
          subst h3 h4
          refine hV1 k a _ _ ha fun q hq => ?_
          obtain ⟨r', h5⟩ := s1.found q hq
          obtain ⟨r2, h6⟩ := mem_look h5
          exact ⟨r2, h6, s1.valid q r2 (look_mem h6)⟩
        · exact hV2 _ _ _ _ (s1.valid k r h)
      · exact s1.hist.trans (List.prefix_append _ _)

/-! ### Invalidation -/

theorem invRound_ok (deps : String → Option (List String)) (opn : List String) : ∀ (res : List (String × ρ)) (new : List String),
    (∀ k r, (k, r) ∈ (invRound deps opn res new).1 ↔ (k, r) ∈ res ∧ k ∉ opn) ∧
    (∀ x, x ∈ (invRound deps opn res new).2 ↔ x ∈ new ∨ ∃ k ∈ opn, (∃ r, (k, r) ∈ res) ∧ x ∈ (deps k).getD []) ∧
    (invRound deps opn res new).1.length ≤ res.length ∧
    ((∃ k ∈ opn, ∃ r, (k, r) ∈ res) → (invRound deps opn res new).1.length < res.length) := by
  induction opn with
  | nil => intro res new; simp [invRound]
  | cons k ks ih =>
    intro res new
    rw [invRound]
    by_cases hl : (look res k).isSome = true
    · rw [if_pos hl]
      obtain ⟨h1, h2, h3, h4⟩ := ih (res.filter fun e => e.1 ≠ k) (new ++ (deps k).getD [])
      obtain ⟨r0, hr0⟩ := isSome_look.1 hl
      have hlt : (res.filter fun e => e.1 ≠ k).length < res.length := by
        rw [List.length_filter_lt_length_iff_exists]
        exact ⟨_, hr0, by simp⟩
      refine ⟨fun j r => ?_, fun x => ?_, by omega, fun _ => by omega⟩
      · rw [h1]
        simp only [List.mem_filter, List.mem_cons, decide_eq_true_eq, not_or]
        tauto
      · rw [h2]
        simp only [List.mem_append, List.mem_cons, List.mem_filter, decide_eq_true_eq, exists_eq_or_imp]
        constructor
        · rintro ((h | h) | ⟨j, h5, ⟨r, h6, h7⟩, h8⟩)
          · exact .inl h
          · exact .inr (.inl ⟨⟨r0, hr0⟩, h⟩)
          · exact .inr (.inr ⟨j, h5, ⟨r, h6⟩, h8⟩)
        · rintro (h | ⟨_, h⟩ | ⟨j, h5, ⟨r, h6⟩, h8⟩)
          · exact .inl (.inl h)
          · exact .inl (.inr h)
          · by_cases he : j = k
            · subst he; exact .inl (.inr h8)
            · exact .inr ⟨j, h5, ⟨r, h6, he⟩, h8⟩
    · rw [if_neg hl]
      obtain ⟨h1, h2, h3, h4⟩ := ih res new
      have hn : ∀ r, (k, r) ∉ res := fun r h => hl (isSome_look.2 ⟨r, h⟩)
      refine ⟨fun j r => ?_, fun x => ?_, h3, fun h => ?_⟩
      · rw [h1]
        simp only [List.mem_cons, not_or]
        refine and_congr_right fun h => ⟨fun h5 => ⟨?_, h5⟩, fun h5 => h5.2⟩
        rintro rfl
        exact hn r h
      · rw [h2]
        simp only [List.mem_cons, exists_eq_or_imp]
        refine or_congr_right ⟨fun h => .inr h, fun h => ?_⟩
        rcases h with ⟨⟨r, h⟩, _⟩ | h
        · exact absurd h (hn r)
        · exact h
      · apply h4
        obtain ⟨j, hj, r, h⟩ := h
        rcases List.mem_cons.1 hj with rfl | hj
        · exact absurd h (hn r)
        · exact ⟨j, hj, r, h⟩

theorem dep_trans {req : String → List String} {a b c : String} (h1 : Dep req a b) (h2 : Dep req b c) : Dep req a c := by
  induction h1 with
  | self => exact h2
  | step h _ ih => exact .step h (ih h2)

/-- What holds between the rounds of `invalidate`. -/
structure InvSt (an : String → Option (Analysis σ ρ)) (req : String → List String) (key : String)
    (res0 : List (String × ρ)) (opn : List String) (res : List (String × ρ)) : Prop where
  sub : ∀ e ∈ res, e ∈ res0
  gone : ∀ k r, (k, r) ∈ res0 → (k, r) ∉ res → Dep req k key
  opnDep : ∀ x ∈ opn, ∀ a, an x = some a → Dep req x key
  front : ∀ k r, (k, r) ∈ res → ∃ a, an k = some a ∧ (∀ q ∈ a.reqs, (∃ r', (q, r') ∈ res) ∨ k ∈ opn)
  key : ∀ r, (key, r) ∈ res → key ∈ opn

theorem invLoop_ok {deps : String → Option (List String)} {req : String → List String}
    (hreq : ∀ k a, an k = some a → a.reqs = req k)
    (edge : ∀ k a q, an k = some a → q ∈ a.reqs → ∃ l, deps q = some l ∧ k ∈ l)
    (back : ∀ q l k a, deps q = some l → k ∈ l → an k = some a → q ∈ a.reqs)
    {key : String} {res0 : List (String × ρ)} (fuel : Nat) : ∀ opn res, InvSt an req key res0 opn res →
    (opn = [] ∨ res.length + 1 ≤ fuel) → InvSt an req key res0 [] (invLoop deps fuel opn res) := by
  induction fuel with
  | zero =>
    intro opn res h1 h2
    rcases h2 with rfl | h2
    · exact h1
    · omega
  | succ fuel ih =>
    intro opn res h1 h2
    rw [invLoop]
    split
    · rename_i he; subst he; exact h1
    · rename_i hne
      obtain ⟨r1, r2, r3, r4⟩ := invRound_ok deps opn res []
      apply ih
      · constructor
        · intro e he
          exact h1.sub e ((r1 e.1 e.2).1 he).1
        · intro k r h hn
          by_cases hm : (k, r) ∈ res
          · have : k ∈ opn := by
              by_contra hc
              exact hn ((r1 k r).2 ⟨hm, hc⟩)
            obtain ⟨a, ha, _⟩ := h1.front k r hm
            exact h1.opnDep k this a ha
          · exact h1.gone k r h hm
        · intro x hx a ha
          rcases (r2 x).1 hx with h | ⟨k, h3, ⟨r, h4⟩, h5⟩
          · cases h
          · obtain ⟨b, hb, _⟩ := h1.front k r h4
            have hk := h1.opnDep k h3 b hb
            cases hd : deps k with
            | none => rw [hd] at h5; cases h5
            | some l =>
              rw [hd] at h5
              have := back k l x a hd h5 ha
              rw [hreq x a ha] at this
              exact .step this hk
        · intro k r h
          obtain ⟨h3, h4⟩ := (r1 k r).1 h
          obtain ⟨a, ha, h5⟩ := h1.front k r h3
          refine ⟨a, ha, fun q hq => ?_⟩
          rcases h5 q hq with ⟨r', h6⟩ | h6
          · by_cases ho : q ∈ opn
            · right
              obtain ⟨l, h7, h8⟩ := edge k a q ha hq
              exact (r2 k).2 (.inr ⟨q, ho, ⟨r', h6⟩, by rw [h7]; exact h8⟩)
            · exact .inl ⟨r', (r1 q r').2 ⟨h6, ho⟩⟩
          · exact absurd h6 h4
        · intro r h
          obtain ⟨h3, h4⟩ := (r1 key r).1 h
          exact absurd (h1.key r h3) h4
      · by_cases he : ∃ k ∈ opn, ∃ r, (k, r) ∈ res
        · right
          have := r4 he
          rcases h2 with h2 | h2
          · exact absurd h2 hne
          · omega
        · left
          rw [List.eq_nil_iff_forall_not_mem]
          intro x hx
          rcases (r2 x).1 hx with h | ⟨k, h3, h4, _⟩
          · cases h
          · exact he ⟨k, h3, h4⟩

theorem closed_dep {req : String → List String} (hreq : ∀ k a, an k = some a → a.reqs = req k) {res : List (String × ρ)}
    (hc : Closed an res) {k j : String} (hd : Dep req k j) (h : ∃ r, (k, r) ∈ res) : ∃ r, (j, r) ∈ res := by
  induction hd with
  | self => exact h
  | step hq _ ih =>
    obtain ⟨r, h⟩ := h
    obtain ⟨a, ha, h2⟩ := hc _ r h
    exact ih (h2 _ (by rw [hreq _ a ha]; exact hq))

/-- Invalidating a key removes exactly the results that depend on it. -/
theorem invalidate_ok {deps : String → Option (List String)} {req : String → List String}
    (hreq : ∀ k a, an k = some a → a.reqs = req k)
    (edge : ∀ k a q, an k = some a → q ∈ a.reqs → ∃ l, deps q = some l ∧ k ∈ l)
    (back : ∀ q l k a, deps q = some l → k ∈ l → an k = some a → q ∈ a.reqs)
    {key : String} {res : List (String × ρ)} (hc : Closed an res) :
    Closed an (invalidate deps key res) ∧
    ∀ k r, (k, r) ∈ invalidate deps key res ↔ (k, r) ∈ res ∧ ¬ Dep req k key := by
  have h := invLoop_ok (an := an) hreq edge back (key := key) (res0 := res) (res.length + 1) [key] res
    { sub := fun _ h => h
      gone := fun k r h hn => absurd h hn
      opnDep := by intro x hx a _; rw [List.mem_singleton] at hx; subst hx; exact .self x
      front := by
        intro k r h
        obtain ⟨a, ha, h2⟩ := hc k r h
        exact ⟨a, ha, fun q hq => .inl (h2 q hq)⟩
      key := fun r _ => List.mem_singleton_self _ } (.inr (Nat.le_refl _))
  have hcl : Closed an (invalidate deps key res) := by
    intro k r hk
    obtain ⟨a, ha, h2⟩ := h.front k r hk
    refine ⟨a, ha, fun q hq => ?_⟩
    rcases h2 q hq with h3 | h3
    · exact h3
    · cases h3
  refine ⟨hcl, fun k r => ⟨fun hk => ⟨h.sub _ hk, fun hd => ?_⟩, fun ⟨h1, h2⟩ => ?_⟩⟩
  · obtain ⟨r', hr⟩ := closed_dep hreq hcl hd ⟨r, hk⟩
    have := h.key r' hr
    cases this
  · by_contra hn
    exact h2 (h.gone k r h1 hn)

theorem invalidateAll_ok {deps : String → Option (List String)} {req : String → List String}
    (hreq : ∀ k a, an k = some a → a.reqs = req k)
    (edge : ∀ k a q, an k = some a → q ∈ a.reqs → ∃ l, deps q = some l ∧ k ∈ l)
    (back : ∀ q l k a, deps q = some l → k ∈ l → an k = some a → q ∈ a.reqs)
    (inv : List String) : ∀ (res : List (String × ρ)), Closed an res →
    Closed an (inv.foldl (fun r k => invalidate deps k r) res) ∧
    ∀ k r, (k, r) ∈ inv.foldl (fun r k => invalidate deps k r) res ↔ (k, r) ∈ res ∧ ∀ i ∈ inv, ¬ Dep req k i := by
  induction inv with
  | nil => intro res hc; simpa using hc
  | cons i inv ih =>
    intro res hc
    obtain ⟨h1, h2⟩ := invalidate_ok hreq edge back (key := i) hc
    obtain ⟨h3, h4⟩ := ih _ h1
    refine ⟨h3, fun k r => ?_⟩
    rw [List.foldl_cons, h4, h2]
    simp only [List.mem_cons, forall_eq_or_imp]
    tauto

end Codon.PassMgr
