import Verif.Rx.Spec
import Mathlib.Data.List.Infix

/-!
# Lemmas for `re`
-/

namespace Codon.Rx

theorem search_some {M : Rx} : ∀ {k pos s e : Nat}, search M k pos = some (s, e) →
    pos ≤ s ∧ s < pos + k ∧ (M s).head? = some e ∧ ∀ q, pos ≤ q → q < s → M q = [] := by
  intro k
  induction k with
  | zero => intro pos s e h; simp [search] at h
  | succ k ih =>
    intro pos s e h
    rw [search] at h
    rcases hm : M pos with _ | ⟨x, t⟩
    · rw [hm] at h
      simp only at h
      obtain ⟨h1, h2, h3, h4⟩ := ih h
      refine ⟨by omega, by omega, h3, fun q q1 q2 => ?_⟩
      by_cases hq : q = pos
      · rw [hq, hm]
      · exact h4 q (by omega) q2
    · rw [hm] at h
      simp only [Option.some.injEq, Prod.mk.injEq] at h
      obtain ⟨rfl, rfl⟩ := h
      exact ⟨le_rfl, by omega, by simp [hm], fun q q1 q2 => by omega⟩

theorem search_none {M : Rx} : ∀ {k pos : Nat}, search M k pos = none →
    ∀ q, pos ≤ q → q < pos + k → M q = [] := by
  intro k
  induction k with
  | zero => intro pos _ q h1 h2; omega
  | succ k ih =>
    intro pos h q h1 h2
    rw [search] at h
    rcases hm : M pos with _ | ⟨x, t⟩
    · rw [hm] at h
      simp only at h
      by_cases hq : q = pos
      · rw [hq, hm]
      · exact ih h q (by omega) (by omega)
    · rw [hm] at h; simp at h

theorem head_bounds {M : Rx} {n : Nat} (hM : M.Ok n) {p e : Nat} (h : (M p).head? = some e) :
    p ≤ e ∧ e ≤ n := hM p e (List.mem_of_mem_head? (by rw [h]; exact rfl))

theorem allowed_false (M : Rx) (pos q : Nat) : allowed M pos false q = M q := by simp [allowed]

theorem finds_of_search {M : Rx} {n pos s e : Nat} (h : search M (n + 1 - pos) pos = some (s, e)) :
    Finds M n pos false (s, e) := by
  obtain ⟨h1, h2, h3, h4⟩ := search_some h
  refine ⟨h1, by simp only; omega, by rw [allowed_false]; exact h3, fun q q1 q2 => ?_⟩
  rw [allowed_false]; exact h4 q q1 q2

theorem not_finds {M : Rx} {n pos : Nat} (h : search M (n + 1 - pos) pos = none) (m : Nat × Nat) :
    ¬ Finds M n pos false m := by
  rintro ⟨h1, h2, h3, _⟩
  rw [allowed_false, search_none h m.1 h1 (by omega)] at h3
  simp at h3

theorem ordered_mono {n : Nat} {a b : Nat} {l : List (Nat × Nat)} (h : Ordered n b l) (hab : a ≤ b) :
    Ordered n a l := by
  cases h with
  | nil h => exact .nil (by omega)
  | cons h1 h2 h3 => exact .cons (by omega) h2 h3

/-- The loop ends, the matches are in order and each is one of the pattern. -/
theorem iter_ordered {M : Rx} {n : Nat} (hM : M.Ok n) : ∀ (f pos : Nat), pos ≤ n → n + 1 - pos < f →
    ∃ l, iter M n f pos = some l ∧ Ordered n pos l ∧ ∀ m ∈ l, (M m.1).head? = some m.2 := by
  intro f
  induction f with
  | zero => intro pos _ h; omega
  | succ f ih =>
    intro pos hp hf
    rw [iter]
    rcases hs : search M (n + 1 - pos) pos with _ | ⟨s, e⟩
    · exact ⟨[], rfl, .nil hp, by simp⟩
    · obtain ⟨h1, h2, h3, h4⟩ := search_some hs
      obtain ⟨b1, b2⟩ := head_bounds hM h3
      simp only
      by_cases c1 : pos = n
      · rw [if_pos c1]
        refine ⟨_, rfl, .cons h1 b1 (.nil b2), ?_⟩
        intro m hm
        simp only [List.mem_singleton] at hm
        subst hm; exact h3
      · rw [if_neg c1]
        by_cases c2 : pos = e
        · rw [if_pos c2]
          obtain ⟨l, e1, e2, e3⟩ := ih (pos + 1) (by omega) (by omega)
          refine ⟨(s, e) :: l, by rw [e1]; rfl, .cons h1 b1 (ordered_mono e2 (by simp only; omega)), ?_⟩
          intro m hm
          rcases List.mem_cons.1 hm with rfl | hm
          · exact h3
          · exact e3 m hm
        · rw [if_neg c2]
          obtain ⟨l, e1, e2, e3⟩ := ih e b2 (by omega)
          refine ⟨(s, e) :: l, by rw [e1]; rfl, .cons h1 b1 e2, ?_⟩
          intro m hm
          rcases List.mem_cons.1 hm with rfl | hm
          · exact h3
          · exact e3 m hm

/-- After an empty match with no other at this place, going on there is going on one further. -/
theorem finds_adv {M : Rx} {n p : Nat} (h : M p = [p]) (m : Nat × Nat) :
    Finds M n p true m ↔ Finds M n (p + 1) false m := by
  have ha : allowed M p true p = [] := by simp [allowed, h]
  have hb : ∀ q, q ≠ p → allowed M p true q = M q := by
    intro q hq; simp [allowed, hq]
  constructor
  · rintro ⟨h1, h2, h3, h4⟩
    have hne : m.1 ≠ p := by rintro e; rw [e, ha] at h3; simp at h3
    refine ⟨by omega, h2, by rw [allowed_false, ← hb _ hne]; exact h3, fun q q1 q2 => ?_⟩
    rw [allowed_false, ← hb q (by omega)]
    exact h4 q (by omega) q2
  · rintro ⟨h1, h2, h3, h4⟩
    refine ⟨by omega, h2, by rw [hb _ (by omega), ← allowed_false M (p + 1)]; exact h3,
      fun q q1 q2 => ?_⟩
    by_cases hq : q = p
    · rw [hq, ha]
    · rw [hb q hq, ← allowed_false M (p + 1)]
      exact h4 q (by omega) q2

theorem matches_adv {M : Rx} {n p : Nat} (h : M p = [p]) {l : List (Nat × Nat)}
    (hl : Matches M n (p + 1) false l) : Matches M n p true l := by
  cases hl with
  | stop h' => exact .stop fun m hm => h' m ((finds_adv h m).1 hm)
  | next h' h'' => exact .next ((finds_adv h _).2 h') h''

theorem iter_matches {M : Rx} {n from_ : Nat} (hM : M.Ok n) (hS : Steady M from_) :
    ∀ (f pos : Nat), from_ ≤ pos → pos ≤ n → n + 1 - pos < f →
    ∃ l, iter M n f pos = some l ∧ Matches M n pos false l := by
  intro f
  induction f with
  | zero => intro pos _ _ h; omega
  | succ f ih =>
    intro pos hfr hp hf
    rw [iter]
    rcases hs : search M (n + 1 - pos) pos with _ | ⟨s, e⟩
    · exact ⟨[], rfl, .stop (not_finds hs)⟩
    · obtain ⟨h1, h2, h3, h4⟩ := search_some hs
      obtain ⟨b1, b2⟩ := head_bounds hM h3
      have hF := finds_of_search hs
      -- an empty match is where the search began
      have hE : s = e → s = pos ∧ M pos = [pos] := by
        intro he
        subst he
        obtain ⟨q1, q2⟩ := hS s h3
        have : s = pos := by
          by_contra hc
          rcases q2 with q2 | q2
          · omega
          · exact q2 (h4 (s - 1) (by omega) (by omega))
        subst this
        exact ⟨rfl, q1⟩
      simp only
      by_cases c1 : pos = n
      · rw [if_pos c1]
        have he : s = e := by omega
        obtain ⟨rfl, hmp⟩ := hE he
        subst he
        refine ⟨_, rfl, .next hF ?_⟩
        simp only [decide_true]
        refine matches_adv hmp (.stop ?_)
        rintro m ⟨m1, m2, _⟩
        omega
      · rw [if_neg c1]
        by_cases c2 : pos = e
        · rw [if_pos c2]
          obtain ⟨l, e1, e2⟩ := ih (pos + 1) (by omega) (by omega) (by omega)
          have he : s = e := by omega
          obtain ⟨rfl, hmp⟩ := hE he
          subst he
          refine ⟨_, by rw [e1]; rfl, .next hF ?_⟩
          simp only [decide_true]
          exact matches_adv hmp e2
        · rw [if_neg c2]
          have he : s ≠ e := fun h => c2 (by have := (hE h).1; omega)
          obtain ⟨l, e1, e2⟩ := ih e (by omega) b2 (by omega)
          refine ⟨_, by rw [e1]; rfl, .next hF ?_⟩
          simp only [he, decide_false]
          exact e2

theorem matches_unique {M : Rx} {n : Nat} {pos : Nat} {adv : Bool} {l l' : List (Nat × Nat)}
    (h : Matches M n pos adv l) (h' : Matches M n pos adv l') : l = l' := by
  have hu : ∀ {pos adv m m'}, Finds M n pos adv m → Finds M n pos adv m' → m = m' := by
    rintro pos adv ⟨s, e⟩ ⟨s', e'⟩ ⟨a1, a2, a3, a4⟩ ⟨b1, b2, b3, b4⟩
    simp only at *
    have : s = s' := by
      rcases Nat.lt_trichotomy s s' with h | h | h
      · rw [b4 s a1 h] at a3; simp at a3
      · exact h
      · rw [a4 s' b1 h] at b3; simp at b3
    subst this
    rw [a3] at b3
    simp only [Option.some.injEq] at b3
    rw [b3]
  induction h generalizing l' with
  | stop h0 =>
    cases h' with
    | stop _ => rfl
    | next h1 _ => exact absurd h1 (h0 _)
  | next h1 h2 ih =>
    cases h' with
    | stop h0 => exact absurd h1 (h0 _)
    | next h1' h2' =>
      have := hu h1 h1'
      subst this
      rw [ih h2']

/-! ### Putting together -/

/-- The matches that `maxsplit` leaves. -/
def limited (maxsplit : Int) (num : Nat) (ms : List (Nat × Nat)) : List (Nat × Nat) :=
  if maxsplit > 0 then ms.take (maxsplit.toNat - num) else ms

theorem subn_loop {α : Type} (repl : Nat × Nat → List α) (str : List α) (k : Int) (hk : 0 ≤ k) :
    ∀ (ms : List (Nat × Nat)) (a num : Nat) (pieces : List (List α)),
      Ordered str.length a ms → ∃ out,
      Replaced str repl a (limited k num ms) out ∧
      (splitLoop (fun m => [repl m]) id str k ms a num pieces).1.flatten = pieces.flatten ++ out ∧
      (splitLoop (fun m => [repl m]) id str k ms a num pieces).2 =
        num + (limited k num ms).length := by
  intro ms
  induction ms with
  | nil =>
    intro a num pieces _
    exact ⟨str.drop a, by simp only [limited, List.take_nil, ite_self]; exact .nil,
      by simp [splitLoop], by simp [splitLoop, limited]⟩
  | cons m r ih =>
    intro a num pieces ho
    obtain ⟨s, e⟩ := m
    rw [splitLoop]
    by_cases hc : k > 0 ∧ (num : Int) ≥ k
    · rw [if_pos hc]
      have hl : limited k num ((s, e) :: r) = [] := by
        simp only [limited, hc.1, if_true]
        rw [show k.toNat - num = 0 by omega]
        rfl
      rw [hl]
      exact ⟨_, .nil, by simp, by simp⟩
    · rw [if_neg hc]
      cases ho with
      | cons h1 h2 h3 =>
        simp only at h1 h2 h3
        have hb : s ≤ str.length := by
          have : ∀ {n a l}, Ordered n a l → a ≤ n := by
            intro n a l h
            induction h with
            | nil h => exact h
            | cons h1 h2 _ ih => omega
          have := this h3
          omega
        obtain ⟨out, o1, o2, o3⟩ := ih e (num + 1)
          (pieces ++ id ((str.take s).drop a) :: [repl (s, e)]) h3
        have hl : limited k num ((s, e) :: r) = (s, e) :: limited k (num + 1) r := by
          unfold limited
          by_cases hp : k > 0
          · have : ¬ (num : Int) ≥ k := fun h => hc ⟨hp, h⟩
            simp only [hp, if_true]
            obtain ⟨d, hd⟩ : ∃ d, k.toNat - num = d + 1 := ⟨k.toNat - num - 1, by omega⟩
            rw [hd, List.take_succ_cons, show k.toNat - (num + 1) = d by omega]
          · simp [hp]
        rw [hl]
        refine ⟨(str.take s).drop a ++ repl (s, e) ++ out, .cons ?_ ?_ o1, ?_, ?_⟩
        · simp only [List.length_drop, List.length_take]; omega
        · rw [List.drop_take]; exact List.take_prefix _ _
        · rw [o2]; simp
        · rw [o3]; simp; omega

theorem replaced_self {α : Type} (str : List α) {a : Nat} {ms : List (Nat × Nat)} {out : List α}
    (ho : Ordered str.length a ms)
    (h : Replaced str (fun m => (str.take m.2).drop m.1) a ms out) : out = str.drop a := by
  induction h with
  | nil => rfl
  | cons h1 h2 _ ih =>
    rename_i a m l gap r _
    cases ho with
    | cons o1 o2 o3 =>
      rw [ih o3]
      obtain ⟨t, ht⟩ := h2
      have hg : gap = (str.drop a).take gap.length := by rw [← ht]; simp
      have e1 : str.drop a = gap ++ str.drop m.1 := by
        have := List.take_append_drop gap.length (str.drop a)
        rw [← hg, List.drop_drop, h1] at this
        exact this.symm
      have e2 : str.drop m.1 = (str.take m.2).drop m.1 ++ str.drop m.2 := by
        rw [List.drop_take]
        have := List.take_append_drop (m.2 - m.1) (str.drop m.1)
        rw [List.drop_drop, show m.1 + (m.2 - m.1) = m.2 by omega] at this
        exact this.symm
      rw [e1, e2, List.append_assoc]

end Codon.Rx
