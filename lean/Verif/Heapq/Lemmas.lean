import Verif.Heapq.Model
import Mathlib.Tactic.Common

/-! Lemmas about sifting. -/

namespace Codon.Heapq

section
set_option linter.unusedSectionVars false
variable {T : Type} {lt : T → T → Bool}

/-- Children of positions from `s` on are not less than their parents. -/
def HeapFrom (lt : T → T → Bool) (s : Nat) (h : List T) : Prop :=
  ∀ c v w, 1 ≤ c → s ≤ (c - 1) / 2 → h[c]? = some v → h[(c - 1) / 2]? = some w → lt v w = false

/-- `c` is `s` or below it in the tree. -/
inductive Desc (s : Nat) : Nat → Prop where
  | refl : Desc s s
  | child {p c : Nat} : Desc s p → 1 ≤ c → (c - 1) / 2 = p → Desc s c

theorem Desc.parent {s c : Nat} (h : Desc s c) (hlt : s < c) : Desc s ((c - 1) / 2) := by
  cases h with
  | refl => omega
  | child h1 h2 h3 => rw [h3]; exact h1

theorem Desc.le {s c : Nat} (h : Desc s c) : s ≤ c := by
  induction h with
  | refl => omega
  | child h1 h2 h3 ih => omega

theorem put_some {h : List T} {i : Nat} {v : T} (hi : i < h.length) : put h i v = some (h.set i v) := by
  unfold put; rw [if_pos hi]

theorem get_set {h : List T} {i j : Nat} {x v : T} (hi : i < h.length) :
    (h.set i x)[j]? = some v ↔ (j = i ∧ v = x) ∨ (j ≠ i ∧ h[j]? = some v) := by
  rw [List.getElem?_set]
  by_cases hij : i = j
  · subst hij
    simp [hi, eq_comm]
  · rw [if_neg hij]
    constructor
    · intro h1; exact Or.inr ⟨Ne.symm hij, h1⟩
    · rintro (⟨h1, -⟩ | ⟨-, h1⟩)
      · exact absurd h1.symm hij
      · exact h1

theorem swap_perm {h : List T} {p q : Nat} {x v : T} (hpq : p ≠ q) (hp : p < h.length) (hq : h[q]? = some v) :
    ((h.set p v).set q x).Perm (h.set p x) := by
  obtain ⟨hq1, hq2⟩ := List.getElem?_eq_some_iff.mp hq
  have := List.set_set_perm (as := h.set p x) (i := p) (j := q) (by simpa using hp) (by simpa using hq1)
  have e1 : (h.set p x)[q]'(by simpa using hq1) = v := by
    rw [List.getElem_set_ne hpq, hq2]
  have e2 : (h.set p x)[p]'(by simpa using hp) = x := by simp
  rw [e1, e2, List.set_set] at this
  exact this

theorem siftdownLoop_spec (ho : SWO lt) (start : Nat) (x : T) : ∀ (n : Nat) (h : List T) (pos : Nat),
    pos < n → pos < h.length → Desc start pos →
    (∀ c v w, 1 ≤ c → start ≤ (c - 1) / 2 → c ≠ pos → (h.set pos x)[c]? = some v →
      (h.set pos x)[(c - 1) / 2]? = some w → lt v w = false) →
    (start < pos → ∀ c v w, 1 ≤ c → (c - 1) / 2 = pos → h[c]? = some v → h[(pos - 1) / 2]? = some w →
      lt v w = false) →
    ∃ h', siftdownLoop lt start x n h pos = some h' ∧ h'.Perm (h.set pos x) ∧ HeapFrom lt start h' := by
  intro n
  induction n with
  | zero => intro h pos h1; omega
  | succ n ih =>
    intro h pos hn hp hd I1 I2
    unfold siftdownLoop
    by_cases hps : pos > start
    · rw [if_pos hps]
      have hpl : (pos - 1) / 2 < h.length := by omega
      obtain ⟨pp, hpp⟩ : ∃ pp, pp = (pos - 1) / 2 := ⟨_, rfl⟩
      rw [← hpp] at hpl ⊢
      have hppos : pp ≠ pos := by omega
      have hps2 : start ≤ pp := by rw [hpp]; exact (hd.parent hps).le
      dsimp only
      rw [List.getElem?_eq_getElem hpl]
      simp only [Option.bind_eq_bind, Option.bind_some]
      have hgp : h[pp]? = some h[pp] := List.getElem?_eq_getElem hpl
      by_cases hl : lt x h[pp] = true
      · rw [if_pos hl, put_some hp]
        simp only [Option.bind_some]
        obtain ⟨h', e1, e2, e3⟩ := ih (h.set pos h[pp]) pp (by omega) (by simpa using hpl)
          (hpp ▸ hd.parent hps) (by
            intro c v w hc hs hne hv hw
            rw [get_set (by simpa using hpl)] at hv hw
            rcases hv with ⟨hv1, -⟩ | ⟨-, hv⟩
            · exact absurd hv1 hne
            rw [get_set hp] at hv
            rcases hv with ⟨rfl, rfl⟩ | ⟨hcp, hv⟩
            · -- the moved parent above the new hole
              rcases hw with ⟨-, rfl⟩ | ⟨hw1, -⟩
              · exact ho.asymm hl
              · exact absurd hpp.symm hw1
            · rcases hw with ⟨hw1, rfl⟩ | ⟨hw1, hw⟩
              · -- a sibling
                have := I1 c v h[pp] hc hs hcp (by rw [get_set hp]; exact Or.inr ⟨hcp, hv⟩)
                  (by rw [hw1, get_set hp]; exact Or.inr ⟨hppos, hgp⟩)
                exact ho.asymm (ho.lt_of_lt_of_le hl this)
              · rw [get_set hp] at hw
                rcases hw with ⟨hw2, rfl⟩ | ⟨hw2, hw⟩
                · exact I2 hps c v _ hc hw2 hv (by rw [← hpp]; exact hgp)
                · exact I1 c v w hc hs hcp (by rw [get_set hp]; exact Or.inr ⟨hcp, hv⟩)
                    (by rw [get_set hp]; exact Or.inr ⟨hw2, hw⟩))
          (by
            intro hps3 c v w hc hcp hv hw
            rw [get_set hp] at hv hw
            have hgrand : (pp - 1) / 2 ≠ pos := by omega
            rcases hw with ⟨hw1, -⟩ | ⟨-, hw⟩
            · exact absurd hw1 hgrand
            have hdp : Desc start ((pp - 1) / 2) := by
              have := hd.parent hps
              rw [← hpp] at this
              exact this.parent hps3
            have hup : lt h[pp] w = false :=
              I1 pp h[pp] w (by omega) hdp.le hppos (by rw [get_set hp]; exact Or.inr ⟨hppos, hgp⟩)
                (by rw [get_set hp]; exact Or.inr ⟨hgrand, hw⟩)
            rcases hv with ⟨-, rfl⟩ | ⟨hcne, hv⟩
            · exact hup
            · have := I1 c v h[pp] hc (by omega) hcne (by rw [get_set hp]; exact Or.inr ⟨hcne, hv⟩)
                (by rw [hcp, get_set hp]; exact Or.inr ⟨hppos, hgp⟩)
              exact ho.negTrans this hup)
        exact ⟨h', e1, e2.trans (swap_perm (Ne.symm hppos) hp hgp), e3⟩
      · rw [if_neg hl, put_some hp]
        refine ⟨_, rfl, List.Perm.refl _, ?_⟩
        intro c v w hc hs hv hw
        by_cases hcp : c = pos
        · subst hcp
          rw [get_set hp] at hv hw
          rcases hv with ⟨-, rfl⟩ | ⟨hv1, -⟩
          · rcases hw with ⟨hw1, -⟩ | ⟨-, hw⟩
            · omega
            · rw [← hpp, hgp] at hw
              cases hw
              simpa using hl
          · exact absurd rfl hv1
        · exact I1 c v w hc hs hcp hv hw
    · rw [if_neg hps, put_some hp]
      refine ⟨_, rfl, List.Perm.refl _, ?_⟩
      intro c v w hc hs hv hw
      have := hd.le
      exact I1 c v w hc hs (by omega) hv hw

theorem siftdown_spec (ho : SWO lt) (start : Nat) (x : T) (h : List T) (pos : Nat)
    (hp : pos < h.length) (hd : Desc start pos) (hx : h[pos]? = some x)
    (I1 : ∀ c v w, 1 ≤ c → start ≤ (c - 1) / 2 → c ≠ pos → h[c]? = some v →
      h[(c - 1) / 2]? = some w → lt v w = false)
    (I2 : start < pos → ∀ c v w, 1 ≤ c → (c - 1) / 2 = pos → h[c]? = some v → h[(pos - 1) / 2]? = some w →
      lt v w = false) :
    ∃ h', siftdown lt h start pos = some h' ∧ h'.Perm h ∧ HeapFrom lt start h' := by
  have hset : h.set pos x = h := by
    apply List.ext_getElem?
    intro i
    rw [List.getElem?_set]
    by_cases hi : pos = i
    · subst hi; rw [if_pos rfl, if_pos hp, hx]
    · simp [hi]
  have := siftdownLoop_spec ho start x (pos + 1) h pos (by omega) hp hd (by rwa [hset]) I2
  rw [hset] at this
  unfold siftdown
  rw [hx]
  exact this

/-- The first phase of `_siftup`: the hole moves to a leaf. -/
theorem siftupLoop_spec (ho : SWO lt) (start : Nat) (x : T) : ∀ (n : Nat) (h : List T) (pos : Nat),
    h.length < n + pos → pos < h.length → Desc start pos →
    (∀ c v w, 1 ≤ c → start ≤ (c - 1) / 2 → c ≠ pos → (c - 1) / 2 ≠ pos → h[c]? = some v →
      h[(c - 1) / 2]? = some w → lt v w = false) →
    (start < pos → ∀ c v w, 1 ≤ c → (c - 1) / 2 = pos → h[c]? = some v → h[(pos - 1) / 2]? = some w →
      lt v w = false) →
    ∃ h' p, siftupLoop lt h.length n h pos = some (h', p) ∧ p < h'.length ∧ h'.length = h.length ∧
      Desc start p ∧ (h'.set p x).Perm (h.set pos x) ∧ h'.length ≤ 2 * p + 1 ∧
      (∀ c v w, 1 ≤ c → start ≤ (c - 1) / 2 → c ≠ p → h'[c]? = some v →
        h'[(c - 1) / 2]? = some w → lt v w = false) := by
  intro n
  induction n with
  | zero => intro h pos h1 h2; omega
  | succ n ih =>
    intro h pos hn hp hd J1 J2
    unfold siftupLoop
    by_cases hc : 2 * pos + 1 < h.length
    · simp only [hc, if_true]
      -- the smaller child
      obtain ⟨m, hm1, hm2, hm3⟩ : ∃ m, (if 2 * pos + 1 + 1 < h.length then do
            return if !lt (← h[2 * pos + 1]?) (← h[2 * pos + 1 + 1]?) then 2 * pos + 1 + 1 else 2 * pos + 1
            else some (2 * pos + 1)) = some m ∧ (m = 2 * pos + 1 ∨ (m = 2 * pos + 2 ∧ 2 * pos + 2 < h.length)) ∧
          ∀ c v w, (c = 2 * pos + 1 ∨ c = 2 * pos + 2) → h[c]? = some v → h[m]? = some w →
            lt v w = false := by
        by_cases hr : 2 * pos + 1 + 1 < h.length
        · rw [if_pos hr, List.getElem?_eq_getElem hc, List.getElem?_eq_getElem hr]
          simp only [Option.bind_eq_bind, Option.bind_some, Option.pure_def]
          by_cases hl : lt h[2 * pos + 1] h[2 * pos + 1 + 1] = true
          · refine ⟨2 * pos + 1, by simp [hl], Or.inl rfl, ?_⟩
            rintro c v w (rfl | rfl) hv hw
            · rw [hv] at hw; cases hw; exact ho.irrefl v
            · rw [List.getElem?_eq_getElem hr] at hv
              rw [List.getElem?_eq_getElem hc] at hw
              cases hv; cases hw
              exact ho.asymm hl
          · refine ⟨2 * pos + 2, by simp [hl], Or.inr ⟨rfl, hr⟩, ?_⟩
            rintro c v w (rfl | rfl) hv hw
            · rw [List.getElem?_eq_getElem hc] at hv
              rw [List.getElem?_eq_getElem hr] at hw
              cases hv; cases hw
              simpa using hl
            · rw [hv] at hw; cases hw; exact ho.irrefl v
        · rw [if_neg hr]
          refine ⟨2 * pos + 1, rfl, Or.inl rfl, ?_⟩
          rintro c v w (rfl | rfl) hv hw
          · rw [hv] at hw; cases hw; exact ho.irrefl v
          · rw [List.getElem?_eq_none (by omega)] at hv; cases hv
      rw [hm1]
      have hml : m < h.length := by omega
      have hmp : (m - 1) / 2 = pos := by omega
      have hmne : m ≠ pos := by omega
      have hgm : h[m]? = some h[m] := List.getElem?_eq_getElem hml
      simp only [Option.bind_eq_bind, Option.bind_some, hgm, put_some hp]
      have hlen : (h.set pos h[m]).length = h.length := by simp
      have hrec := ih (h.set pos h[m]) m (by simp; omega) (by simpa using hml)
        (.child hd (by omega) hmp) (by
          intro c v w hc1 hs hcm hcm2 hv hw
          rw [get_set hp] at hv hw
          rcases hv with ⟨rfl, rfl⟩ | ⟨hcp, hv⟩
          · -- the moved child against the parent of the old hole
            rcases hw with ⟨hw1, -⟩ | ⟨-, hw⟩
            · omega
            · exact J2 (by omega) m _ w (by omega) hmp hgm hw
          · rcases hw with ⟨hw1, rfl⟩ | ⟨hw1, hw⟩
            · exact hm3 c v _ (by omega) hv hgm
            · exact J1 c v w hc1 hs hcp hw1 hv hw)
        (by
          intro _ c v w hc1 hcm hv hw
          rw [get_set hp] at hv hw
          rw [hmp] at hw
          rcases hw with ⟨-, rfl⟩ | ⟨hw1, -⟩
          · rcases hv with ⟨hv1, -⟩ | ⟨hcp, hv⟩
            · omega
            · have := hd.le
              exact J1 c v h[m] hc1 (by omega) hcp (by omega) hv (by rw [hcm]; exact hgm)
          · exact absurd rfl hw1)
      rw [hlen] at hrec
      obtain ⟨h', p, e1, e2, e3, e4, e5, e6, e7⟩ := hrec
      exact ⟨h', p, e1, e2, e3, e4, e5.trans (swap_perm (Ne.symm hmne) hp hgm), e6, e7⟩
    · simp only [hc, if_false]
      refine ⟨h, pos, rfl, hp, rfl, hd, List.Perm.refl _, by omega, ?_⟩
      intro c v w hc1 hs hcp hv hw
      have hcl : c < h.length := (List.getElem?_eq_some_iff.mp hv).1
      exact J1 c v w hc1 hs hcp (by omega) hv hw

/-- `_siftup` at a position below which the heap is in order. -/
theorem siftup_spec (ho : SWO lt) (h : List T) (pos : Nat) (hp : pos < h.length)
    (hh : HeapFrom lt (pos + 1) h) :
    ∃ h', siftup lt h pos = some h' ∧ h'.Perm h ∧ HeapFrom lt pos h' := by
  have hx : h[pos]? = some h[pos] := List.getElem?_eq_getElem hp
  obtain ⟨h', p, e1, e2, e3, e4, e5, e6, e7⟩ := siftupLoop_spec ho pos h[pos] (h.length + 1) h pos
    (by omega) hp .refl
    (fun c v w hc hs _ hne hv hw => hh c v w hc (by omega) hv hw) (fun hlt => by omega)
  have hset : h.set pos h[pos] = h := by simp
  rw [hset] at e5
  obtain ⟨h2, f1, f2, f3⟩ := siftdown_spec ho pos h[pos] (h'.set p h[pos]) p (by simpa using e2) e4
    (by simp [e2]) (by
      intro c v w hc hs hcp hv hw
      rw [get_set e2] at hv hw
      have hcl : c < h'.length := by
        rcases hv with ⟨h1, -⟩ | ⟨-, hv⟩
        · omega
        · exact (List.getElem?_eq_some_iff.mp hv).1
      rcases hv with ⟨h1, -⟩ | ⟨-, hv⟩
      · exact absurd h1 hcp
      · rcases hw with ⟨h1, -⟩ | ⟨-, hw⟩
        · omega
        · exact e7 c v w hc hs hcp hv hw)
    (by
      intro _ c v w hc hcp hv _
      have hcl := (List.getElem?_eq_some_iff.mp hv).1
      simp only [List.length_set] at hcl
      omega)
  refine ⟨h2, ?_, f2.trans e5, f3⟩
  unfold siftup
  simp only [hx, Option.bind_eq_bind, Option.bind_some, e1, put_some e2]
  exact f1

theorem heapifyFrom_spec (ho : SWO lt) : ∀ (n : Nat) (h : List T), n ≤ h.length → HeapFrom lt n h →
    ∃ h', heapifyFrom lt n h = some h' ∧ h'.Perm h ∧ HeapFrom lt 0 h' := by
  intro n
  induction n with
  | zero => intro h _ hh; exact ⟨h, rfl, List.Perm.refl _, hh⟩
  | succ n ih =>
    intro h hn hh
    obtain ⟨h1, e1, e2, e3⟩ := siftup_spec ho h n (by omega) hh
    obtain ⟨h2, f1, f2, f3⟩ := ih h1 (by rw [e2.length_eq]; omega) e3
    exact ⟨h2, by simp only [heapifyFrom, e1]; exact f1, f2.trans e2, f3⟩

/-- The root of a heap is a least element. -/
theorem root_least (ho : SWO lt) {h : List T} (hh : HeapFrom lt 0 h) {top : T} (ht : h[0]? = some top) :
    ∀ x ∈ h, lt x top = false := by
  have : ∀ (n i : Nat) (v : T), i ≤ n → h[i]? = some v → lt v top = false := by
    intro n
    induction n with
    | zero =>
      intro i v hi hv
      have : i = 0 := by omega
      subst this
      rw [ht] at hv; cases hv; exact ho.irrefl _
    | succ n ih =>
      intro i v hi hv
      rcases Nat.eq_zero_or_pos i with rfl | hpos
      · rw [ht] at hv; cases hv; exact ho.irrefl _
      · have hl := (List.getElem?_eq_some_iff.mp hv).1
        have hpl : (i - 1) / 2 < h.length := by omega
        have hw := List.getElem?_eq_getElem hpl
        exact ho.negTrans (hh i v _ hpos (by omega) hv hw) (ih _ _ (by omega) hw)
  intro x hx
  obtain ⟨i, hi, rfl⟩ := List.getElem_of_mem hx
  exact this i i _ (Nat.le_refl _) (List.getElem?_eq_getElem hi)

theorem heapFrom_one_of_set {h : List T} (hh : HeapFrom lt 0 h) (x : T) : HeapFrom lt 1 (h.set 0 x) := by
  intro c v w hc hs hv hw
  rw [List.getElem?_set_ne (by omega)] at hv hw
  exact hh c v w hc (by omega) hv hw

/-- The max variants are the min variants for the opposite order. -/
theorem siftdownMaxLoop_eq (start : Nat) (x : T) (n : Nat) (h : List T) (pos : Nat) :
    siftdownMaxLoop lt start x n h pos = siftdownLoop (fun a b => lt b a) start x n h pos := by
  induction n generalizing h pos with
  | zero => rfl
  | succ n ih => simp only [siftdownMaxLoop, siftdownLoop, ih]

theorem siftupMaxLoop_eq (e n : Nat) (h : List T) (pos : Nat) :
    siftupMaxLoop lt e n h pos = siftupLoop (fun a b => lt b a) e n h pos := by
  induction n generalizing h pos with
  | zero => rfl
  | succ n ih =>
    unfold siftupMaxLoop siftupLoop
    simp only [ih]
    split
    · split
      · cases h[2 * pos + 1]? <;> cases h[2 * pos + 1 + 1]? <;> rfl
      · rfl
    · rfl

end

end Codon.Heapq
