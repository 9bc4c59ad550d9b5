import Verif.Sort.Insertion
import Verif.Sort.Heap

/-! `_pdq_sort` -/

set_option linter.unusedSectionVars false
set_option linter.unusedSimpArgs false

namespace Codon.Sort

variable {α : Type} {lt : α → α → Bool}

/-! ### Scanning loops -/

theorem goUp_spec (st : α → Bool) (a : List α) (k : Int) (hk : k < a.length) : ∀ (n : Nat) (f : Int),
    -1 ≤ f → f < k → k - f ≤ n → (∀ x, rd a k = some x → st x = true) →
    ∃ m x, goUp st n a f = some m ∧ f < m ∧ m ≤ k ∧ rd a m = some x ∧ st x = true ∧
      AllSeg (fun x => st x = false) a (f + 1) m := by
  intro n
  induction n with
  | zero => intro f h1 h2 h3; omega
  | succ n ih =>
    intro f h1 h2 h3 h4
    unfold goUp
    obtain ⟨x, hx⟩ := rd_ex (a := a) (i := f + 1) (by omega) (by omega)
    rw [hx]
    simp only [Option.bind_eq_bind, Option.bind_some]
    cases hs : st x
    · rw [if_neg (by simp)]
      have hne : f + 1 ≠ k := by
        intro h; rw [h] at hx; rw [h4 x hx] at hs; cases hs
      obtain ⟨m, y, q1, q2, q3, q4, q5, q6⟩ := ih (f + 1) (by omega) (by omega) (by omega) h4
      refine ⟨m, y, q1, by omega, q3, q4, q5, ?_⟩
      intro i z i1 i2 i3
      by_cases hi : i = f + 1
      · subst hi; rw [hx] at i3; cases i3; exact hs
      · exact q6 i z (by omega) i2 i3
    · rw [if_pos rfl]
      exact ⟨f + 1, x, rfl, by omega, by omega, hx, hs, fun i z i1 i2 => by omega⟩

theorem goDown_spec (st : α → Bool) (a : List α) (k : Int) (hk : 0 ≤ k) : ∀ (n : Nat) (l : Int),
    l ≤ a.length → k < l → l - k ≤ n → (∀ x, rd a k = some x → st x = true) →
    ∃ m x, goDown st n a l = some m ∧ k ≤ m ∧ m < l ∧ rd a m = some x ∧ st x = true ∧
      AllSeg (fun x => st x = false) a (m + 1) l := by
  intro n
  induction n with
  | zero => intro l h1 h2 h3; omega
  | succ n ih =>
    intro l h1 h2 h3 h4
    unfold goDown
    obtain ⟨x, hx⟩ := rd_ex (a := a) (i := l - 1) (by omega) (by omega)
    rw [hx]
    simp only [Option.bind_eq_bind, Option.bind_some]
    cases hs : st x
    · rw [if_neg (by simp)]
      have hne : l - 1 ≠ k := by
        intro h; rw [h] at hx; rw [h4 x hx] at hs; cases hs
      obtain ⟨m, y, q1, q2, q3, q4, q5, q6⟩ := ih (l - 1) (by omega) (by omega) (by omega) h4
      refine ⟨m, y, q1, q2, by omega, q4, q5, ?_⟩
      intro i z i1 i2 i3
      by_cases hi : i = l - 1
      · subst hi; rw [hx] at i3; cases i3; exact hs
      · exact q6 i z (by omega) (by omega) i3
    · rw [if_pos rfl]
      exact ⟨l - 1, x, rfl, by omega, by omega, hx, hs, fun i z i1 i2 => by omega⟩

theorem goUpTo_spec (st : α → Bool) (a : List α) (l : Int) (hl : l < a.length) : ∀ (n : Nat) (f : Int),
    -1 ≤ f → f ≤ l → l - f < n →
    ∃ m, goUpTo st l n a f = some m ∧ f ≤ m ∧ m ≤ l ∧ AllSeg (fun x => st x = false) a (f + 1) m ∧
      (m < l → ∀ x, rd a m = some x → st x = true) ∧ (f < l → f < m) := by
  intro n
  induction n with
  | zero => intro f h1 h2 h3; omega
  | succ n ih =>
    intro f h1 h2 h3
    unfold goUpTo
    by_cases hf : f < l
    · rw [if_pos hf]
      obtain ⟨x, hx⟩ := rd_ex (a := a) (i := f + 1) (by omega) (by omega)
      rw [hx]
      simp only [Option.bind_eq_bind, Option.bind_some]
      cases hs : st x
      · rw [if_neg (by simp)]
        obtain ⟨m, q1, q2, q3, q4, q5, q6⟩ := ih (f + 1) (by omega) (by omega) (by omega)
        refine ⟨m, q1, by omega, q3, ?_, q5, by omega⟩
        intro i z i1 i2 i3
        by_cases hi : i = f + 1
        · subst hi; rw [hx] at i3; cases i3; exact hs
        · exact q4 i z (by omega) i2 i3
      · rw [if_pos rfl]
        refine ⟨f + 1, rfl, by omega, by omega, fun i z i1 i2 => by omega, ?_, by omega⟩
        intro _ y hy
        rw [hx] at hy; cases hy; exact hs
    · rw [if_neg hf]
      exact ⟨f, rfl, Int.le_refl _, h2, fun i z i1 i2 => by omega, fun h => absurd h hf, fun h => absurd h hf⟩

theorem goDownTo_spec (st : α → Bool) (a : List α) (f : Int) (hf : 0 ≤ f) : ∀ (n : Nat) (l : Int),
    l ≤ a.length → f ≤ l → l - f < n →
    ∃ m, goDownTo st f n a l = some m ∧ f ≤ m ∧ m ≤ l ∧ AllSeg (fun x => st x = false) a (m + 1) l ∧
      (f < m → ∀ x, rd a m = some x → st x = true) ∧ (f < l → m < l) := by
  intro n
  induction n with
  | zero => intro l h1 h2 h3; omega
  | succ n ih =>
    intro l h1 h2 h3
    unfold goDownTo
    by_cases hl : f < l
    · rw [if_pos hl]
      obtain ⟨x, hx⟩ := rd_ex (a := a) (i := l - 1) (by omega) (by omega)
      rw [hx]
      simp only [Option.bind_eq_bind, Option.bind_some]
      cases hs : st x
      · rw [if_neg (by simp)]
        obtain ⟨m, q1, q2, q3, q4, q5, q6⟩ := ih (l - 1) (by omega) (by omega) (by omega)
        refine ⟨m, q1, q2, by omega, ?_, q5, by omega⟩
        intro i z i1 i2 i3
        by_cases hi : i = l - 1
        · subst hi; rw [hx] at i3; cases i3; exact hs
        · exact q4 i z i1 (by omega) i3
      · rw [if_pos rfl]
        refine ⟨l - 1, rfl, by omega, by omega, fun i z i1 i2 => by omega, ?_, by omega⟩
        intro _ y hy
        rw [hx] at hy; cases hy; exact hs
    · rw [if_neg hl]
      exact ⟨l, rfl, h2, Int.le_refl _, fun i z i1 i2 => by omega, fun h => absurd h hl, fun h => absurd h hl⟩

/-! ### Partitions -/

/-- `[b, pos)` is not above the pivot at `pos`, `(pos, e)` not below it. -/
structure Part (lt : α → α → Bool) (a : List α) (b pos e : Int) (p : α) : Prop where
  lo : b ≤ pos
  hi : pos < e
  at_ : rd a pos = some p
  left : AllSeg (fun x => lt p x = false) a b pos
  right : AllSeg (fun x => lt x p = false) a (pos + 1) e

theorem Part.rearrL {a a' : List α} {b pos e : Int} {p : α} (h : Part lt a b pos e p) (hr : Rearr a a' b pos)
    (hb : 0 ≤ b) (he : e ≤ a.length) : Part lt a' b pos e p := by
  have h1 := h.lo
  have h2 := h.hi
  exact ⟨h.lo, h.hi, by rw [hr.out pos (by omega)]; exact h.at_, h.left.rearr hr hb h.lo (by omega),
    h.right.outside hr (Or.inr (by omega))⟩

theorem Part.rearrR {a a' : List α} {b pos e : Int} {p : α} (h : Part lt a b pos e p) (hr : Rearr a a' (pos + 1) e)
    (hb : 0 ≤ b) (he : e ≤ a.length) : Part lt a' b pos e p := by
  have h1 := h.lo
  have h2 := h.hi
  exact ⟨h.lo, h.hi, by rw [hr.out pos (by omega)]; exact h.at_, h.left.outside hr (Or.inl (by omega)),
    h.right.rearr hr (by omega) (by omega) he⟩

theorem Part.sorted (ho : SWO lt) {a : List α} {b pos e : Int} {p : α} (h : Part lt a b pos e p)
    (h1 : SortedSeg lt a b pos) (h2 : SortedSeg lt a (pos + 1) e) : SortedSeg lt a b e := by
  have s1 : SortedSeg lt a b (pos + 1) :=
    SortedSeg.glue ho p h1 (SortedSeg.short (Int.le_refl _)) h.left (by
      intro i x i1 i2 i3
      have : i = pos := by omega
      subst this
      rw [h.at_] at i3; cases i3; exact ho.irrefl _)
  refine SortedSeg.glue ho p s1 h2 ?_ h.right
  intro i x i1 i2 i3
  by_cases c : i = pos
  · subst c; rw [h.at_] at i3; cases i3; exact ho.irrefl _
  · exact h.left i x i1 (by omega) i3

theorem prLoop_spec (ho : SWO lt) (b e : Int) (p : α) (hb : 0 ≤ b) : ∀ (n : Nat) (a : List α) (f l : Int),
    e ≤ a.length → b < f → f < e → l < e → l - f < n ∧ 0 < n → b ≤ l →
    AllSeg (fun x => lt x p = true) a (b + 1) f →
    (∀ x, rd a f = some x → lt x p = false) →
    AllSeg (fun x => lt x p = false) a (l + 1) e →
    (f < l → ∀ x, rd a l = some x → lt x p = true) →
    ∃ a' f', prLoop lt p n a f l = some (a', f') ∧ Rearr a a' (b + 1) e ∧ f ≤ f' ∧ f' < e ∧
      AllSeg (fun x => lt x p = true) a' (b + 1) f' ∧ AllSeg (fun x => lt x p = false) a' f' e := by
  intro n
  induction n with
  | zero => intro a f l h1 h2 h3 h4 h5; omega
  | succ n ih =>
    intro a f l h1 h2 h3 h4 h5 h6 I1 I2 I3 I4
    unfold prLoop
    by_cases hfl : f < l
    · rw [if_pos hfl]
      obtain ⟨a1, s1, s2, s3⟩ := swap_rearr (a := a) (i := f) (j := l) (b := b + 1) (e := e) (by omega) h1 (by omega) (by omega)
      rw [s1]
      simp only [Option.bind_eq_bind, Option.bind_some]
      have hl1 : a1.length = a.length := s2.length
      have hf1 : rd a1 f = rd a l := by rw [s3 f, if_neg (by omega), if_pos rfl]
      have hl2 : rd a1 l = rd a f := by rw [s3 l, if_pos rfl]
      obtain ⟨f2, x2, u1, u2, u3, u4, u5, u6⟩ := goUp_spec (fun x => !lt x p) a1 l (by omega) (a1.length + 1) f (by omega)
        hfl (by omega) (by intro x hx; rw [hl2] at hx; rw [I2 x hx]; rfl)
      rw [u1, Option.bind_some]
      obtain ⟨l2, y2, v1, v2, v3, v4, v5, v6⟩ := goDown_spec (fun x => lt x p) a1 f (by omega) (a1.length + 1) l (by omega)
        hfl (by omega) (by intro x hx; rw [hf1] at hx; exact I4 hfl x hx)
      rw [v1, Option.bind_some]
      obtain ⟨a', f', q1, q2, q3, q4, q5, q6⟩ := ih a1 f2 l2 (by omega) (by omega) (by omega) (by omega) (by omega) (by omega)
        (by
          intro i x i1 i2 i3
          by_cases c1 : i < f
          · rw [s3 i, if_neg (by omega), if_neg (by omega)] at i3
            exact I1 i x i1 c1 i3
          · by_cases c2 : i = f
            · rw [c2, hf1] at i3; exact I4 hfl x i3
            · have := u6 i x (by omega) i2 i3
              simpa using this)
        (by intro x hx; rw [u4] at hx; cases hx; simpa using u5)
        (by
          intro i x i1 i2 i3
          by_cases c1 : i < l
          · exact v6 i x i1 c1 i3
          · by_cases c2 : i = l
            · rw [c2, hl2] at i3; exact I2 x i3
            · rw [s3 i, if_neg (by omega), if_neg (by omega)] at i3
              exact I3 i x (by omega) i2 i3)
        (by intro _ x hx; rw [v4] at hx; cases hx; exact v5)
      exact ⟨a', f', q1, s2.trans q2, by omega, q4, q5, q6⟩
    · rw [if_neg hfl]
      refine ⟨a, f, rfl, Rearr.refl _ _ _, Int.le_refl _, h3, I1, ?_⟩
      intro i x i1 i2 i3
      by_cases c : i = f
      · subst c; exact I2 x i3
      · exact I3 i x (by omega) i2 i3

/-- The last two stores of the partition functions exchange the pivot with the element at `pos`. -/
theorem placePivot {a : List α} {b pos : Int} {p : α} (hp : rd a b = some p) (h0 : 0 ≤ pos) (h1 : pos < a.length) :
    ∃ a', ((rd a pos).bind fun x => (wr a b x).bind fun a => wr a pos p) = some a' ∧ a'.Perm a ∧
      ∀ k, rd a' k = if k = pos then rd a b else if k = b then rd a pos else rd a k := by
  have hb := rd_lt hp
  obtain ⟨a', s1, s2, s3, s4⟩ := swap_ok (a := a) (i := b) (j := pos) hb.1 hb.2 h0 h1
  refine ⟨a', ?_, s2, s4⟩
  rw [← s1]
  unfold swap
  rw [hp]
  rfl

theorem partitionRight_spec (ho : SWO lt) {a : List α} {b e s : Int} {p z : α} (hb : 0 ≤ b) (he : e ≤ a.length)
    (hp : rd a b = some p) (hbs : b < s) (hse : s < e) (hz : rd a s = some z) (hzp : lt z p = false) :
    ∃ a' pos al, partitionRight lt a b e = some (a', pos, al) ∧ Rearr a a' b e ∧ Part lt a' b pos e p := by
  unfold partitionRight
  rw [hp]
  simp only [Option.bind_eq_bind, Option.bind_some]
  obtain ⟨f, x, u1, u2, u3, u4, u5, u6⟩ := goUp_spec (fun x => !lt x p) a s (by omega) (a.length + 1) b (by omega)
    hbs (by omega) (by intro x hx; rw [hz] at hx; cases hx; rw [hzp]; rfl)
  rw [u1, Option.bind_some]
  have I1 : AllSeg (fun x => lt x p = true) a (b + 1) f := u6.imp (by simp)
  have I2 : lt x p = false := by simpa using u5
  have scan : ∃ l, (if f - 1 = b then goDownTo (fun x => lt x p) f (a.length + 1) a e
      else goDown (fun x => lt x p) (a.length + 1) a e) = some l ∧ b ≤ l ∧ l < e ∧
      AllSeg (fun x => lt x p = false) a (l + 1) e ∧ (f < l → ∀ x, rd a l = some x → lt x p = true) := by
    by_cases c : f - 1 = b
    · rw [if_pos c]
      obtain ⟨l, q1, q2, q3, q4, q5, q6⟩ := goDownTo_spec (fun x => lt x p) a f (by omega) (a.length + 1) e he (by omega)
        (by omega)
      exact ⟨l, q1, by omega, q6 (by omega), q4, q5⟩
    · rw [if_neg c]
      obtain ⟨l, y, q1, q2, q3, q4, q5, q6⟩ := goDown_spec (fun x => lt x p) a (f - 1) (by omega) (a.length + 1) e he (by omega)
        (by omega) (fun x hx => I1 (f - 1) x (by omega) (by omega) hx)
      exact ⟨l, q1, by omega, q3, q6, fun _ x hx => by rw [q4] at hx; cases hx; exact q5⟩
  obtain ⟨l, v1, v2, v3, v4, v5⟩ := scan
  rw [v1, Option.bind_some]
  obtain ⟨a1, f1, w1, w2, w3, w4, w5, w6⟩ := prLoop_spec ho b e p hb (a.length + 1) a f l he u2 (by omega) v3 (by omega) v2 I1
    (by intro y hy; rw [u4] at hy; cases hy; exact I2) v4 v5
  rw [w1]
  simp only [Option.bind_some, Option.pure_def]
  have hl1 : a1.length = a.length := w2.length
  have hp1 : rd a1 b = some p := by rw [w2.out b (by omega), hp]
  obtain ⟨a2, x1, x2, x3⟩ := placePivot hp1 (pos := f1 - 1) (by omega) (by omega)
  obtain ⟨y, hy⟩ := rd_ex (a := a1) (i := f1 - 1) (by omega) (by omega)
  rw [hy, Option.bind_some] at x1 ⊢
  rw [wr_ok (by omega) (by omega), Option.bind_some] at x1 ⊢
  rw [x1]
  refine ⟨a2, f1 - 1, _, rfl, ?_, ?_⟩
  · exact (w2.mono (by omega) (Int.le_refl _)).trans (Rearr.of_swap x2 x3 (by omega) (by omega))
  · refine ⟨by omega, by omega, by rw [x3, if_pos rfl, hp1], ?_, ?_⟩
    · intro i z i1 i2 i3
      rw [x3 i, if_neg (by omega)] at i3
      by_cases c : i = b
      · rw [if_pos c] at i3
        exact ho.asymm (w5 (f1 - 1) z (by omega) (by omega) i3)
      · rw [if_neg c] at i3
        exact ho.asymm (w5 i z (by omega) (by omega) i3)
    · intro i z i1 i2 i3
      rw [x3 i, if_neg (by omega), if_neg (by omega)] at i3
      exact w6 i z (by omega) i2 i3

theorem plLoop_spec (b e : Int) (p : α) (hb : 0 ≤ b) : ∀ (n : Nat) (a : List α) (f l : Int),
    e ≤ a.length → b ≤ l → l < e → l - f < n ∧ 0 < n → b ≤ f → (f < l → b < f) →
    AllSeg (fun x => lt p x = false) a (b + 1) f →
    (∀ x, rd a l = some x → lt p x = false) →
    AllSeg (fun x => lt p x = true) a (l + 1) e →
    (f < l → ∀ x, rd a f = some x → lt p x = true) →
    ∃ a' l', plLoop lt p n a f l = some (a', l') ∧ Rearr a a' (b + 1) e ∧ b ≤ l' ∧ l' < e ∧
      AllSeg (fun x => lt p x = false) a' (b + 1) (l' + 1) ∧ AllSeg (fun x => lt p x = true) a' (l' + 1) e := by
  intro n
  induction n with
  | zero => intro a f l h1 h2 h3 h4; omega
  | succ n ih =>
    intro a f l h1 h2 h3 h4 h5 h6 I1 I2 I3 I4
    unfold plLoop
    by_cases hfl : f < l
    · rw [if_pos hfl]
      have hbf := h6 hfl
      obtain ⟨a1, s1, s2, s3⟩ := swap_rearr (a := a) (i := f) (j := l) (b := b + 1) (e := e) (by omega) h1 (by omega) (by omega)
      rw [s1]
      simp only [Option.bind_eq_bind, Option.bind_some]
      have hl1 : a1.length = a.length := s2.length
      have hf1 : rd a1 f = rd a l := by rw [s3 f, if_neg (by omega), if_pos rfl]
      have hl2 : rd a1 l = rd a f := by rw [s3 l, if_pos rfl]
      obtain ⟨l2, y2, v1, v2, v3, v4, v5, v6⟩ := goDown_spec (fun x => !lt p x) a1 f (by omega) (a1.length + 1) l (by omega)
        hfl (by omega) (by intro x hx; rw [hf1] at hx; rw [I2 x hx]; rfl)
      rw [v1, Option.bind_some]
      obtain ⟨f2, x2, u1, u2, u3, u4, u5, u6⟩ := goUp_spec (fun x => lt p x) a1 l (by omega) (a1.length + 1) f (by omega)
        hfl (by omega) (by intro x hx; rw [hl2] at hx; exact I4 hfl x hx)
      rw [u1, Option.bind_some]
      obtain ⟨a', l', q1, q2, q3, q4, q5, q6⟩ := ih a1 f2 l2 (by omega) (by omega) (by omega) (by omega) (by omega) (by omega)
        (by
          intro i x i1 i2 i3
          by_cases c1 : i < f
          · rw [s3 i, if_neg (by omega), if_neg (by omega)] at i3
            exact I1 i x i1 c1 i3
          · by_cases c2 : i = f
            · rw [c2, hf1] at i3; exact I2 x i3
            · exact u6 i x (by omega) i2 i3)
        (by intro x hx; rw [v4] at hx; cases hx; simpa using v5)
        (by
          intro i x i1 i2 i3
          by_cases c1 : i < l
          · have := v6 i x i1 c1 i3
            simpa using this
          · by_cases c2 : i = l
            · rw [c2, hl2] at i3; exact I4 hfl x i3
            · rw [s3 i, if_neg (by omega), if_neg (by omega)] at i3
              exact I3 i x (by omega) i2 i3)
        (by intro _ x hx; rw [u4] at hx; cases hx; exact u5)
      exact ⟨a', l', q1, s2.trans q2, q3, q4, q5, q6⟩
    · rw [if_neg hfl]
      refine ⟨a, l, rfl, Rearr.refl _ _ _, h2, h3, ?_, I3⟩
      intro i x i1 i2 i3
      by_cases c : i = l
      · subst c; exact I2 x i3
      · exact I1 i x i1 (by omega) i3

theorem partitionLeft_spec (ho : SWO lt) {a : List α} {b e : Int} {p : α} (hb : 0 ≤ b) (hbe : b < e) (he : e ≤ a.length)
    (hp : rd a b = some p) :
    ∃ a' pos, partitionLeft lt a b e = some (a', pos) ∧ Rearr a a' b e ∧ b ≤ pos ∧ pos < e ∧
      rd a' pos = some p ∧ AllSeg (fun x => lt p x = false) a' b (pos + 1) ∧
      AllSeg (fun x => lt p x = true) a' (pos + 1) e := by
  unfold partitionLeft
  rw [hp]
  simp only [Option.bind_eq_bind, Option.bind_some]
  obtain ⟨l, x, u1, u2, u3, u4, u5, u6⟩ := goDown_spec (fun x => !lt p x) a b hb (a.length + 1) e he hbe (by omega)
    (by intro x hx; rw [hp] at hx; cases hx; rw [ho.irrefl]; rfl)
  rw [u1, Option.bind_some]
  have I3 : AllSeg (fun x => lt p x = true) a (l + 1) e := u6.imp (by simp)
  have I2 : lt p x = false := by simpa using u5
  have scan : ∃ f, (if l + 1 = e then goUpTo (fun x => lt p x) l (a.length + 1) a b
      else goUp (fun x => lt p x) (a.length + 1) a b) = some f ∧ b ≤ f ∧ (f < l → b < f) ∧
      AllSeg (fun x => lt p x = false) a (b + 1) f ∧ (f < l → ∀ x, rd a f = some x → lt p x = true) := by
    by_cases c : l + 1 = e
    · rw [if_pos c]
      obtain ⟨f, q1, q2, q3, q4, q5, q6⟩ := goUpTo_spec (fun x => lt p x) a l (by omega) (a.length + 1) b (by omega) u2
        (by omega)
      exact ⟨f, q1, q2, fun h => q6 (by omega), q4, q5⟩
    · rw [if_neg c]
      obtain ⟨f, y, q1, q2, q3, q4, q5, q6⟩ := goUp_spec (fun x => lt p x) a (l + 1) (by omega) (a.length + 1) b (by omega)
        (by omega) (by omega) (fun x hx => I3 (l + 1) x (by omega) (by omega) hx)
      exact ⟨f, q1, by omega, fun _ => q2, q6, fun _ x hx => by rw [q4] at hx; cases hx; exact q5⟩
  obtain ⟨f, v1, v2, v3, v4, v5⟩ := scan
  rw [v1, Option.bind_some]
  obtain ⟨a1, l1, w1, w2, w3, w4, w5, w6⟩ := plLoop_spec b e p hb (a.length + 1) a f l he u2 u3 (by omega) v2 v3 v4
    (by intro y hy; rw [u4] at hy; cases hy; exact I2) I3 v5
  rw [w1]
  simp only [Option.bind_some, Option.pure_def]
  have hl1 : a1.length = a.length := w2.length
  have hp1 : rd a1 b = some p := by rw [w2.out b (by omega), hp]
  obtain ⟨a2, x1, x2, x3⟩ := placePivot hp1 (pos := l1) (by omega) (by omega)
  obtain ⟨y, hy⟩ := rd_ex (a := a1) (i := l1) (by omega) (by omega)
  rw [hy, Option.bind_some] at x1 ⊢
  rw [wr_ok (by omega) (by omega), Option.bind_some] at x1 ⊢
  rw [x1]
  refine ⟨a2, l1, rfl, ?_, w3, w4, by rw [x3, if_pos rfl, hp1], ?_, ?_⟩
  · exact (w2.mono (by omega) (Int.le_refl _)).trans (Rearr.of_swap x2 x3 (by omega) (by omega))
  · intro i z i1 i2 i3
    rw [x3 i] at i3
    by_cases c1 : i = l1
    · rw [if_pos c1, hp1] at i3; cases i3; exact ho.irrefl _
    · rw [if_neg c1] at i3
      by_cases c : i = b
      · rw [if_pos c] at i3
        exact w5 l1 z (by omega) (by omega) i3
      · rw [if_neg c] at i3
        exact w5 i z (by omega) (by omega) i3
  · intro i z i1 i2 i3
    rw [x3 i, if_neg (by omega), if_neg (by omega)] at i3
    exact w6 i z (by omega) i2 i3

/-! ### Choosing the pivot -/

theorem sort2_spec (ho : SWO lt) {a : List α} {b e i j : Int} (hb : 0 ≤ b) (he : e ≤ a.length)
    (hi : b ≤ i ∧ i < e) (hj : b ≤ j ∧ j < e) (hij : i ≠ j) :
    ∃ a' x y, sort2 lt a i j = some a' ∧ Rearr a a' b e ∧ rd a' i = some x ∧ rd a' j = some y ∧ lt y x = false ∧
      (∀ k, k ≠ i → k ≠ j → rd a' k = rd a k) ∧
      (rd a i = some x ∧ rd a j = some y ∨ rd a i = some y ∧ rd a j = some x) := by
  obtain ⟨x, hx⟩ := rd_ex (a := a) (i := i) (by omega) (by omega)
  obtain ⟨y, hy⟩ := rd_ex (a := a) (i := j) (by omega) (by omega)
  unfold sort2
  rw [hx, hy]
  simp only [Option.bind_eq_bind, Option.bind_some]
  cases h : lt y x
  · rw [if_neg (by simp)]
    exact ⟨a, x, y, rfl, Rearr.refl _ _ _, hx, hy, h, fun _ _ _ => rfl, Or.inl ⟨rfl, rfl⟩⟩
  · rw [if_pos rfl]
    obtain ⟨a', s1, s2, s3⟩ := swap_rearr (a := a) (i := i) (j := j) hb he hi hj
    refine ⟨a', y, x, s1, s2, ?_, ?_, ho.asymm h, ?_, Or.inr ⟨rfl, rfl⟩⟩
    · rw [s3 i, if_neg hij, if_pos rfl, hy]
    · rw [s3 j, if_pos rfl, hx]
    · intro k k1 k2
      rw [s3 k, if_neg k2, if_neg k1]

theorem sort3_spec (ho : SWO lt) {a : List α} {b e i j k : Int} (hb : 0 ≤ b) (he : e ≤ a.length)
    (hi : b ≤ i ∧ i < e) (hj : b ≤ j ∧ j < e) (hk : b ≤ k ∧ k < e) (hij : i ≠ j) (hjk : j ≠ k) (hik : i ≠ k) :
    ∃ a' y z, sort3 lt a i j k = some a' ∧ Rearr a a' b e ∧ rd a' j = some y ∧ rd a' k = some z ∧
      lt z y = false := by
  unfold sort3
  obtain ⟨a1, x1, y1, p1, p2, p3, p4, p5, p6, p7⟩ := sort2_spec ho hb he hi hj hij
  rw [p1]
  simp only [Option.bind_eq_bind, Option.bind_some]
  obtain ⟨a2, y2, z2, q1, q2, q3, q4, q5, q6, q7⟩ := sort2_spec ho (a := a1) hb (by rw [p2.length]; exact he) hj hk hjk
  rw [q1, Option.bind_some]
  obtain ⟨a3, x3, y3, r1, r2, r3, r4, r5, r6, r7⟩ := sort2_spec ho (a := a2) hb (by rw [q2.length, p2.length]; exact he) hi hj hij
  refine ⟨a3, y3, z2, r1, (p2.trans q2).trans r2, r4, by rw [r6 k (Ne.symm hik) (Ne.symm hjk), q4], ?_⟩
  -- the element at `i` after two steps is `x1`, not above `z2`
  have hx1 : lt z2 x1 = false := by
    rcases q7 with ⟨t1, t2⟩ | ⟨t1, t2⟩
    · -- not swapped: `y2 = y1`
      rw [p4] at t1; cases t1
      exact ho.negTrans q5 p5
    · rw [p4] at t1; cases t1
      exact p5
  have hi2 : rd a2 i = some x1 := by rw [q6 i hij hik, p3]
  rcases r7 with ⟨t1, t2⟩ | ⟨t1, t2⟩
  · rw [q3] at t2; cases t2; exact q5
  · rw [hi2] at t1; cases t1; exact hx1

theorem choosePivot_spec (ho : SWO lt) {a : List α} {b e : Int} (hb : 0 ≤ b) (hbe : 24 ≤ e - b) (he : e ≤ a.length) :
    ∃ a' p s z, choosePivot lt a b e = some a' ∧ Rearr a a' b e ∧ rd a' b = some p ∧ b < s ∧ s < e ∧
      rd a' s = some z ∧ lt z p = false := by
  unfold choosePivot
  have hd2 : Int.tdiv (e - b) 2 = (e - b) / 2 := Int.tdiv_eq_ediv_of_nonneg (by omega)
  dsimp only
  rw [hd2]
  by_cases hc : e - b > 128
  · rw [if_pos hc]
    obtain ⟨a1, _, _, p1, p2, -⟩ := sort3_spec ho (a := a) (b := b) (e := e) (i := b) (j := b + (e - b) / 2) (k := e - 1) hb he
      (by omega) (by omega) (by omega) (by omega) (by omega) (by omega)
    rw [p1]
    simp only [Option.bind_eq_bind, Option.bind_some]
    obtain ⟨a2, _, _, q1, q2, -⟩ := sort3_spec ho (a := a1) (b := b) (e := e) (i := b + 1) (j := b + ((e - b) / 2 - 1)) (k := e - 2) hb
      (by rw [p2.length]; exact he) (by omega) (by omega) (by omega) (by omega) (by omega) (by omega)
    rw [q1, Option.bind_some]
    obtain ⟨a3, _, _, r1, r2, -⟩ := sort3_spec ho (a := a2) (b := b) (e := e) (i := b + 2) (j := b + ((e - b) / 2 + 1)) (k := e - 3) hb
      (by rw [q2.length, p2.length]; exact he) (by omega) (by omega) (by omega) (by omega) (by omega) (by omega)
    rw [r1, Option.bind_some]
    obtain ⟨a4, y, z, s1, s2, s3, s4, s5⟩ := sort3_spec ho (a := a3) (b := b) (e := e) (i := b + ((e - b) / 2 - 1))
      (j := b + (e - b) / 2) (k := b + ((e - b) / 2 + 1)) hb
      (by rw [r2.length, q2.length, p2.length]; exact he) (by omega) (by omega) (by omega) (by omega) (by omega) (by omega)
    rw [s1, Option.bind_some]
    obtain ⟨a5, t1, t2, t3⟩ := swap_rearr (a := a4) (i := b) (j := b + (e - b) / 2) (b := b) (e := e) hb
      (by rw [s2.length, r2.length, q2.length, p2.length]; exact he) (by omega) (by omega)
    refine ⟨a5, y, b + ((e - b) / 2 + 1), z, t1, (((p2.trans q2).trans r2).trans s2).trans t2, ?_, by omega, by omega, ?_, s5⟩
    · rw [t3 b, if_neg (by omega), if_pos rfl, s3]
    · rw [t3, if_neg (by omega), if_neg (by omega), s4]
  · rw [if_neg hc]
    obtain ⟨a1, y, z, p1, p2, p3, p4, p5⟩ := sort3_spec ho (a := a) (b := b) (e := e) (i := b + (e - b) / 2) (j := b) (k := e - 1) hb he
      (by omega) (by omega) (by omega) (by omega) (by omega) (by omega)
    exact ⟨a1, y, e - 1, z, p1, p2, p3, by omega, by omega, p4, p5⟩

/-! ### Shuffles -/

theorem shuffleLeft_spec {a : List α} {b pos : Int} (hb : 0 ≤ b) (hp : b ≤ pos) (he : pos ≤ a.length) :
    ∃ a', shuffleLeft a b pos (pos - b) = some a' ∧ Rearr a a' b pos := by
  unfold shuffleLeft
  by_cases h : pos - b ≥ 24
  · rw [if_pos h]
    have hd : Int.tdiv (pos - b) 4 = (pos - b) / 4 := Int.tdiv_eq_ediv_of_nonneg (by omega)
    dsimp only
    rw [hd]
    obtain ⟨a1, p1, p2, -⟩ := swap_rearr (a := a) (i := b) (j := b + (pos - b) / 4) (b := b) (e := pos) hb he (by omega) (by omega)
    rw [p1]
    simp only [Option.bind_eq_bind, Option.bind_some]
    obtain ⟨a2, q1, q2, -⟩ := swap_rearr (a := a1) (i := pos - 1) (j := pos - (pos - b) / 4) (b := b) (e := pos) hb
      (by rw [p2.length]; exact he) (by omega) (by omega)
    rw [q1, Option.bind_some]
    by_cases h2 : pos - b > 128
    · rw [if_pos h2]
      obtain ⟨a3, r1, r2, -⟩ := swap_rearr (a := a2) (i := b + 1) (j := b + ((pos - b) / 4 + 1)) (b := b) (e := pos) hb
        (by rw [q2.length, p2.length]; exact he) (by omega) (by omega)
      rw [r1, Option.bind_some]
      obtain ⟨a4, s1, s2, -⟩ := swap_rearr (a := a3) (i := b + 2) (j := b + ((pos - b) / 4 + 2)) (b := b) (e := pos) hb
        (by rw [r2.length, q2.length, p2.length]; exact he) (by omega) (by omega)
      rw [s1, Option.bind_some]
      obtain ⟨a5, t1, t2, -⟩ := swap_rearr (a := a4) (i := pos - 2) (j := pos - ((pos - b) / 4 + 1)) (b := b) (e := pos) hb
        (by rw [s2.length, r2.length, q2.length, p2.length]; exact he) (by omega) (by omega)
      rw [t1, Option.bind_some]
      obtain ⟨a6, u1, u2, -⟩ := swap_rearr (a := a5) (i := pos - 3) (j := pos - ((pos - b) / 4 + 2)) (b := b) (e := pos) hb
        (by rw [t2.length, s2.length, r2.length, q2.length, p2.length]; exact he) (by omega) (by omega)
      exact ⟨a6, u1, ((((p2.trans q2).trans r2).trans s2).trans t2).trans u2⟩
    · rw [if_neg h2]
      exact ⟨a2, rfl, p2.trans q2⟩
  · rw [if_neg h]
    exact ⟨a, rfl, Rearr.refl _ _ _⟩

theorem shuffleRight_spec {a : List α} {pos e : Int} (hb : 0 ≤ pos) (hp : pos < e) (he : e ≤ a.length) :
    ∃ a', shuffleRight a pos e (e - (pos + 1)) = some a' ∧ Rearr a a' (pos + 1) e := by
  unfold shuffleRight
  by_cases h : e - (pos + 1) ≥ 24
  · rw [if_pos h]
    have hd : Int.tdiv (e - (pos + 1)) 4 = (e - (pos + 1)) / 4 := Int.tdiv_eq_ediv_of_nonneg (by omega)
    dsimp only
    rw [hd]
    obtain ⟨a1, p1, p2, -⟩ := swap_rearr (a := a) (i := pos + 1) (j := pos + (1 + (e - (pos + 1)) / 4)) (b := pos + 1) (e := e) (by omega) he (by omega) (by omega)
    rw [p1]
    simp only [Option.bind_eq_bind, Option.bind_some]
    obtain ⟨a2, q1, q2, -⟩ := swap_rearr (a := a1) (i := e - 1) (j := e - (e - (pos + 1)) / 4) (b := pos + 1) (e := e) (by omega)
      (by rw [p2.length]; exact he) (by omega) (by omega)
    rw [q1, Option.bind_some]
    by_cases h2 : e - (pos + 1) > 128
    · rw [if_pos h2]
      obtain ⟨a3, r1, r2, -⟩ := swap_rearr (a := a2) (i := pos + 2) (j := pos + (2 + (e - (pos + 1)) / 4)) (b := pos + 1) (e := e) (by omega)
        (by rw [q2.length, p2.length]; exact he) (by omega) (by omega)
      rw [r1, Option.bind_some]
      obtain ⟨a4, s1, s2, -⟩ := swap_rearr (a := a3) (i := pos + 3) (j := pos + (3 + (e - (pos + 1)) / 4)) (b := pos + 1) (e := e) (by omega)
        (by rw [r2.length, q2.length, p2.length]; exact he) (by omega) (by omega)
      rw [s1, Option.bind_some]
      obtain ⟨a5, t1, t2, -⟩ := swap_rearr (a := a4) (i := e - 2) (j := e - (1 + (e - (pos + 1)) / 4)) (b := pos + 1) (e := e) (by omega)
        (by rw [s2.length, r2.length, q2.length, p2.length]; exact he) (by omega) (by omega)
      rw [t1, Option.bind_some]
      obtain ⟨a6, u1, u2, -⟩ := swap_rearr (a := a5) (i := e - 3) (j := e - (2 + (e - (pos + 1)) / 4)) (b := pos + 1) (e := e) (by omega)
        (by rw [t2.length, s2.length, r2.length, q2.length, p2.length]; exact he) (by omega) (by omega)
      exact ⟨a6, u1, ((((p2.trans q2).trans r2).trans s2).trans t2).trans u2⟩
    · rw [if_neg h2]
      exact ⟨a2, rfl, p2.trans q2⟩
  · rw [if_neg h]
    exact ⟨a, rfl, Rearr.refl _ _ _⟩

theorem tryPartial_spec (ho : SWO lt) {a : List α} {b pos e : Int} {p : α} (al : Bool) (hb : 0 ≤ b) (he : e ≤ a.length)
    (hP : Part lt a b pos e p) :
    ∃ a' ok, tryPartial lt a b pos e al = some (a', ok) ∧ Rearr a a' b e ∧ Part lt a' b pos e p ∧
      (ok = true → SortedSeg lt a' b e) := by
  have h1 := hP.lo
  have h2 := hP.hi
  unfold tryPartial
  cases al
  · exact ⟨a, false, rfl, Rearr.refl _ _ _, hP, by simp⟩
  · simp only [if_true]
    obtain ⟨a1, ok1, p1, p2, p3⟩ := partialInsertionSort_spec ho (a := a) hb h1 (by omega)
    rw [p1]
    simp only [Option.bind_eq_bind, Option.bind_some]
    have hP1 := hP.rearrL p2 hb he
    cases ok1
    · exact ⟨a1, false, rfl, p2.mono (Int.le_refl _) (by omega), hP1, by simp⟩
    · simp only [if_true]
      have he1 : e ≤ a1.length := by rw [p2.length]; exact he
      obtain ⟨a2, ok2, q1, q2, q3⟩ := partialInsertionSort_spec ho (a := a1) (b := pos + 1) (e := e) (by omega) (by omega) he1
      have hP2 := hP1.rearrR q2 hb he1
      refine ⟨a2, ok2, q1, (p2.mono (Int.le_refl _) (by omega)).trans (q2.mono (by omega) (Int.le_refl _)), hP2, ?_⟩
      intro hok
      exact hP2.sorted ho ((p3 rfl).outside q2 (Or.inl (by omega))) (q3 hok)

/-! ### The sort -/

theorem pdqSort_spec (ho : SWO lt) : ∀ (n : Nat) (a : List α) (b e bad : Int) (lm : Bool),
    0 ≤ b → b ≤ e → e ≤ a.length → e - b < n →
    (lm = false → ∃ v, rd a (b - 1) = some v ∧ AllSeg (fun x => lt x v = false) a b e) →
    ∃ a', pdqSort lt n a b e bad lm = some a' ∧ Rearr a a' b e ∧ SortedSeg lt a' b e := by
  intro n
  induction n with
  | zero => intro a b e bad lm h1 h2 h3 h4; omega
  | succ n ih =>
    intro a b e bad lm h1 h2 h3 h4 h5
    unfold pdqSort
    by_cases hs : e - b < 24
    · simp only [if_pos hs]
      obtain ⟨a', q1, q2, -, q4⟩ := insertionSort_spec ho h1 h2 h3
      exact ⟨a', q1, q2, q4⟩
    · simp only [if_neg hs]
      obtain ⟨a1, p, s, z, c1, c2, c3, c4, c5, c6, c7⟩ := choosePivot_spec ho h1 (by omega) h3
      rw [c1]
      simp only [Option.bind_eq_bind, Option.bind_some]
      have hl1 : a1.length = a.length := c2.length
      have h5' : lm = false → ∃ v, rd a1 (b - 1) = some v ∧ AllSeg (fun x => lt x v = false) a1 b e := by
        intro hlm
        obtain ⟨v, v1, v2⟩ := h5 hlm
        exact ⟨v, by rw [c2.out _ (by omega), v1], v2.rearr c2 h1 h2 h3⟩
      -- continuation after a partition of the segment
      have fin : ∀ (a2 : List α) (pos bad' : Int), Rearr a1 a2 b e → Part lt a2 b pos e p →
          ∃ a', ((pdqSort lt n a2 b pos bad' lm).bind fun a => pdqSort lt n a (pos + 1) e bad' false) = some a' ∧
            Rearr a1 a' b e ∧ SortedSeg lt a' b e := by
        intro a2 pos bad' hr hP
        have g1 := hP.lo
        have g2 := hP.hi
        have hl2 : a2.length = a.length := by rw [hr.length, hl1]
        obtain ⟨a3, x1, x2, x3⟩ := ih a2 b pos bad' lm h1 g1 (by omega) (by omega) (by
          intro hlm
          obtain ⟨v, v1, v2⟩ := h5' hlm
          exact ⟨v, by rw [hr.out _ (by omega), v1],
            (v2.rearr hr h1 h2 (by omega)).sub (Int.le_refl _) (by omega)⟩)
        rw [x1, Option.bind_some]
        have hP3 := hP.rearrL x2 h1 (by omega)
        have hl3 : a3.length = a.length := by rw [x2.length, hl2]
        obtain ⟨a4, y1, y2, y3⟩ := ih a3 (pos + 1) e bad' false (by omega) (by omega) (by omega) (by omega) (by
          intro _
          exact ⟨p, by rw [show pos + 1 - 1 = pos by omega]; exact hP3.at_, hP3.right⟩)
        have hP4 := hP3.rearrR y2 h1 (by omega)
        refine ⟨a4, y1, hr.trans ((x2.mono (Int.le_refl _) (by omega)).trans (y2.mono (by omega) (Int.le_refl _))), ?_⟩
        exact hP4.sorted ho (x3.outside y2 (Or.inl (by omega))) y3
      -- the test against the previous pivot
      have test : ∃ ag, pdqAgain lt a1 b lm = some ag ∧
          (ag = true → lm = false ∧ AllSeg (fun x => lt x p = false) a1 b e) := by
        unfold pdqAgain
        cases hlm : lm
        · simp only [Bool.not_false, if_true]
          obtain ⟨v, v1, v2⟩ := h5' hlm
          rw [v1, c3]
          simp only [Option.bind_eq_bind, Option.bind_some, Option.pure_def]
          refine ⟨_, rfl, ?_⟩
          intro hag
          refine ⟨trivial, v2.imp fun x hx => ho.negTrans hx ?_⟩
          simpa using hag
        · exact ⟨false, rfl, by simp⟩
      obtain ⟨ag, t1, t2⟩ := test
      rw [t1, Option.bind_some]
      cases ag
      · rw [if_neg (by simp)]
        obtain ⟨a2, pos, al, d1, d2, d3⟩ := partitionRight_spec ho h1 (by omega) c3 c4 c5 c6 c7
        rw [d1]
        simp only [Option.bind_some]
        have g1 := d3.lo
        have g2 := d3.hi
        have hl2 : a2.length = a.length := by rw [d2.length, hl1]
        by_cases hun : pos - b < Int.tdiv (e - b) 8 ∨ e - (pos + 1) < Int.tdiv (e - b) 8
        · rw [if_pos hun]
          by_cases hbad : bad - 1 = 0
          · rw [if_pos hbad]
            obtain ⟨a3, x1, x2, x3⟩ := heapSort_spec ho (a := a2) h1 h2 (by omega)
            exact ⟨a3, x1, (c2.trans d2).trans x2, x3⟩
          · rw [if_neg hbad]
            obtain ⟨a3, x1, x2⟩ := shuffleLeft_spec (a := a2) h1 g1 (by omega)
            rw [x1, Option.bind_some]
            have hP3 := d3.rearrL x2 h1 (by omega)
            obtain ⟨a4, y1, y2⟩ := shuffleRight_spec (a := a3) (pos := pos) (e := e) (by omega) g2 (by rw [x2.length]; omega)
            rw [y1, Option.bind_some]
            have hP4 := hP3.rearrR y2 h1 (by rw [x2.length]; omega)
            obtain ⟨a5, w1, w2, w3⟩ := fin a4 pos (bad - 1)
              (d2.trans ((x2.mono (Int.le_refl _) (by omega)).trans (y2.mono (by omega) (Int.le_refl _)))) hP4
            exact ⟨a5, w1, c2.trans w2, w3⟩
        · rw [if_neg hun]
          obtain ⟨a3, ok, x1, x2, x3, x4⟩ := tryPartial_spec ho al h1 (by omega) d3
          rw [x1]
          simp only [Option.bind_some]
          cases ok
          · rw [if_neg (by simp)]
            obtain ⟨a5, w1, w2, w3⟩ := fin a3 pos bad (d2.trans x2) x3
            exact ⟨a5, w1, c2.trans w2, w3⟩
          · rw [if_pos rfl]
            exact ⟨a3, rfl, (c2.trans d2).trans x2, x4 rfl⟩
      · rw [if_pos rfl]
        obtain ⟨hlm, hge⟩ := t2 rfl
        obtain ⟨a2, pos, d1, d2, d3, d4, d5, d6, d7⟩ := partitionLeft_spec ho (a := a1) (b := b) (e := e) h1 (by omega) (by omega) c3
        rw [d1]
        simp only [Option.bind_some]
        have hl2 : a2.length = a.length := by rw [d2.length, hl1]
        have hge2 := hge.rearr d2 h1 h2 (by omega)
        obtain ⟨a3, x1, x2, x3⟩ := ih a2 (pos + 1) e bad lm (by omega) (by omega) (by omega) (by omega) (by
          intro _
          exact ⟨p, by rw [show pos + 1 - 1 = pos by omega]; exact d5, hge2.sub (by omega) (Int.le_refl _)⟩)
        refine ⟨a3, x1, (c2.trans d2).trans (x2.mono (by omega) (Int.le_refl _)), ?_⟩
        have l1 := d6.outside x2 (Or.inl (Int.le_refl _))
        have l2 : AllSeg (fun x => lt x p = false) a3 b (pos + 1) :=
          (hge2.sub (Int.le_refl _) (by omega)).outside x2 (Or.inl (Int.le_refl _))
        have l3 := (d7.rearr x2 (by omega) (by omega) (by omega)).imp fun x hx => ho.asymm hx
        refine SortedSeg.glue ho p ?_ x3 l1 l3
        intro i j x y i1 i2 i3 i4 i5
        exact ho.negTrans (l2 j y (by omega) i3 i5) (l1 i x i1 (by omega) i4)

theorem pdqSortArray_spec (ho : SWO lt) (a : List α) :
    ∃ a', pdqSortArray lt a = some a' ∧ a'.Perm a ∧ SortedSeg lt a' 0 a.length := by
  unfold pdqSortArray
  obtain ⟨a', q1, q2, q3⟩ := pdqSort_spec ho (a.length + 1) a 0 a.length (floorLog2 a.length a.length 0) true
    (Int.le_refl _) (by omega) (Int.le_refl _) (by omega) (by simp)
  exact ⟨a', q1, q2.perm, q3⟩

end Codon.Sort
