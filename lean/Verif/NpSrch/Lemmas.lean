import Verif.NpSrch.Spec
import Mathlib.Data.List.Forall2

/-! Helper lemmas about searches. -/

namespace Codon.NpSrch

variable {α : Type} {lt : α → α → Bool}

theorem place_exists (swo : SWO lt) (left : Bool) (x : α) :
    ∀ (b : List α), Sorted lt b → ∃ i, Place lt left b x i := by
  intro b
  induction b with
  | nil => intro _; exact ⟨0, by simp, by simp, by simp⟩
  | cons e r ih =>
    intro hs
    have hp := List.pairwise_cons.1 hs
    by_cases hb : (if left then lt e x = true else lt x e = false)
    · obtain ⟨i, h1, h2, h3⟩ := ih hp.2
      refine ⟨i + 1, by simp; omega, ?_, ?_⟩
      · intro k d hk hd
        cases k with
        | zero => simp at hd; subst hd; exact hb
        | succ k => exact h2 k d (by omega) (by simpa using hd)
      · intro k d hk hd
        cases k with
        | zero => omega
        | succ k => exact h3 k d (by omega) (by simpa using hd)
    · refine ⟨0, by simp, by intro k d hk; omega, ?_⟩
      intro k d _ hd
      have hnb : if left then lt e x = false else lt x e = true := by
        cases left <;> simp_all
      cases k with
      | zero => simp at hd; subst hd; exact hnb
      | succ k =>
        have hd' : r[k]? = some d := by simpa using hd
        have hm : d ∈ r := List.mem_of_getElem? hd'
        have hde := hp.1 d hm
        cases left with
        | true => simp only [if_true] at hnb ⊢; exact swo.negTrans hde hnb
        | false =>
          simp only [Bool.false_eq_true, if_false] at hnb ⊢
          exact swo.lt_of_lt_of_le hnb hde

theorem place_unique {left : Bool} {b : List α} {x : α} {i j : Nat} (h1 : Place lt left b x i)
    (h2 : Place lt left b x j) : i = j := by
  have key : ∀ {i j : Nat}, Place lt left b x i → Place lt left b x j → ¬ i < j := by
    intro i j h1 h2 hij
    have hlt : i < b.length := by have := h2.1; omega
    have a1 := h1.2.2 i b[i] (Nat.le_refl _) (List.getElem?_eq_getElem hlt)
    have a2 := h2.2.1 i b[i] hij (List.getElem?_eq_getElem hlt)
    cases left <;> simp_all
  have := key h1 h2
  have := key h2 h1
  omega

theorem bisect_spec {left : Bool} {get : Nat → Option α} {b : List α} {x : α} {i : Nat}
    (hget : ∀ k, k < b.length → get k = b[k]?) (hp : Place lt left b x i) :
    ∀ (f lo hi : Nat), hi - lo < f → lo ≤ i → i ≤ hi → hi ≤ b.length →
      bisect lt left get x f lo hi = .ok (i, i) := by
  intro f
  induction f with
  | zero => intro lo hi h; omega
  | succ f ih =>
    intro lo hi hf h1 h2 h3
    rw [bisect.eq_def]
    by_cases hlt : lo < hi
    · have hm : (lo + hi) / 2 < b.length := by omega
      have hg : get ((lo + hi) / 2) = some b[(lo + hi) / 2] := by
        rw [hget _ hm, List.getElem?_eq_getElem hm]
      have hbm := List.getElem?_eq_getElem hm
      simp only [if_pos hlt, hg]
      by_cases hk : (lo + hi) / 2 < i
      · have hb := hp.2.1 _ _ hk hbm
        cases left with
        | true =>
          simp only [if_true] at hb ⊢
          rw [if_pos hb]
          exact ih _ _ (by omega) (by omega) h2 h3
        | false =>
          simp only [Bool.false_eq_true, if_false] at hb ⊢
          rw [if_neg (by rw [hb]; simp)]
          exact ih _ _ (by omega) (by omega) h2 h3
      · have hb := hp.2.2 _ _ (Nat.le_of_not_lt hk) hbm
        cases left with
        | true =>
          simp only [if_true] at hb ⊢
          rw [if_neg (by rw [hb]; simp)]
          exact ih _ _ (by omega) h1 (by omega) (by omega)
        | false =>
          simp only [Bool.false_eq_true, if_false] at hb ⊢
          rw [if_pos hb]
          exact ih _ _ (by omega) h1 (by omega) (by omega)
    · simp only [if_neg hlt]
      have e1 : lo = i := by omega
      have e2 : hi = i := by omega
      rw [e1, e2]

theorem place_mono (swo : SWO lt) {left : Bool} {b : List α} {x y : α} {i j : Nat}
    (h1 : Place lt left b x i) (h2 : Place lt left b y j) (h : lt y x = false) : i ≤ j := by
  apply Nat.le_of_not_lt
  intro hji
  have hlt : j < b.length := by have := h1.1; omega
  have a1 := h1.2.1 j b[j] hji (List.getElem?_eq_getElem hlt)
  have a2 := h2.2.2 j b[j] (Nat.le_refl _) (List.getElem?_eq_getElem hlt)
  cases left with
  | true =>
    simp only [if_true] at a1 a2
    have := swo.negTrans a2 h
    rw [this] at a1; cases a1
  | false =>
    simp only [Bool.false_eq_true, if_false] at a1 a2
    have := swo.lt_of_le_of_lt h a2
    rw [this] at a1; cases a1

theorem searchLoop_spec (swo : SWO lt) {left : Bool} {get : Nat → Option α} {b : List α}
    (hs : Sorted lt b) (hget : ∀ k, k < b.length → get k = b[k]?) :
    ∀ (xs : List α) (last : α) (il lo hi : Nat), Place lt left b last il → lo ≤ il → il ≤ hi →
      hi ≤ b.length →
      ∃ l, searchLoop lt left get b.length xs last lo hi = .ok l ∧
        List.Forall₂ (Place lt left b) xs l := by
  intro xs
  induction xs with
  | nil => intro last il lo hi _ _ _ _; exact ⟨[], rfl, .nil⟩
  | cons x r ih =>
    intro last il lo hi hpl h1 h2 h3
    obtain ⟨i, hpi⟩ := place_exists swo left x b hs
    have hib := hpi.1
    have hb : bisect lt left get x (b.length + 1) (if lt last x then lo else 0)
        (if lt last x then b.length else if hi < b.length then hi + 1 else b.length)
        = .ok (i, i) := by
      by_cases hc : lt last x = true
      · have := place_mono swo hpl hpi (swo.asymm hc)
        simp only [hc, if_true]
        exact bisect_spec hget hpi _ _ _ (by omega) (by omega) hib (Nat.le_refl _)
      · have hc' : lt last x = false := by simpa using hc
        have := place_mono swo hpi hpl hc'
        simp only [hc', Bool.false_eq_true, if_false]
        exact bisect_spec hget hpi _ _ _ (by split <;> omega) (by omega) (by split <;> omega)
          (by split <;> omega)
    obtain ⟨l, hl, hf⟩ := ih x i i i hpi (Nat.le_refl _) (Nat.le_refl _) hib
    refine ⟨i :: l, ?_, .cons hpi hf⟩
    rw [searchLoop.eq_def]
    simp only [hb, hl]

theorem search_all (swo : SWO lt) {left : Bool} {get : Nat → Option α} {b : List α}
    (hs : Sorted lt b) (hget : ∀ k, k < b.length → get k = b[k]?) (x : α) (r : List α) :
    ∃ l, searchLoop lt left get b.length (x :: r) x 0 b.length = .ok l ∧
        List.Forall₂ (Place lt left b) (x :: r) l := by
  obtain ⟨i, hpi⟩ := place_exists swo left x b hs
  exact searchLoop_spec swo hs hget (x :: r) x i 0 b.length hpi (by omega) hpi.1 (Nat.le_refl _)

/-! ### Monotonicity -/

/-- Neighbours are in order. -/
def Up (lt : α → α → Bool) : List α → Prop
  | a :: b :: r => lt b a = false ∧ Up lt (b :: r)
  | _ => True

theorem up_sorted (swo : SWO lt) : ∀ (l : List α), Up lt l → Sorted lt l := by
  intro l
  induction l with
  | nil => intro _; exact List.Pairwise.nil
  | cons a r ih =>
    intro h
    cases r with
    | nil => exact List.pairwise_singleton _ _
    | cons b r =>
      have hs := ih h.2
      refine List.pairwise_cons.2 ⟨?_, hs⟩
      intro d hd
      rcases List.mem_cons.1 hd with rfl | hd
      · exact h.1
      · exact swo.negTrans ((List.pairwise_cons.1 hs).1 d hd) h.1

theorem sorted_up : ∀ (l : List α), Sorted lt l → Up lt l := by
  intro l
  induction l with
  | nil => intro _; trivial
  | cons a r ih =>
    intro h
    cases r with
    | nil => trivial
    | cons b r =>
      have hp := List.pairwise_cons.1 h
      exact ⟨hp.1 b (by simp), ih hp.2⟩

theorem mono_iff : ∀ (l : List α) (inc dec : Bool),
    ((monoLoop lt l inc dec).1 = true ↔ inc = true ∧ Up lt l) ∧
    ((monoLoop lt l inc dec).2 = true ↔ dec = true ∧ Up (fun a b => lt b a) l) := by
  intro l
  induction l with
  | nil => intro inc dec; simp [monoLoop, Up]
  | cons a r ih =>
    intro inc dec
    cases r with
    | nil => simp [monoLoop, Up]
    | cons b r =>
      rw [monoLoop.eq_def]
      simp only [Up]
      by_cases hq : (!((if lt b a then false else inc) || (if lt a b then false else dec))) = true
      · rw [if_pos hq]
        cases h1 : lt b a <;> cases h2 : lt a b <;> cases inc <;> cases dec <;> simp_all
      · rw [if_neg hq]
        have := ih (if lt b a then false else inc) (if lt a b then false else dec)
        rw [this.1, this.2]
        cases h1 : lt b a <;> cases h2 : lt a b <;> simp_all

/-! ### The search with a guess -/

theorem linear_spec {key : α} : ∀ (r : List α) (i c : Nat),
    Place lt false r key c → linear lt key r i = (i : Int) + c - 1 := by
  intro r
  induction r with
  | nil => intro i c h; have := h.1; simp at this; subst this; simp [linear]
  | cons e r ih =>
    intro i c h
    rw [linear]
    cases c with
    | zero =>
      have := h.2.2 0 e (Nat.le_refl _) rfl
      simp only [Bool.false_eq_true, if_false] at this
      rw [if_pos this]; simp
    | succ c =>
      have := h.2.1 0 e (by omega) rfl
      simp only [Bool.false_eq_true, if_false] at this
      rw [if_neg (by rw [this]; simp), ih (i + 1) c]
      · push_cast; omega
      · refine ⟨by have := h.1; simp at this; omega, ?_, ?_⟩
        · intro k d hk hd; exact h.2.1 (k + 1) d (by omega) (by simpa using hd)
        · intro k d hk hd; exact h.2.2 (k + 1) d (by omega) (by simpa using hd)

theorem guessLoop_spec {arr : List α} {key : α} {c : Nat} (hp : Place lt false arr key c) :
    ∀ (f imin imax : Nat), imax - imin < f → imin ≤ c → c ≤ imax → imax ≤ arr.length →
      guessLoop lt arr key f imin imax = .ok ((c : Int) - 1) := by
  intro f
  induction f with
  | zero => intro _ _ h; omega
  | succ f ih =>
    intro imin imax hf h1 h2 h3
    rw [guessLoop.eq_def]
    by_cases hlt : imin < imax
    · have hm : imin + (imax - imin) / 2 < arr.length := by omega
      have hbm := List.getElem?_eq_getElem hm
      simp only [if_pos hlt, hbm]
      by_cases hk : imin + (imax - imin) / 2 < c
      · have hb := hp.2.1 _ _ hk hbm
        simp only [Bool.false_eq_true, if_false] at hb
        rw [if_pos (by rw [hb]; rfl)]
        exact ih _ _ (by omega) (by omega) h2 h3
      · have hb := hp.2.2 _ _ (Nat.le_of_not_lt hk) hbm
        simp only [Bool.false_eq_true, if_false] at hb
        rw [if_neg (by rw [hb]; simp)]
        exact ih _ _ (by omega) h1 (by omega) (by omega)
    · simp only [if_neg hlt]
      have : imin = c := by omega
      rw [this]

theorem rd_ok {β : Type} {arr : List α} {i : Nat} (h : i < arr.length) (k : α → Out β) :
    rd arr i k = k arr[i] := by
  simp only [rd, List.getElem?_eq_getElem h]

theorem key_lt_iff {arr : List α} {key : α} {c : Nat} (hp : Place lt false arr key c) {k : Nat}
    (h : k < arr.length) : lt key arr[k] = decide (c ≤ k) := by
  by_cases hc : c ≤ k
  · have := hp.2.2 k arr[k] hc (List.getElem?_eq_getElem h)
    simp only [Bool.false_eq_true, if_false] at this
    rw [this, decide_eq_true hc]
  · have := hp.2.1 k arr[k] (by omega) (List.getElem?_eq_getElem h)
    simp only [Bool.false_eq_true, if_false] at this
    rw [this, decide_eq_false hc]

theorem clamp_guess {n : Nat} (hn : 4 < n) (guess : Int) :
    let g := if guess > (n : Int) - 3 then (n : Int) - 3 else guess
    let g := (if g < 1 then 1 else g).toNat
    1 ≤ g ∧ g + 2 < n := by
  intro g g'
  simp only [g', g]
  split <;> split <;> omega

/-- The result: of the number of sample points that are not after the key. -/
theorem guess_spec {arr : List α} {key : α} {c : Nat} (hp : Place lt false arr key c)
    (hn : 0 < arr.length) (guess : Int) :
    guessSearch lt arr key guess =
      .ok (if lt (arr[arr.length - 1]'(by omega)) key then (arr.length : Int) else (c : Int) - 1) := by
  have hlast : arr.length - 1 < arr.length := by omega
  rw [guessSearch.eq_def]
  simp only [if_neg (show ¬ arr.length = 0 by omega), rd_ok hlast]
  by_cases h1 : lt arr[arr.length - 1] key = true
  · rw [if_pos h1, if_pos h1]
  rw [if_neg h1, if_neg h1, rd_ok hn, key_lt_iff hp hn]
  by_cases h2 : c ≤ 0
  · rw [if_pos (by simpa using h2)]
    have : c = 0 := by omega
    subst this; rfl
  rw [if_neg (by simpa using h2)]
  by_cases h3 : arr.length ≤ 4
  · rw [if_pos h3, linear_spec arr 0 c hp]
    simp
  rw [if_neg h3]
  have hg := clamp_guess (show 4 < arr.length by omega) guess
  simp only at hg
  generalize (if (if guess > (arr.length : Int) - 3 then (arr.length : Int) - 3 else guess) < 1 then 1
    else (if guess > (arr.length : Int) - 3 then (arr.length : Int) - 3 else guess)).toNat = g at hg ⊢
  have hc := hp.1
  have a0 : g < arr.length := by omega
  have a1 : g - 1 < arr.length := by omega
  have a2 : g + 1 < arr.length := by omega
  have a3 : g + 2 < arr.length := by omega
  rw [rd_ok a0, key_lt_iff hp a0]
  by_cases h4 : c ≤ g
  · rw [if_pos (by simpa using h4), rd_ok a1, key_lt_iff hp a1]
    by_cases h5 : c ≤ g - 1
    · rw [if_pos (by simpa using h5)]
      by_cases h6 : g > 8
      · have a8 : g - 8 < arr.length := by omega
        rw [if_pos h6, rd_ok a8, key_lt_iff hp a8]
        apply guessLoop_spec hp
        · omega
        · by_cases h7 : c ≤ g - 8
          · simp [h7]
          · simp [h7]; omega
        · omega
        · omega
      · rw [if_neg h6]
        exact guessLoop_spec hp _ _ _ (by omega) (by omega) (by omega) (by omega)
    · rw [if_neg (by simpa using h5)]
      have : c = g := by omega
      subst this; rfl
  · rw [if_neg (by simpa using h4), rd_ok a2, key_lt_iff hp a2]
    by_cases h5 : c ≤ g + 1
    · rw [if_pos (by simpa using h5)]
      have : c = g + 1 := by omega
      subst this; simp
    · rw [if_neg (by simpa using h5), rd_ok a3, key_lt_iff hp a3]
      by_cases h6 : c ≤ g + 2
      · rw [if_pos (by simpa using h6)]
        have : c = g + 2 := by omega
        subst this; congr 1; push_cast; omega
      · rw [if_neg (by simpa using h6)]
        by_cases h7 : (g : Int) < (arr.length : Int) - 8 - 1
        · have a8 : g + 8 < arr.length := by omega
          rw [if_pos h7, rd_ok a8, key_lt_iff hp a8]
          apply guessLoop_spec hp
          · split <;> omega
          · omega
          · by_cases h8 : c ≤ g + 8
            · simp [h8]
            · simp [h8]; omega
          · split <;> omega
        · rw [if_neg h7]
          exact guessLoop_spec hp _ _ _ (by omega) (by omega) (by omega) (by omega)

/-! ### Counting -/

theorem bump_spec : ∀ (l : List Nat) (i : Nat), i < l.length →
    ∃ l', bump l i = some l' ∧ l'.length = l.length ∧
      ∀ k, l'[k]? = if k = i then (l[k]?).map (· + 1) else l[k]? := by
  intro l
  induction l with
  | nil => intro i h; simp at h
  | cons c r ih =>
    intro i h
    cases i with
    | zero =>
      refine ⟨(c + 1) :: r, rfl, by simp, ?_⟩
      intro k
      cases k <;> simp
    | succ i =>
      obtain ⟨l', h1, h2, h3⟩ := ih i (by simpa using h)
      refine ⟨c :: l', by simp [bump, h1], by simp [h2], ?_⟩
      intro k
      cases k with
      | zero => simp
      | succ k => simp [h3 k]

theorem countLoop_spec : ∀ (xs : List Int) (res : List Nat),
    (∀ x ∈ xs, 0 ≤ x ∧ x < res.length) →
    ∃ l, countLoop xs res = .ok l ∧ l.length = res.length ∧
      ∀ (k : Nat), l[k]? = (res[k]?).map (· + xs.count (k : Int)) := by
  intro xs
  induction xs with
  | nil => intro res _; exact ⟨res, rfl, rfl, fun k => by cases res[k]? <;> simp⟩
  | cons x r ih =>
    intro res h
    have hx := h x (by simp)
    obtain ⟨l', h1, h2, h3⟩ := bump_spec res x.toNat (by omega)
    obtain ⟨l, h4, h5, h6⟩ := ih l' (fun y hy => by rw [h2]; exact h y (by simp [hy]))
    refine ⟨l, ?_, by omega, ?_⟩
    · rw [countLoop.eq_def]
      simp only [if_pos hx.1, h1]
      exact h4
    · intro k
      rw [h6 k, h3 k]
      by_cases hk : k = x.toNat
      · have : (k : Int) = x := by omega
        rw [if_pos hk, ← this, List.count_cons_self, Option.map_map]
        congr 1
        funext n; simp; omega
      · have : x ≠ (k : Int) := by omega
        rw [if_neg hk, List.count_cons_of_ne this]

theorem foldmax : ∀ (r : List Int) (a : Int),
    let m := r.foldl (fun m e => if e > m then e else m) a
    m ∈ a :: r ∧ ∀ e ∈ a :: r, e ≤ m := by
  intro r
  induction r with
  | nil => intro a; simp
  | cons b r ih =>
    intro a
    simp only [List.foldl_cons]
    have := ih (if b > a then b else a)
    by_cases h : b > a
    · simp only [if_pos h] at this ⊢
      refine ⟨List.mem_cons_of_mem _ this.1, ?_⟩
      intro e he
      rcases List.mem_cons.1 he with rfl | he
      · have := this.2 b (by simp); omega
      · exact this.2 e he
    · simp only [if_neg h] at this ⊢
      refine ⟨?_, ?_⟩
      · rcases List.mem_cons.1 this.1 with h1 | h1
        · rw [h1]; simp
        · exact List.mem_cons_of_mem _ (List.mem_cons_of_mem _ h1)
      · intro e he
        rcases List.mem_cons.1 he with rfl | he
        · exact this.2 e (by simp)
        · rcases List.mem_cons.1 he with rfl | he
          · have := this.2 a (by simp); omega
          · exact this.2 e (by simp [he])

theorem foldmin : ∀ (r : List Int) (a : Int),
    let m := r.foldl (fun m e => if e < m then e else m) a
    m ∈ a :: r ∧ ∀ e ∈ a :: r, m ≤ e := by
  intro r
  induction r with
  | nil => intro a; simp
  | cons b r ih =>
    intro a
    simp only [List.foldl_cons]
    have := ih (if b < a then b else a)
    by_cases h : b < a
    · simp only [if_pos h] at this ⊢
      refine ⟨List.mem_cons_of_mem _ this.1, ?_⟩
      intro e he
      rcases List.mem_cons.1 he with rfl | he
      · have := this.2 b (by simp); omega
      · exact this.2 e he
    · simp only [if_neg h] at this ⊢
      refine ⟨?_, ?_⟩
      · rcases List.mem_cons.1 this.1 with h1 | h1
        · rw [h1]; simp
        · exact List.mem_cons_of_mem _ (List.mem_cons_of_mem _ h1)
      · intro e he
        rcases List.mem_cons.1 he with rfl | he
        · exact this.2 e (by simp)
        · rcases List.mem_cons.1 he with rfl | he
          · have := this.2 a (by simp); omega
          · exact this.2 e (by simp [he])

end Codon.NpSrch
