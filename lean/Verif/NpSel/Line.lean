import Verif.NpSel.Intro
import Verif.NpSel.Spec
/-! The loop over the positions asked for, and what follows for the order statistics. -/
namespace Codon.NpSel
open Codon.Sort

variable {α : Type} {lt : α → α → Bool}

theorem maxLoop_last {a : List α} (n : Nat) : ∀ (k mi : Int) (mv : α) (y : α), rd a (k + n) = some y → 0 ≤ k → lt y mv = false → (∀ j z, k ≤ j → j < k + n → rd a j = some z → lt y z = false) →
    maxLoop lt (n + 1) a k mi mv = some (k + n) := by
  induction n with
  | zero =>
    intro k mi mv y hy h0 h1 _
    have e : k + ((0 : Nat) : Int) = k := by omega
    rw [e] at hy ⊢
    simp [maxLoop, hy, h1]
  | succ n ih =>
    intro k mi mv y hy h0 h1 h2
    have hl := rd_lt hy
    obtain ⟨x, hx⟩ := rd_ex (a := a) (i := k) h0 (by omega)
    have e1 : k + ((n + 1 : Nat) : Int) = k + 1 + (n : Nat) := by omega
    rw [maxLoop]
    simp only [hx, Option.bind_eq_bind, Option.bind_some]
    rw [e1] at hy ⊢
    have hx' : lt y x = false := h2 k x (by omega) (by omega) hx
    have h2' : ∀ j z, k + 1 ≤ j → j < k + 1 + n → rd a j = some z → lt y z = false := fun j z j1 j2 j3 => h2 j z (by omega) (by omega) j3
    split
    · exact ih (k + 1) k x y hy (by omega) hx' h2'
    · exact ih (k + 1) mi mv y hy (by omega) h1 h2'

theorem swap_self {a : List α} {i : Int} (h0 : 0 ≤ i) (h1 : i < a.length) : swap a i i = some a := by
  obtain ⟨a', e1, _, e3, e4⟩ := swap_ok (a := a) (i := i) (j := i) h0 h1 h0 h1
  rw [e1]
  congr 1
  apply List.ext_getElem?
  intro n
  have := e4 n
  rw [rd_nat, rd_nat] at this
  rw [this]
  split
  · rename_i c; rw [← c, rd_nat]
  · rfl

/-- The largest element selected a second time changes nothing. -/
theorem introselect_again {a : List α} {num fuel : Nat} {kth : Int} (hk : kth = num - 1) (h4 : 4 ≤ num) (hlen : num ≤ a.length) (hp : Placed lt a 0 num kth) (hf : 0 < fuel) :
    introselect lt true fuel a 0 num kth (some []) = some (a, some []) := by
  cases fuel with
  | zero => omega
  | succ fuel =>
  obtain ⟨x, hx⟩ := rd_ex (a := a) (i := 0) (by omega) (by omega)
  obtain ⟨y, hy⟩ := rd_ex (a := a) (i := kth) (by omega) (by omega)
  have e1 : (0 + (num : Int) - (0 + 1)).toNat = (num - 2) + 1 := by omega
  have e2 : (1 : Int) + ((num - 2 : Nat) : Int) = kth := by omega
  have hm := maxLoop_last (lt := lt) (a := a) (num - 2) 1 0 x y (by rw [e2]; exact hy) (by omega) (hp.1 0 kth x y (by omega) (by omega) (by omega) (by omega) hx hy)
    (fun j z j1 j2 j3 => hp.1 j kth z y (by omega) (by omega) (by omega) (by omega) j3 hy)
  simp only [introselect, bounds, usePivots, Option.map_some]
  rw [if_neg (by omega), if_pos ⟨trivial, by omega⟩, e1]
  simp only [hx, Option.bind_eq_bind, Option.bind_some]
  rw [show (0 : Int) + 1 = 1 by omega, hm, e2]
  simp only [Option.bind_some]
  rw [swap_self (by omega) (by omega)]
  rfl

theorem partitionLoop_ok (ho : SWO lt) (inexact : Bool) (ks : List Int) : ∀ (a : List α) (st : List Int) (last : Option Int), Known lt a 0 a.length st → (∀ l, last = some l →
      l ∈ st ∨ (st = [] ∧ inexact = true ∧ l = a.length - 1 ∧ 4 ≤ a.length ∧ Placed lt a 0 a.length l)) → (∀ l, last = some l → ∀ k ∈ ks, l ≤ k) → ks.Pairwise (· ≤ ·) →
      (∀ k ∈ ks, 0 ≤ k ∧ k < a.length) →
    ∃ a', partitionLoop lt inexact ks a st = some a' ∧ a'.Perm a ∧ (∀ k ∈ ks, Placed lt a' 0 a.length k) ∧
      ∀ l, last = some l → ∀ k, k ≤ l → Placed lt a 0 a.length k → Placed lt a' 0 a.length k := by
  induction ks with
  | nil => intro a st last _ _ _ _ _; exact ⟨a, rfl, List.Perm.refl _, by simp, fun _ _ _ _ h => h⟩
  | cons k ks ih =>
    intro a st last hK hl hle hs hr
    obtain ⟨s1, s2⟩ := List.pairwise_cons.1 hs
    have hk := hr k (by simp)
    have key : ∃ a1 st1, introselect lt inexact (a.length + 1) a 0 a.length k (some st) = some (a1, some st1) ∧ Rearr a a1 0 a.length ∧ Placed lt a1 0 a.length k ∧ Known lt a1 0 a.length st1 ∧
        (k ∈ st1 ∨ (st1 = [] ∧ inexact = true ∧ k = a.length - 1 ∧ 4 ≤ a.length)) ∧
        ∀ l, last = some l → ∀ q, q ≤ l → Placed lt a 0 a.length q → Placed lt a1 0 a.length q := by
      by_cases hsp : ∃ l, last = some l ∧ l = k ∧ st = [] ∧ inexact = true ∧ l = a.length - 1 ∧ 4 ≤ a.length ∧ Placed lt a 0 a.length l
      · obtain ⟨l, l1, l2, l3, l4, l5, l6, l7⟩ := hsp
        subst l3 l4
        refine ⟨a, [], introselect_again (by omega) l6 (by omega) (l2 ▸ l7) (by omega), Rearr.refl _ _ _, l2 ▸ l7, hK, Or.inr ⟨rfl, rfl, by omega, l6⟩, fun _ _ _ _ h => h⟩
      · obtain ⟨a1, st1, e1, e2, e3, e4⟩ := introselect_ok ho inexact (fuel := a.length + 1) (num := a.length) (a := a) (b := 0) (kth := k) (st := st) (by omega) (by omega) (by omega) hk.1
          (by omega) (by simpa using hK)
        rw [Int.zero_add] at e2 e3 e4
        refine ⟨a1, st1, e1, e2, e3, e4.known, ?_, ?_⟩
        · rcases e4.mem with h | h
          · exact Or.inl h
          · exact Or.inr ⟨h.1, h.2.1, h.2.2.1, by omega⟩
        · intro l l1 q q1 q2
          have hlk := hle l l1 k (by simp)
          by_cases c : l = k
          · rcases hl l l1 with h | h
            · rw [e4.same (c ▸ h)]; exact q2
            · exact absurd ⟨l, l1, c, h⟩ hsp
          · rcases hl l l1 with h | h
            · exact e4.keep q l h (by omega) q1 q2
            · omega
    obtain ⟨a1, st1, e1, e2, e3, e4, e5, e6⟩ := key
    have hlen := e2.length
    obtain ⟨a', f1, f2, f3, f4⟩ := ih a1 st1 (some k) (by rw [hlen]; exact e4) (by
        intro l l1
        cases l1
        rw [hlen]
        rcases e5 with h | h
        · exact Or.inl h
        · exact Or.inr ⟨h.1, h.2.1, h.2.2.1, h.2.2.2, e3⟩) (by
        intro l l1
        cases l1
        exact s1) s2 (by rw [hlen]; exact fun q hq => hr q (by simp [hq]))
    rw [hlen] at f3 f4
    refine ⟨a', ?_, f2.trans e2.perm, ?_, ?_⟩
    · simp only [partitionLoop, e1, Option.bind_eq_bind, Option.bind_some, Option.getD_some, f1]
    · intro q hq
      rcases List.mem_cons.1 hq with h | h
      · rw [h]; exact f4 k rfl k (by omega) e3
      · exact f3 q h
    · intro l l1 q q1 q2
      have := hle l l1 k (by simp)
      exact f4 k rfl q (by omega) (e6 l l1 q q1 q2)

theorem Placed.splitAt {a : List α} {k : Nat} (h : Placed lt a 0 a.length k) (hk : k < a.length) : SplitAt lt a k := by
  refine ⟨a[k], List.getElem?_eq_getElem hk, ?_, ?_⟩
  · intro i y hi hy
    have := (List.getElem?_eq_some_iff.1 hy).1
    exact h.1 i k y a[k] (by omega) (by omega) (by omega) (by omega) (by rw [rd_nat]; exact hy) (by rw [rd_nat]; exact List.getElem?_eq_getElem hk)
  · intro j y hj hy
    have := (List.getElem?_eq_some_iff.1 hy).1
    exact h.2 k j a[k] y (by omega) (by omega) (by omega) (by omega) (by rw [rd_nat]; exact List.getElem?_eq_getElem hk) (by rw [rd_nat]; exact hy)

theorem countP_zero {P : α → Bool} {l : List α} (h : ∀ (i : Nat) x, l[i]? = some x → P x = false) : l.countP P = 0 := by
  rw [List.countP_eq_zero]
  intro x hx
  obtain ⟨i, hi, e⟩ := List.getElem_of_mem hx
  rw [h i x (by rw [List.getElem?_eq_getElem hi, e])]
  simp

theorem countP_all {P : α → Bool} {l : List α} (h : ∀ (i : Nat) x, l[i]? = some x → P x = true) : l.countP P = l.length := by
  rw [List.countP_eq_length]
  intro x hx
  obtain ⟨i, hi, e⟩ := List.getElem_of_mem hx
  exact h i x (by rw [List.getElem?_eq_getElem hi, e])

theorem ascending_get {s : List α} (hs : Ascending lt s) {i j : Nat} (hij : i < j) {x y : α} (hx : s[i]? = some x) (hy : s[j]? = some y) : lt y x = false := by
  obtain ⟨i1, i2⟩ := List.getElem?_eq_some_iff.1 hx
  obtain ⟨j1, j2⟩ := List.getElem?_eq_some_iff.1 hy
  have := List.pairwise_iff_getElem.1 hs i j i1 j1 hij
  rw [i2, j2] at this
  exact this

/-- The element at the position is the one that sorting would put there. -/
theorem SplitAt.rank (ho : SWO lt) {a s : List α} {k : Nat} (h : SplitAt lt a k) (hp : s.Perm a) (hs : Ascending lt s) :
    ∃ x y, a[k]? = some x ∧ s[k]? = some y ∧ lt x y = false ∧ lt y x = false := by
  obtain ⟨x, hx, h1, h2⟩ := h
  have hk := (List.getElem?_eq_some_iff.1 hx).1
  have hl := hp.length_eq
  refine ⟨x, s[k]'(by omega), hx, List.getElem?_eq_getElem (by omega), ?_, ?_⟩
  · cases c : lt x (s[k]'(by omega)) with
    | false => rfl
    | true =>
      exfalso
      have e1 := hp.countP_eq (fun z => lt x z)
      have e2 : (s.drop k).countP (fun z => lt x z) = (s.drop k).length := countP_all (by
        intro i z hz
        rw [List.getElem?_drop] at hz
        by_cases c0 : i = 0
        · subst c0
          simp only [Nat.add_zero] at hz
          rw [List.getElem?_eq_getElem (by omega)] at hz
          cases hz
          exact c
        · exact ho.lt_of_lt_of_le c (ascending_get hs (i := k) (j := k + i) (by omega) (List.getElem?_eq_getElem (by omega)) hz))
      have e3 : (a.take (k + 1)).countP (fun z => lt x z) = 0 := countP_zero (by
        intro i z hz
        rw [List.getElem?_take] at hz
        split at hz
        · by_cases c0 : i = k
          · subst c0
            rw [hx] at hz
            cases hz
            exact ho.irrefl _
          · exact h1 i z (by omega) hz
        · cases hz)
      have e4 : s.countP (fun z => lt x z) = (s.take k).countP (fun z => lt x z) + (s.drop k).countP (fun z => lt x z) := by rw [← List.countP_append, List.take_append_drop]
      have e5 : a.countP (fun z => lt x z) = (a.take (k + 1)).countP (fun z => lt x z) + (a.drop (k + 1)).countP (fun z => lt x z) := by rw [← List.countP_append, List.take_append_drop]
      have e6 := List.countP_le_length (p := fun z => lt x z) (l := a.drop (k + 1))
      rw [List.length_drop] at e2 e6
      omega
  · cases c : lt (s[k]'(by omega)) x with
    | false => rfl
    | true =>
      exfalso
      have e1 := hp.countP_eq (fun z => lt z x)
      have e2 : (s.take (k + 1)).countP (fun z => lt z x) = (s.take (k + 1)).length := countP_all (by
        intro i z hz
        rw [List.getElem?_take] at hz
        split at hz
        · by_cases c0 : i = k
          · subst c0
            rw [List.getElem?_eq_getElem (by omega)] at hz
            cases hz
            exact c
          · exact ho.lt_of_le_of_lt (ascending_get hs (i := i) (j := k) (by omega) hz (List.getElem?_eq_getElem (by omega))) c
        · cases hz)
      have e3 : (a.drop k).countP (fun z => lt z x) = 0 := countP_zero (by
        intro i z hz
        rw [List.getElem?_drop] at hz
        by_cases c0 : i = 0
        · subst c0
          simp only [Nat.add_zero] at hz
          rw [hx] at hz
          cases hz
          exact ho.irrefl _
        · exact h2 (k + i) z (by omega) hz)
      have e4 : s.countP (fun z => lt z x) = (s.take (k + 1)).countP (fun z => lt z x) + (s.drop (k + 1)).countP (fun z => lt z x) := by rw [← List.countP_append, List.take_append_drop]
      have e5 : a.countP (fun z => lt z x) = (a.take k).countP (fun z => lt z x) + (a.drop k).countP (fun z => lt z x) := by rw [← List.countP_append, List.take_append_drop]
      have e6 := List.countP_le_length (p := fun z => lt z x) (l := a.take k)
      rw [List.length_take] at e2 e6
      omega

theorem fixKth_iff {n : Nat} {ks r : List Int} : fixKth n ks = some r ↔ List.Forall₂ (fun (k p : Int) => ∃ q : Nat, p = q ∧ PyPos n k q) ks r := by
  induction ks generalizing r with
  | nil =>
    simp only [fixKth, Option.some.injEq]
    constructor
    · intro h; subst h; exact .nil
    · intro h; cases h; rfl
  | cons k ks ih =>
    simp only [fixKth]
    constructor
    · intro h
      by_cases c : (if k < 0 then k + (n : Int) else k) < 0 ∨ (if k < 0 then k + (n : Int) else k) ≥ n
      · rw [if_pos c] at h
        cases h
      · rw [if_neg c] at h
        cases hf : fixKth n ks with
        | none => rw [hf] at h; cases h
        | some r0 =>
          rw [hf] at h
          cases h
          refine .cons ⟨(if k < 0 then k + (n : Int) else k).toNat, ?_, ?_, ?_⟩ (ih.1 hf)
          · split at c <;> omega
          · split at c <;> omega
          · split at c <;> omega
    · intro h
      cases h with
      | cons h1 h2 =>
        obtain ⟨q, q1, q2, q3⟩ := h1
        subst q1
        have e : (if k < 0 then k + (n : Int) else k) = q := by split <;> omega
        rw [e, if_neg (by omega), ih.2 h2]
        rfl

theorem fixKth_range {n : Nat} {ks r : List Int} (h : fixKth n ks = some r) : ∀ k ∈ r, 0 ≤ k ∧ k < n := by
  have := fixKth_iff.1 h
  clear h
  induction this with
  | nil => simp
  | cons h1 _ ih =>
    intro k hk
    obtain ⟨q, q1, q2, _⟩ := h1
    rcases List.mem_cons.1 hk with e | e
    · omega
    · exact ih k e

/-! ### `_less` -/

theorem fless_some {β : Type} {lt0 : β → β → Bool} (h : SWO lt0) (a b : Option β) : fless lt0 a b = (match a, b with | some x, some y => lt0 x y | some _, none => true | none, _ => false) := by
  cases a <;> cases b <;> simp [fless, flt, feq, h.irrefl]

theorem fless_swo {β : Type} {lt0 : β → β → Bool} (h : SWO lt0) : SWO (fless lt0) := by
  constructor
  · intro a b
    rw [fless_some h, fless_some h]
    cases a <;> cases b <;> simp <;> exact h.asymm
  · intro a b c
    rw [fless_some h, fless_some h, fless_some h]
    cases a <;> cases b <;> cases c <;> simp <;> exact h.negTrans

def lexLt {β γ : Type} (l1 : β → β → Bool) (l2 : γ → γ → Bool) (a b : β × γ) : Bool := l1 a.1 b.1 || (!l1 b.1 a.1 && l2 a.2 b.2)

theorem lexLt_swo {β γ : Type} {l1 : β → β → Bool} {l2 : γ → γ → Bool} (h1 : SWO l1) (h2 : SWO l2) : SWO (lexLt l1 l2) := by
  constructor
  · rintro ⟨a, a'⟩ ⟨b, b'⟩ h
    simp only [lexLt, Bool.or_eq_true, Bool.and_eq_true, Bool.not_eq_true', Bool.or_eq_false_iff, Bool.and_eq_false_imp] at *
    rcases h with h | h
    · exact ⟨h1.asymm h, fun q => by rw [h] at q; cases q⟩
    · exact ⟨h.1, fun _ => h2.asymm h.2⟩
  · rintro ⟨a, a'⟩ ⟨b, b'⟩ ⟨c, c'⟩ h g
    simp only [lexLt, Bool.and_eq_true, Bool.not_eq_true', Bool.or_eq_false_iff, Bool.and_eq_false_imp] at *
    refine ⟨h1.negTrans h.1 g.1, fun q => ?_⟩
    have e1 : l1 c b = false := h1.negTrans q h.1
    have e2 : l1 b a = false := h1.negTrans g.1 q
    exact h2.negTrans (h.2 e2) (g.2 e1)

def cRank {β : Type} (a : Option β × Option β) : Nat := (if a.1.isSome then 0 else 2) + (if a.2.isSome then 0 else 1)

theorem cless_eq {β : Type} {lt0 : β → β → Bool} (h : SWO lt0) (a b : Option β × Option β) :
    cless lt0 a b = lexLt (fun x y : Nat => decide (x < y)) (lexLt (fless lt0) (fless lt0)) (cRank a, a) (cRank b, b) := by
  obtain ⟨a, a'⟩ := a
  obtain ⟨b, b'⟩ := b
  cases a <;> cases a' <;> cases b <;> cases b' <;> simp [cless, lexLt, cRank, flt, feq, fless, h.irrefl]
  · rename_i x _ z
    cases lt0 x z <;> cases lt0 z x <;> simp
  · rename_i p q r s
    cases lt0 p r <;> cases lt0 r p <;> simp

theorem cless_swo {β : Type} {lt0 : β → β → Bool} (h : SWO lt0) : SWO (cless lt0) := by
  have := (lexLt_swo natSWO (lexLt_swo (fless_swo h) (fless_swo h))).key (fun a : Option β × Option β => (cRank a, a))
  have e : cless lt0 = fun a b => lexLt (fun x y : Nat => decide (x < y)) (lexLt (fless lt0) (fless lt0)) (cRank a, a) (cRank b, b) := by
    funext a b
    exact cless_eq h a b
  rw [e]
  exact this

end Codon.NpSel
