import Verif.NpSel.Select
/-! Correctness of `_introselect` and of the loop over the positions asked for. -/
namespace Codon.NpSel
open Codon.Sort

variable {α : Type} {lt : α → α → Bool}

/-- The pivots handed on from one position to the next. -/
def Known (lt : α → α → Bool) (a : List α) (b e : Int) (st : List Int) : Prop :=
  st.length ≤ maxPivots ∧ st.Pairwise (· ≤ ·) ∧ ∀ p ∈ st, b ≤ p ∧ p < e ∧ Placed lt a b e p

/-- The bounds found from the pivots. -/
structure Found (lt : α → α → Bool) (a : List α) (b e kth : Int) (st : List Int) (low high : Int) (st' : List Int) : Prop where
  bl : b ≤ low
  lk : low ≤ kth
  kh : kth ≤ high
  he : high < e
  cl : Cut lt a b e low
  ch : Cut lt a b e (high + 1)
  sk : StackOk lt a b e kth high (some st')
  pop : ∀ p ∈ st, p < kth → p < low
  nil : kth = e - 1 → st' = []

theorem usePivots_ok {a : List α} {b e kth : Int} (hk : kth < e) (st : List Int) : ∀ (low : Int), Known lt a b e st → (∀ p ∈ st, low ≤ p + 1) → b ≤ low → low ≤ kth → Cut lt a b e low →
    (usePivots kth st low (e - 1) = none ∧ Placed lt a b e kth ∧ ∃ t, st.dropWhile (fun p => decide (p < kth)) = kth :: t ∧ Known lt a b e (kth :: t)) ∨
    ∃ low' high' st', usePivots kth st low (e - 1) = some (low', high', st') ∧ Found lt a b e kth st low' high' st' ∧ low ≤ low' ∧ (∀ p ∈ st, p ≠ kth) := by
  induction st with
  | nil =>
    intro low _ _ h1 h2 h3
    right
    refine ⟨low, e - 1, [], rfl, ⟨h1, h2, by omega, by omega, h3, Cut.high (by omega), ?_, by simp, fun _ => rfl⟩, by omega, by simp⟩
    intro st hs
    cases hs
    simp
  | cons p st ih =>
    intro low hK hlo h1 h2 h3
    have hlp := hlo p (by simp)
    obtain ⟨k1, k2, k3⟩ := hK
    obtain ⟨k4, k5⟩ := List.pairwise_cons.1 k2
    have kp := k3 p (by simp)
    have hK' : Known lt a b e st := ⟨by simp only [List.length_cons] at k1; omega, k5, fun q hq => k3 q (by simp [hq])⟩
    simp only [usePivots]
    by_cases c1 : p > kth
    · rw [if_pos c1]
      right
      refine ⟨low, p - 1, p :: st, rfl, ⟨h1, h2, by omega, by omega, h3, by simpa using kp.2.2.1, ?_, ?_, by intro; omega⟩, by omega, ?_⟩
      · intro st0 hs
        cases hs
        refine ⟨k1, k2, fun q hq => ?_⟩
        have := k3 q hq
        have hpq : p ≤ q := by
          rcases List.mem_cons.1 hq with h | h
          · omega
          · exact k4 q h
        exact ⟨by omega, by omega, this.2.1, this.2.2⟩
      · intro q hq hlt
        rcases List.mem_cons.1 hq with h | h
        · omega
        · have := k4 q h
          omega
      · intro q hq
        rcases List.mem_cons.1 hq with h | h
        · omega
        · have := k4 q h
          omega
    · rw [if_neg c1]
      by_cases c2 : p = kth
      · rw [if_pos c2]
        left
        refine ⟨rfl, c2 ▸ kp.2.2, st, ?_, c2 ▸ ⟨k1, k2, k3⟩⟩
        rw [List.dropWhile_cons, if_neg (by simp; omega), c2]
      · rw [if_neg c2]
        rcases ih (p + 1) hK' (fun q hq => by have := k4 q hq; omega) (by omega) (by omega) kp.2.2.2 with ⟨g1, g2, t, g3, g4⟩ | ⟨low', high', st', g1, g2, g3, g4⟩
        · left
          refine ⟨g1, g2, t, ?_, g4⟩
          rw [List.dropWhile_cons, if_pos (by simp; omega), g3]
        · right
          refine ⟨low', high', st', g1, ⟨g2.bl, g2.lk, g2.kh, g2.he, g2.cl, g2.ch, g2.sk, ?_, g2.nil⟩, by omega, ?_⟩
          · intro q hq hlt
            rcases List.mem_cons.1 hq with h | h
            · omega
            · exact g2.pop q h hlt
          · intro q hq
            rcases List.mem_cons.1 hq with h | h
            · omega
            · exact g4 q h

theorem StackOk.final {a : List α} {b e kth high : Int} {st : List Int} (hb : b ≤ kth) (hk : kth < e) (h : StackOk lt a b e kth high (some st)) (hp : Placed lt a b e kth) :
    ∃ st', storePivot kth kth (some st) = some st' ∧ Known lt a b e st' ∧ (∀ p ∈ st', kth ≤ p) ∧ kth ∈ st' := by
  obtain ⟨h1, h2, h3⟩ := h st rfl
  have key : ∀ t : List Int, t.length < maxPivots → t.Sublist st → Known lt a b e (kth :: t) ∧ ∀ p ∈ kth :: t, kth ≤ p := by
    intro t t1 t2
    refine ⟨⟨by simp only [List.length_cons]; omega, List.pairwise_cons.2 ⟨fun p hp => ?_, h2.sublist t2⟩, fun p hp' => ?_⟩, fun p hp' => ?_⟩
    · have := h3 p (t2.subset hp); omega
    · rcases List.mem_cons.1 hp' with e1 | e1
      · rw [e1]; exact ⟨hb, hk, hp⟩
      · have := h3 p (t2.subset e1)
        exact ⟨by omega, this.2.2⟩
    · rcases List.mem_cons.1 hp' with e1 | e1
      · omega
      · have := h3 p (t2.subset e1); omega
  simp only [storePivot]
  by_cases c : st.length = maxPivots
  · rw [if_pos ⟨trivial, c⟩]
    obtain ⟨q1, q2⟩ := key st.tail (by rw [List.length_tail, c]; decide) (List.tail_sublist st)
    exact ⟨_, rfl, q1, q2, by simp⟩
  · rw [if_neg (by omega), if_pos (by omega)]
    obtain ⟨q1, q2⟩ := key st (by omega) (List.Sublist.refl _)
    exact ⟨_, rfl, q1, q2, by simp⟩

/-- The last step: two elements that are left are put in order. -/
theorem final_ok (ho : SWO lt) {a : List α} {b e kth low high : Int} {piv : Option (List Int)} (h0 : 0 ≤ b) (hi : Inv lt a b e kth low high piv) (hh : high ≤ low + 1) :
    ∃ a', (if high = low + 1 then (do if lt (← rd a high) (← rd a low) then swap a high low else some a) else some a) = some a' ∧ (∀ l h, l ≤ low → high + 1 ≤ h → Rearr a a' l h) ∧
      Placed lt a' b e kth ∧ StackOk lt a' b e kth high piv := by
  have := hi.bl
  have := hi.he
  have := hi.len
  by_cases c : high = low + 1
  · rw [if_pos c]
    obtain ⟨x, hx⟩ := rd_ex (a := a) (i := high) (by omega) (by omega)
    obtain ⟨y, hy⟩ := rd_ex (a := a) (i := low) (by omega) (by omega)
    obtain ⟨a', u, v, s1, s2, s3, s4, s5, _⟩ := cswap_ok ho (a := a) (i := high) (j := low) (b := low) (e := high + 1) (by omega) (by omega) (by omega) (by omega) (by omega) hx hy
    simp only [hx, hy, Option.bind_eq_bind, Option.bind_some]
    refine ⟨a', s1, fun l h l1 l2 => s2.mono l1 l2, ?_, hi.st.rearr s2 h0 (by omega) (by omega) (by omega) (by omega)⟩
    have k1 := hi.cl.rearr s2 h0 (by omega) (by omega) (by omega) (by omega) (by omega)
    have k2 := hi.ch.rearr s2 h0 (by omega) (by omega) (by omega) (by omega) (by omega)
    rcases hi.k with hk | hk
    · have k3 : Cut lt a' b e high := by
        refine k1.compose k2 (by omega) (by omega) ?_
        intro i j x' y' i1 i2 i3 i4 i5 i6
        have e1 : i = low := by omega
        have e2 : j = high := by omega
        rw [e1, s4] at i5
        rw [e2, s3] at i6
        cases i5
        cases i6
        exact s5
      have : kth = low ∨ kth = high := by omega
      rcases this with d | d
      · rw [d]; exact ⟨k1, by rw [← c]; exact k3⟩
      · rw [d]; exact ⟨k3, k2⟩
    · exact hk.1.rearr s2 h0 (by omega) (by omega) (by omega) (by omega) (Or.inl hk.2)
  · rw [if_neg c]
    refine ⟨a, rfl, fun _ _ _ _ => Rearr.refl _ _ _, ?_, hi.st⟩
    rcases hi.k with hk | hk
    · have e1 : kth = low := by omega
      have e2 : high = low := by omega
      rw [e1]
      exact ⟨hi.cl, by have := hi.ch; rw [e2] at this; exact this⟩
    · exact hk.1

/-- What `_introselect` does. -/
structure SelOk (lt : α → α → Bool) (inexact : Bool) (a : List α) (b e kth : Int) (st : List Int) (a' : List α) (st' : List Int) : Prop where
  known : Known lt a' b e st'
  above : ∀ p ∈ st', kth ≤ p
  mem : kth ∈ st' ∨ (st' = [] ∧ inexact = true ∧ kth = e - 1 ∧ 4 ≤ e - b)
  keep : ∀ k p, p ∈ st → p < kth → k ≤ p → Placed lt a b e k → Placed lt a' b e k
  same : kth ∈ st → a' = a

theorem introselect_step (ho : SWO lt) (inexact : Bool) {isel : List α → Int → Nat → Int → Option (List α)} {num : Nat} (hs : IselOk isel num) {a : List α} {b kth : Int} (h0 : 0 ≤ b)
    (hlen : b + num ≤ a.length) {low high : Int} {piv : Option (List Int)} (hbl : b ≤ low) (hlk : low ≤ kth) (hkh : kth ≤ high) (hhe : high < b + num)
    (hcl : Cut lt a b (b + num) low) (hch : Cut lt a b (b + num) (high + 1)) (hst : StackOk lt a b (b + num) kth high piv) :
    ∃ a' piv', (if kth - low < 3 then do
        let a ← dumbSelect lt high (kth - low + 1).toNat a low
        some (a, storePivot kth kth piv)
      else if inexact ∧ kth = b + num - 1 then do
        let mi ← maxLoop lt (b + num - (low + 1)).toNat a (low + 1) low (← rd a low)
        let a ← swap a kth mi
        some (a, piv)
      else do
        let (a, low, high, piv) ← selLoop lt isel kth (num + 1) a low high (msb num num * 2) piv
        let a ← (if high = low + 1 then (do if lt (← rd a high) (← rd a low) then swap a high low else some a) else some a)
        some (a, storePivot kth kth piv)) = some (a', piv') ∧ Rearr a a' low (high + 1) ∧ Placed lt a' b (b + num) kth ∧
      ((∃ piv1 h1, piv' = storePivot kth kth piv1 ∧ StackOk lt a' b (b + num) kth h1 piv1 ∧ (piv1 = none → piv = none)) ∨
       (piv' = piv ∧ StackOk lt a' b (b + num) kth high piv ∧ inexact = true ∧ kth = b + num - 1 ∧ 3 ≤ kth - low)) := by
  by_cases c1 : kth - low < 3
  · rw [if_pos c1]
    obtain ⟨a', d1, d2, d3⟩ := dumbSelect_ok ho (low := low) (high := high) (by omega) (kth - low + 1).toNat a low (by omega) (by omega) (by omega)
      (fun m m1 m2 => Cut.low (by omega))
    rw [d1]
    have k1 := hcl.rearr d2 h0 (by omega) (by omega) (by omega) (by omega) (by omega)
    have k2 := hch.rearr d2 h0 (by omega) (by omega) (by omega) (by omega) (by omega)
    refine ⟨a', _, rfl, d2, ⟨k1.compose k2 (by omega) (by omega) (d3 kth (by omega) (by omega)), k1.compose k2 (by omega) (by omega) (d3 (kth + 1) (by omega) (by omega))⟩, ?_⟩
    exact Or.inl ⟨piv, high, rfl, hst.rearr d2 h0 (by omega) (by omega) (by omega) (by omega), id⟩
  · rw [if_neg c1]
    by_cases c2 : inexact = true ∧ kth = b + num - 1
    · rw [if_pos c2]
      obtain ⟨x, hx⟩ := rd_ex (a := a) (i := low) (by omega) (by omega)
      obtain ⟨mi, v, d1, d2, d3, d4, d5⟩ := maxLoop_ok ho (a := a) low (b + num - (low + 1)).toNat (low + 1) low x (by omega) (by omega) (by omega) (by omega) hx (by
        intro q z q1 q2 q3
        have : q = low := by omega
        rw [this, hx] at q3
        cases q3
        exact ho.irrefl _)
      obtain ⟨a', s1, s2, s3⟩ := swap_rearr (a := a) (b := low) (e := high + 1) (i := kth) (j := mi) (by omega) (by omega) (by omega) (by omega)
      simp only [hx, d1, s1, Option.bind_eq_bind, Option.bind_some]
      have k1 := hcl.rearr s2 h0 (by omega) (by omega) (by omega) (by omega) (by omega)
      have k2 := hch.rearr s2 h0 (by omega) (by omega) (by omega) (by omega) (by omega)
      refine ⟨a', _, rfl, s2, ⟨k1.compose k2 (by omega) (by omega) ?_, Cut.high (by omega)⟩, Or.inr ⟨rfl, hst.rearr s2 h0 (by omega) (by omega) (by omega) (by omega), c2.1, c2.2, by omega⟩⟩
      intro i j y z i1 i2 i3 i4 i5 i6
      have ej : j = kth := by omega
      have hz : z = v := by
        rw [ej, s3 kth] at i6
        by_cases q : kth = mi
        · rw [if_pos q, q, d4] at i6; cases i6; rfl
        · rw [if_neg q, if_pos rfl, d4] at i6; cases i6; rfl
      rw [hz]
      have hd : AllSeg (fun z => lt v z = false) a low (high + 1) := d5.sub (by omega) (by omega)
      exact hd.rearr s2 (by omega) (by omega) (by omega) i y i1 (by omega) i5
    · rw [if_neg c2]
      obtain ⟨a1, low', high', piv1, d1, d2, d3, d4, d5, d6, d7⟩ := selLoop_ok ho hs (kth := kth) (e := b + num) h0 (num + 1) a low high (msb num num * 2) piv
        ⟨hlen, hbl, hhe, hcl, hch, hst, Or.inl ⟨hlk, hkh⟩⟩ (by omega) (by omega) (by omega)
      obtain ⟨a2, f1, f2, f3, f4⟩ := final_ok ho h0 d2 d5
      rw [d1]
      simp only [Option.bind_eq_bind, Option.bind_some] at f1 ⊢
      rw [f1]
      exact ⟨a2, _, rfl, (d6 low (high + 1) (by omega) (by omega)).trans (f2 low (high + 1) (by omega) (by omega)), f3, Or.inl ⟨piv1, high', rfl, f4, d7⟩⟩

theorem iselOk (ho : SWO lt) (inexact : Bool) (fuel : Nat) : ∀ (bound : Nat), bound ≤ fuel →
    IselOk (fun a b n k => (introselect lt inexact fuel a b n k none).map Prod.fst) bound := by
  induction fuel with
  | zero => intro bound hb a b n k hn; omega
  | succ fuel ih =>
    intro bound hb a b n k hn h0 hbk hkn hlen
    obtain ⟨a', piv', e1, e2, _⟩ := introselect_step ho inexact (num := n) (ih n (by omega)) (a := a) (b := b) (kth := k) (low := b) (high := b + n - 1) (piv := none) h0 hlen (by omega) hbk
      (by omega) (by omega) (Cut.low (by omega)) (Cut.high (by omega)) (by intro st h; cases h)
    refine ⟨a', ?_, by simpa using e2⟩
    simp only [introselect, bounds]
    rw [e1]
    rfl

theorem introselect_ok (ho : SWO lt) (inexact : Bool) {fuel num : Nat} {a : List α} {b kth : Int} {st : List Int} (hf : num < fuel) (h0 : 0 ≤ b) (hlen : b + num ≤ a.length)
    (hb : b ≤ kth) (hk : kth < b + num) (hst : Known lt a b (b + num) st) :
    ∃ a' st', introselect lt inexact fuel a b num kth (some st) = some (a', some st') ∧ Rearr a a' b (b + num) ∧ Placed lt a' b (b + num) kth ∧
      SelOk lt inexact a b (b + num) kth st a' st' := by
  cases fuel with
  | zero => omega
  | succ fuel =>
  rcases usePivots_ok (lt := lt) (a := a) (b := b) (e := b + num) (kth := kth) hk st b hst (fun p hp => by have := hst.2.2 p hp; omega) (by omega) hb (Cut.low (by omega)) with
    ⟨g1, g2, t, g3, g4⟩ | ⟨low, high, st1, g1, g2, g3, g4⟩
  · refine ⟨a, kth :: t, ?_, Rearr.refl _ _ _, g2, g4, ?_, Or.inl (by simp), fun _ _ _ _ _ h => h, fun _ => rfl⟩
    · simp only [introselect, bounds, g1, Option.map_none, Option.map_some, g3]
    · obtain ⟨q1, q2⟩ := List.pairwise_cons.1 g4.2.1
      intro p hp
      rcases List.mem_cons.1 hp with h | h
      · omega
      · exact q1 p h
  · obtain ⟨a', piv', e1, e2, e3, e4⟩ := introselect_step ho inexact (num := num) (iselOk ho inexact fuel num (by omega)) h0 hlen g2.bl g2.lk g2.kh g2.he g2.cl g2.ch g2.sk
    have hl := e2.length
    have b1 := g2.bl
    have b2 := g2.lk
    have b3 := g2.kh
    have b4 := g2.he
    have hR : Rearr a a' b (b + num) := e2.mono (by omega) (by omega)
    have hrun : introselect lt inexact (fuel + 1) a b num kth (some st) = some (a', piv') := by
      simp only [introselect, bounds, g1, Option.map_some]
      exact e1
    have hkeep : ∀ k p, p ∈ st → p < kth → k ≤ p → Placed lt a b (b + num) k → Placed lt a' b (b + num) k := by
      intro k p p1 p2 p3 p4
      have := g2.pop p p1 p2
      exact p4.rearr e2 h0 (by omega) (by omega) (by omega) (by omega) (Or.inl (by omega))
    have hsame : kth ∈ st → a' = a := fun h => absurd rfl (g4 kth h)
    rcases e4 with ⟨piv1, h1, p1, p2, p3⟩ | ⟨p1, p2, p3, p4, p5⟩
    · cases piv1 with
      | none => cases p3 rfl
      | some st2 =>
        obtain ⟨st', q1, q2, q3, q4⟩ := p2.final hb hk e3
        refine ⟨a', st', by rw [hrun, p1, q1], hR, e3, q2, q3, Or.inl q4, hkeep, hsame⟩
    · have hn := g2.nil (by omega)
      subst hn
      exact ⟨a', [], by rw [hrun, p1], hR, e3, ⟨by simp, by simp, by simp⟩, by simp, Or.inr ⟨rfl, p3, by omega, by omega⟩, hkeep, hsame⟩

end Codon.NpSel
