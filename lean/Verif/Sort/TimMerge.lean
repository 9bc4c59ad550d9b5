import Verif.Sort.Tim

/-! Merging runs. -/

set_option linter.unusedSectionVars false
set_option linter.unusedSimpArgs false

namespace Codon.Sort

variable {α : Type} {lt : α → α → Bool}

/-- The stable merge of two lists: the element of the right list goes first only if it is less. -/
abbrev smerge (lt : α → α → Bool) (xs ys : List α) : List α := List.merge xs ys fun x y => !lt y x

theorem smerge_perm (xs ys : List α) : (smerge lt xs ys).Perm (xs ++ ys) := List.merge_perm_append _

theorem smerge_sorted (ho : SWO lt) {xs ys : List α} (h1 : Sorted lt xs) (h2 : Sorted lt ys) :
    Sorted lt (smerge lt xs ys) := by
  have := List.pairwise_merge (le := fun x y => !lt y x) (by
      intro a b c h1 h2
      simp only [Bool.not_eq_true'] at *
      exact ho.negTrans h2 h1) (by
      intro a b
      cases h : lt b a
      · rfl
      · rw [ho.asymm h]; rfl) xs ys (h1.imp fun h => by simp [h]) (h2.imp fun h => by simp [h])
  exact this.imp fun h => by simpa using h

theorem smerge_filter (ho : SWO lt) (z : α) : ∀ (xs ys : List α), Sorted lt xs →
    (smerge lt xs ys).filter (keq lt z) = xs.filter (keq lt z) ++ ys.filter (keq lt z) := by
  intro xs
  induction xs with
  | nil => intro ys _; simp [smerge]
  | cons x xs ihx =>
    intro ys hs
    induction ys with
    | nil => simp [smerge]
    | cons y ys ihy =>
      have hs' := List.pairwise_cons.mp hs
      unfold smerge
      rw [List.cons_merge_cons]
      cases hl : lt y x
      · rw [if_pos (by rfl)]
        rw [List.filter_cons, ihx (y :: ys) hs'.2, List.filter_cons (x := x)]
        split <;> simp
      · rw [if_neg (by simp)]
        rw [List.filter_cons]
        have := ihy
        unfold smerge at this
        rw [this]
        cases hz : keq lt z y
        · simp only [Bool.false_eq_true, if_false]
          rw [List.filter_cons (x := y), if_neg (by simp [hz])]
        · simp only [if_true]
          have hnil : (x :: xs).filter (keq lt z) = [] := by
            rw [List.filter_eq_nil_iff]
            intro w hw
            rw [keq_iff]
            rw [keq_iff] at hz
            intro h
            have hyw : lt y w = true := by
              rcases List.mem_cons.mp hw with rfl | hw
              · exact hl
              · exact ho.lt_of_lt_of_le hl (hs'.1 w hw)
            have := ho.negTrans hz.2 h.1
            rw [hyw] at this; cases this
          rw [hnil, List.filter_cons (x := y), if_pos hz]
          rfl

theorem drop_cons_facts {T : List α} {n : Nat} {x : α} {r : List α} (h : T.drop n = x :: r) :
    T[n]? = some x ∧ T.drop (n + 1) = r := by
  constructor
  · have := List.getElem?_drop (xs := T) (i := n) (j := 0)
    rw [h] at this
    simpa using this.symm
  · rw [← List.drop_drop, h]; rfl

/-- The state of the merge of `ca` and `cb` at `sa`. -/
structure MInv (lt : α → α → Bool) (orig ca cb : List α) (sa : Int) (s : MState α) (i j : Nat) : Prop where
  hi : s.i = i
  hj : s.j = j
  hk : s.k = sa + i + j
  ila : i ≤ ca.length
  jlb : j ≤ cb.length
  tail : (smerge lt ca cb).drop (i + j) = smerge lt (ca.drop i) (cb.drop j)
  len : s.arr.length = orig.length
  done : ∀ t, sa ≤ t → t < s.k → rd s.arr t = rd (smerge lt ca cb) (t - sa)
  rest : ∀ t, (t < sa ∨ s.k ≤ t) → rd s.arr t = rd orig t

theorem rd_append_left {a b : List α} {i : Nat} (h : i < a.length) : rd (a ++ b) (i : Int) = a[i]? := by
  rw [rd_nat, List.getElem?_append_left h]

theorem rd_append_right {a b : List α} {j : Nat} : rd (a ++ b) ((a.length : Int) + j) = b[j]? := by
  rw [show ((a.length : Int) + j) = ((a.length + j : Nat) : Int) by omega, rd_nat, List.getElem?_append_right (by omega)]
  congr 1; omega

theorem MInv.stepA {orig ca cb : List α} {sa : Int} {s : MState α} {i j : Nat} {x y : α}
    (h : MInv lt orig ca cb sa s i j) (h0 : 0 ≤ sa) (hl : sa + ca.length + cb.length ≤ orig.length)
    (hx : ca[i]? = some x) (hy : cb[j]? = some y) (hlt : lt y x = false) :
    wr s.arr s.k x = some (s.arr.set s.k.toNat x) ∧
      MInv lt orig ca cb sa ⟨s.arr.set s.k.toNat x, s.i + 1, s.j, s.k + 1⟩ (i + 1) j := by
  have hil : i < ca.length := (List.getElem?_eq_some_iff.mp hx).1
  have hjl : j < cb.length := (List.getElem?_eq_some_iff.mp hy).1
  have hk := h.hk
  have hlen := h.len
  have hk0 : 0 ≤ s.k := by omega
  have hk1 : s.k < s.arr.length := by omega
  refine ⟨wr_ok hk0 hk1, ?_⟩
  have ht := h.tail
  rw [List.drop_eq_getElem_cons hil, List.drop_eq_getElem_cons hjl] at ht
  rw [show ca[i] = x from (List.getElem?_eq_some_iff.mp hx).2, show cb[j] = y from (List.getElem?_eq_some_iff.mp hy).2] at ht
  unfold smerge at ht
  rw [List.cons_merge_cons, if_pos (by simp [hlt])] at ht
  obtain ⟨t1, t2⟩ := drop_cons_facts ht
  refine ⟨by have := h.hi; simp only; omega, h.hj, by simp only; omega, by omega, h.jlb, ?_, by simp [hlen], ?_, ?_⟩
  · rw [show i + 1 + j = i + j + 1 by omega, t2, List.drop_eq_getElem_cons hjl,
      show cb[j] = y from (List.getElem?_eq_some_iff.mp hy).2]
  · intro t g1 g2
    simp only at g2 ⊢
    rw [rd_set hk0 hk1]
    by_cases c : t = s.k
    · rw [if_pos c, c, hk, show sa + (i : Int) + j - sa = ((i + j : Nat) : Int) by omega, rd_nat]
      exact t1.symm
    · rw [if_neg c]
      exact h.done t g1 (by omega)
  · intro t g1
    simp only at g1 ⊢
    rw [rd_set hk0 hk1, if_neg (by omega)]
    exact h.rest t (by omega)

theorem MInv.stepB {orig ca cb : List α} {sa : Int} {s : MState α} {i j : Nat} {x y : α}
    (h : MInv lt orig ca cb sa s i j) (h0 : 0 ≤ sa) (hl : sa + ca.length + cb.length ≤ orig.length)
    (hx : ca[i]? = some x) (hy : cb[j]? = some y) (hlt : lt y x = true) :
    wr s.arr s.k y = some (s.arr.set s.k.toNat y) ∧
      MInv lt orig ca cb sa ⟨s.arr.set s.k.toNat y, s.i, s.j + 1, s.k + 1⟩ i (j + 1) := by
  have hil : i < ca.length := (List.getElem?_eq_some_iff.mp hx).1
  have hjl : j < cb.length := (List.getElem?_eq_some_iff.mp hy).1
  have hk := h.hk
  have hlen := h.len
  have hk0 : 0 ≤ s.k := by omega
  have hk1 : s.k < s.arr.length := by omega
  refine ⟨wr_ok hk0 hk1, ?_⟩
  have ht := h.tail
  rw [List.drop_eq_getElem_cons hil, List.drop_eq_getElem_cons hjl] at ht
  rw [show ca[i] = x from (List.getElem?_eq_some_iff.mp hx).2, show cb[j] = y from (List.getElem?_eq_some_iff.mp hy).2] at ht
  unfold smerge at ht
  rw [List.cons_merge_cons, if_neg (by simp [hlt])] at ht
  obtain ⟨t1, t2⟩ := drop_cons_facts ht
  refine ⟨h.hi, by have := h.hj; simp only; omega, by simp only; omega, h.ila, by omega, ?_, by simp [hlen], ?_, ?_⟩
  · rw [show i + (j + 1) = i + j + 1 by omega, t2, List.drop_eq_getElem_cons hil,
      show ca[i] = x from (List.getElem?_eq_some_iff.mp hx).2]
  · intro t g1 g2
    simp only at g2 ⊢
    rw [rd_set hk0 hk1]
    by_cases c : t = s.k
    · rw [if_pos c, c, hk, show sa + (i : Int) + j - sa = ((i + j : Nat) : Int) by omega, rd_nat]
      exact t1.symm
    · rw [if_neg c]
      exact h.done t g1 (by omega)
  · intro t g1
    simp only at g1 ⊢
    rw [rd_set hk0 hk1, if_neg (by omega)]
    exact h.rest t (by omega)

theorem mergeOne_spec (orig ca cb : List α) (sa mg : Int) (h0 : 0 ≤ sa)
    (hl : sa + ca.length + cb.length ≤ orig.length) : ∀ (n : Nat) (s : MState α) (ac bc : Int) (i j : Nat),
    ca.length + cb.length < n + i + j → MInv lt orig ca cb sa s i j →
    ∃ s' i' j', mergeOne lt (ca ++ cb) ca.length cb.length mg n s ac bc = some s' ∧ MInv lt orig ca cb sa s' i' j' ∧
      i + j ≤ i' + j' ∧ (i < ca.length → j < cb.length → i + j < i' + j') := by
  intro n
  induction n with
  | zero => intro s ac bc i j h1 h2; have := h2.ila; have := h2.jlb; omega
  | succ n ih =>
    intro s ac bc i j h1 h2
    unfold mergeOne
    have hi := h2.hi
    have hj := h2.hj
    by_cases hc : s.i < ca.length ∧ s.j < cb.length
    · rw [if_pos hc]
      have hil : i < ca.length := by omega
      have hjl : j < cb.length := by omega
      have hx : ca[i]? = some ca[i] := List.getElem?_eq_getElem hil
      have hy : cb[j]? = some cb[j] := List.getElem?_eq_getElem hjl
      rw [hj, rd_append_right, hy, hi, rd_append_left hil, hx]
      simp only [Option.bind_eq_bind, Option.bind_some]
      cases hlt : lt cb[j] ca[i]
      · rw [if_neg (by simp)]
        obtain ⟨w1, w2⟩ := h2.stepA h0 hl hx hy hlt
        rw [w1, Option.bind_some]
        rw [hi, hj] at w2
        split
        · exact ⟨_, _, _, rfl, w2, by omega, by omega⟩
        · obtain ⟨s', i', j', q1, q2, q3, q4⟩ := ih _ (ac + 1) 0 (i + 1) j (by omega) w2
          exact ⟨s', i', j', q1, q2, by omega, by omega⟩
      · rw [if_pos rfl]
        obtain ⟨w1, w2⟩ := h2.stepB h0 hl hx hy hlt
        rw [w1, Option.bind_some]
        rw [hi, hj] at w2
        split
        · exact ⟨_, _, _, rfl, w2, by omega, by omega⟩
        · obtain ⟨s', i', j', q1, q2, q3, q4⟩ := ih _ 0 (bc + 1) i (j + 1) (by omega) w2
          exact ⟨s', i', j', q1, q2, by omega, by omega⟩
    · rw [if_neg hc]
      exact ⟨s, i, j, rfl, h2, Nat.le_refl _, by omega⟩

/-- With the runs trimmed, galloping finds nothing to copy: `b_copy[0]` is below everything in
`a_copy`, and the last of `a_copy` above everything in `b_copy`. -/
theorem mergeGallop_spec (ca cb : List α) {b0 al : α} (hb0 : cb[0]? = some b0)
    (hal : ca[ca.length - 1]? = some al) (hA : ∀ x ∈ ca, lt b0 x = true) (hB : ∀ y ∈ cb, lt y al = true)
    (n : Nat) (s : MState α) (mg : Int) (h1 : 0 ≤ s.i ∧ s.i < ca.length) (h2 : 0 ≤ s.j ∧ s.j < cb.length) :
    ∃ mg', mergeGallop lt (ca ++ cb) ca.length cb.length (n + 1) s mg = some (s, mg') := by
  unfold mergeGallop
  rw [if_pos ⟨h1.2, h2.2⟩]
  have la : (0 : Int) < ca.length := by omega
  have lb : (0 : Int) < cb.length := by omega
  have hallA : AllSeg (fun x => modComp lt false b0 x = true) (ca ++ cb) 0 (0 + ca.length) := by
    intro i x i1 i2 i3
    obtain ⟨m, rfl⟩ := Int.eq_ofNat_of_zero_le i1
    rw [rd_append_left (by omega)] at i3
    exact hA x (List.mem_iff_getElem?.mpr ⟨m, i3⟩)
  have hallB : AllSeg (fun x => modComp lt true al x = false) (ca ++ cb) ca.length (ca.length + cb.length) := by
    intro i y i1 i2 i3
    obtain ⟨m, hm⟩ := Int.eq_ofNat_of_zero_le (show 0 ≤ i - ca.length by omega)
    have : i = (ca.length : Int) + m := by omega
    rw [this, rd_append_right] at i3
    have := hB y (List.mem_iff_getElem?.mpr ⟨m, i3⟩)
    unfold modComp
    simp [this]
  obtain ⟨r, q1, q2, q3, q4, q5⟩ := gallop_spec (lt := lt) (ca ++ cb) (0, (ca.length : Int)) ((ca.length : Int), (cb.length : Int)) s.i false b0
    (Int.le_refl _) (by simp; omega) h1 (by
      simp only [Bool.false_eq_true, if_false]
      have := rd_append_right (a := ca) (b := cb) (j := 0)
      simp only [Int.natCast_zero, Int.add_zero] at this
      rw [this, hb0])
    (fun i j x y i1 i2 i3 i4 i5 _ => hallA j y (by simp only at i1; omega) (by simp only at i3; omega) i5)
  have hr : r = 0 := by
    rcases Int.lt_or_eq_of_le q2 with h | h
    · obtain ⟨x, hx⟩ := rd_ex (a := ca ++ cb) (i := 0) (Int.le_refl _) (by simp; omega)
      have e1 := q4 0 x (Int.le_refl _) (by simp only; omega) hx
      have e2 := hallA 0 x (Int.le_refl _) (by omega) hx
      simp only at e1 e2
      rw [e1] at e2; cases e2
    · exact h.symm
  subst hr
  simp only [q1, Option.bind_eq_bind, Option.bind_some]
  have ht : takeA (ca ++ cb) ca.length 0 s = some s := by unfold takeA; rw [if_neg (by simp)]
  rw [ht, Option.bind_some, if_neg (by omega)]
  obtain ⟨r, q1, q2, q3, q4, q5⟩ := gallop_spec (lt := lt) (ca ++ cb) ((ca.length : Int), (cb.length : Int)) (0, (ca.length : Int)) s.j true al
    (by simp only; omega) (by simp) h2 (by
      simp only [if_true]
      rw [show (0 : Int) + ca.length - 1 = ((ca.length - 1 : Nat) : Int) by omega, rd_append_left (by omega), hal])
    (fun i j x y i1 i2 i3 i4 i5 h => by
      rw [hallB i x (by simp only at i1; omega) (by simp only at i3; omega) i4] at h; cases h)
  have hr : r = cb.length := by
    rcases Int.lt_or_eq_of_le q3 with h | h
    · simp only at h
      obtain ⟨x, hx⟩ := rd_ex (a := ca ++ cb) (i := ca.length + r) (by omega) (by simp; omega)
      have e1 := q5 (ca.length + r) x (Int.le_refl _) (by simp only; omega) hx
      have e2 := hallB (ca.length + r) x (by omega) (by omega) hx
      simp only at e1 e2
      rw [e1] at e2; cases e2
    · exact h
  subst hr
  simp only [q1, Option.bind_some]
  have ht : takeB (ca ++ cb) ca.length (cb.length - cb.length) cb.length s = some s := by
    unfold takeB; rw [if_neg (by omega)]
  rw [ht, Option.bind_some, if_pos (by omega)]
  exact ⟨_, rfl⟩

theorem mergeMain_spec (orig ca cb : List α) (sa : Int) (h0 : 0 ≤ sa)
    (hl : sa + ca.length + cb.length ≤ orig.length) {b0 al : α} (hb0 : cb[0]? = some b0)
    (hal : ca[ca.length - 1]? = some al) (hA : ∀ x ∈ ca, lt b0 x = true) (hB : ∀ y ∈ cb, lt y al = true) :
    ∀ (n : Nat) (s : MState α) (mg : Int) (i j : Nat),
    ca.length + cb.length < n + i + j → MInv lt orig ca cb sa s i j →
    ∃ s' i' j', mergeMain lt (ca ++ cb) ca.length cb.length n s mg = some s' ∧ MInv lt orig ca cb sa s' i' j' ∧
      (i' = ca.length ∨ j' = cb.length) := by
  intro n
  induction n with
  | zero => intro s mg i j h1 h2; have := h2.ila; have := h2.jlb; omega
  | succ n ih =>
    intro s mg i j h1 h2
    unfold mergeMain
    have hi := h2.hi
    have hj := h2.hj
    have hil := h2.ila
    have hjl := h2.jlb
    by_cases hc : s.i < ca.length ∧ s.j < cb.length
    · rw [if_pos hc]
      obtain ⟨s1, i1, j1, q1, q2, q3, q4⟩ := mergeOne_spec (lt := lt) orig ca cb sa mg h0 hl ((ca ++ cb).length + 1) s 0 0 i j
        (by simp only [List.length_append]; omega) h2
      rw [q1]
      simp only [Option.bind_eq_bind, Option.bind_some]
      have g1 := q2.hi
      have g2 := q2.hj
      have g3 := q2.ila
      have g4 := q2.jlb
      have g5 := q4 (by omega) (by omega)
      by_cases hd : s1.i = ca.length ∨ s1.j = cb.length
      · rw [if_pos hd]
        exact ⟨s1, i1, j1, rfl, q2, by omega⟩
      · rw [if_neg hd]
        obtain ⟨mg', r1⟩ := mergeGallop_spec (lt := lt) ca cb hb0 hal hA hB (ca ++ cb).length s1 (mg + 1) (by omega) (by omega)
        rw [r1]
        simp only [Option.bind_some]
        exact ih s1 (mg' + 1) i1 j1 (by omega) q2
    · rw [if_neg hc]
      exact ⟨s, i, j, rfl, h2, by omega⟩

theorem copyRun_spec (src : List α) (base : Int) : ∀ (n : Nat) (arr : List α) (i upto k : Int),
    0 ≤ base + i → base + upto ≤ src.length → 0 ≤ k → k + (upto - i) ≤ arr.length → i ≤ upto → upto - i < n →
    ∃ arr', copyRun src base n arr i upto k = some (arr', upto, k + (upto - i)) ∧ arr'.length = arr.length ∧
      ∀ t, rd arr' t = if k ≤ t ∧ t < k + (upto - i) then rd src (base + i + (t - k)) else rd arr t := by
  intro n
  induction n with
  | zero => intro arr i upto k h1 h2 h3 h4 h5 h6; omega
  | succ n ih =>
    intro arr i upto k h1 h2 h3 h4 h5 h6
    unfold copyRun
    by_cases hi : i < upto
    · rw [if_pos hi]
      obtain ⟨x, hx⟩ := rd_ex (a := src) (i := base + i) h1 (by omega)
      rw [hx]
      simp only [Option.bind_eq_bind, Option.bind_some]
      rw [wr_ok h3 (by omega), Option.bind_some]
      obtain ⟨arr', q1, q2, q3⟩ := ih (arr.set k.toNat x) (i + 1) upto (k + 1) (by omega) h2 (by omega)
        (by simp; omega) (by omega) (by omega)
      refine ⟨arr', ?_, by simpa using q2, ?_⟩
      · rw [q1]
        have : k + 1 + (upto - (i + 1)) = k + (upto - i) := by omega
        rw [this]
      · intro t
        rw [q3 t, rd_set h3 (by omega)]
        by_cases c1 : t = k
        · rw [if_neg (by omega), if_pos c1, if_pos (by omega), ← hx]
          congr 1; omega
        · by_cases c2 : k ≤ t ∧ t < k + (upto - i)
          · rw [if_pos (by omega), if_pos c2]
            congr 1; omega
          · rw [if_neg (by omega), if_neg c1, if_neg c2]
    · rw [if_neg hi]
      have : i = upto := by omega
      subst this
      refine ⟨arr, by rw [Int.sub_self, Int.add_zero], rfl, ?_⟩
      intro t
      rw [if_neg (by omega)]

theorem mapM_rd (arr : List α) (b : Int) (hb : 0 ≤ b) : ∀ (n s : Nat), b + s + n ≤ arr.length →
    (List.range' s n).mapM (fun t : Nat => rd arr (b + t)) = some ((arr.drop (b.toNat + s)).take n) := by
  intro n
  induction n with
  | zero => intro s _; simp
  | succ n ih =>
    intro s h
    obtain ⟨x, hx⟩ := rd_ex (a := arr) (i := b + s) (by omega) (by omega)
    rw [List.range'_succ, List.mapM_cons, hx]
    simp only [Option.bind_eq_bind, Option.bind_some, Option.pure_def]
    rw [ih (s + 1) (by omega), Option.bind_some]
    congr 1
    have hlt : b.toNat + s < arr.length := by omega
    rw [List.drop_eq_getElem_cons hlt, List.take_succ_cons]
    congr 1
    rw [rd_some_iff] at hx
    have := (List.getElem?_eq_some_iff.mp hx.2).2
    rw [← this]
    congr 1; omega

theorem mapM_seg {arr : List α} {b n : Int} (hb : 0 ≤ b) (hn : 0 ≤ n) (h : b + n ≤ arr.length) :
    (List.range n.toNat).mapM (fun t : Nat => rd arr (b + t)) = some (seg arr b (b + n)) := by
  rw [List.range_eq_range', mapM_rd arr b hb n.toNat 0 (by omega)]
  congr 1
  unfold seg
  rw [List.drop_take]
  congr 1; omega

theorem seg_append {a : List α} {b m e : Int} (_hb : 0 ≤ b) (h1 : b ≤ m) (h2 : m ≤ e) (_he : e ≤ a.length) :
    seg a b e = seg a b m ++ seg a m e := by
  have h3 : a.take e.toNat = a.take m.toNat ++ (a.take e.toNat).drop m.toNat := by
    have := (List.take_append_drop m.toNat (a.take e.toNat)).symm
    rwa [List.take_take, Nat.min_eq_left (by omega)] at this
  unfold seg
  conv => lhs; rw [h3]
  rw [List.drop_append_of_le_length (by simp; omega)]

theorem sorted_seg_list {a : List α} {b e : Int} (hb : 0 ≤ b) (hbe : b ≤ e) (he : e ≤ a.length)
    (h : SortedSeg lt a b e) : Sorted lt (seg a b e) := by
  unfold Sorted
  rw [List.pairwise_iff_getElem]
  have hl := seg_length hb hbe he
  intro i j hi hj hij
  refine h (b + i) (b + j) _ _ (by omega) (by omega) (by omega) ?_ ?_
  · rw [← seg_getElem? (e := e) hb i (by omega)]; exact List.getElem?_eq_getElem hi
  · rw [← seg_getElem? (e := e) hb j (by omega)]; exact List.getElem?_eq_getElem hj

/-- `_merge_with_gallop` on trimmed runs is the stable merge. -/
theorem mergeWithGallop_spec (ho : SWO lt) {arr : List α} {sa la lb : Int} (h0 : 0 ≤ sa) (h1 : 0 < la) (h2 : 0 < lb)
    (hl : sa + la + lb ≤ arr.length) (hs1 : SortedSeg lt arr sa (sa + la)) (hs2 : SortedSeg lt arr (sa + la) (sa + la + lb))
    {b0 al : α} (hb0 : rd arr (sa + la) = some b0) (hal : rd arr (sa + la - 1) = some al)
    (hA : AllSeg (fun x => lt b0 x = true) arr sa (sa + la))
    (hB : AllSeg (fun y => lt y al = true) arr (sa + la) (sa + la + lb)) :
    ∃ a', mergeWithGallop lt arr (sa, la) (sa + la, lb) = some a' ∧ Rearr arr a' sa (sa + la + lb) ∧ Stab lt arr a' ∧
      SortedSeg lt a' sa (sa + la + lb) := by
  unfold mergeWithGallop
  simp only
  rw [mapM_seg h0 (by omega) (by omega), mapM_seg (by omega) (by omega) (by omega)]
  simp only [Option.bind_eq_bind, Option.bind_some]
  generalize hca : seg arr sa (sa + la) = ca
  generalize hcb : seg arr (sa + la) (sa + la + lb) = cb
  have lca : (ca.length : Int) = la := by rw [← hca, seg_length h0 (by omega) (by omega)]; omega
  have lcb : (cb.length : Int) = lb := by rw [← hcb, seg_length (by omega) (by omega) (by omega)]; omega
  have sca : Sorted lt ca := by rw [← hca]; exact sorted_seg_list h0 (by omega) (by omega) hs1
  have scb : Sorted lt cb := by rw [← hcb]; exact sorted_seg_list (by omega) (by omega) (by omega) hs2
  have gb0 : cb[0]? = some b0 := by
    rw [← hcb, seg_getElem? (by omega) 0 (by omega)]
    rw [← hb0]; congr 1; omega
  have gal : ca[ca.length - 1]? = some al := by
    rw [← hca, seg_getElem? h0 _ (by rw [hca]; omega), ← hal]; congr 1; rw [hca]; omega
  have gA : ∀ x ∈ ca, lt b0 x = true := by rw [← hca]; exact (allSeg_iff h0).mp hA
  have gB : ∀ y ∈ cb, lt y al = true := by rw [← hcb]; exact (allSeg_iff (by omega)).mp hB
  have inv0 : MInv lt arr ca cb sa ⟨arr, 0, 0, sa⟩ 0 0 :=
    ⟨rfl, rfl, by simp, by omega, by omega, by simp, rfl, fun t g1 g2 => by simp only at g2; omega, fun t _ => rfl⟩
  obtain ⟨s, i, j, q1, q2, q3⟩ := mergeMain_spec (lt := lt) arr ca cb sa h0 (by omega) gb0 gal gA gB ((ca ++ cb).length + 1)
    ⟨arr, 0, 0, sa⟩ 7 0 0 (by simp only [List.length_append]; omega) inv0
  rw [← lca, ← lcb, q1]
  simp only [Option.bind_some]
  have gi := q2.hi
  have gj := q2.hj
  have gk := q2.hk
  have gil := q2.ila
  have gjl := q2.jlb
  have glen := q2.len
  have hcl : (ca ++ cb).length = ca.length + cb.length := List.length_append
  obtain ⟨a1, u1, u2, u3⟩ := copyRun_spec (ca ++ cb) 0 ((ca ++ cb).length + 1) s.arr s.i ca.length s.k (by omega)
    (by omega) (by omega) (by omega) (by omega) (by omega)
  rw [u1]
  simp only [Option.bind_some]
  obtain ⟨a2, v1, v2, v3⟩ := copyRun_spec (ca ++ cb) ca.length ((ca ++ cb).length + 1) a1 s.j cb.length (s.k + (ca.length - s.i)) (by omega)
    (by omega) (by omega) (by omega) (by omega) (by omega)
  rw [v1]
  simp only [Option.bind_some, Option.pure_def]
  -- the result is the merged list put back
  have hT : (smerge lt ca cb).drop (i + j) = ca.drop i ++ cb.drop j := by
    rw [q2.tail]
    rcases q3 with h | h
    · rw [h, List.drop_length]; simp
    · rw [h, List.drop_length]; simp
  have hTl : (smerge lt ca cb).length = ca.length + cb.length := by
    rw [(smerge_perm ca cb).length_eq, List.length_append]
  have hin : ∀ t, sa ≤ t → t < sa + la + lb → rd a2 t = rd (smerge lt ca cb) (t - sa) := by
    intro t t1 t2
    have hTn : ∀ m : Nat, t - sa = (i + j + m : Nat) → rd (smerge lt ca cb) (t - sa) = (ca.drop i ++ cb.drop j)[m]? := by
      intro m hm
      rw [hm, rd_nat, ← hT, List.getElem?_drop]
    rw [v3 t]
    by_cases c1 : s.k + (ca.length - s.i) ≤ t ∧ t < s.k + (ca.length - s.i) + (cb.length - s.j)
    · rw [if_pos c1]
      obtain ⟨m, hm⟩ := Int.eq_ofNat_of_zero_le (show 0 ≤ t - (s.k + (ca.length - s.i)) by omega)
      rw [hTn (ca.length - i + m) (by omega), List.getElem?_append_right (by simp), List.length_drop, List.getElem?_drop,
        show ca.length + s.j + (t - (s.k + (ca.length - s.i))) = (ca.length : Int) + ((j + m : Nat) : Int) by omega,
        rd_append_right]
      congr 1; omega
    · rw [if_neg c1, u3 t]
      by_cases c2 : s.k ≤ t ∧ t < s.k + (ca.length - s.i)
      · rw [if_pos c2]
        obtain ⟨m, hm⟩ := Int.eq_ofNat_of_zero_le (show 0 ≤ t - s.k by omega)
        rw [hTn m (by omega), List.getElem?_append_left (by simp; omega), List.getElem?_drop,
          show 0 + s.i + (t - s.k) = ((i + m : Nat) : Int) by omega, rd_append_left (by omega)]
      · rw [if_neg c2]
        exact q2.done t t1 (by omega)
  have hout : ∀ t, (t < sa ∨ sa + la + lb ≤ t) → rd a2 t = rd arr t := by
    intro t ht
    rw [v3 t, if_neg (by omega), u3 t, if_neg (by omega)]
    exact q2.rest t (by omega)
  have hseg : seg arr sa (sa + la + lb) = ca ++ cb := by
    rw [seg_append h0 (m := sa + la) (by omega) (by omega) (by omega), hca, hcb]
  have hperm : (smerge lt ca cb).Perm (seg arr sa (sa + la + lb)) := by rw [hseg]; exact smerge_perm ca cb
  obtain ⟨w1, w2⟩ := replace_seg h0 (show sa ≤ sa + la + lb by omega) (by omega) hperm
  have ha2 : a2 = arr.take sa.toNat ++ smerge lt ca cb ++ arr.drop (sa + la + lb).toNat := by
    apply list_ext_rd
    intro t
    by_cases c : sa ≤ t ∧ t < sa + la + lb
    · obtain ⟨m, hm⟩ := Int.eq_ofNat_of_zero_le (show 0 ≤ t - sa by omega)
      have := w2 m (by omega)
      rw [hin t c.1 c.2, hm, show t = sa + m by omega, this]
      exact rd_nat
    · rw [hout t (by omega), w1.out t (by omega)]
  rw [lca, lcb]
  refine ⟨a2, rfl, by rw [ha2]; exact w1, ?_, ?_⟩
  · intro z
    have e1 := seg_eq h0 (show sa ≤ sa + la + lb by omega) hl
    rw [ha2]
    conv => rhs; rw [e1, hseg]
    simp only [List.filter_append, List.append_assoc]
    rw [smerge_filter ho z ca cb sca, List.append_assoc]
  · have hsT := smerge_sorted ho sca scb
    intro p q x y p1 p2 p3 p4 p5
    rw [hin p p1 (by omega)] at p4
    rw [hin q (by omega) p3] at p5
    exact seg_of_sorted hsT 0 (la + lb) (p - sa) (q - sa) x y (by omega) (by omega) (by omega) p4 p5

/-- `_merge_at`: two neighbouring runs become one. -/
theorem mergeAt_spec (ho : SWO lt) {arr : List α} {sa la lb : Int} (h0 : 0 ≤ sa) (h1 : 1 ≤ la) (h2 : 1 ≤ lb)
    (hl : sa + la + lb ≤ arr.length) (hs1 : SortedSeg lt arr sa (sa + la)) (hs2 : SortedSeg lt arr (sa + la) (sa + la + lb)) :
    ∃ a', mergeAt lt arr (sa, la) (sa + la, lb) = some a' ∧ Rearr arr a' sa (sa + la + lb) ∧ Stab lt arr a' ∧
      SortedSeg lt a' sa (sa + la + lb) := by
  unfold mergeAt
  obtain ⟨b0, hb0⟩ := rd_ex (a := arr) (i := sa + la) (by omega) (by omega)
  obtain ⟨al, hal⟩ := rd_ex (a := arr) (i := sa + la - 1) (by omega) (by omega)
  obtain ⟨k, q1, q2, q3, q4, q5⟩ := gallop_spec (lt := lt) arr (sa, la) (sa + la, lb) 0 false b0 h0 (by simp only; omega) (by simp only; omega)
    (by simpa using hb0) (mono_of_sorted ho hs1 false b0)
  simp only at q3 q4 q5
  rw [q1]
  simp only [Option.bind_eq_bind, Option.bind_some]
  have q4' : AllSeg (fun x => lt b0 x = false) arr sa (sa + k) := q4.imp (by simp [modComp])
  have q5' : AllSeg (fun x => lt b0 x = true) arr (sa + k) (sa + la) := q5.imp (by simp [modComp])
  have hBge : AllSeg (fun x => lt x b0 = false) arr (sa + la) (sa + la + lb) := by
    intro i x i1 i2 i3
    by_cases c : i = sa + la
    · subst c; rw [hb0] at i3; cases i3; exact ho.irrefl _
    · exact hs2 (sa + la) i b0 x (Int.le_refl _) (by omega) i2 hb0 i3
  have hAle : AllSeg (fun x => lt al x = false) arr sa (sa + la) := by
    intro i x i1 i2 i3
    by_cases c : i = sa + la - 1
    · subst c; rw [hal] at i3; cases i3; exact ho.irrefl _
    · exact hs1 i (sa + la - 1) x al i1 (by omega) (by omega) i3 hal
  by_cases hk : la - k = 0
  · rw [if_pos hk]
    have : k = la := by omega
    subst this
    exact ⟨arr, rfl, Rearr.refl _ _ _, Stab.refl _, SortedSeg.glue ho b0 hs1 hs2 q4' hBge⟩
  · rw [if_neg hk]
    obtain ⟨m, r1, r2, r3, r4, r5⟩ := gallop_spec (lt := lt) arr (sa + la, lb) (sa, la) (lb - 1) true al (by simp only; omega) (by simp only; omega) (by simp only; omega)
      (by simpa using hal) (mono_of_sorted ho hs2 true al)
    simp only at r3 r4 r5
    simp only [r1, Option.bind_some]
    have r4' : AllSeg (fun x => lt x al = true) arr (sa + la) (sa + la + m) := r4.imp (by simp [modComp])
    have r5' : AllSeg (fun x => lt x al = false) arr (sa + la + m) (sa + la + lb) := r5.imp (by simp [modComp])
    have hbal : lt b0 al = true := q5' (sa + la - 1) al (by omega) (by omega) hal
    have hm : m ≠ 0 := by
      intro h
      subst h
      have := r5' (sa + la) b0 (by omega) (by omega) hb0
      simp only at this
      rw [hbal] at this; cases this
    rw [if_neg hm]
    obtain ⟨a', w1, w2, w3, w4⟩ := mergeWithGallop_spec ho (arr := arr) (sa := sa + k) (la := la - k) (lb := m) (by omega) (by omega) (by omega)
      (by omega)
      (fun i j x y i1 i2 i3 => hs1 i j x y (by omega) i2 (by omega))
      (fun i j x y i1 i2 i3 => hs2 i j x y (by omega) i2 (by omega))
      (b0 := b0) (al := al) (by rw [show sa + k + (la - k) = sa + la by omega]; exact hb0)
      (by rw [show sa + k + (la - k) - 1 = sa + la - 1 by omega]; exact hal)
      (by rw [show sa + k + (la - k) = sa + la by omega]; exact q5')
      (by rw [show sa + k + (la - k) = sa + la by omega]; exact r4')
    have e1 : sa + k + (la - k) = sa + la := by omega
    rw [e1] at w1 w2 w4
    refine ⟨a', w1, w2.mono (by omega) (by omega), w3, ?_⟩
    -- bounds of the middle part
    have hmlo : AllSeg (fun x => lt x b0 = false) arr (sa + k) (sa + la + m) := by
      intro i x i1 i2 i3
      by_cases c : i < sa + la
      · exact ho.asymm (q5' i x i1 c i3)
      · exact hBge i x (by omega) (by omega) i3
    have hmhi : AllSeg (fun x => lt al x = false) arr (sa + k) (sa + la + m) := by
      intro i x i1 i2 i3
      by_cases c : i < sa + la
      · exact hAle i x (by omega) c i3
      · exact ho.asymm (r4' i x (by omega) (by omega) i3)
    have hmlo' := hmlo.rearr w2 (by omega) (by omega) (by omega)
    have hmhi' := hmhi.rearr w2 (by omega) (by omega) (by omega)
    have S1 : SortedSeg lt arr sa (sa + k) := fun i j x y i1 i2 i3 => hs1 i j x y i1 i2 (by omega)
    have S3 : SortedSeg lt arr (sa + la + m) (sa + la + lb) := fun i j x y i1 i2 i3 => hs2 i j x y (by omega) i2 i3
    have S1' := S1.outside w2 (Or.inl (Int.le_refl _))
    have S3' := S3.outside w2 (Or.inr (Int.le_refl _))
    have G1 : SortedSeg lt a' sa (sa + la + m) :=
      SortedSeg.glue ho b0 S1' w4 (q4'.outside w2 (Or.inl (Int.le_refl _))) hmlo'
    refine SortedSeg.glue ho al G1 S3' ?_ (r5'.outside w2 (Or.inr (Int.le_refl _)))
    intro i x i1 i2 i3
    by_cases c : i < sa + k
    · rw [w2.out i (by omega)] at i3
      exact hAle i x i1 (by omega) i3
    · exact hmhi' i x (by omega) i2 i3

end Codon.Sort
