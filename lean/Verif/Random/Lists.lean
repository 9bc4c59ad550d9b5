import Verif.Random.Lemmas
import Mathlib.Data.List.Perm.Basic
import Mathlib.Data.List.Perm.Subperm
/-! # Shuffling and sampling -/
namespace Codon.Random
variable {T : Type}

theorem pos_nat {n : Nat} {i : Int} (h1 : 0 ≤ i) (h2 : i < n) : ListM.Spec.pos n i = some i.toNat := by
  unfold ListM.Spec.pos
  simp only
  rw [if_neg (by omega : ¬ i < 0), if_pos ⟨h1, h2⟩]

theorem item_ok {x : List T} {i : Int} (h1 : 0 ≤ i) (h2 : i.toNat < x.length) : item x i = pure x[i.toNat] := by
  unfold item
  rw [pos_nat h1 (by omega)]
  simp [List.getElem?_eq_getElem h2]

theorem setItem_ok {x : List T} {i : Int} (v : T) (h1 : 0 ≤ i) (h2 : i.toNat < x.length) :
    setItem x i v = pure (x.set i.toNat v) := by
  unfold setItem
  rw [pos_nat h1 (by omega)]

/-! ### Shuffling -/

/-- One step of the shuffle. -/
theorem shuffle_step {x : List T} {i : Nat} {j : Int} (h : i + 1 < x.length) (h1 : 0 ≤ j) (h2 : j < (i + 1 : Nat) + 1) :
    (do
      let a ← item x j
      let b ← item x (i + 1 : Nat)
      let x ← setItem x (i + 1 : Nat) a
      let x ← setItem x j b
      shuffleLoop x i : M (List T)) =
    shuffleLoop ((x.set (i + 1) (x[j.toNat]'(by omega))).set j.toNat x[i + 1]) i := by
  rw [item_ok h1 (by omega), item_ok (by omega) (by omega)]
  simp only [pure_bind]
  rw [setItem_ok _ (by omega) (by omega)]
  simp only [pure_bind]
  rw [setItem_ok _ h1 (by rw [List.length_set]; omega)]
  simp only [pure_bind]
  rfl

theorem shuffleLoop_only (i : Nat) : ∀ (x : List T), i < x.length ∨ i = 0 → x.length < 2 ^ 63 →
    Only (shuffleLoop x i) (fun y => y.Perm x) := by
  induction i with
  | zero => exact fun x _ _ => Only.pure (List.Perm.refl x)
  | succ i ih =>
    intro x h hl
    have h' : i + 1 < x.length := by omega
    unfold shuffleLoop
    refine (randbelow_exactly (i + 1 + 1) (by omega) (by omega)).1.bind fun j hj => ?_
    rw [shuffle_step h' hj.1 (by omega)]
    refine (ih _ (by simp; omega) (by simpa using hl)).mono fun y hy => hy.trans ?_
    exact List.set_set_perm h' (by omega)

theorem eq_of_tail {x y : List T} {n : Nat} (hp : y.Perm x) (h : y.drop (n + 1) = x.drop (n + 1)) (hn : n = 0) : y = x := by
  subst hn
  cases x with
  | nil => exact hp.eq_nil
  | cons a x =>
    cases y with
    | nil => exact absurd hp.symm.eq_nil (by simp)
    | cons b y =>
      simp only [List.drop_succ_cons, List.drop_zero] at h
      subst h
      have := (List.perm_cons_append_cons (l₁ := []) (l₂ := y) b (List.Perm.refl _))
      have hb : [b].Perm [a] := by
        have h2 : ([b] ++ y).Perm ([a] ++ y) := hp
        exact (List.perm_append_right_iff y).mp h2
      rw [List.singleton_perm_singleton.mp hb]

theorem shuffleLoop_can (i : Nat) : ∀ (x y : List T), i < x.length ∨ i = 0 → x.length < 2 ^ 63 → y.Perm x →
    y.drop (i + 1) = x.drop (i + 1) → Can (shuffleLoop x i) y := by
  induction i with
  | zero =>
    intro x y _ _ hp hd
    rw [eq_of_tail hp hd rfl]
    exact Can.pure x
  | succ i ih =>
    intro x y h hl hp hd
    have h' : i + 1 < x.length := by omega
    have hlen := hp.length_eq
    have htake : (y.take (i + 1 + 1)).Perm (x.take (i + 1 + 1)) := by
      have h1 : (y.take (i + 1 + 1) ++ y.drop (i + 1 + 1)).Perm (x.take (i + 1 + 1) ++ x.drop (i + 1 + 1)) := by
        rw [List.take_append_drop, List.take_append_drop]
        exact hp
      rw [hd] at h1
      exact (List.perm_append_right_iff _).mp h1
    have hmem : y[i + 1]'(by omega) ∈ x.take (i + 1 + 1) :=
      htake.mem_iff.mp (List.mem_take_iff_getElem.mpr ⟨i + 1, by omega, rfl⟩)
    obtain ⟨j, hj, hje⟩ := List.mem_take_iff_getElem.mp hmem
    have hjl : j < x.length := by omega
    unfold shuffleLoop
    refine Can.bind ((randbelow_exactly (i + 1 + 1) (by omega) (by omega)).2 (j : Int) ⟨by omega, by omega⟩) ?_
    rw [shuffle_step h' (by omega) (by omega)]
    simp only [Int.toNat_natCast]
    refine ih _ y (by simp; omega) (by simpa using hl) (hp.trans (List.set_set_perm h' hjl).symm) ?_
    apply List.ext_getElem?
    intro k
    rw [List.getElem?_drop, List.getElem?_drop]
    by_cases hk : k = 0
    · subst hk
      simp only [Nat.add_zero]
      rw [List.getElem?_eq_getElem (by omega)]
      by_cases hji : j = i + 1
      · subst hji
        rw [List.getElem?_set_self (by simpa using h')]
        rw [hje]
      · rw [List.getElem?_set_ne (by omega), List.getElem?_set_self h', hje]
    · rw [List.getElem?_set_ne (by omega), List.getElem?_set_ne (by omega)]
      have := congrArg (fun z => z[k - 1]?) hd
      simp only [List.getElem?_drop] at this
      rw [show i + 1 + 1 + (k - 1) = i + 1 + k by omega] at this
      exact this

theorem shuffle_exactly (x : List T) (h : x.length < 2 ^ 63) : Exactly (shuffle x) (fun y => y.Perm x) := by
  unfold shuffle
  refine ⟨shuffleLoop_only _ x (by omega) h, fun y hy => shuffleLoop_can _ x y (by omega) h hy ?_⟩
  rw [List.drop_of_length_le (by have := hy.length_eq; omega), List.drop_of_length_le (by omega)]

/-! ### Sampling from a pool -/

/-- The vacancy is filled with the last element. -/
theorem vacancy {l : List T} {m j : Nat} (hm : m < l.length) (hj : j ≤ m) :
    ((l.set j l[m]).take m ++ [l[j]]).Perm (l.take (m + 1)) := by
  rw [List.take_succ_eq_append_getElem hm]
  by_cases h : j = m
  · subst h
    rw [List.take_set_of_le (Nat.le_refl _)]
  · have hjm : j < m := by omega
    have hjt : j < (l.take m).length := by simp; omega
    rw [List.take_set]
    have h1 := List.set_perm_cons_eraseIdx hjt l[m]
    have h2 := List.getElem_cons_eraseIdx_perm hjt
    have h3 : (l.take m)[j] = l[j] := by simp
    rw [h3] at h2
    refine (h1.append_right [l[j]]).trans ?_
    refine List.Perm.trans ?_ (h2.append_right [l[m]])
    rw [List.cons_append, List.cons_append]
    refine ((List.perm_append_singleton l[j] _).cons l[m]).trans ?_
    refine (List.Perm.swap _ _ _).trans ?_
    exact ((List.perm_append_singleton l[m] _).symm).cons l[j]

theorem pool_step {n i todo : Nat} {result pool : List T} {j : Int} (hn : n = pool.length)
    (hr : result.length = i + (todo + 1)) (hi : i + (todo + 1) ≤ n) (h1 : 0 ≤ j) (h2 : j < ((n - i : Nat) : Int)) :
    (do
      let v ← item pool j
      let result ← setItem result i v
      let w ← item pool ((n : Int) - i - 1)
      let pool ← setItem pool j w
      poolLoop n result pool (i + 1) todo : M (List T)) =
    poolLoop n (result.set i (pool[j.toNat]'(by omega))) (pool.set j.toNat (pool[n - i - 1]'(by omega))) (i + 1) todo := by
  have hq : ((n : Int) - i - 1).toNat = n - i - 1 := by omega
  rw [item_ok h1 (by omega), item_ok (i := (n : Int) - i - 1) (by omega) (by omega)]
  simp only [pure_bind]
  rw [setItem_ok _ (by omega) (by omega)]
  simp only [pure_bind]
  rw [setItem_ok _ h1 (by omega)]
  simp only [pure_bind, hq]
  rfl

theorem poolLoop_only {n : Nat} (hn : n < 2 ^ 63) (todo : Nat) : ∀ (i : Nat) (result pool : List T), n = pool.length →
    result.length = i + todo → i + todo ≤ n →
    Only (poolLoop n result pool i todo) (fun y => ∃ t rest, y = result.take i ++ t ∧ t.length = todo ∧
      (t ++ rest).Perm (pool.take (n - i))) := by
  induction todo with
  | zero =>
    intro i result pool h1 h2 h3
    refine Only.pure ⟨[], pool.take (n - i), ?_, rfl, by simp⟩
    rw [List.append_nil, List.take_of_length_le (by omega)]
  | succ todo ih =>
    intro i result pool h1 h2 h3
    unfold poolLoop
    have hsub : ((n : Int) - i) = ((n - i : Nat) : Int) := by omega
    rw [hsub]
    refine (randbelow_exactly (n - i) (by omega) (by omega)).1.bind fun j hj => ?_
    rw [← hsub, pool_step h1 h2 h3 hj.1 hj.2]
    refine (ih (i + 1) _ _ (by simpa using h1) (by simp; omega) (by omega)).mono ?_
    rintro y ⟨t, rest, rfl, ht, hp⟩
    have hv := vacancy (l := pool) (m := n - i - 1) (j := j.toNat) (by omega) (by omega)
    refine ⟨pool[j.toNat]'(by omega) :: t, rest, ?_, by simp [ht], ?_⟩
    · rw [List.take_succ_eq_append_getElem (by simp; omega), List.take_set_of_le (Nat.le_refl _)]
      simp
    · rw [show n - (i + 1) = n - i - 1 by omega] at hp
      rw [show n - i - 1 + 1 = n - i by omega] at hv
      refine List.Perm.trans ?_ hv
      refine List.Perm.trans ?_ (hp.append_right _)
      rw [List.cons_append]
      exact (List.perm_append_singleton _ _).symm

theorem poolLoop_can {n : Nat} (hn : n < 2 ^ 63) (todo : Nat) : ∀ (i : Nat) (result pool t rest : List T),
    n = pool.length → result.length = i + todo → i + todo ≤ n → t.length = todo →
    (t ++ rest).Perm (pool.take (n - i)) → Can (poolLoop n result pool i todo) (result.take i ++ t) := by
  induction todo with
  | zero =>
    intro i result pool t rest h1 h2 h3 ht hp
    have : t = [] := List.length_eq_zero_iff.mp ht
    subst this
    rw [List.append_nil, List.take_of_length_le (by omega)]
    exact Can.pure _
  | succ todo ih =>
    intro i result pool t rest h1 h2 h3 ht hp
    obtain ⟨v, t, rfl⟩ := List.exists_cons_of_length_eq_add_one ht
    unfold poolLoop
    have hsub : ((n : Int) - i) = ((n - i : Nat) : Int) := by omega
    have hmem : v ∈ pool.take (n - i) := hp.mem_iff.mp (by simp)
    obtain ⟨j, hj, rfl⟩ := List.mem_take_iff_getElem.mp hmem
    rw [hsub]
    refine Can.bind ((randbelow_exactly (n - i) (by omega) (by omega)).2 (j : Int) ⟨by omega, by omega⟩) ?_
    rw [← hsub, pool_step h1 h2 h3 (by omega) (by omega)]
    simp only [Int.toNat_natCast]
    have hv := vacancy (l := pool) (m := n - i - 1) (j := j) (by omega) (by omega)
    have := ih (i + 1) (result.set i (pool[j]'(by omega))) (pool.set j (pool[n - i - 1]'(by omega))) t rest
      (by simpa using h1) (by simp; omega) (by omega) (by simpa using ht) (by
        rw [show n - (i + 1) = n - i - 1 by omega]
        rw [show n - i - 1 + 1 = n - i by omega] at hv
        have h5 : ((t ++ rest) ++ [pool[j]'(by omega)]).Perm
            ((pool.set j (pool[n - i - 1]'(by omega))).take (n - i - 1) ++ [pool[j]'(by omega)]) :=
          (List.perm_append_singleton _ _).trans (hp.trans hv.symm)
        exact (List.perm_append_right_iff _).mp h5)
    rw [List.take_succ_eq_append_getElem (by simp; omega), List.take_set_of_le (Nat.le_refl _)] at this
    simpa using this

/-! ### Sampling by position -/

theorem perm_map {f : Nat → T} : ∀ (l : List T) (q : List Nat), l.Perm (q.map f) →
    ∃ p : List Nat, p.Perm q ∧ l = p.map f := by
  intro l
  induction l with
  | nil =>
    intro q h
    have := h.symm.eq_nil
    simp only [List.map_eq_nil_iff] at this
    exact ⟨[], by rw [this], rfl⟩
  | cons a l ih =>
    intro q h
    obtain ⟨p, hp, rfl⟩ := List.mem_map.mp (h.mem_iff.mp (List.mem_cons_self (a := a)))
    have h1 := List.perm_cons_erase hp
    obtain ⟨p', h2, rfl⟩ := ih (q.erase p) (List.Perm.cons_inv (h.trans (h1.map f)))
    exact ⟨p :: p', (h2.cons p).trans h1.symm, rfl⟩

/-- Picking is choosing different positions. -/
theorem picked_iff [Inhabited T] {xs ys : List T} :
    Picked xs ys ↔ ∃ p : List Nat, p.Nodup ∧ (∀ i ∈ p, i < ys.length) ∧ xs = p.map fun i => ys.getD i default := by
  have hy : ys = (List.range ys.length).map fun i => ys.getD i default := by
    apply List.ext_getElem
    · simp
    · intro i h1 h2
      simp [h1]
  constructor
  · rintro ⟨rest, h⟩
    rw [hy] at h
    obtain ⟨p, h1, h2⟩ := perm_map _ _ h
    obtain ⟨p1, p2, rfl, h3, h4⟩ := List.append_eq_map_iff.mp h2
    refine ⟨p1, ?_, ?_, h3.symm⟩
    · have := h1.nodup_iff.mpr List.nodup_range
      exact (List.nodup_append.mp this).1
    · intro i hi
      exact List.mem_range.mp (h1.mem_iff.mp (List.mem_append_left _ hi))
  · rintro ⟨p, h1, h2, rfl⟩
    obtain ⟨l, h3, h4⟩ : ∃ l, (p ++ l).Perm (List.range ys.length) ∧ True := by
      have hs : List.Subperm p (List.range ys.length) := List.subperm_of_subset h1 (fun i hi => List.mem_range.mpr (h2 i hi))
      obtain ⟨l, hl⟩ := List.subperm_iff.mp hs
      obtain ⟨hl1, hl2⟩ := hl
      obtain ⟨l', hl'⟩ := hl2.exists_perm_append
      exact ⟨l', hl'.symm.trans hl1, trivial⟩
    refine ⟨l.map fun i => ys.getD i default, ?_⟩
    conv => rhs; rw [hy]
    rw [← List.map_append]
    exact h3.map _

theorem freshLoop_only {n : Nat} (h1 : 1 ≤ n) (h2 : n < 2 ^ 63) (sel : List Int) (fuel : Nat) : ∀ j : Int, 0 ≤ j ∧ j < n →
    Only (freshLoop n sel j fuel) (fun v => (0 ≤ v ∧ v < n) ∧ v ∉ sel) := by
  induction fuel with
  | zero => intro j _ ws; exact .inl rfl
  | succ fuel ih =>
    intro j hj
    unfold freshLoop
    split
    · exact (randbelow_exactly n h1 h2).1.bind ih
    · next h => exact Only.pure ⟨hj, h⟩

theorem select_step {n i todo : Nat} {population result : List T} {sel : List Int} {j : Int} (hn : n = population.length)
    (hr : result.length = i + (todo + 1)) (h1 : 0 ≤ j) (h2 : j < n) :
    (do
      let v ← item population j
      let result ← setItem result i v
      selectLoop n population result (j :: sel) (i + 1) todo : M (List T)) =
    selectLoop n population (result.set i (population[j.toNat]'(by omega))) (j :: sel) (i + 1) todo := by
  rw [item_ok h1 (by omega)]
  simp only [pure_bind]
  rw [setItem_ok _ (by omega) (by omega)]
  simp only [pure_bind]
  rfl

/-- The chosen elements, in terms of positions. -/
theorem selectLoop_only [Inhabited T] {n : Nat} (hn : n < 2 ^ 63) {population : List T} (hl : n = population.length)
    (todo : Nat) : ∀ (i : Nat) (result : List T) (p : List Nat), result.length = i + todo → i + todo ≤ n →
    Only (selectLoop n population result (p.map Int.ofNat) i todo) (fun y => ∃ q : List Nat, q.length = todo ∧
      y = result.take i ++ q.map (fun i => population.getD i default) ∧ q.Nodup ∧ (∀ x ∈ q, x < n ∧ x ∉ p)) := by
  induction todo with
  | zero =>
    intro i result p h2 h3
    refine Only.pure ⟨[], rfl, ?_, by simp, by simp⟩
    rw [List.map_nil, List.append_nil, List.take_of_length_le (by omega)]
  | succ todo ih =>
    intro i result p h2 h3
    unfold selectLoop
    refine (randbelow_exactly n (by omega) (by omega)).1.bind fun j0 hj0 => ?_
    refine Only.bind (P := fun v : Int => (0 ≤ v ∧ v < n) ∧ v ∉ p.map Int.ofNat) ?_ fun j hj => ?_
    · intro ws
      exact freshLoop_only (by omega) hn _ _ j0 hj0 ws
    rw [select_step hl h2 hj.1.1 hj.1.2]
    obtain ⟨j, rfl⟩ := Int.eq_ofNat_of_zero_le hj.1.1
    have hjp : j ∉ p := fun h => hj.2 (List.mem_map.mpr ⟨j, h, rfl⟩)
    have hj' : j < population.length := by omega
    refine (ih (i + 1) _ (j :: p) (by simp; omega) (by omega)).mono ?_
    rintro y ⟨q, hq, rfl, hnd, hx⟩
    refine ⟨j :: q, by simp [hq], ?_, ?_, ?_⟩
    · rw [List.take_succ_eq_append_getElem (by simp; omega), List.take_set_of_le (Nat.le_refl _)]
      simp [List.getD_eq_getElem?_getD, List.getElem?_eq_getElem hj']
    · refine List.nodup_cons.mpr ⟨fun h => (hx j h).2 (by simp), hnd⟩
    · intro x hxq
      rcases List.mem_cons.mp hxq with rfl | h
      · exact ⟨by omega, hjp⟩
      · have := hx x h
        simp only [List.mem_cons, not_or] at this
        exact ⟨this.1, this.2.2⟩

theorem selectLoop_can [Inhabited T] {n : Nat} (hn : n < 2 ^ 63) {population : List T} (hl : n = population.length)
    (todo : Nat) : ∀ (i : Nat) (result : List T) (p q : List Nat), result.length = i + todo → i + todo ≤ n →
    q.length = todo → q.Nodup → (∀ x ∈ q, x < n ∧ x ∉ p) →
    Can (selectLoop n population result (p.map Int.ofNat) i todo)
      (result.take i ++ q.map (fun i => population.getD i default)) := by
  induction todo with
  | zero =>
    intro i result p q h2 h3 hq _ _
    have : q = [] := List.length_eq_zero_iff.mp hq
    subst this
    rw [List.map_nil, List.append_nil, List.take_of_length_le (by omega)]
    exact Can.pure _
  | succ todo ih =>
    intro i result p q h2 h3 hq hnd hx
    obtain ⟨j, q, rfl⟩ := List.exists_cons_of_length_eq_add_one hq
    obtain ⟨hj1, hj2⟩ := hx j (by simp)
    have hj' : j < population.length := by omega
    unfold selectLoop
    refine Can.bind ((randbelow_exactly n (by omega) (by omega)).2 (j : Int) ⟨by omega, by omega⟩) ?_
    refine Can.bind (a := (j : Int)) ⟨[], fun rest => ?_⟩ ?_
    · show freshLoop n _ j (rest.length + 1) rest = _
      unfold freshLoop
      rw [if_neg (by
        intro h
        obtain ⟨x, h1, h2⟩ := List.mem_map.mp h
        have : x = j := Int.ofNat.inj h2
        subst this
        exact hj2 h1)]
      rfl
    rw [select_step hl h2 (by omega) (by omega)]
    simp only [Int.toNat_natCast]
    have := ih (i + 1) (result.set i (population[j]'hj')) (j :: p) q (by simp; omega) (by omega) (by simpa using hq)
      (List.nodup_cons.mp hnd).2 (fun x hxq => ⟨(hx x (by simp [hxq])).1, by
        simp only [List.mem_cons, not_or]
        refine ⟨?_, (hx x (by simp [hxq])).2⟩
        rintro rfl
        exact (List.nodup_cons.mp hnd).1 hxq⟩)
    rw [List.take_succ_eq_append_getElem (by simp; omega), List.take_set_of_le (Nat.le_refl _)] at this
    simpa [List.getD_eq_getElem?_getD, List.getElem?_eq_getElem hj'] using this

theorem sample_exactly (small : Bool) (population : List T) (k : Nat) (hk : k ≤ population.length)
    (hl : population.length < 2 ^ 63) :
    Exactly (sample small population k) (fun ys => ys.length = k ∧ Picked ys population) := by
  unfold sample
  rw [if_pos ⟨by omega, by omega⟩]
  by_cases h0 : k = 0
  · subst h0
    rw [if_pos (by simp)]
    refine ⟨Only.pure ⟨rfl, population, by simp⟩, fun a ha => ?_⟩
    rw [List.length_eq_zero_iff.mp ha.1]
    exact Can.pure _
  rw [if_neg (by omega), item_ok (by omega) (by simp; omega)]
  simp only [pure_bind, Int.toNat_natCast]
  have : Inhabited T := ⟨population[0]'(by omega)⟩
  cases small with
  | true =>
    simp only [if_true]
    constructor
    · refine (poolLoop_only hl k 0 _ population rfl (by simp) (by omega)).mono ?_
      rintro y ⟨t, rest, rfl, ht, hp⟩
      exact ⟨by simpa using ht, rest, by simpa using hp⟩
    · rintro ys ⟨h1, rest, h2⟩
      have := poolLoop_can hl k 0 (List.replicate k (population[0]'(by omega))) population ys rest rfl (by simp) (by omega) h1
        (by simpa using h2)
      simpa using this
  | false =>
    simp only [Bool.false_eq_true, if_false]
    constructor
    · refine (selectLoop_only hl rfl k 0 _ [] (by simp) (by omega)).mono ?_
      rintro y ⟨q, hq, rfl, hnd, hx⟩
      exact ⟨by simpa using hq, picked_iff.mpr ⟨q, hnd, fun i hi => (hx i hi).1, rfl⟩⟩
    · rintro ys ⟨h1, h2⟩
      obtain ⟨q, hnd, hx, rfl⟩ := picked_iff.mp h2
      have := selectLoop_can hl rfl k 0 (List.replicate k (population[0]'(by omega))) [] q (by simp) (by omega)
        (by simpa using h1) hnd (fun x h => ⟨hx x h, by simp⟩)
      simpa using this

end Codon.Random
