import Verif.CounterM.Model
import Verif.KHash.Props
import Mathlib.Tactic.Common

namespace Codon.CounterM

open Codon.KHash
open Codon.KHash.Spec (find erase store)

section
set_option linter.unusedSectionVars false
variable {K : Type} [DecidableEq K] {h : K → BitVec 64}

abbrev CMap (K : Type) := KHash.Spec.Map K Int

/-- The count of a key. -/
def cnt (m : CMap K) (k : K) : Int := (find m k).getD 0

/-- Bounds that keep the number of buckets far below the 64-bit range. -/
structure Bd (t : Ctr K) (m : CMap K) (n : Nat) : Prop where
  nb : t.nb ≤ 2 ^ 41
  len : m.length + n ≤ 2 ^ 38

theorem store_length (m : CMap K) (k : K) (v : Int) : (store m k v).length ≤ m.length + 1 := by
  unfold store erase
  have := List.length_filter_le (fun p : K × Int => decide (p.1 ≠ k)) m
  simp only [List.length_cons]
  omega

theorem increment_rel {t : Ctr K} {m : CMap K} (r : Rel h t m) (hnb : t.nb ≤ 2 ^ 60) (k : K)
    (v : Int) : ∃ t', increment h t k (· + ·) v = some t' ∧ Rel h t' (store m k (cnt m k + v)) ∧
      t'.nb ≤ max t.nb (max 4 (4 * t.size)) := by
  obtain ⟨t', ret, x, p1, p2, p3, p4, p5⟩ := put_write r hnb k
  unfold increment
  rw [p1]
  rcases p4 with ⟨rfl, w, a, b, c⟩ | ⟨a, b⟩
  · refine ⟨_, ?_, (p5 (cnt m k + v)).2, p3⟩
    simp [a, (p5 (w + v)).1, cnt, b]
  · refine ⟨_, ?_, (p5 (cnt m k + v)).2, p3⟩
    simp [a, (p5 v).1, cnt, b]

theorem combine_rel {t : Ctr K} {m : CMap K} (r : Rel h t m) (hnb : t.nb ≤ 2 ^ 60) (k : K)
    (f : Int → Int → Int) (v : Int) :
    ∃ t', (getD h t k 0 >>= fun c => setitem h t k (f c v)) = some t' ∧
      Rel h t' (store m k (f (cnt m k) v)) ∧
      t'.nb ≤ max t.nb (max 4 (4 * t.size)) := by
  rw [getD_rel r]
  exact setitem_rel r hnb k _

/-- What a loop storing `g (count) v` for each item does to the map. -/
def foldStore (g : Int → Int → Int) (m : CMap K) (l : List (K × Int)) : CMap K :=
  l.foldl (fun m p => store m p.1 (g (cnt m p.1) p.2)) m

theorem loop_rel (op : Ctr K → K → Int → Option (Ctr K)) (g : Int → Int → Int)
    (hop : ∀ (t : Ctr K) (m : CMap K) (k : K) (v : Int), Rel h t m → t.nb ≤ 2 ^ 60 →
      ∃ t', op t k v = some t' ∧ Rel h t' (store m k (g (cnt m k) v)) ∧
        t'.nb ≤ max t.nb (max 4 (4 * t.size)))
    (loop : Ctr K → List (K × Int) → Option (Ctr K))
    (hl0 : ∀ t, loop t [] = some t)
    (hl1 : ∀ t k v l, loop t ((k, v) :: l) = op t k v >>= fun t' => loop t' l) :
    ∀ (l : List (K × Int)) (t : Ctr K) (m : CMap K), Rel h t m → Bd t m l.length →
      ∃ t', loop t l = some t' ∧ Rel h t' (foldStore g m l) ∧ t'.nb ≤ 2 ^ 41 := by
  intro l
  induction l with
  | nil => intro t m r hb; exact ⟨t, hl0 t, r, hb.nb⟩
  | cons p l ih =>
    obtain ⟨k, v⟩ := p
    intro t m r hb
    have h1 := hb.nb
    have h2 := hb.len
    simp only [List.length_cons] at h2
    obtain ⟨t1, e1, e2, e3⟩ := hop t m k v r (by omega)
    have hs := r.size
    have := store_length m k (g (cnt m k) v)
    obtain ⟨t2, f1, f2, f3⟩ := ih t1 _ e2 ⟨by omega, by omega⟩
    refine ⟨t2, ?_, f2, f3⟩
    rw [hl1, e1]
    exact f1

theorem incrAll_rel (f : Int → Int) (l : List (K × Int)) {t : Ctr K} {m : CMap K} (r : Rel h t m)
    (hb : Bd t m l.length) :
    ∃ t', incrAll h f t l = some t' ∧ Rel h t' (foldStore (fun c v => c + f v) m l) ∧
      t'.nb ≤ 2 ^ 41 :=
  loop_rel (fun t k v => increment h t k (· + ·) (f v)) (fun c v => c + f v)
    (fun _ _ k v r hnb => increment_rel r hnb k (f v)) (incrAll h f) (fun _ => rfl)
    (fun _ _ _ _ => rfl) l t m r hb

theorem combineAll_rel (f : Int → Int → Int) (l : List (K × Int)) {t : Ctr K} {m : CMap K}
    (r : Rel h t m) (hb : Bd t m l.length) :
    ∃ t', combineAll h f t l = some t' ∧ Rel h t' (foldStore f m l) ∧ t'.nb ≤ 2 ^ 41 :=
  loop_rel (fun t k v => getD h t k 0 >>= fun c => setitem h t k (f c v)) f
    (fun _ _ k v r hnb => combine_rel r hnb k f v) (combineAll h f) (fun _ => rfl)
    (fun t k v l => by
      show (getD h t k 0 >>= fun c => setitem h t k (f c v) >>= fun t => combineAll h f t l) = _
      cases getD h t k 0 <;> rfl) l t m r hb

theorem find_store' (m : CMap K) (k : K) (v : Int) (k' : K) :
    find (store m k v) k' = if k' = k then some v else find m k' := by
  unfold find store
  rw [List.find?_cons]
  by_cases hk : k' = k
  · subst hk; simp
  · have : ¬ k = k' := fun e => hk e.symm
    simp only [this, decide_false, if_neg hk]
    congr 1
    unfold erase
    rw [List.find?_filter]
    congr 1
    funext p
    by_cases hp : p.1 = k'
    · simp [hp, hk]
    · simp [hp]

/-- Keys of the list occur at most once: the loop combines each count once. -/
theorem find_foldStore (g : Int → Int → Int) : ∀ (l : List (K × Int)) (m : CMap K),
    (l.map Prod.fst).Nodup → ∀ k, find (foldStore g m l) k =
      match find l k with
      | some v => some (g (cnt m k) v)
      | none => find m k := by
  intro l
  induction l with
  | nil => intro m _ k; rfl
  | cons p l ih =>
    obtain ⟨a, v⟩ := p
    intro m nd k
    rw [List.map_cons, List.nodup_cons] at nd
    show find (foldStore g (store m a (g (cnt m a) v)) l) k = _
    rw [ih _ nd.2]
    have hfind : find ((a, v) :: l) k = if k = a then some v else find l k := by
      unfold find
      rw [List.find?_cons]
      by_cases hk : k = a
      · subst hk; simp
      · have : ¬ a = k := fun e => hk e.symm
        simp [this, hk]
    rw [hfind]
    by_cases hk : k = a
    · subst hk
      have hn : find l k = none := find_none_iff.mpr fun v hv =>
        nd.1 (List.mem_map.mpr ⟨_, hv, rfl⟩)
      rw [hn, if_pos rfl]
      simp [find_store', cnt]
    · rw [if_neg hk]
      cases find l k with
      | none => simp [find_store', hk]
      | some w => simp [find_store', cnt, hk]

/-- Without that: the loop adds every value. -/
theorem cnt_foldAdd (f : Int → Int) : ∀ (l : List (K × Int)) (m : CMap K) (k : K),
    cnt (foldStore (fun c v => c + f v) m l) k =
      cnt m k + ((l.filter fun p => decide (p.1 = k)).map fun p => f p.2).sum := by
  intro l
  induction l with
  | nil => intro m k; simp [foldStore]
  | cons p l ih =>
    obtain ⟨a, v⟩ := p
    intro m k
    show cnt (foldStore (fun c v => c + f v) (store m a (cnt m a + f v)) l) k = _
    rw [ih]
    by_cases hk : a = k
    · subst hk
      simp [cnt, find_store']
      omega
    · have hk' : ¬ k = a := fun e => hk e.symm
      simp [cnt, find_store', hk, hk']

theorem perm_find {m m' : CMap K} (hp : m.Perm m') (nd : (m.map Prod.fst).Nodup) (k : K) :
    find m k = find m' k := by
  have nd' : (m'.map Prod.fst).Nodup := (hp.map _).nodup_iff.mp nd
  cases h1 : find m' k with
  | none =>
    rw [find_none_iff] at h1 ⊢
    intro v hv
    exact h1 v (hp.mem_iff.mp hv)
  | some v =>
    rw [find_some_iff nd'] at h1
    rw [find_some_iff nd]
    exact hp.mem_iff.mpr h1

theorem items_rel' {t : Ctr K} {m : CMap K} (r : Rel h t m) :
    ∃ l, items t = some l ∧ l.Perm m ∧ (l.map Prod.fst).Nodup ∧ l.length = m.length ∧
      ∀ k, find l k = find m k := by
  obtain ⟨l, e, hp⟩ := items_rel r
  have nd : (l.map Prod.fst).Nodup := (hp.map _).nodup_iff.mpr r.nd
  exact ⟨l, e, hp, nd, hp.length_eq, fun k => perm_find hp nd k⟩

theorem delitem_rel' {t : Ctr K} {m : CMap K} (r : Rel h t m) (k : K) :
    ∃ t', delitem h t k = some t' ∧ Rel h t' (erase m k) ∧ t'.nb = t.nb ∧ t'.keys = t.keys ∧
      t'.vals = t.vals ∧ (∀ j, j < t.nb → live t'.flags j = true → live t.flags j = true) := by
  rcases kget_rel r k with ⟨x, v, g1, g2, g3, g4, g5, g6⟩ | ⟨g1, g2⟩
  · obtain ⟨t', d1, d2, d3, d4, d5, d6, d7⟩ := kdel_full g6 g2 g4
    obtain ⟨t'', e1, e2, e3⟩ := kdel_rel r g6 g2 g4
    rw [d1] at e1
    cases e1
    refine ⟨t', ?_, e2, d3, d4, d5, ?_⟩
    · unfold delitem
      rw [g1]
      simp [d1, Nat.ne_of_lt g2]
    · intro j _ hl
      rw [d6] at hl
      simp only [Bool.and_eq_true] at hl
      exact hl.1
  · refine ⟨t, ?_, ?_, rfl, rfl, rfl, fun _ _ hl => hl⟩
    · unfold delitem
      rw [g1]
      simp
    · rw [erase_absent (find_none_iff.mp g2)]
      exact r

/-- Deleting while iterating removes exactly the non-positive counts. -/
theorem delNonPosFrom_rel : ∀ n i (t : Ctr K) (m : CMap K), Rel h t m → i + n = t.nb →
    (∀ j, j < i → j < t.nb → live t.flags j = true → ∀ k v, rd t.keys j = some k →
      rd t.vals j = some v → 0 < v) →
    ∃ t' m', delNonPosFrom h t n i = some t' ∧ Rel h t' m' ∧ t'.nb = t.nb ∧
      (∀ p, p ∈ m' ↔ p ∈ m ∧ 0 < p.2) ∧ m'.length ≤ m.length := by
  intro n
  induction n with
  | zero =>
    intro i t m r hi hdone
    refine ⟨t, m, rfl, r, rfl, ?_, le_refl _⟩
    rintro ⟨k, v⟩
    constructor
    · intro hp
      refine ⟨hp, ?_⟩
      have hc : (k, some v) ∈ t.content := r.perm.mem_iff.mpr (mem_emb.mpr ⟨v, rfl, hp⟩)
      obtain ⟨j, hj, hs⟩ := mem_contentOf.mp hc
      obtain ⟨hl, hr, hv⟩ := slotOf_live hs
      exact hdone j (by omega) hj hl k v hr hv
    · exact fun hp => hp.1
  | succ n ih =>
    intro i t m r hi hdone
    have hf : Full h t := by
      rcases r.inv with rfl | hf
      · simp [Tbl.empty] at hi
      · exact hf
    unfold delNonPosFrom
    rw [iseither_eq (hf.flr (by omega))]
    simp only [Option.bind_eq_bind, Option.bind_some]
    by_cases hl : live t.flags i = true
    · obtain ⟨k, hk⟩ := hf.ini i (by omega) hl
      have hl' := hl
      unfold live at hl'
      simp only [Bool.and_eq_true, Bool.not_eq_true'] at hl'
      have hslot := mem_contentOf.mpr ⟨i, show i < t.nb by omega, slotOf_eq (vals := t.vals) hl hk⟩
      obtain ⟨v, hv, hkm⟩ := mem_emb.mp (r.perm.mem_iff.mp hslot)
      have hrv : rd t.vals i = some v := by
        have := slotOf_eq (vals := t.vals) hl hk
        rw [hv] at this
        exact (slotOf_live this).2.2
      rw [hl'.1, hl'.2, hk, hrv]
      simp only [Bool.or_self, Bool.false_eq_true, if_false, Option.bind_some]
      by_cases hc : v ≤ 0
      · rw [if_pos hc]
        obtain ⟨t1, e1, e2, e3, e4, e5, e6⟩ := delitem_rel' r k
        rw [e1]
        simp only [Option.bind_some]
        obtain ⟨t2, m2, f1, f2, f3, f4, f5⟩ := ih (i + 1) t1 _ e2 (by omega) (by
          intro j hj hjn hjl k' v' hk' hv'
          have hk0 := hk'
          have hv0 := hv'
          rw [e4] at hk'
          rw [e5] at hv'
          have hjl0 := e6 j (by omega) hjl
          by_cases hji : j = i
          · subst hji
            exfalso
            rw [hk] at hk'
            cases hk'
            have hc1 := mem_contentOf.mpr ⟨j, hjn, slotOf_eq (vals := t1.vals) hjl hk0⟩
            obtain ⟨w, -, hw⟩ := mem_emb.mp (e2.perm.mem_iff.mp hc1)
            unfold erase at hw
            rw [List.mem_filter] at hw
            simp at hw
          · exact hdone j (by omega) (by omega) hjl0 k' v' hk' hv')
        refine ⟨t2, m2, f1, f2, f3.trans e3, ?_, ?_⟩
        · rintro ⟨a, b⟩
          rw [f4]
          unfold erase
          rw [List.mem_filter]
          simp only [decide_eq_true_eq]
          constructor
          · rintro ⟨⟨h1, h2⟩, h3⟩; exact ⟨h1, h3⟩
          · rintro ⟨h1, h2⟩
            refine ⟨⟨h1, ?_⟩, h2⟩
            rintro rfl
            have hb : b = v := by
              have u1 := (find_some_iff r.nd).mpr h1
              have u2 := (find_some_iff r.nd).mpr hkm
              rw [u1] at u2
              exact Option.some.inj u2
            omega
        · have : (erase m k).length ≤ m.length := List.length_filter_le _ _
          omega
      · rw [if_neg hc]
        exact ih (i + 1) t m r (by omega) (by
          intro j hj hjn hjl k' v' hk' hv'
          by_cases hji : j = i
          · subst hji
            rw [hrv] at hv'
            cases hv'
            omega
          · exact hdone j (by omega) hjn hjl k' v' hk' hv')
    · have : (E t.flags i || D t.flags i) = true := by
        unfold live at hl
        cases hE : E t.flags i <;> cases hD : D t.flags i <;> simp_all
      rw [if_pos this]
      exact ih (i + 1) t m r (by omega) (by
        intro j hj hjn hjl k' v' hk' hv'
        by_cases hji : j = i
        · subst hji; exact absurd hjl hl
        · exact hdone j (by omega) hjn hjl k' v' hk' hv')

theorem find_pos {m m' : CMap K} (nd : (m.map Prod.fst).Nodup) (nd' : (m'.map Prod.fst).Nodup)
    (hm : ∀ p, p ∈ m' ↔ p ∈ m ∧ 0 < p.2) (k : K) :
    find m' k = if 0 < cnt m k then some (cnt m k) else none := by
  cases h1 : find m k with
  | none =>
    have hc : cnt m k = 0 := by simp [cnt, h1]
    rw [hc, if_neg (by omega), find_none_iff]
    intro v hv
    exact find_none_iff.mp h1 v ((hm _).mp hv).1
  | some v =>
    have hc : cnt m k = v := by simp [cnt, h1]
    rw [hc]
    have hmem := (find_some_iff nd).mp h1
    by_cases hv : 0 < v
    · rw [if_pos hv, find_some_iff nd', hm]
      exact ⟨hmem, hv⟩
    · rw [if_neg hv, find_none_iff]
      intro w hw
      obtain ⟨hw1, hw2⟩ := (hm _).mp hw
      have := (find_some_iff nd).mpr hw1
      rw [h1] at this
      cases this
      exact hv hw2

theorem delNonPositives_rel {t : Ctr K} {m : CMap K} (r : Rel h t m) :
    ∃ t' m', delNonPositives h t = some t' ∧ Rel h t' m' ∧ t'.nb = t.nb ∧ m'.length ≤ m.length ∧
      ∀ k, find m' k = if 0 < cnt m k then some (cnt m k) else none := by
  obtain ⟨t', m', e1, e2, e3, e4, e5⟩ := delNonPosFrom_rel t.nb 0 t m r (by omega) (by omega)
  exact ⟨t', m', e1, e2, e3, e5, find_pos r.nd e2.nd e4⟩

theorem copy_rel' {t : Ctr K} {m : CMap K} (r : Rel h t m) :
    Rel h (copy t) m ∧ (copy t).nb ≤ t.nb := by
  unfold copy initFrom
  split
  · rename_i hz
    have : t.content = [] := by simp [Tbl.content, contentOf, hz]
    have hm : m = [] := by
      have := r.perm
      rw [‹t.content = []›] at this
      have h2 := this.length_eq
      simp [emb] at h2
      exact List.length_eq_zero_iff.mp h2.symm
    subst hm
    exact ⟨rel_empty, Nat.zero_le _⟩
  · exact ⟨r, le_refl _⟩

/-- `kresize` of an empty table to `n` buckets. -/
theorem resize_empty (n : Nat) (hn : n ≤ 2 ^ 41) :
    ∃ s, kresize h (Tbl.empty : Ctr K) (BitVec.ofNat 64 n) = some s ∧ Rel h s [] ∧
      s.nb ≤ 2 ^ 41 := by
  obtain ⟨s, e1, e2, e3⟩ := resize_rel (rel_empty (h := h) (V := Int)) (BitVec.ofNat 64 n)
  refine ⟨s, e1, e2, ?_⟩
  have hru := roundUp_le (m := BitVec.ofNat 64 n) (B := 41) (by omega) (by omega) (by
    rw [show (BitVec.ofNat 64 n).toInt = (n : Int).bmod (2 ^ 64) from BitVec.toInt_ofNat' n,
      Int.bmod_def]
    have h1 : ((n : Int) % ((2 ^ 64 : Nat) : Int)) = (n : Int) := by
      apply Int.emod_eq_of_lt <;> omega
    rw [h1, if_pos (by omega)]
    exact_mod_cast hn)
  rcases e3 with e3 | e3
  · rw [e3]; exact Nat.zero_le _
  · omega

theorem keepLoop_rel (f : Int → Option Int) : ∀ (l : List (K × Int)) (t : Ctr K) (m : CMap K),
    Rel h t m → Bd t m l.length → (l.map Prod.fst).Nodup →
    ∃ t' m', keepLoop h f t l = some t' ∧ Rel h t' m' ∧
      ∀ k, find m' k = match (find l k).bind f with
        | some w => some w
        | none => find m k := by
  intro l
  induction l with
  | nil => intro t m r _ _; exact ⟨t, m, rfl, r, fun k => rfl⟩
  | cons p l ih =>
    obtain ⟨a, v⟩ := p
    intro t m r hb nd
    rw [List.map_cons, List.nodup_cons] at nd
    have h1 := hb.nb
    have h2 := hb.len
    simp only [List.length_cons] at h2
    have hn : find l a = none := find_none_iff.mpr fun v hv =>
      nd.1 (List.mem_map.mpr ⟨_, hv, rfl⟩)
    have hfind : ∀ k, find ((a, v) :: l) k = if k = a then some v else find l k := by
      intro k
      unfold find
      rw [List.find?_cons]
      by_cases hk : k = a
      · subst hk; simp
      · have : ¬ a = k := fun e => hk e.symm
        simp [this, hk]
    unfold keepLoop
    cases hf : f v with
    | none =>
      obtain ⟨t2, m2, f1, f2, f3⟩ := ih t m r ⟨h1, by omega⟩ nd.2
      refine ⟨t2, m2, f1, f2, ?_⟩
      intro k
      rw [f3, hfind]
      by_cases hk : k = a
      · subst hk; simp [hn, hf]
      · simp [hk]
    | some w =>
      obtain ⟨t1, e1, e2, e3⟩ := setitem_rel r (by omega) a w
      have hs := r.size
      have := store_length m a w
      obtain ⟨t2, m2, f1, f2, f3⟩ := ih t1 _ e2 ⟨by omega, by omega⟩ nd.2
      refine ⟨t2, m2, ?_, f2, ?_⟩
      · simp only [e1, Option.bind_eq_bind, Option.bind_some]
        exact f1
      · intro k
        rw [f3, hfind]
        by_cases hk : k = a
        · subst hk; simp [hn, hf, find_store']
        · simp [hk, find_store']

end

end Codon.CounterM
