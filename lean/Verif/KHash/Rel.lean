import Verif.KHash.Resize
import Verif.KHash.Spec

/-! Each dict operation refines the operation on finite maps. -/

namespace Codon.KHash

open Spec (find erase store)

section
set_option linter.unusedSectionVars false
set_option linter.unusedSimpArgs false
set_option linter.unusedVariables false

variable {K V : Type} [DecidableEq K] (h : K → BitVec 64)

/-- The items of a map, seen as bucket contents. -/
def emb (m : Spec.Map K V) : List (K × Option V) := m.map fun p => (p.1, some p.2)

/-- The table represents the map. -/
structure Rel (t : Tbl K V) (m : Spec.Map K V) : Prop where
  inv : Inv h t
  perm : t.content.Perm (emb m)

variable {h}

theorem emb_keys (m : Spec.Map K V) : (emb m).map Prod.fst = m.map Prod.fst := by
  unfold emb; rw [List.map_map]; rfl

theorem Inv.nd {t : Tbl K V} (ht : Inv h t) : (t.content.map Prod.fst).Nodup := by
  rcases ht with rfl | ht
  · simp [Tbl.content, contentOf, Tbl.empty]
  · exact ht.nd

theorem Inv.sz {t : Tbl K V} (ht : Inv h t) : t.size = t.content.length := by
  rcases ht with rfl | ht
  · rfl
  · exact ht.sz

theorem Rel.nd {t : Tbl K V} {m : Spec.Map K V} (r : Rel h t m) : (m.map Prod.fst).Nodup := by
  rw [← emb_keys, ← (r.perm.map Prod.fst).nodup_iff]
  exact r.inv.nd

theorem Rel.size {t : Tbl K V} {m : Spec.Map K V} (r : Rel h t m) : t.size = m.length := by
  rw [r.inv.sz, r.perm.length_eq]; simp [emb]

theorem find_some_iff {m : Spec.Map K V} (nd : (m.map Prod.fst).Nodup) {k : K} {v : V} :
    find m k = some v ↔ (k, v) ∈ m := by
  unfold find
  induction m with
  | nil => simp
  | cons p m ih =>
    rw [List.map_cons, List.nodup_cons] at nd
    rw [List.find?_cons]
    by_cases hp : p.1 = k
    · have hd : decide (p.1 = k) = true := by simpa using hp
      rw [hd]
      simp only [Option.map_some, Option.some.injEq, List.mem_cons]
      constructor
      · rintro rfl; left; rw [← hp]
      · rintro (he | hm)
        · rw [← he]
        · exact absurd (List.mem_map.mpr ⟨_, hm, hp.symm⟩) nd.1
    · have hd : decide (p.1 = k) = false := by simpa using hp
      rw [hd]
      simp only [List.mem_cons]
      rw [ih nd.2]
      constructor
      · exact Or.inr
      · rintro (he | hm)
        · exact absurd (by rw [← he]) hp
        · exact hm

theorem find_none_iff {m : Spec.Map K V} {k : K} : find m k = none ↔ ∀ v, (k, v) ∉ m := by
  unfold find
  rw [Option.map_eq_none_iff, List.find?_eq_none]
  constructor
  · intro hh v hv
    have := hh _ hv
    simp at this
  · rintro hh ⟨a, b⟩ hp
    simp only [decide_eq_true_eq]
    rintro rfl
    exact hh b hp

theorem mem_emb {m : Spec.Map K V} {k : K} {w : Option V} :
    (k, w) ∈ emb m ↔ ∃ v, w = some v ∧ (k, v) ∈ m := by
  unfold emb
  rw [List.mem_map]
  constructor
  · rintro ⟨⟨a, b⟩, hm, he⟩
    simp only [Prod.mk.injEq] at he
    obtain ⟨rfl, rfl⟩ := he
    exact ⟨b, rfl, hm⟩
  · rintro ⟨v, rfl, hm⟩
    exact ⟨(k, v), hm, rfl⟩

theorem filter_of_cons_perm {C l : List (K × Option V)} {k : K} {v : Option V}
    (hp : C.Perm ((k, v) :: l)) (nd : (C.map Prod.fst).Nodup) :
    (C.filter fun p => decide (p.1 ≠ k)).Perm l := by
  have h1 := hp.filter (fun p => decide (p.1 ≠ k))
  rw [(hp.map Prod.fst).nodup_iff, List.map_cons, List.nodup_cons] at nd
  have h2 : (((k, v) :: l).filter fun p => decide (p.1 ≠ k)) = l := by
    rw [List.filter_cons]
    simp only [ne_eq, not_true_eq_false, decide_false, Bool.false_eq_true, if_false]
    rw [List.filter_eq_self]
    intro p hpm
    simp only [decide_eq_true_eq]
    intro he
    exact nd.1 (List.mem_map.mpr ⟨p, hpm, he⟩)
  rwa [h2] at h1

theorem emb_erase (m : Spec.Map K V) (k : K) :
    emb (erase m k) = (emb m).filter fun p => decide (p.1 ≠ k) := by
  unfold emb erase
  rw [List.filter_map]
  rfl

theorem emb_store (m : Spec.Map K V) (k : K) (v : V) :
    emb (store m k v) = (k, some v) :: emb (erase m k) := rfl

theorem erase_absent {m : Spec.Map K V} {k : K} (ha : ∀ v, (k, v) ∉ m) : erase m k = m := by
  unfold erase
  rw [List.filter_eq_self]
  rintro ⟨a, b⟩ hp
  simp only [decide_eq_true_eq]
  rintro rfl
  exact ha b hp

theorem rel_empty : Rel h (Tbl.empty : Tbl K V) [] := ⟨Or.inl rfl, List.Perm.refl _⟩

/-- Lookup against the represented map. -/
theorem kget_rel {t : Tbl K V} {m : Spec.Map K V} (r : Rel h t m) (k : K) :
    (∃ x v, kget h t k = some x ∧ x < t.nb ∧ rd t.vals x = some v ∧
      slotOf t.flags t.keys t.vals x = some (k, some v) ∧ find m k = some v ∧ Full h t) ∨
    (kget h t k = some t.nb ∧ find m k = none) := by
  rcases kget_inv r.inv k with ⟨x, w, h1, h2, h3⟩ | ⟨h1, h2⟩
  · left
    have hm : (k, w) ∈ t.content := mem_contentOf.mpr ⟨x, h2, h3⟩
    obtain ⟨v, rfl, hmem⟩ := mem_emb.mp (r.perm.mem_iff.mp hm)
    refine ⟨x, v, h1, h2, (slotOf_live h3).2.2, h3, (find_some_iff r.nd).mpr hmem, ?_⟩
    rcases r.inv with rfl | hf
    · exact absurd h2 (by simp [Tbl.empty])
    · exact hf
  · right
    refine ⟨h1, find_none_iff.mpr fun v hv => h2 (some v) ?_⟩
    exact r.perm.mem_iff.mpr (mem_emb.mpr ⟨v, rfl, hv⟩)

/-- `_kh_put` followed by a write of the value cell. -/
theorem put_write {t : Tbl K V} {m : Spec.Map K V} (r : Rel h t m) (hnb : t.nb ≤ 2 ^ 60) (k : K) :
    ∃ t' ret x, kput h t k = some (t', ret, x) ∧ x < t'.nb ∧
      t'.nb ≤ max t.nb (max 4 (4 * t.size)) ∧
      ((ret = 0 ∧ ∃ v, rd t'.vals x = some v ∧ find m k = some v ∧ Rel h t' m) ∨
        (ret ≠ 0 ∧ find m k = none)) ∧
      ∀ w, wr t'.vals x (some w) = some (t'.vals.set x (some w)) ∧
        Rel h { t' with vals := t'.vals.set x (some w) } (store m k w) := by
  obtain ⟨t', ret, x, v, p1, p2, p3, p4, p5, p6⟩ := kput_spec r.inv hnb k
  refine ⟨t', ret, x, p1, p3, p4, ?_, ?_⟩
  · rcases p6 with ⟨a, b, c⟩ | ⟨a, b, c⟩
    · left
      obtain ⟨v', rfl, hmem⟩ := mem_emb.mp (r.perm.mem_iff.mp b)
      exact ⟨a, v', (slotOf_live p5).2.2, (find_some_iff r.nd).mpr hmem, Or.inr p2, c.trans r.perm⟩
    · right
      exact ⟨a, find_none_iff.mpr fun v' hv => b (some v')
        (r.perm.mem_iff.mpr (mem_emb.mpr ⟨v', rfl, hv⟩))⟩
  · intro w
    obtain ⟨l, q1, q2, q3, q4⟩ := setVal_full p2 p3 p5 w
    refine ⟨q1, Or.inr q2, ?_⟩
    refine q4.trans ?_
    rw [emb_store, emb_erase]
    apply List.Perm.cons
    rcases p6 with ⟨a, b, c⟩ | ⟨a, b, c⟩
    · have : (emb m).Perm ((k, v) :: l) := (r.perm.symm.trans c.symm).trans q3
      refine (filter_of_cons_perm this ?_).symm
      rw [emb_keys]; exact r.nd
    · have : l.Perm t.content := List.Perm.cons_inv (q3.symm.trans c)
      refine this.trans (r.perm.trans ?_)
      rw [← emb_erase, erase_absent]
      intro v' hv
      exact b (some v') (r.perm.mem_iff.mpr (mem_emb.mpr ⟨v', rfl, hv⟩))

theorem setitem_rel {t : Tbl K V} {m : Spec.Map K V} (r : Rel h t m) (hnb : t.nb ≤ 2 ^ 60) (k : K)
    (v : V) : ∃ t', setitem h t k v = some t' ∧ Rel h t' (store m k v) ∧
      t'.nb ≤ max t.nb (max 4 (4 * t.size)) := by
  obtain ⟨t', ret, x, p1, p2, p3, p4, p5⟩ := put_write r hnb k
  refine ⟨_, ?_, (p5 v).2, p3⟩
  unfold setitem
  rw [p1]
  simp only [Option.bind_eq_bind, Option.bind_some, (p5 v).1]
  rfl

theorem kdel_rel {t : Tbl K V} {m : Spec.Map K V} (r : Rel h t m) {k : K} {x : Nat} {v : V}
    (hf : Full h t) (hx : x < t.nb) (hs : slotOf t.flags t.keys t.vals x = some (k, some v)) :
    ∃ t', kdel t x = some t' ∧ Rel h t' (erase m k) ∧ t'.nb = t.nb := by
  obtain ⟨t', d1, d2, d3, d4, d5, d6, d7⟩ := kdel_full hf hx hs
  refine ⟨t', d1, ⟨Or.inr d2, ?_⟩, d3⟩
  rw [emb_erase]
  have := filter_of_cons_perm (r.perm.symm.trans d7) (by rw [emb_keys]; exact r.nd)
  exact this.symm

theorem delitem_rel {t : Tbl K V} {m : Spec.Map K V} (r : Rel h t m) (k : K) :
    (∃ t' v, delitem h t k = some (t', false) ∧ find m k = some v ∧ Rel h t' (erase m k) ∧
      t'.nb = t.nb) ∨ (delitem h t k = some (t, true) ∧ find m k = none) := by
  rcases kget_rel r k with ⟨x, v, g1, g2, g3, g4, g5, g6⟩ | ⟨g1, g2⟩
  · left
    obtain ⟨t', d1, d2, d3⟩ := kdel_rel r g6 g2 g4
    refine ⟨t', v, ?_, g5, d2, d3⟩
    unfold delitem
    rw [g1]
    simp [d1, Nat.ne_of_lt g2]
  · right
    refine ⟨?_, g2⟩
    unfold delitem
    rw [g1]; simp

theorem pop_rel {t : Tbl K V} {m : Spec.Map K V} (r : Rel h t m) (k : K) :
    (∃ t' v, pop h t k = some (t', some v) ∧ find m k = some v ∧ Rel h t' (erase m k) ∧
      t'.nb = t.nb) ∨ (pop h t k = some (t, none) ∧ find m k = none) := by
  rcases kget_rel r k with ⟨x, v, g1, g2, g3, g4, g5, g6⟩ | ⟨g1, g2⟩
  · left
    obtain ⟨t', d1, d2, d3⟩ := kdel_rel r g6 g2 g4
    refine ⟨t', v, ?_, g5, d2, d3⟩
    unfold pop
    rw [g1]
    simp [d1, g3, Nat.ne_of_lt g2]
  · right
    refine ⟨?_, g2⟩
    unfold pop
    rw [g1]; simp

theorem getitem_rel {t : Tbl K V} {m : Spec.Map K V} (r : Rel h t m) (k : K) :
    getitem h t k = some (find m k) := by
  unfold getitem
  rcases kget_rel r k with ⟨x, v, g1, g2, g3, g4, g5, g6⟩ | ⟨g1, g2⟩
  · rw [g1, g5]; simp [g3, Nat.ne_of_lt g2]
  · rw [g1, g2]; simp

theorem getD_rel {t : Tbl K V} {m : Spec.Map K V} (r : Rel h t m) (k : K) (d : V) :
    getD h t k d = some ((find m k).getD d) := by
  unfold getD
  rcases kget_rel r k with ⟨x, v, g1, g2, g3, g4, g5, g6⟩ | ⟨g1, g2⟩
  · rw [g1, g5]; simp [g3, Nat.ne_of_lt g2]
  · rw [g1, g2]; simp

theorem contains_rel {t : Tbl K V} {m : Spec.Map K V} (r : Rel h t m) (k : K) :
    contains h t k = some (find m k).isSome := by
  unfold contains
  rcases kget_rel r k with ⟨x, v, g1, g2, g3, g4, g5, g6⟩ | ⟨g1, g2⟩
  · rw [g1, g5]; simp [Nat.ne_of_lt g2]
  · rw [g1, g2]; simp

theorem setdefault_rel {t : Tbl K V} {m : Spec.Map K V} (r : Rel h t m) (hnb : t.nb ≤ 2 ^ 60) (k : K)
    (v : V) : ∃ t', t'.nb ≤ max t.nb (max 4 (4 * t.size)) ∧
      ((∃ w, setdefault h t k v = some (t', w) ∧ find m k = some w ∧ Rel h t' m) ∨
      (setdefault h t k v = some (t', v) ∧ find m k = none ∧ Rel h t' (store m k v))) := by
  obtain ⟨t', ret, x, p1, p2, p3, p4, p5⟩ := put_write r hnb k
  rcases p4 with ⟨rfl, w, a, b, c⟩ | ⟨a, b⟩
  · refine ⟨t', p3, Or.inl ⟨w, ?_, b, c⟩⟩
    unfold setdefault
    rw [p1]; simp [a]
  · refine ⟨_, ?_, Or.inr ⟨?_, b, (p5 v).2⟩⟩
    · exact p3
    · unfold setdefault
      rw [p1]; simp [a, (p5 v).1]

theorem clear_rel {t : Tbl K V} {m : Spec.Map K V} (r : Rel h t m) :
    Rel h (kclear t) [] ∧ (kclear t).nb = t.nb := by
  obtain ⟨a, b, c⟩ := kclear_inv r.inv
  exact ⟨⟨a, by rw [b]; exact List.Perm.refl _⟩, c⟩

theorem resize_rel {t : Tbl K V} {m : Spec.Map K V} (r : Rel h t m) (n : BitVec 64) :
    ∃ t', kresize h t n = some t' ∧ Rel h t' m ∧ (t'.nb = t.nb ∨ t'.nb = roundUp n) := by
  obtain ⟨t', e1, e2, e3, e4, e5⟩ := kresize_inv r.inv n
  refine ⟨t', e1, ⟨e2, e3.trans r.perm⟩, ?_⟩
  rcases e5 with ⟨rfl, -⟩ | ⟨-, -, a, -⟩
  · exact Or.inl rfl
  · exact Or.inr a

theorem copy_rel {t : Tbl K V} {m : Spec.Map K V} (r : Rel h t m) :
    Rel h (copy t) m ∧ (copy t).nb ≤ t.nb := by
  unfold copy
  split
  · rename_i hz
    have : m = [] := by
      have := r.size
      rw [hz] at this
      exact List.length_eq_zero_iff.mp this.symm
    subst this
    exact ⟨rel_empty, by simp [Tbl.empty]⟩
  · exact ⟨r, le_refl _⟩

/-! ### Iteration -/

theorem itemsFrom_spec {t : Tbl K V} (ht : Full h t) :
    ∀ n i, i + n = t.nb → itemsFrom t n i =
      some ((List.range' i n).filterMap (slotOf t.flags t.keys t.vals)) := by
  intro n
  induction n with
  | zero => intro i _; rfl
  | succ n ih =>
    intro i hi
    unfold itemsFrom
    rw [iseither_eq (ht.flr (by omega)), ih (i + 1) (by omega), List.range'_succ,
      List.filterMap_cons]
    simp only [Option.bind_eq_bind, Option.bind_some]
    by_cases hl : live t.flags i = true
    · obtain ⟨k, hk⟩ := ht.ini i (by omega) hl
      rw [slotOf_eq hl hk]
      unfold live at hl
      simp only [Bool.and_eq_true, Bool.not_eq_true'] at hl
      rw [hl.1, hl.2, hk, List.getElem?_eq_getElem (by rw [ht.vl]; omega)]
      simp
    · have : (E t.flags i || D t.flags i) = true := by
        unfold live at hl
        cases hE : E t.flags i <;> cases hD : D t.flags i <;> simp_all
      rw [this]
      simp [slotOf, hl]

theorem rawItems_inv {t : Tbl K V} (ht : Inv h t) : rawItems t = some t.content := by
  rcases ht with rfl | ht
  · rfl
  · unfold rawItems Tbl.content contentOf
    rw [itemsFrom_spec ht t.nb 0 (by omega), List.range_eq_range']

theorem mapM_emb {l : List (K × Option V)} (hl : ∀ p ∈ l, p.2.isSome) :
    ∃ m : Spec.Map K V, (l.mapM fun p => p.2.map fun v => (p.1, v)) = some m ∧ l = emb m := by
  induction l with
  | nil => exact ⟨[], rfl, rfl⟩
  | cons p l ih =>
    obtain ⟨m, h1, h2⟩ := ih fun q hq => hl q (List.mem_cons_of_mem _ hq)
    have hp := hl p List.mem_cons_self
    obtain ⟨k, w⟩ := p
    obtain ⟨v, rfl⟩ := Option.isSome_iff_exists.mp hp
    refine ⟨(k, v) :: m, ?_, ?_⟩
    · rw [List.mapM_cons, h1]; rfl
    · rw [h2]; rfl

theorem emb_perm {a b : Spec.Map K V} (hp : (emb a).Perm (emb b)) : a.Perm b := by
  have := hp.filterMap (fun p : K × Option V => p.2.map fun v => (p.1, v))
  have e : ∀ m : Spec.Map K V, (emb m).filterMap (fun p : K × Option V => p.2.map fun v => (p.1, v)) = m := by
    intro m
    unfold emb
    rw [List.filterMap_map]
    have : ((fun p : K × Option V => p.2.map fun v => (p.1, v)) ∘ fun p : K × V => (p.1, some p.2)) =
        some := by funext ⟨a, b⟩; rfl
    rw [this, List.filterMap_some]
  rwa [e, e] at this

theorem items_rel {t : Tbl K V} {m : Spec.Map K V} (r : Rel h t m) :
    ∃ l, items t = some l ∧ l.Perm m := by
  unfold items
  rw [rawItems_inv r.inv]
  obtain ⟨l, h1, h2⟩ := mapM_emb (l := t.content) (by
    intro p hp
    obtain ⟨v, hv, _⟩ := mem_emb.mp (r.perm.mem_iff.mp (show (p.1, p.2) ∈ t.content from hp))
    rw [hv]; rfl)
  refine ⟨l, h1, emb_perm ?_⟩
  rw [← h2]; exact r.perm

theorem keysList_rel {t : Tbl K V} {m : Spec.Map K V} (r : Rel h t m) :
    ∃ l, keysList t = some l ∧ l.Perm (m.map Prod.fst) := by
  unfold keysList
  rw [rawItems_inv r.inv]
  refine ⟨_, rfl, ?_⟩
  rw [← emb_keys m]
  exact r.perm.map _

/-! ### Histories -/

/-- One operation on the table. -/
def step (t : Tbl K V) : Spec.Op K V → Option (Tbl K V × Spec.Obs V)
  | .set k v => (setitem h t k v).map fun t => (t, .none)
  | .del k => (delitem h t k).map fun p => (p.1, if p.2 then .keyError else .none)
  | .pop k => (pop h t k).map fun p => (p.1, match p.2 with | some v => .val v | none => .keyError)
  | .clear => some (kclear t, .none)
  | .resize m => (kresize h t m).map fun t => (t, .none)
  | .get k => (getitem h t k).map fun o => (t, match o with | some v => .val v | none => .keyError)
  | .getD k d => (getD h t k d).map fun v => (t, .val v)
  | .setdefault k v => (setdefault h t k v).map fun p => (p.1, .val p.2)
  | .contains k => (contains h t k).map fun b => (t, .bool b)
  | .len => some (t, .nat (len t))
  | .copy => some (copy t, .none)

variable (h) in
def run (t : Tbl K V) : List (Spec.Op K V) → Option (Tbl K V × List (Spec.Obs V))
  | [] => some (t, [])
  | op :: ops => do
    let (t, o) ← step (h := h) t op
    let (t, os) ← run t ops
    return (t, o :: os)

/-- A `resize` request stays below 2^41 buckets (the allocation would otherwise need terabytes). -/
def opOK : Spec.Op K V → Prop
  | .resize m => m.toInt ≤ ((2 ^ 41 : Nat) : Int)
  | _ => True

theorem length_erase_le (m : Spec.Map K V) (k : K) : (erase m k).length ≤ m.length :=
  List.length_filter_le _ _

theorem step_rel {t : Tbl K V} {m : Spec.Map K V} (r : Rel h t m) (hnb : t.nb ≤ 2 ^ 41)
    (hsz : m.length ≤ 2 ^ 38) (op : Spec.Op K V) (hop : opOK op) :
    ∃ t', step (h := h) t op = some (t', (Spec.step m op).2) ∧ Rel h t' (Spec.step m op).1 ∧
      t'.nb ≤ 2 ^ 41 ∧ (Spec.step m op).1.length ≤ m.length + 1 := by
  have hsize := r.size
  have hgrow : ∀ {a : Nat}, a ≤ max t.nb (max 4 (4 * t.size)) → a ≤ 2 ^ 41 := by
    intro a ha
    have : 4 * t.size ≤ 2 ^ 40 := by rw [hsize]; omega
    omega
  cases op with
  | set k v =>
    obtain ⟨t', e1, e2, e3⟩ := setitem_rel r (by omega) k v
    refine ⟨t', by simp [step, e1, Spec.step], e2, hgrow e3, ?_⟩
    have := length_erase_le m k
    simp [Spec.step, Spec.store]; exact this
  | del k =>
    have := length_erase_le m k
    rcases delitem_rel r k with ⟨t', v, e1, e2, e3, e4⟩ | ⟨e1, e2⟩
    · exact ⟨t', by simp [step, e1, Spec.step, e2], by simpa [Spec.step, e2] using e3, by omega,
        by simp [Spec.step, e2]; omega⟩
    · exact ⟨t, by simp [step, e1, Spec.step, e2], by simpa [Spec.step, e2] using r, hnb,
        by simp [Spec.step, e2]⟩
  | pop k =>
    have := length_erase_le m k
    rcases pop_rel r k with ⟨t', v, e1, e2, e3, e4⟩ | ⟨e1, e2⟩
    · exact ⟨t', by simp [step, e1, Spec.step, e2], by simpa [Spec.step, e2] using e3, by omega,
        by simp [Spec.step, e2]; omega⟩
    · exact ⟨t, by simp [step, e1, Spec.step, e2], by simpa [Spec.step, e2] using r, hnb,
        by simp [Spec.step, e2]⟩
  | clear =>
    obtain ⟨e1, e2⟩ := clear_rel r
    exact ⟨_, rfl, e1, by omega, by simp [Spec.step]⟩
  | resize n =>
    obtain ⟨t', e1, e2, e3⟩ := resize_rel r n
    refine ⟨t', by simp [step, e1, Spec.step], e2, ?_, by simp [Spec.step]⟩
    have := roundUp_le (m := n) (B := 41) (by omega) (by omega) hop
    omega
  | get k =>
    have e := getitem_rel r k
    cases hf : find m k with
    | none =>
      rw [hf] at e
      exact ⟨t, by simp [step, e, Spec.step, hf], by simpa [Spec.step, hf] using r, hnb,
        by simp [Spec.step, hf]⟩
    | some v =>
      rw [hf] at e
      exact ⟨t, by simp [step, e, Spec.step, hf], by simpa [Spec.step, hf] using r, hnb,
        by simp [Spec.step, hf]⟩
  | getD k d =>
    have e := getD_rel r k d
    cases hf : find m k with
    | none =>
      rw [hf] at e
      exact ⟨t, by simp [step, e, Spec.step, hf], by simpa [Spec.step, hf] using r, hnb,
        by simp [Spec.step, hf]⟩
    | some v =>
      rw [hf] at e
      exact ⟨t, by simp [step, e, Spec.step, hf], by simpa [Spec.step, hf] using r, hnb,
        by simp [Spec.step, hf]⟩
  | setdefault k v =>
    obtain ⟨t', e0, e⟩ := setdefault_rel r (by omega) k v
    rcases e with ⟨w, e1, e2, e3⟩ | ⟨e1, e2, e3⟩
    · exact ⟨t', by simp [step, e1, Spec.step, e2], by simpa [Spec.step, e2] using e3, hgrow e0,
        by simp [Spec.step, e2]⟩
    · refine ⟨t', by simp [step, e1, Spec.step, e2], by simpa [Spec.step, e2] using e3, hgrow e0, ?_⟩
      have := length_erase_le m k
      simp [Spec.step, e2, Spec.store]; exact this
  | contains k =>
    have e := contains_rel r k
    exact ⟨t, by simp [step, e, Spec.step], r, hnb, by simp [Spec.step]⟩
  | len => exact ⟨t, by simp [step, len, Spec.step, hsize], r, hnb, by simp [Spec.step]⟩
  | copy =>
    obtain ⟨e1, e2⟩ := copy_rel r
    exact ⟨_, rfl, e1, by omega, by simp [Spec.step]⟩

theorem run_rel : ∀ (ops : List (Spec.Op K V)) (t : Tbl K V) (m : Spec.Map K V), Rel h t m →
    t.nb ≤ 2 ^ 41 → (∀ p, p <+: ops → (Spec.run m p).1.length ≤ 2 ^ 38) → (∀ op ∈ ops, opOK op) →
    ∃ t', run h t ops = some (t', (Spec.run m ops).2) ∧ Rel h t' (Spec.run m ops).1 ∧
      t'.nb ≤ 2 ^ 41 := by
  intro ops
  induction ops with
  | nil => intro t m r hnb _ _; exact ⟨t, rfl, r, hnb⟩
  | cons op ops ih =>
    intro t m r hnb hlen hok
    have h0 := hlen [] (List.nil_prefix)
    obtain ⟨t1, e1, e2, e3, e4⟩ := step_rel r hnb h0 op (hok op List.mem_cons_self)
    obtain ⟨t2, f1, f2, f3⟩ := ih t1 _ e2 e3
      (fun p hp => hlen (op :: p) (List.cons_prefix_cons.mpr ⟨rfl, hp⟩))
      fun o ho => hok o (List.mem_cons_of_mem _ ho)
    refine ⟨t2, ?_, f2, f3⟩
    simp only [run, e1, Option.bind_eq_bind, Option.bind_some, f1]
    rfl

theorem popitemFrom_rel {t : Tbl K V} {m : Spec.Map K V} (r : Rel h t m) :
    ∀ n i, i + n = t.nb → (∀ j, j < i → live t.flags j = false) →
      (m = [] ∧ popitemFrom h t n i = some (t, none)) ∨
      ∃ t' k v, popitemFrom h t n i = some (t', some (k, v)) ∧ (k, v) ∈ m ∧
        Rel h t' (erase m k) ∧ t'.nb = t.nb := by
  intro n
  induction n with
  | zero =>
    intro i hi hd
    left
    refine ⟨?_, rfl⟩
    have : t.content = [] := by
      rw [List.eq_nil_iff_forall_not_mem]
      intro p hp
      obtain ⟨j, hj, hs⟩ := mem_contentOf.mp hp
      have := (slotOf_live hs).1
      rw [hd j (by omega)] at this
      cases this
    have hp := r.perm
    rw [this] at hp
    have := hp.length_eq
    simp only [emb, List.length_nil, List.length_map] at this
    exact List.length_eq_zero_iff.mp this.symm
  | succ n ih =>
    intro i hi hd
    have hf : Full h t := by
      rcases r.inv with rfl | hf
      · simp [Tbl.empty] at hi
      · exact hf
    unfold popitemFrom
    rw [iseither_eq (hf.flr (by omega))]
    simp only [Option.bind_eq_bind, Option.bind_some]
    by_cases hl : live t.flags i = true
    · right
      obtain ⟨k, hk⟩ := hf.ini i (by omega) hl
      have hl' := hl
      unfold live at hl'
      simp only [Bool.and_eq_true, Bool.not_eq_true'] at hl'
      rw [hl'.1, hl'.2, hk]
      simp only [Bool.or_self, Bool.false_eq_true, if_false, Option.bind_some]
      have hm : ∃ v, (k, v) ∈ m := by
        have h1 : (k, (t.vals[i]?).join) ∈ t.content :=
          mem_contentOf.mpr ⟨i, by omega, slotOf_eq hl hk⟩
        have h2 := (r.perm.mem_iff).mp h1
        obtain ⟨v, -, hv⟩ := mem_emb.mp h2
        exact ⟨v, hv⟩
      rcases pop_rel r k with ⟨t', v, e1, e2, e3, e4⟩ | ⟨e1, e2⟩
      · rw [e1]
        exact ⟨t', k, v, rfl, (find_some_iff r.nd).mp e2, e3, e4⟩
      · obtain ⟨v, hv⟩ := hm
        exact absurd hv (find_none_iff.mp e2 v)
    · have : (E t.flags i || D t.flags i) = true := by
        unfold live at hl
        cases hE : E t.flags i <;> cases hD : D t.flags i <;> simp_all
      rw [if_pos this]
      exact ih (i + 1) (by omega) (by
        intro j hj
        by_cases hji : j = i
        · subst hji; simpa using hl
        · exact hd j (by omega))

theorem popitem_rel {t : Tbl K V} {m : Spec.Map K V} (r : Rel h t m) :
    (m = [] ∧ popitem h t = some (t, none)) ∨
      ∃ t' k v, popitem h t = some (t', some (k, v)) ∧ (k, v) ∈ m ∧
        Rel h t' (erase m k) ∧ t'.nb = t.nb :=
  popitemFrom_rel r t.nb 0 (by omega) (by omega)

theorem update_rel : ∀ (ps : List (K × V)) (t : Tbl K V) (m : Spec.Map K V), Rel h t m →
    t.nb ≤ 2 ^ 41 → m.length + ps.length ≤ 2 ^ 38 →
    ∃ t', update h t ps = some t' ∧ Rel h t' (ps.foldl (fun m p => store m p.1 p.2) m) := by
  intro ps
  induction ps with
  | nil => intro t m r _ _; exact ⟨t, rfl, r⟩
  | cons p ps ih =>
    intro t m r hnb hl
    obtain ⟨k, v⟩ := p
    simp only [List.length_cons] at hl
    obtain ⟨t1, e1, e2, e3⟩ := setitem_rel r (by omega) k v
    have h1 := r.size
    have h2 := length_erase_le m k
    have h3 : (store m k v).length = (erase m k).length + 1 := rfl
    obtain ⟨t2, f1, f2⟩ := ih t1 _ e2 (by omega) (by omega)
    refine ⟨t2, ?_, f2⟩
    unfold update
    rw [e1]; exact f1

theorem dictEqLoop_rel [DecidableEq V] {b : Tbl K V} {m : Spec.Map K V} (r : Rel h b m) :
    ∀ ps : List (K × V), dictEqLoop h b ps = some (decide (∀ p ∈ ps, find m p.1 = some p.2)) := by
  intro ps
  induction ps with
  | nil => simp [dictEqLoop]
  | cons p ps ih =>
    obtain ⟨k, v⟩ := p
    unfold dictEqLoop
    rw [getitem_rel r k]
    cases hf : find m k with
    | none => simp [hf]
    | some w =>
      simp only [Option.bind_eq_bind, Option.bind_some]
      by_cases hw : w = v
      · rw [if_pos hw, ih]; simp [hf, hw]
      · rw [if_neg hw]; simp [hf, hw]

end

end Codon.KHash
