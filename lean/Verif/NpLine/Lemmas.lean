import Verif.NpLine.Spec
import Verif.Numpy.ApplyLemmas
import Verif.Numpy.CopyLemmas
import Verif.Numpy.UfuncLemmas
/-! # Lines of an array -/
namespace Codon.NpLine
open Codon.Numpy
variable {V : Type}

theorem readLine_spec (h : Heap V) (b : Nat) (st : Int) : ∀ (n : Nat) (o : Int), (∀ i < n, ∃ v, h.get b (o + (i : Nat) * st) = some v) →
    ∃ l, readLine h b st n o = some l ∧ l.length = n ∧ ∀ i < n, h.get b (o + (i : Nat) * st) = l[i]? := by
  intro n
  induction n with
  | zero => intro o _; exact ⟨[], rfl, rfl, fun i hi => by omega⟩
  | succ n ih =>
    intro o hd
    obtain ⟨v, hv⟩ := hd 0 (by omega)
    simp only [Int.natCast_zero, Int.zero_mul, Int.add_zero] at hv
    obtain ⟨l, e1, e2, e3⟩ := ih (o + st) fun i hi => by
      obtain ⟨v, hv⟩ := hd (i + 1) (by omega)
      refine ⟨v, ?_⟩
      rw [← hv]; congr 1; push_cast; ring
    refine ⟨v :: l, by simp [readLine, hv, e1], by simp [e2], fun i hi => ?_⟩
    cases i with
    | zero => simpa using hv
    | succ i =>
      rw [List.getElem?_cons_succ, ← e3 i (by omega)]
      congr 1; push_cast; ring

theorem write_get {h h' : Heap V} {b : Nat} {o : Int} {v : V} (he : h.write b o v = some h') :
    h'.next = h.next ∧ ∀ b' o', h'.get b' o' = if b' = b ∧ o' = o then some v else h.get b' o' := by
  unfold Heap.write at he
  cases hg : h.get b o with
  | none => rw [hg] at he; simp at he
  | some u =>
    rw [hg] at he
    simp only [Option.some.injEq] at he
    subst he
    exact ⟨rfl, fun _ _ => rfl⟩

theorem write_some {h : Heap V} {b : Nat} {o : Int} {u : V} (v : V) (hg : h.get b o = some u) : ∃ h', h.write b o v = some h' := by
  unfold Heap.write; rw [hg]; exact ⟨_, rfl⟩

theorem writeLine_spec (b : Nat) (st : Int) : ∀ (l : List V) (o : Int) (h : Heap V), (∀ i < l.length, ∃ v, h.get b (o + (i : Nat) * st) = some v) → (l.length ≤ 1 ∨ st ≠ 0) →
    ∃ h', writeLine b st l o h = some h' ∧ h'.next = h.next ∧ (∀ i < l.length, h'.get b (o + (i : Nat) * st) = l[i]?) ∧
      ∀ b' o', (∀ i < l.length, ¬ (b' = b ∧ o' = o + (i : Nat) * st)) → h'.get b' o' = h.get b' o' := by
  intro l
  induction l with
  | nil => intro o h _ _; exact ⟨h, rfl, rfl, fun i hi => by simp at hi, fun _ _ _ => rfl⟩
  | cons v l ih =>
    intro o h hd hst
    obtain ⟨u, hu⟩ := hd 0 (by simp)
    simp only [Int.natCast_zero, Int.zero_mul, Int.add_zero] at hu
    obtain ⟨h1, hw⟩ := write_some v hu
    obtain ⟨w1, w2⟩ := write_get hw
    have sh : ∀ i : Nat, o + st + (i : Int) * st = o + ((i + 1 : Nat) : Int) * st := fun i => by push_cast; ring
    obtain ⟨h', e1, e2, e3, e4⟩ := ih (o + st) h1 (fun i hi => by
      obtain ⟨v', hv'⟩ := hd (i + 1) (by simp; omega)
      rw [sh i, w2]
      by_cases c : b = b ∧ o + ((i + 1 : Nat) : Int) * st = o
      · exact ⟨v, by rw [if_pos c]⟩
      · exact ⟨v', by rw [if_neg c]; exact hv'⟩) (by
        rcases hst with hst | hst
        · simp at hst; left; simp [hst]
        · exact Or.inr hst)
    refine ⟨h', by simp [writeLine, hw, e1], by rw [e2, w1], fun i hi => ?_, fun b' o' hn => ?_⟩
    · cases i with
      | zero =>
        simp only [Int.natCast_zero, Int.zero_mul, Int.add_zero, List.getElem?_cons_zero]
        rw [e4, w2, if_pos ⟨rfl, rfl⟩]
        rintro j hj ⟨_, he⟩
        rcases hst with hst | hst
        · simp at hst; subst hst; simp at hj
        · rw [sh j] at he
          have h0 : ((j + 1 : Nat) : Int) * st = 0 := by omega
          rcases Int.mul_eq_zero.1 h0 with hz | hz
          · omega
          · exact hst hz
      | succ i =>
        rw [List.getElem?_cons_succ, ← e3 i (by simpa using hi), sh i]
    · rw [e4, w2, if_neg]
      · have := hn 0 (by simp)
        simpa using this
      · intro i hi
        have := hn (i + 1) (by simpa using hi)
        rw [sh i]; exact this

/-- Writing back what is there changes nothing. -/
theorem writeLine_same (b : Nat) (st : Int) : ∀ (n : Nat) (l : List V) (o : Int) (h : Heap V), readLine h b st n o = some l →
    ∃ h', writeLine b st l o h = some h' ∧ h'.next = h.next ∧ ∀ b' o', h'.get b' o' = h.get b' o' := by
  intro n
  induction n with
  | zero => intro l o h he; simp [readLine] at he; subst he; exact ⟨h, rfl, rfl, fun _ _ => rfl⟩
  | succ n ih =>
    intro l o h he
    simp only [readLine, Option.bind_eq_bind, Option.bind_eq_some_iff, Option.pure_def, Option.some.injEq] at he
    obtain ⟨v, hv, r, hr, rfl⟩ := he
    obtain ⟨h1, hw⟩ := write_some v hv
    obtain ⟨w1, w2⟩ := write_get hw
    have hg : ∀ b' o', h1.get b' o' = h.get b' o' := fun b' o' => by
      rw [w2]
      by_cases c : b' = b ∧ o' = o
      · rw [if_pos c, c.1, c.2, hv]
      · rw [if_neg c]
    have hh : h1 = h := by
      cases h1; cases h
      simp only at w1
      subst w1
      congr 1
      funext b' o'
      exact hg b' o'
    subst hh
    obtain ⟨h', e1, e2, e3⟩ := ih r (o + st) h1 hr
    exact ⟨h', by simp [writeLine, hw, e1], e2, e3⟩

section
variable {h : Heap V} {a : Arr} {k : Nat}

theorem idx_length (hk : k < a.shape.length) {idx : List Int} (hv : Valid idx (a.shape.eraseIdx k)) : idx.length + 1 = a.shape.length := by
  have := Valid.length hv
  rw [List.length_eraseIdx, if_pos hk] at this; omega

/-- Where element `i` of a line is. -/
theorem line_addr (hl : a.shape.length = a.strides.length) (hk : k < a.shape.length) {idx : List Int} (hv : Valid idx (a.shape.eraseIdx k)) (i : Nat) :
    a.addr (idx.insertIdx k (i : Int)) = ((a.ptr (idx.insertIdx k 0)).1, (a.ptr (idx.insertIdx k 0)).2 + (i : Nat) * a.strides.getD k 0) :=
  addr_insert a k idx i (by have := idx_length hk hv; omega) (by omega)

theorem line_read (h : Heap V) (hl : a.shape.length = a.strides.length) (hk : k < a.shape.length) {idx : List Int} (hv : Valid idx (a.shape.eraseIdx k)) (i : Nat) :
    a.read h (idx.insertIdx k (i : Int)) = h.get (a.ptr (idx.insertIdx k 0)).1 ((a.ptr (idx.insertIdx k 0)).2 + (i : Nat) * a.strides.getD k 0) := by
  have := line_addr hl hk hv i
  show h.get (a.addr (idx.insertIdx k (i : Int))).1 (a.addr (idx.insertIdx k (i : Int))).2 = _
  rw [this]

theorem line_valid (hk : k < a.shape.length) {idx : List Int} (hv : Valid idx (a.shape.eraseIdx k)) {i : Nat} (hi : i < (a.shape.getD k 0).toNat) : Valid (idx.insertIdx k (i : Int)) a.shape :=
  valid_insert k a.shape idx i hk hv (by omega) (by omega)

/-- The elements of a line lie at different places. -/
theorem line_step (hl : a.shape.length = a.strides.length) (hinj : Distinct a) (hk : k < a.shape.length) {idx : List Int} (hv : Valid idx (a.shape.eraseIdx k)) :
    (a.shape.getD k 0).toNat ≤ 1 ∨ a.strides.getD k 0 ≠ 0 := by
  by_cases hn : (a.shape.getD k 0).toNat ≤ 1
  · exact Or.inl hn
  · refine Or.inr fun h0 => ?_
    have e0 := line_addr hl hk hv 0
    have e1 := line_addr hl hk hv 1
    rw [h0, Int.mul_zero] at e0 e1
    have := hinj _ _ (line_valid hk hv (i := 0) (by omega)) (line_valid hk hv (i := 1) (by omega)) (by rw [e0, e1])
    have := (insert_inj k idx idx _ _ (by have := idx_length hk hv; omega) (by have := idx_length hk hv; omega) this).2
    simp at this

theorem line_get (hwf : a.WF h) (hk : k < a.shape.length) {idx : List Int} (hv : Valid idx (a.shape.eraseIdx k)) :
    ∃ l, readLine h (a.ptr (idx.insertIdx k 0)).1 (a.strides.getD k 0) (a.shape.getD k 0).toNat (a.ptr (idx.insertIdx k 0)).2 = some l ∧ Line h a k idx l := by
  obtain ⟨l, e1, e2, e3⟩ := readLine_spec h (a.ptr (idx.insertIdx k 0)).1 (a.strides.getD k 0) (a.shape.getD k 0).toNat (a.ptr (idx.insertIdx k 0)).2 fun i hi => by
    rw [← line_read h hwf.len hk hv i]
    exact hwf.alloc _ (line_valid hk hv hi)
  exact ⟨l, e1, e2, fun i hi => by rw [line_read h hwf.len hk hv i]; exact e3 i hi⟩

theorem Line.unique {idx : List Int} {l l' : List V} (h1 : Line h a k idx l) (h2 : Line h a k idx l') : l = l' := by
  refine List.ext_getElem? fun i => ?_
  by_cases hi : i < (a.shape.getD k 0).toNat
  · rw [← h1.2 i hi, ← h2.2 i hi]
  · have e1 := h1.1
    have e2 := h2.1
    rw [List.getElem?_eq_none (by omega), List.getElem?_eq_none (by omega)]

/-- A line only depends on the memory of its elements. -/
theorem Line.congr {h' : Heap V} {idx : List Int} {l : List V} (h1 : Line h a k idx l)
    (he : ∀ i < (a.shape.getD k 0).toNat, a.read h' (idx.insertIdx k (i : Int)) = a.read h (idx.insertIdx k (i : Int))) : Line h' a k idx l :=
  ⟨h1.1, fun i hi => by rw [he i hi]; exact h1.2 i hi⟩

/-- Elements of different lines lie at different places. -/
theorem line_sep (hinj : Distinct a) (hk : k < a.shape.length) {idx idx' : List Int} (hv : Valid idx (a.shape.eraseIdx k)) (hv' : Valid idx' (a.shape.eraseIdx k)) (hne : idx ≠ idx')
    {i j : Nat} (hi : i < (a.shape.getD k 0).toNat) (hj : j < (a.shape.getD k 0).toNat) : a.addr (idx.insertIdx k (i : Int)) ≠ a.addr (idx'.insertIdx k (j : Int)) := fun he => by
  have e := hinj _ _ (line_valid hk hv hi) (line_valid hk hv' hj) he
  exact hne (insert_inj k idx idx' _ _ (by have := idx_length hk hv; omega) (by have := idx_length hk hv'; omega) e).1

/-- Storing a line. -/
theorem line_put (hwf : a.WF h) (hinj : Distinct a) (hk : k < a.shape.length) {idx : List Int} (hv : Valid idx (a.shape.eraseIdx k)) {l : List V} (hl : l.length = (a.shape.getD k 0).toNat) :
    ∃ h', writeLine (a.ptr (idx.insertIdx k 0)).1 (a.strides.getD k 0) l (a.ptr (idx.insertIdx k 0)).2 h = some h' ∧ h'.next = h.next ∧ Line h' a k idx l ∧ a.WF h' ∧
      ∀ p : Nat × Int, (∀ i < (a.shape.getD k 0).toNat, a.addr (idx.insertIdx k (i : Int)) ≠ p) → h'.get p.1 p.2 = h.get p.1 p.2 := by
  obtain ⟨h', e1, e2, e3, e4⟩ := writeLine_spec (a.ptr (idx.insertIdx k 0)).1 (a.strides.getD k 0) l (a.ptr (idx.insertIdx k 0)).2 h (fun i hi => by
    rw [← line_read h hwf.len hk hv i]
    exact hwf.alloc _ (line_valid hk hv (by omega))) (by rw [hl]; exact line_step hwf.len hinj hk hv)
  have hline : Line h' a k idx l := ⟨hl, fun i hi => by rw [line_read h' hwf.len hk hv i]; exact e3 i (by omega)⟩
  have hfr : ∀ p : Nat × Int, (∀ i < (a.shape.getD k 0).toNat, a.addr (idx.insertIdx k (i : Int)) ≠ p) → h'.get p.1 p.2 = h.get p.1 p.2 := fun p hp => by
    refine e4 p.1 p.2 fun i hi he => hp i (by omega) ?_
    rw [line_addr hwf.len hk hv i]
    exact Prod.ext he.1.symm he.2.symm
  refine ⟨h', e1, e2, hline, ⟨hwf.len, hwf.nonneg, fun c hc => ?_, by rw [e2]; exact hwf.block⟩, hfr⟩
  by_cases hin : ∀ i < (a.shape.getD k 0).toNat, a.addr (idx.insertIdx k (i : Int)) ≠ a.addr c
  · obtain ⟨v, hv'⟩ := hwf.alloc c hc
    exact ⟨v, by rw [← hv']; exact hfr (a.addr c) hin⟩
  · simp only [Classical.not_forall, not_not] at hin
    obtain ⟨i, hi, he⟩ := hin
    have := hline.2 i hi
    rw [hinj _ _ (line_valid hk hv hi) hc he] at this
    exact ⟨l[i]'(by omega), by rw [this, List.getElem?_eq_getElem (by omega)]⟩

theorem lines_spec (hinj : Distinct a) (hk : k < a.shape.length) (sorter : List V → Option (List V)) (P : List V → List V → Prop)
    (hs : ∀ l : List V, l.length = (a.shape.getD k 0).toNat → ∃ l', sorter l = some l' ∧ l'.length = l.length ∧ P l l') : ∀ (cs : List (List Int)) (h : Heap V), a.WF h → cs.Nodup →
    (∀ idx ∈ cs, Valid idx (a.shape.eraseIdx k)) →
    ∃ h', lines sorter a k (a.strides.getD k 0) cs h = some h' ∧ h'.next = h.next ∧ a.WF h' ∧ (∀ idx ∈ cs, ∃ l l', Line h a k idx l ∧ Line h' a k idx l' ∧ P l l') ∧
      ∀ p : Nat × Int, (∀ idx ∈ cs, ∀ i < (a.shape.getD k 0).toNat, a.addr (idx.insertIdx k (i : Int)) ≠ p) → h'.get p.1 p.2 = h.get p.1 p.2 := by
  intro cs
  induction cs with
  | nil => intro h hwf _ _; exact ⟨h, rfl, rfl, hwf, fun _ hm => (by cases hm), fun _ _ => rfl⟩
  | cons idx cs ih =>
    intro h hwf hnd hval
    obtain ⟨hni, hnd⟩ := List.nodup_cons.1 hnd
    have hv := hval idx (by simp)
    obtain ⟨l, g1, g2⟩ := line_get hwf hk hv
    obtain ⟨l', s1, s2, s3⟩ := hs l g2.1
    obtain ⟨h1, p1, p2, p3, p4, p5⟩ := line_put hwf hinj hk hv (l := l') (by rw [s2]; exact g2.1)
    obtain ⟨h', e1, e2, e3, e4, e5⟩ := ih h1 p4 hnd fun i hi => hval i (by simp [hi])
    refine ⟨h', ?_, by rw [e2, p2], e3, fun i hi => ?_, fun p hp => ?_⟩
    · simp only [lines, g1, s1, p1, Option.bind_eq_bind, Option.bind_some]
      exact e1
    · rcases List.mem_cons.1 hi with rfl | hi
      · refine ⟨l, l', g2, p3.congr fun j hj => ?_, s3⟩
        exact e5 (a.addr _) fun idx' hi' j' hj' => line_sep hinj hk (hval idx' (by simp [hi'])) hv (fun e => hni (e ▸ hi')) hj' hj
      · obtain ⟨m, m', m1, m2, m3⟩ := e4 i hi
        refine ⟨m, m', m1.congr fun j hj => ?_, m2, m3⟩
        exact (p5 (a.addr _) fun j' hj' => line_sep hinj hk hv (hval i (by simp [hi])) (fun e => hni (e ▸ hi)) hj' hj).symm
    · rw [e5 p fun i hi => hp i (by simp [hi]), p5 p (hp idx (by simp))]

/-- The loop of `_asort`: the array is unchanged, the indices of each line are those found by the sorter. -/
theorem asortLines_spec {b : Arr} (hsh : b.shape = a.shape) (hk : k < a.shape.length) (hb : Distinct b) (w wi : Int) (sorter : List V → List Nat → Option (List Nat)) (P : List V → List Nat → Prop)
    (hs : ∀ l : List V, l.length = (a.shape.getD k 0).toNat → ∃ r, sorter l (List.range l.length) = some r ∧ r.length = l.length ∧ P l r) : ∀ (cs : List (List Int)) (h : Heap V) (g : Heap Nat),
    a.WF h → b.WF g → cs.Nodup → (∀ idx ∈ cs, Valid idx (a.shape.eraseIdx k)) →
    ∃ g', asortLines sorter a b k w wi cs h g = some (h, g') ∧ g'.next = g.next ∧ b.WF g' ∧ (∀ idx ∈ cs, ∃ l r, Line h a k idx l ∧ Line g' b k idx r ∧ P l r) ∧
      ∀ p : Nat × Int, (∀ idx ∈ cs, ∀ i < (a.shape.getD k 0).toNat, b.addr (idx.insertIdx k (i : Int)) ≠ p) → g'.get p.1 p.2 = g.get p.1 p.2 := by
  have hkb : k < b.shape.length := by rw [hsh]; exact hk
  intro cs
  induction cs with
  | nil => intro h g _ hwf _ _; exact ⟨g, rfl, rfl, hwf, fun _ hm => (by cases hm), fun _ _ => rfl⟩
  | cons idx cs ih =>
    intro h g hwa hwb hnd hval
    obtain ⟨hni, hnd⟩ := List.nodup_cons.1 hnd
    have hv := hval idx (by simp)
    have hvb : Valid idx (b.shape.eraseIdx k) := by rw [hsh]; exact hv
    obtain ⟨l, g1, g2⟩ := line_get hwa hk hv
    obtain ⟨r, s1, s2, s3⟩ := hs l g2.1
    have hlen := g2.1
    -- the indices before sorting
    have init : ∃ g1, (if b.strides.getD k 0 = wi then writeLine (b.ptr (idx.insertIdx k 0)).1 wi (List.range (a.shape.getD k 0).toNat) (b.ptr (idx.insertIdx k 0)).2 g else some g) = some g1 ∧
        (if b.strides.getD k 0 = wi then readLine g1 (b.ptr (idx.insertIdx k 0)).1 wi (a.shape.getD k 0).toNat (b.ptr (idx.insertIdx k 0)).2 else some (List.range (a.shape.getD k 0).toNat))
          = some (List.range (a.shape.getD k 0).toNat) ∧ g1.next = g.next ∧ b.WF g1 ∧
        ∀ p : Nat × Int, (∀ i < (a.shape.getD k 0).toNat, b.addr (idx.insertIdx k (i : Int)) ≠ p) → g1.get p.1 p.2 = g.get p.1 p.2 := by
      by_cases c : b.strides.getD k 0 = wi
      · simp only [if_pos c]
        obtain ⟨g1, p1, p2, p3, p4, p5⟩ := line_put hwb hb hkb hvb (l := List.range (a.shape.getD k 0).toNat) (by rw [hsh]; simp)
        obtain ⟨l2, q1, q2⟩ := line_get p4 hkb hvb
        rw [q2.unique p3, hsh, c] at q1
        rw [c] at p1
        rw [hsh] at p5
        exact ⟨g1, p1, q1, p2, p4, p5⟩
      · simp only [if_neg c]
        exact ⟨g, rfl, trivial, rfl, hwb, fun _ _ => rfl⟩
    obtain ⟨ga, i1, i2, i3, i4, i5⟩ := init
    have back : (if a.strides.getD k 0 = w then some h else writeLine (a.ptr (idx.insertIdx k 0)).1 (a.strides.getD k 0) l (a.ptr (idx.insertIdx k 0)).2 h) = some h := by
      by_cases c : a.strides.getD k 0 = w
      · rw [if_pos c]
      · rw [if_neg c]
        obtain ⟨h', e1, e2, e3⟩ := writeLine_same _ _ _ _ _ _ g1
        rw [e1]
        cases h'; cases h
        simp only at e2 e3
        subst e2
        congr 2
        funext b' o'
        exact e3 b' o'
    have rd : (if a.strides.getD k 0 = w then w else a.strides.getD k 0) = a.strides.getD k 0 := by
      by_cases c : a.strides.getD k 0 = w
      · rw [if_pos c, c]
      · rw [if_neg c]
    obtain ⟨gb, p1, p2, p3, p4, p5⟩ := line_put i4 hb hkb hvb (l := r) (by rw [s2, hsh]; exact hlen)
    rw [hsh] at p5
    have put : (if b.strides.getD k 0 = wi then writeLine (b.ptr (idx.insertIdx k 0)).1 wi r (b.ptr (idx.insertIdx k 0)).2 ga
        else writeLine (b.ptr (idx.insertIdx k 0)).1 (b.strides.getD k 0) r (b.ptr (idx.insertIdx k 0)).2 ga) = some gb := by
      by_cases c : b.strides.getD k 0 = wi
      · rw [if_pos c, ← c]; exact p1
      · rw [if_neg c]; exact p1
    obtain ⟨g', e1, e2, e3, e4, e5⟩ := ih h gb hwa p4 hnd fun i hi => hval i (by simp [hi])
    refine ⟨g', ?_, by rw [e2, p2, i3], e3, fun i hi => ?_, fun p hp => ?_⟩
    · rw [hlen] at s1
      simp only [asortLines, rd, g1, i1, i2, s1, back, put, Option.bind_eq_bind, Option.bind_some]
      exact e1
    · rcases List.mem_cons.1 hi with rfl | hi
      · refine ⟨l, r, g2, p3.congr fun j hj => ?_, s3⟩
        exact e5 (b.addr _) fun idx' hi' j' hj' => line_sep hb hkb (by rw [hsh]; exact hval idx' (by simp [hi'])) hvb (fun e => hni (e ▸ hi')) (by rw [hsh]; exact hj') hj
      · exact e4 i hi
    · rw [e5 p fun i hi => hp i (by simp [hi]), p5 p (hp idx (by simp)), i5 p (hp idx (by simp))]

/-- `_sort_dispatch` does its work on each line. -/
theorem dispatch_spec (hwf : a.WF h) (hinj : Distinct a) (axis : Int) (force : Bool) (w : Int) (hax : -(a.shape.length : Int) ≤ axis ∧ axis < a.shape.length)
    (hforce : force = true → a.strides.getD (axisPos axis a.shape.length) 0 = w) (sorter : List V → Option (List V)) (P : List V → List V → Prop)
    (hs : ∀ l : List V, l.length = (a.shape.getD (axisPos axis a.shape.length) 0).toNat → ∃ l', sorter l = some l' ∧ l'.length = l.length ∧ P l l') :
    ∃ h', dispatch sorter a axis force w h = some (.ok h') ∧ EachLine h a (axisPos axis a.shape.length) P h' ∧ a.WF h' := by
  have hk : axisPos axis a.shape.length < a.shape.length := by unfold axisPos; split <;> omega
  obtain ⟨h', e1, e2, e3, e4, e5⟩ := lines_spec hinj hk sorter P hs (multirange (a.shape.eraseIdx (axisPos axis a.shape.length))) h hwf (nodup_multirange _) fun idx hi => (mem_multirange _ _).1 hi
  have hn : normAxis axis a.shape.length = .ok (axisPos axis a.shape.length : Nat) := by
    unfold normAxis axisPos
    rw [if_neg (by omega)]
    split <;> (congr 1; omega)
  refine ⟨h', ?_, ⟨e2, fun idx hv => e4 idx ((mem_multirange _ _).2 hv), fun p hp => e5 p fun idx hi i hi' => hp _ (line_valid hk ((mem_multirange _ _).1 hi) hi')⟩, e3⟩
  unfold dispatch
  rw [hn]
  dsimp only
  rw [Int.toNat_natCast]
  cases force with
  | true =>
    rw [if_pos rfl, sortCompact, ← hforce rfl, e1]; rfl
  | false =>
    rw [if_neg (by simp)]
    by_cases hc : a.strides.getD (axisPos axis a.shape.length) 0 = w
    · rw [if_pos hc, sortCompact, ← hc, e1]; rfl
    · rw [if_neg hc, sortBuffered, e1]; rfl
end

/-- A C copy has its elements at different places, and a line of it is compact. -/
theorem copy_distinct (a : Arr) (h : Heap V) (w : Int) (hw : 0 < w) (hwf : a.WF h) (f : Bool) (blk : Nat) (off : Int) : Distinct ⟨a.shape, stridesOf a.shape f w, blk, off⟩ := fun c c' hc hc' he => by
  refine (packed_stridesOf a.shape f w hw hwf.nonneg).inj c c' hc hc' ?_
  simp only [Arr.addr, Prod.mk.injEq, true_and] at he
  omega

theorem stridesOf_one (n : Int) (f : Bool) (w : Int) : stridesOf [n] f w = [w] := by
  cases f <;> simp [stridesOf, stridesLoop]

end Codon.NpLine
