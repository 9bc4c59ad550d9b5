import Verif.NpIdx.Adv
/-! # Index arrays: where the axes go, and integers and `None` -/
namespace Codon.NpIdx
open Codon.Numpy Codon.NpLine Codon.SliceSpec
variable {U V : Type}

def place (p : Nat) (bc sc : List Int) : List Int := sc.take p ++ bc ++ sc.drop p

theorem valid_take : ∀ (p : Nat) (c s : List Int), Valid c s → Valid (c.take p) (s.take p)
  | 0, _, _, _ => by simp [Valid]
  | p + 1, [], [], _ => trivial
  | p + 1, x :: c, n :: s, h => ⟨h.1, valid_take p c s h.2⟩
  | _ + 1, [], _ :: _, h => by simp [Valid] at h
  | _ + 1, _ :: _, [], h => by simp [Valid] at h

theorem valid_place (p : Nat) (bc sc bs dims : List Int) (h1 : Valid bc bs) (h2 : Valid sc dims) : Valid (place p bc sc) (place p bs dims) := by
  have l1 := Valid.length h1
  have l2 := Valid.length h2
  unfold place
  rw [valid_append _ _ _ _ (by simp [l1, l2]), valid_append _ _ _ _ (by simp [l2])]
  exact ⟨⟨valid_take p _ _ h2, h1⟩, valid_drop _ _ _ h2⟩

theorem place_inj (p : Nat) (bc sc bc' sc' : List Int) (h1 : bc.length = bc'.length) (h2 : sc.length = sc'.length) (he : place p bc sc = place p bc' sc') : bc = bc' ∧ sc = sc' := by
  unfold place at he
  rw [List.append_assoc, List.append_assoc] at he
  obtain ⟨e1, e2⟩ := List.append_inj he (by simp [h2])
  obtain ⟨e3, e4⟩ := List.append_inj e2 h1
  exact ⟨e3, by rw [← List.take_append_drop p sc, e1, e4, List.take_append_drop]⟩

theorem place_split (p : Nat) (bs dims c : List Int) (hp : p ≤ dims.length) (hc : Valid c (place p bs dims)) : ∃ bc sc, Valid bc bs ∧ Valid sc dims ∧ c = place p bc sc := by
  have hl := Valid.length hc
  simp only [place, List.length_append, List.length_take, List.length_drop] at hl
  have e : c = c.take p ++ (c.drop p).take bs.length ++ (c.drop p).drop bs.length := by rw [List.append_assoc, List.take_append_drop, List.take_append_drop]
  rw [e, place, valid_append _ _ _ _ (by simp; omega), valid_append _ _ _ _ (by simp; omega)] at hc
  have hl1 : (c.take p).length = p := by simp; omega
  refine ⟨(c.drop p).take bs.length, c.take p ++ (c.drop p).drop bs.length, hc.1.2, ?_, ?_⟩
  · rw [← List.take_append_drop p dims, valid_append _ _ _ _ (by simp; omega)]
    exact ⟨hc.1.1, hc.2⟩
  · rw [place, List.take_left' hl1, List.drop_left' hl1]
    exact e

/-! ### `arrays_at_front` -/

def Ax.isArr : Ax → Bool
  | .arr _ => true
  | _ => false

theorem arraysWhere_append : ∀ (x y : List Ax) (k : Nat), arraysWhere (x ++ y) k = arraysWhere x k ++ arraysWhere y (k + x.length)
  | [], y, k => by simp [arraysWhere]
  | .arr m :: x, y, k => by simp [arraysWhere, arraysWhere_append x y (k + 1)]; congr 1; omega
  | .slice b e s :: x, y, k => by simp [arraysWhere, arraysWhere_append x y (k + 1)]; congr 1; omega

theorem arraysWhere_slices : ∀ (x : List Ax) (k : Nat), (∀ s ∈ x, s.isArr = false) → arraysWhere x k = []
  | [], _, _ => rfl
  | .arr m :: x, k, h => by have := h (.arr m) (by simp); simp [Ax.isArr] at this
  | .slice b e s :: x, k, h => by rw [arraysWhere]; exact arraysWhere_slices x _ fun s hs => h s (by simp [hs])

theorem arraysWhere_arrs : ∀ (x : List Ax) (k : Nat), (∀ s ∈ x, s.isArr = true) → arraysWhere x k = List.range' k x.length
  | [], _, _ => rfl
  | .arr m :: x, k, h => by rw [arraysWhere, arraysWhere_arrs x _ fun s hs => h s (by simp [hs])]; rfl
  | .slice b e s :: x, k, h => by have := h (.slice b e s) (by simp); simp [Ax.isArr] at this

theorem atFront_range : ∀ (n k : Nat), atFront (List.range' k n) = false
  | 0, _ => rfl
  | 1, _ => rfl
  | n + 2, k => by
    have := atFront_range (n + 1) (k + 1)
    rw [List.range'_succ] at this
    rw [List.range'_succ, List.range'_succ, atFront]
    simpa using this

theorem range_of_atFront : ∀ (l : List Nat) (k : Nat), atFront (k :: l) = false → k :: l = List.range' k (l.length + 1)
  | [], _, _ => rfl
  | j :: l, k, h => by
    rw [atFront, Bool.or_eq_false_iff] at h
    have hj : j = k + 1 := by simpa using h.1
    subst hj
    rw [List.length_cons, List.range'_succ (s := k), ← range_of_atFront l (k + 1) h.2]

theorem mem_arraysWhere : ∀ (x : List Ax) (k j : Nat), j ∈ arraysWhere x k ↔ ∃ i m, j = k + i ∧ x[i]? = some (.arr m)
  | [], _, _ => by simp [arraysWhere]
  | .arr m :: x, k, j => by
    rw [arraysWhere, List.mem_cons, mem_arraysWhere x]
    constructor
    · rintro (rfl | ⟨i, m', rfl, h⟩)
      · exact ⟨0, m, rfl, rfl⟩
      · exact ⟨i + 1, m', by omega, by simpa using h⟩
    · rintro ⟨i, m', rfl, h⟩
      cases i with
      | zero => exact Or.inl rfl
      | succ i => exact Or.inr ⟨i, m', by omega, by simpa using h⟩
  | .slice b e s :: x, k, j => by
    rw [arraysWhere, mem_arraysWhere x]
    constructor
    · rintro ⟨i, m', rfl, h⟩
      exact ⟨i + 1, m', by omega, by simpa using h⟩
    · rintro ⟨i, m', rfl, h⟩
      cases i with
      | zero => simp at h
      | succ i => exact ⟨i, m', by omega, by simpa using h⟩

theorem atFront_of_separated (x y z : List Ax) (p q : Arr) (hs : ∃ s ∈ y, s.isArr = false) : atFront (arraysWhere (x ++ .arr p :: y ++ .arr q :: z) 0) = true := by
  by_contra hf
  rw [Bool.not_eq_true] at hf
  obtain ⟨s, hs, hsa⟩ := hs
  obtain ⟨j, hj⟩ := List.getElem?_of_mem hs
  have hjl : j < y.length := (List.getElem?_eq_some_iff.mp hj).1
  have hp : x.length ∈ arraysWhere (x ++ .arr p :: y ++ .arr q :: z) 0 := (mem_arraysWhere _ _ _).mpr ⟨x.length, p, by omega, by simp⟩
  have hq : x.length + 1 + y.length ∈ arraysWhere (x ++ .arr p :: y ++ .arr q :: z) 0 := (mem_arraysWhere _ _ _).mpr ⟨x.length + 1 + y.length, q, by omega, by
    rw [List.getElem?_append_right (by simp; omega)]
    simp
    rw [show x.length + 1 + y.length - (x.length + (y.length + 1)) = 0 by omega]; rfl⟩
  have hall : x.length + 1 + j ∈ arraysWhere (x ++ .arr p :: y ++ .arr q :: z) 0 := by
    cases ha : arraysWhere (x ++ .arr p :: y ++ .arr q :: z) 0 with
    | nil => rw [ha] at hp; simp at hp
    | cons k l =>
      rw [ha] at hf hp hq
      rw [range_of_atFront l k hf] at hp hq ⊢
      rw [List.mem_range'_1] at hp hq ⊢
      omega
  obtain ⟨i, m, e, h⟩ := (mem_arraysWhere _ _ _).mp hall
  rw [show i = x.length + 1 + j by omega, List.getElem?_append_left (by simp; omega), List.getElem?_append_right (by omega), show x.length + 1 + j - x.length = j + 1 by omega, List.getElem?_cons_succ, hj] at h
  simp only [Option.some.injEq] at h
  rw [h] at hsa
  simp [Ax.isArr] at hsa

theorem buildContig_slices : ∀ (x r : List Ax) (sl bs : List Int) (b : Bool), (∀ s ∈ x, s.isArr = false) → x.length ≤ sl.length →
    buildContig (x ++ r) sl bs b = sl.take x.length ++ buildContig r (sl.drop x.length) bs b
  | [], r, sl, bs, b, _, _ => by simp
  | .arr m :: x, r, sl, bs, b, h, _ => by have := h (.arr m) (by simp); simp [Ax.isArr] at this
  | .slice _ _ _ :: x, r, [], bs, b, h, hl => by simp at hl
  | .slice _ _ _ :: x, r, t :: sl, bs, b, h, hl => by
    rw [List.cons_append, buildContig, List.headD_cons, List.tail_cons, buildContig_slices x r sl bs b (fun s hs => h s (by simp [hs])) (by simpa using hl)]
    simp

theorem buildContig_arrs : ∀ (x r : List Ax) (sl bs : List Int), (∀ s ∈ x, s.isArr = true) → buildContig (x ++ r) sl bs true = buildContig r sl bs true
  | [], _, _, _, _ => rfl
  | .slice b e s :: x, _, _, _, h => by have := h (.slice b e s) (by simp); simp [Ax.isArr] at this
  | .arr m :: x, r, sl, bs, h => by rw [List.cons_append, buildContig, if_pos rfl, buildContig_arrs x r sl bs fun s hs => h s (by simp [hs])]

theorem buildShape_together (x y z : List Ax) (hx : ∀ s ∈ x, s.isArr = false) (hy : ∀ s ∈ y, s.isArr = true) (hz : ∀ s ∈ z, s.isArr = false) (hne : y ≠ []) (sl bs : List Int)
    (hl : sl.length = x.length + z.length) : buildShape (x ++ y ++ z) sl bs = place x.length bs sl := by
  unfold buildShape
  rw [arraysWhere_append, arraysWhere_append, arraysWhere_slices x _ hx, arraysWhere_slices z _ hz, arraysWhere_arrs y _ hy, List.nil_append, List.append_nil, atFront_range, if_neg (by simp),
    List.append_assoc, buildContig_slices x _ sl bs false hx (by omega)]
  cases y with
  | nil => exact absurd rfl hne
  | cons s y =>
    cases s with
    | slice b e k => have := hy (.slice b e k) (by simp); simp [Ax.isArr] at this
    | arr m =>
      rw [List.cons_append, buildContig, if_neg (by simp), buildContig_arrs y _ _ _ fun s hs => hy s (by simp [hs])]
      have := buildContig_slices z [] (sl.drop x.length) bs true hz (by simp [hl])
      rw [List.append_nil] at this
      rw [this, buildContig, List.append_nil, List.take_of_length_le (l := sl.drop x.length) (by simp [hl]), place, List.append_assoc]

/-! ### Integers and `None` -/

theorem prune_append : ∀ x y : List AIdx, pruneIndex (x ++ y) = pruneIndex x ++ pruneIndex y
  | [], _ => rfl
  | .int _ :: x, y => by rw [List.cons_append, pruneIndex, pruneIndex, prune_append x y]
  | .newaxis :: x, y => by rw [List.cons_append, pruneIndex, pruneIndex, prune_append x y]; rfl
  | .slice _ _ _ :: x, y => by rw [List.cons_append, pruneIndex, pruneIndex, prune_append x y]; rfl
  | .arr _ :: x, y => by rw [List.cons_append, pruneIndex, pruneIndex, prune_append x y]; rfl
  | .ellipsis :: x, y => by rw [List.cons_append, pruneIndex, pruneIndex, prune_append x y]

theorem prune_nonadv : ∀ x : List AIdx, .ellipsis ∉ x → (∀ s ∈ x, s.adv = false) → (pruneIndex x).length = x.length ∧ ∀ s ∈ pruneIndex x, s.isArr = false
  | [], _, _ => ⟨rfl, by simp [pruneIndex]⟩
  | a :: x, he, h => by
    obtain ⟨h1, h2⟩ := prune_nonadv x (fun hm => he (by simp [hm])) fun s hs => h s (by simp [hs])
    cases a with
    | int k => have := h (.int k) (by simp); simp [AIdx.adv] at this
    | arr m => have := h (.arr m) (by simp); simp [AIdx.adv] at this
    | ellipsis => simp at he
    | newaxis =>
      rw [pruneIndex]
      refine ⟨by simp [h1], fun s hs => ?_⟩
      rcases List.mem_cons.mp hs with rfl | hs
      · rfl
      · exact h2 s hs
    | slice b e k =>
      rw [pruneIndex]
      refine ⟨by simp [h1], fun s hs => ?_⟩
      rcases List.mem_cons.mp hs with rfl | hs
      · rfl
      · exact h2 s hs

theorem prune_adv : ∀ x : List AIdx, (∀ s ∈ x, s.adv = true) → (∀ s ∈ pruneIndex x, s.isArr = true)
  | [], _ => by simp [pruneIndex]
  | a :: x, h => by
    have h2 := prune_adv x fun s hs => h s (by simp [hs])
    cases a with
    | int k => rw [pruneIndex]; exact h2
    | arr m =>
      rw [pruneIndex]
      intro s hs
      rcases List.mem_cons.mp hs with rfl | hs
      · rfl
      · exact h2 s hs
    | ellipsis => have := h .ellipsis (by simp); simp [AIdx.adv] at this
    | newaxis => have := h .newaxis (by simp); simp [AIdx.adv] at this
    | slice b e k => have := h (.slice b e k) (by simp); simp [AIdx.adv] at this

theorem arraysOf_prune : ∀ x : List AIdx, arraysOf (pruneIndex x) = AIdx.arrays x
  | [] => rfl
  | .int _ :: x => by rw [pruneIndex, AIdx.arrays, arraysOf_prune x]; simp
  | .newaxis :: x => by rw [pruneIndex, AIdx.arrays, arraysOf, arraysOf_prune x]; simp
  | .slice _ _ _ :: x => by rw [pruneIndex, AIdx.arrays, arraysOf, arraysOf_prune x]; simp
  | .arr _ :: x => by rw [pruneIndex, AIdx.arrays, arraysOf, arraysOf_prune x]
  | .ellipsis :: x => by rw [pruneIndex, AIdx.arrays, arraysOf_prune x]; simp

theorem core_split (idx : List AIdx) : ∃ t, idx = idx.takeWhile (!·.adv) ++ core idx ++ t ∧ ∀ s ∈ t, s.adv = false := by
  refine ⟨((idx.dropWhile (!·.adv)).reverse.takeWhile (!·.adv)).reverse, ?_, fun s hs => ?_⟩
  · rw [List.append_assoc, core, ← List.reverse_append, List.takeWhile_append_dropWhile, List.reverse_reverse, List.takeWhile_append_dropWhile]
  · rw [List.mem_reverse] at hs
    have := List.all_takeWhile (l := (idx.dropWhile (!·.adv)).reverse) (p := (!·.adv))
    rw [List.all_eq_true] at this
    simpa using this s hs

/-- Where the axes of the index arrays go. -/
theorem build_join (idx : List AIdx) (n : Nat) (he : .ellipsis ∉ idx) (hne : AIdx.arrays idx ≠ []) (hj : Together idx ∨ Separated idx) :
    ∃ p, p ≤ (pruneIndex (idx ++ List.replicate n .full)).length - (AIdx.arrays idx).length ∧
      ∀ sl bs : List Int, sl.length + (AIdx.arrays idx).length = (pruneIndex (idx ++ List.replicate n .full)).length →
        buildShape (pruneIndex (idx ++ List.replicate n .full)) sl bs = place p bs sl ∧ join idx bs sl = place p bs sl := by
  by_cases ht : Together idx
  · obtain ⟨t, e, h2⟩ := core_split idx
    have h1 : ∀ s ∈ idx.takeWhile (!·.adv), s.adv = false := fun s hs => by
      have := List.all_takeWhile (l := idx) (p := (!·.adv))
      rw [List.all_eq_true] at this
      simpa using this s hs
    have hfull : ∀ s ∈ List.replicate n AIdx.full, s.adv = false := fun s hs => by rw [List.eq_of_mem_replicate hs]; rfl
    have hne1 : .ellipsis ∉ idx.takeWhile (!·.adv) := fun hm => he (by rw [e]; simp [hm])
    have hne2 : .ellipsis ∉ t ++ List.replicate n AIdx.full := fun hm => by
      rcases List.mem_append.mp hm with hm | hm
      · exact he (by rw [e]; simp [hm])
      · have := List.eq_of_mem_replicate hm; simp [AIdx.full] at this
    obtain ⟨x1, x2⟩ := prune_nonadv _ hne1 h1
    obtain ⟨z1, z2⟩ := prune_nonadv _ hne2 fun s hs => by
      rcases List.mem_append.mp hs with hs | hs
      · exact h2 s hs
      · exact hfull s hs
    have y2 := prune_adv (core idx) ht
    have epr : pruneIndex (idx ++ List.replicate n .full) = pruneIndex (idx.takeWhile (!·.adv)) ++ pruneIndex (core idx) ++ pruneIndex (t ++ List.replicate n .full) := by
      conv_lhs => rw [e]
      rw [List.append_assoc, prune_append, prune_append]
    have larr : ∀ l : List Ax, (∀ s ∈ l, s.isArr = true) → (arraysOf l).length = l.length := by
      intro l
      induction l with
      | nil => intro _; rfl
      | cons a l ih =>
        intro h
        cases a with
        | slice b e k => have := h (.slice b e k) (by simp); simp [Ax.isArr] at this
        | arr m => rw [arraysOf, List.length_cons, ih fun s hs => h s (by simp [hs]), List.length_cons]
    have lsl : ∀ l : List Ax, (∀ s ∈ l, s.isArr = false) → arraysOf l = [] := by
      intro l
      induction l with
      | nil => intro _; rfl
      | cons a l ih =>
        intro h
        cases a with
        | slice b e k => rw [arraysOf, ih fun s hs => h s (by simp [hs])]
        | arr m => have := h (.arr m) (by simp); simp [Ax.isArr] at this
    have ao : ∀ x y : List Ax, arraysOf (x ++ y) = arraysOf x ++ arraysOf y := by
      intro x y
      induction x with
      | nil => rfl
      | cons a x ih => cases a <;> simp [arraysOf, ih]
    have hlen : (AIdx.arrays idx).length = (pruneIndex (core idx)).length := by
      rw [← arraysOf_prune, e, prune_append, prune_append, ao, ao, lsl _ x2, lsl (pruneIndex t), List.nil_append, List.append_nil, ← e, larr _ y2]
      intro s hs
      exact z2 s (by rw [prune_append]; simp [hs])
    have hcne : pruneIndex (core idx) ≠ [] := fun hh => by
      rw [hh] at hlen
      exact hne (List.length_eq_zero_iff.mp hlen)
    refine ⟨(idx.takeWhile (!·.adv)).length, ?_, fun sl bs hl => ⟨?_, ?_⟩⟩
    · rw [epr, List.length_append, List.length_append, x1]; omega
    · rw [epr, buildShape_together _ _ _ x2 y2 z2 hcne sl bs, x1]
      rw [epr, List.length_append, List.length_append] at hl
      omega
    · rw [join, if_pos ht, place]
  · obtain ⟨x, p, y, q, z, e, s, hs, hsa⟩ := hj.resolve_left ht
    refine ⟨0, by omega, fun sl bs hl => ⟨?_, ?_⟩⟩
    · have epr : pruneIndex (idx ++ List.replicate n .full) = pruneIndex x ++ .arr p :: pruneIndex y ++ .arr q :: pruneIndex (z ++ List.replicate n .full) := by
        rw [e]
        simp only [List.append_assoc, List.cons_append, prune_append, pruneIndex]
      have hys : ∃ s ∈ pruneIndex y, s.isArr = false := by
        obtain ⟨u, v, rfl⟩ := List.append_of_mem hs
        have hse : s ≠ .ellipsis := fun hh => he (by rw [e, hh]; simp)
        rw [prune_append]
        cases s with
        | int k => simp [AIdx.adv] at hsa
        | arr m => simp [AIdx.adv] at hsa
        | ellipsis => exact absurd rfl hse
        | newaxis => exact ⟨.slice none none none, by rw [pruneIndex]; simp, rfl⟩
        | slice b e' k => exact ⟨.slice b e' k, by rw [pruneIndex]; simp, rfl⟩
      rw [buildShape, epr, atFront_of_separated _ _ _ _ _ hys, if_pos rfl, place]
      simp
    · rw [join, if_neg ht, place]; simp

end Codon.NpIdx
