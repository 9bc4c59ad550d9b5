import Verif.NpFuse.Step
/-!
# One operation after the other
-/
namespace Codon.NpFuse
open Codon.Numpy
variable {V : Type}

/-- An array that nobody else has: it can be overwritten and freed. -/
def Owned : Val V → Prop
  | .num _ => False
  | .arr a _ => a.NoRepeat ∧ a.off = 0

/-- The block of an array. -/
def Val.blk? : Val V → Option Nat
  | .num _ => none
  | .arr a _ => some a.blk

/-- A value in the middle of the evaluation. -/
structure Ev.Good (h : Heap V) (x : Ev V) : Prop where
  ok : x.val.Ok h
  own : x.tmp = true → Owned x.val

/-- The block that can be overwritten. -/
def Ev.blks (x : Ev V) : List Nat := if x.tmp then x.val.blk?.toList else []

/-- What stays the same between heaps: blocks that exist and are not in `bs`. -/
structure Frame (h h' : Heap V) (bs : List Nat) : Prop where
  next : h.next ≤ h'.next
  keep : ∀ b < h.next, b ∉ bs → h'.get b = h.get b

theorem Frame.refl (h : Heap V) (bs : List Nat) : Frame h h bs := ⟨Nat.le_refl _, fun _ _ _ => rfl⟩

theorem Val.Ok.blk {h : Heap V} {x : Val V} (hx : x.Ok h) {b : Nat} (hb : x.blk? = some b) : b < h.next := by
  cases x with
  | num v => cases hb
  | arr a d => rw [← Option.some.inj hb]; exact hx.1.block

/-- The block of a value is the same in both heaps. -/
def SameAt (h h' : Heap V) (x : Val V) : Prop := h.next ≤ h'.next ∧ ∀ b, x.blk? = some b → h'.get b = h.get b

theorem read_same {h h' : Heap V} {a : Arr} (hs : h'.get a.blk = h.get a.blk) (c : List Int) : a.read h' c = a.read h c := by simp only [Arr.read, hs]

theorem wf_same {h h' : Heap V} {a : Arr} (hw : a.WF h) (hn : h.next ≤ h'.next) (hs : h'.get a.blk = h.get a.blk) : a.WF h' :=
  ⟨hw.len, hw.nonneg, fun c hc => by rw [read_same hs]; exact hw.alloc c hc, by have := hw.block; omega⟩

theorem ok_same {h h' : Heap V} {x : Val V} (hx : x.Ok h) (hs : SameAt h h' x) : x.Ok h' := by
  cases x with
  | num v => trivial
  | arr a d => exact ⟨wf_same hx.1 hs.1 (hs.2 _ rfl), hx.2⟩

theorem sem_same {h h' : Heap V} {x : Val V} (hs : SameAt h h' x) : x.sem h' = x.sem h := by
  cases x with
  | num v => rfl
  | arr a d =>
    simp only [Val.sem]
    congr 1
    funext c
    simp only [clip, read_same (hs.2 _ rfl)]

theorem same_frame {h h' : Heap V} {bs : List Nat} {x : Val V} (hf : Frame h h' bs) (hx : x.Ok h) (hb : ∀ b, x.blk? = some b → b ∉ bs) : SameAt h h' x :=
  ⟨hf.next, fun b hh => hf.keep b (hx.blk hh) (hb b hh)⟩

theorem shape_sem (h : Heap V) (x : Val V) : (x.sem h).shape = x.shape := by cases x <;> rfl

theorem ok_pos {h : Heap V} {x : Val V} (hx : x.Ok h) : ∀ n ∈ x.shape, 0 < n := by
  cases x with
  | num v => simp [Val.shape]
  | arr a d => exact hx.2.1

theorem at_arr {h : Heap V} {a : Arr} {d : DT} {s c : List Int} (ha : Aligned a.shape s) (hc : Valid c s) : ((Val.arr a d).sem h).at c = a.read h (proj a.shape c) := by
  simp only [Val.sem, Sem.at]
  rw [clip, if_pos (valid_proj _ _ _ ha hc)]

theorem clip_congr {s : List Int} {e e' : List Int → Option V} (h : ∀ c, Valid c s → e c = e' c) : clip s e = clip s e' := by
  funext c
  unfold clip
  split
  · next hc => exact h c hc
  · rfl

/-- The value at a place of an operation on two values. -/
def binAt (fn : V → V → V) (x y : Sem V) (c : List Int) : Option V := (x.at c).bind fun u => (y.at c).map (fn u)

theorem at_some {h : Heap V} {x : Val V} {s c : List Int} (hx : x.Ok h) (ha : Aligned x.shape s) (hc : Valid c s) : ∃ v, (x.sem h).at c = some v := by
  cases x with
  | num v => exact ⟨v, rfl⟩
  | arr a d => rw [at_arr ha hc]; exact dom_proj h a hx.1 s ha c hc

/-! ### Two operands -/

/-- The operand is not in the way of the result. -/
def Val.Clear (o : Arr) (x : Val V) : Prop := ∀ a d, x = .arr a d → Sep o a

theorem runBin_spec (L : Nat) (fn : V → V → V) (dt : DT) (k : Kind) (hk : k ≠ .vloop) (x y : Val V) (p : Plan V) (hx : x.Ok p.heap) (hy : y.Ok p.heap) (hxy : ¬ (x.ty = .num ∧ y.ty = .num))
    (hb : Broadcasts [x.shape, y.shape] p.res.shape) (hres : p.res.WF p.heap) (hself : p.res.NoRepeat) (cx : x.Clear p.res) (cy : y.Clear p.res)
    (hL : p.isL = true → ∃ d, x = .arr p.res d) (hR : p.isR = true → ∃ d, y = .arr p.res d) :
    ∃ h1, runBin L fn dt k x y p = some (.ok h1) ∧ Updated p.heap p.res (binAt fn (x.sem p.heap) (y.sem p.heap)) h1 := by
  have ax := broadcasts_aligned _ _ hb x.shape (by simp)
  have ay := broadcasts_aligned _ _ hb y.shape (by simp)
  have ho : Arr.WF (⟨p.res, dt.w⟩ : Opd).arr p.heap := hres
  have hs' : (⟨p.res, dt.w⟩ : Opd).arr.NoRepeat := hself
  cases x with
  | num u =>
    cases y with
    | num v => exact absurd ⟨rfl, rfl⟩ hxy
    | arr b e =>
      simp only [runBin]
      split
      · next hh =>
        obtain ⟨d, hd⟩ := hR hh
        injection hd with hd1 hd2
        obtain ⟨h1, e1, e2⟩ := into_self p.heap ⟨p.res, dt.w⟩ ho hs' (fn u)
        refine ⟨h1, e1, updated_congr _ _ _ _ _ e2 fun c hc => ?_⟩
        rw [binAt, at_arr ay hc, hd1]; rfl
      · obtain ⟨h1, e1, e2⟩ := into_unary p.heap ⟨p.res, dt.w⟩ ho hs' (fn u) ⟨b, e.w⟩ hy.1 ay (cy b e rfl)
        refine ⟨h1, e1, updated_congr _ _ _ _ _ e2 fun c hc => ?_⟩
        rw [binAt, at_arr ay hc]; rfl
  | arr a d =>
    cases y with
    | num v =>
      simp only [runBin]
      have key : ∀ c, Valid c p.res.shape → binAt fn ((Val.arr a d).sem p.heap) ((Val.num v).sem p.heap) c = (a.read p.heap (proj a.shape c)).map fun u => fn u v := by
        intro c hc
        rw [binAt, at_arr ax hc]
        cases a.read p.heap (proj a.shape c) <;> rfl
      split
      · next hh =>
        obtain ⟨d', hd⟩ := hL hh
        injection hd with hd1 hd2
        obtain ⟨h1, e1, e2⟩ := into_self p.heap ⟨p.res, dt.w⟩ ho hs' fun u => fn u v
        refine ⟨h1, e1, updated_congr _ _ _ _ _ e2 fun c hc => ?_⟩
        rw [key c hc, hd1]
      · obtain ⟨h1, e1, e2⟩ := into_unary p.heap ⟨p.res, dt.w⟩ ho hs' (fun u => fn u v) ⟨a, d.w⟩ hx.1 ax (cx a d rfl)
        refine ⟨h1, e1, updated_congr _ _ _ _ _ e2 fun c hc => ?_⟩
        rw [key c hc]
    | arr b e =>
      have key : ∀ c, Valid c p.res.shape → binAt fn ((Val.arr a d).sem p.heap) ((Val.arr b e).sem p.heap) c =
          (a.read p.heap (proj a.shape c)).bind fun u => (b.read p.heap (proj b.shape c)).map (fn u) := by
        intro c hc
        rw [binAt, at_arr ax hc, at_arr ay hc]
      simp only [runBin]
      rw [if_neg hk]
      split
      · next hh =>
        obtain ⟨d', hd⟩ := hL hh
        injection hd with hd1 hd2
        obtain ⟨h1, e1, e2⟩ := into_left p.heap ⟨p.res, dt.w⟩ ho hs' fn ⟨b, e.w⟩ hy.1 ay (cy b e rfl)
        refine ⟨h1, e1, updated_congr _ _ _ _ _ e2 fun c hc => ?_⟩
        rw [key c hc, hd1]
      · split
        · next hh =>
          obtain ⟨d', hd⟩ := hR hh
          injection hd with hd1 hd2
          obtain ⟨h1, e1, e2⟩ := into_right p.heap ⟨p.res, dt.w⟩ ho hs' fn ⟨a, d.w⟩ hx.1 ax (cx a d rfl)
          refine ⟨h1, e1, updated_congr _ _ _ _ _ e2 fun c hc => ?_⟩
          rw [key c hc, hd1]
        · obtain ⟨h1, e1, e2⟩ := into_binary p.heap ⟨p.res, dt.w⟩ ho hs' fn ⟨a, d.w⟩ ⟨b, e.w⟩ hx.1 ax (cx a d rfl) hy.1 ay (cy b e rfl)
          refine ⟨h1, e1, updated_congr _ _ _ _ _ e2 fun c hc => ?_⟩
          rw [key c hc]

/-- Good choices of the place of the result. -/
structure Plan.Good (h : Heap V) (dt : DT) (x y : Ev V) (s : List Int) (p : Plan V) : Prop where
  frame : Frame h p.heap []
  shape : p.res.shape = s
  wf : p.res.WF p.heap
  self : p.res.NoRepeat
  off : p.res.off = 0
  cx : x.val.Clear p.res
  cy : y.val.Clear p.res
  isL : p.isL = true → ∃ d, x.val = .arr p.res d
  isR : p.isR = true → ∃ d, y.val = .arr p.res d
  fL : p.freeL = true → x.tmp = true ∧ x.val.blk? ≠ some p.res.blk
  fR : p.freeR = true → y.tmp = true ∧ y.val.blk? ≠ some p.res.blk
  place : p.res.blk ∈ x.blks ∨ p.res.blk ∈ y.blks ∨ h.next ≤ p.res.blk

/-- Blocks of temporary arrays are used once. -/
def Apart2 (x y : Ev V) : Prop := x.tmp = true ∨ y.tmp = true → ∀ b, x.val.blk? = some b → y.val.blk? ≠ some b

theorem reuse_some {x : Ev V} {dt : DT} {n : Nat} {a : Arr} (h : x.reuse dt n = some a) : x.tmp = true ∧ x.val = .arr a dt ∧ a.shape.length = n := by
  unfold Ev.reuse at h
  split at h
  · cases h
  · next a' d he =>
    split at h
    · next hh => cases h; exact ⟨hh.1, by rw [he, hh.2.1], hh.2.2⟩
    · cases h

section
variable {h : Heap V} {junk : Int → V} {dt : DT} {x y : Ev V} {s : List Int}

theorem plan_left (hx : x.Good h) (hap : Apart2 x y) {a : Arr} {d : DT} (ht : x.tmp = true) (hv : x.val = .arr a d) (hs : a.shape = s) (b fR : Bool) (hf : fR = true → y.tmp = true) :
    Plan.Good h dt x y s ⟨h, a, b, false, false, fR⟩ := by
  have hw := hx.ok
  have ho := hx.own ht
  rw [hv] at hw ho
  have hne := hap (Or.inl ht) a.blk (by rw [hv]; rfl)
  refine ⟨Frame.refl _ _, hs, hw.1, ho.1, ho.2, ?_, ?_, fun _ => ⟨d, hv⟩, by simp, by simp, fun hh => ⟨hf hh, hne⟩, Or.inl (by simp [Ev.blks, ht, hv, Val.blk?])⟩
  · intro a' d' he
    rw [hv] at he; injection he with e1 e2
    exact Or.inl e1.symm
  · intro a' d' he
    refine Or.inr fun hh => hne ?_
    rw [he]; simp only [Val.blk?]; rw [hh]

theorem plan_right (hy : y.Good h) (hap : Apart2 x y) {a : Arr} {d : DT} (ht : y.tmp = true) (hv : y.val = .arr a d) (hs : a.shape = s) (b fL : Bool) (hf : fL = true → x.tmp = true) :
    Plan.Good h dt x y s ⟨h, a, false, b, fL, false⟩ := by
  have hw := hy.ok
  have ho := hy.own ht
  rw [hv] at hw ho
  have hne : x.val.blk? ≠ some a.blk := fun hh => hap (Or.inr ht) a.blk hh (by rw [hv]; rfl)
  refine ⟨Frame.refl _ _, hs, hw.1, ho.1, ho.2, ?_, ?_, by simp, fun _ => ⟨d, hv⟩, fun hh => ⟨hf hh, hne⟩, by simp, Or.inr (Or.inl (by simp [Ev.blks, ht, hv, Val.blk?]))⟩
  · intro a' d' he
    refine Or.inr fun hh => hne ?_
    rw [he]; simp only [Val.blk?]; rw [hh]
  · intro a' d' he
    rw [hv] at he; injection he with e1 e2
    exact Or.inl e1.symm

theorem frame_new (h : Heap V) (w n : Int) (junk : Int → V) : Frame h (h.new w n junk) [] :=
  ⟨Nat.le_succ _, fun b hb _ => by funext o; simp only [Heap.new]; rw [if_neg (by omega)]⟩

theorem plan_new (hx : x.Good h) (hy : y.Good h) (hw : 0 < dt.w) (hn : ∀ n ∈ s, 0 ≤ n) (fL fR : Bool) (hL : fL = true → x.tmp = true) (hR : fR = true → y.tmp = true) (like : Val V)
    (hl : like = x.val ∨ like = y.val) : Plan.Good h dt x y s ⟨(create junk like s dt h).1, (create junk like s dt h).2, false, false, fL, fR⟩ := by
  obtain ⟨st, e1, e2, e3⟩ := create_spec junk like s dt h (by
    intro a d he
    rcases hl with hh | hh
    · have := hx.ok; rw [← hh, he] at this; exact this.1.len
    · have := hy.ok; rw [← hh, he] at this; exact this.1.len) hw hn
  rw [e1]
  have nx : ∀ z : Ev V, z.Good h → z.val.blk? ≠ some h.next := fun z hz hh => Nat.lt_irrefl _ (hz.ok.blk hh)
  have cl : ∀ z : Ev V, z.Good h → z.val.Clear ⟨s, st, h.next, 0⟩ := by
    intro z hz a d he
    refine Or.inr fun hh => nx z hz ?_
    rw [he]; simp only [Val.blk?]; rw [hh]
  exact ⟨frame_new _ _ _ _, rfl, e2, e3, rfl, cl x hx, cl y hy, by simp, by simp, fun hh => ⟨hL hh, nx x hx⟩, fun hh => ⟨hR hh, nx y hy⟩, Or.inr (Or.inr (Nat.le_refl _))⟩

theorem planBin_spec (hx : x.Good h) (hy : y.Good h) (hap : Apart2 x y) (hw : 0 < dt.w) (hb : Broadcasts [x.val.shape, y.val.shape] s) : (planBin junk dt x y s h).Good h dt x y s := by
  have hn : ∀ n ∈ s, 0 ≤ n := fun n hh => Int.le_of_lt (broadcasts_pos _ _ hb (by
    intro a ha
    simp only [List.mem_cons, List.not_mem_nil, or_false] at ha
    rcases ha with rfl | rfl
    · exact ok_pos hx.ok
    · exact ok_pos hy.ok) n hh)
  have hlike : (if x.val.shape.length < y.val.shape.length then y.val else x.val) = x.val ∨ (if x.val.shape.length < y.val.shape.length then y.val else x.val) = y.val := by
    split <;> simp
  unfold planBin
  dsimp only
  have e0 : y.val.shape.length = 0 → ∀ a d, x.val = .arr a d → a.shape = s := by
    intro h0 a d hv
    rw [List.length_eq_zero_iff.mp h0, hv] at hb
    exact (broadcasts_nil_right _ _ hb).symm
  have e1 : x.val.shape.length = 0 → ∀ a d, y.val = .arr a d → a.shape = s := by
    intro h0 a d hv
    rw [List.length_eq_zero_iff.mp h0, hv] at hb
    exact (broadcasts_nil_left _ _ hb).symm
  cases hr : x.reuse dt s.length with
  | some a =>
    obtain ⟨t1, v1, l1⟩ := reuse_some hr
    dsimp only
    split
    · next h0 => exact plan_left hx hap t1 v1 (e0 h0 _ _ v1) _ _ (by simp)
    · cases hr2 : y.reuse dt s.length with
      | some b =>
        obtain ⟨t2, v2, l2⟩ := reuse_some hr2
        dsimp only
        split
        · next h0 => exact plan_right hy hap t2 v2 (e1 h0 _ _ v2) _ _ (by simp)
        · split
          · next hs => exact plan_left hx hap t1 v1 hs _ _ (fun _ => t2)
          · split
            · next hs => exact plan_right hy hap t2 v2 hs _ _ (fun _ => t1)
            · exact plan_new hx hy hw hn _ _ (fun _ => t1) (fun _ => t2) _ hlike
      | none =>
        dsimp only
        split
        · next hs => exact plan_left hx hap t1 v1 hs _ _ id
        · exact plan_new hx hy hw hn _ _ (fun _ => t1) id _ hlike
  | none =>
    cases hr2 : y.reuse dt s.length with
    | some b =>
      obtain ⟨t2, v2, l2⟩ := reuse_some hr2
      dsimp only
      split
      · next h0 => exact plan_right hy hap t2 v2 (e1 h0 _ _ v2) _ _ (by simp)
      · split
        · next hs => exact plan_right hy hap t2 v2 hs _ _ id
        · exact plan_new hx hy hw hn _ _ id (fun _ => t2) _ hlike
    | none => exact plan_new hx hy hw hn _ _ id id _ hlike

end

theorem freeVal_spec {h : Heap V} {x : Val V} (c : Bool) (hx : c = true → x.Ok h ∧ Owned x) :
    ∃ h', freeVal c x h = some (.ok h') ∧ h'.next = h.next ∧ ∀ b, (c = true → x.blk? ≠ some b) → h'.get b = h.get b := by
  cases c with
  | false => exact ⟨h, rfl, rfl, fun _ _ => rfl⟩
  | true =>
    obtain ⟨h1, h2⟩ := hx rfl
    cases x with
    | num v => exact ⟨h, rfl, rfl, fun _ _ => rfl⟩
    | arr a d =>
      obtain ⟨h', e1, e2, e3⟩ := free_spec h a h1.1 h1.2.1 h2.2
      exact ⟨h', by simp [freeVal, e1], e2, fun b hb => e3 b fun hh => hb rfl (by rw [hh]; rfl)⟩

/-- The result of an operation. -/
structure Done (h : Heap V) (m : Sem V) (dt : DT) (bs : List Nat) (h' : Heap V) (a : Arr) : Prop where
  good : Ev.Good h' ⟨.arr a dt, true⟩
  sem : (Val.arr a dt).sem h' = m
  frame : Frame h h' bs
  place : a.blk ∈ bs ∨ h.next ≤ a.blk

theorem updated_other {h h' : Heap V} {a : Arr} {e : List Int → Option V} (hu : Updated h a e h') {b : Nat} (hb : b ≠ a.blk) : h'.get b = h.get b := by
  funext o
  exact hu.2.2 (b, o) fun c _ he => hb (congrArg Prod.fst he).symm

theorem seqBin_spec {L : Nat} {junk : Int → V} {fn : V → V → V} {dt : DT} {k : Kind} (hk : k ≠ .vloop) {x y : Ev V} {h : Heap V} (hx : x.Good h) (hy : y.Good h)
    (hxy : ¬ (x.val.ty = .num ∧ y.val.ty = .num)) (hap : Apart2 x y) (hw : 0 < dt.w) :
    (∃ s, Broadcasts [x.val.shape, y.val.shape] s ∧ ∃ h' a, seqBin L junk fn dt k x y h = some (.ok (h', ⟨.arr a dt, true⟩)) ∧
      Done h (.arr s (clip s (binAt fn (x.val.sem h) (y.val.sem h)))) dt (x.blks ++ y.blks) h' a) ∨
    ((∀ s, ¬ Broadcasts [x.val.shape, y.val.shape] s) ∧ seqBin L junk fn dt k x y h = some (.error .value)) := by
  rcases fbroadcast_spec x.val.shape y.val.shape (ok_pos hx.ok) (ok_pos hy.ok) with ⟨s, b1, hb⟩ | ⟨b1, hb⟩
  · refine Or.inl ⟨s, hb, ?_⟩
    have P := planBin_spec (junk := junk) (dt := dt) hx hy hap hw hb
    rw [seqBin, b1]
    dsimp only
    generalize planBin junk dt x y s h = p at P
    have sx : SameAt h p.heap x.val := same_frame P.frame hx.ok (by simp)
    have sy : SameAt h p.heap y.val := same_frame P.frame hy.ok (by simp)
    obtain ⟨h1, r1, r2⟩ := runBin_spec L fn dt k hk x.val y.val p (ok_same hx.ok sx) (ok_same hy.ok sy) hxy (by rw [P.shape]; exact hb) P.wf P.self P.cx P.cy P.isL P.isR
    rw [sem_same sx, sem_same sy, ] at r2
    have hfree : ∀ (z : Ev V) (f : Bool), z.Good h → (f = true → z.tmp = true ∧ z.val.blk? ≠ some p.res.blk) → ∀ h2, (∀ b, z.val.blk? = some b → f = true → h2.get b = h1.get b) → h2.next = h1.next →
        f = true → z.val.Ok h2 ∧ Owned z.val := by
      intro z f hz hf h2 hsame hnext hh
      obtain ⟨f1, f2⟩ := hf hh
      refine ⟨ok_same hz.ok ⟨by rw [hnext, r2.1]; exact P.frame.next, fun b hb => ?_⟩, hz.own f1⟩
      rw [hsame b hb hh, updated_other r2 fun hh => f2 (by rw [hb, hh])]
      exact P.frame.keep b (hz.ok.blk hb) (by simp)
    obtain ⟨h2, f1, f2, f3⟩ := freeVal_spec p.freeL (hfree x p.freeL hx P.fL h1 (fun _ _ _ => rfl) rfl)
    obtain ⟨h3, g1, g2, g3⟩ := freeVal_spec p.freeR (hfree y p.freeR hy P.fR h2 (fun b hb hf => f3 b fun hL hh => hap (Or.inl (P.fL hL).1) b hh hb) f2)
    refine ⟨h3, p.res, by simp only [r1, Out.bind, f1, g1], ?_⟩
    have hres : h3.get p.res.blk = h1.get p.res.blk := by
      rw [g3 _ fun hf => (P.fR hf).2, f3 _ fun hf => (P.fL hf).2]
    have hnext : h3.next = p.heap.next := by rw [g2, f2, r2.1]
    have hal : ∀ z : Val V, z = x.val ∨ z = y.val → Aligned z.shape s := by
      rintro z (rfl | rfl)
      · exact broadcasts_aligned _ _ hb _ (by simp)
      · exact broadcasts_aligned _ _ hb _ (by simp)
    have hread : ∀ c, Valid c s → p.res.read h3 c = binAt fn (x.val.sem h) (y.val.sem h) c := by
      intro c hc
      rw [read_same hres]
      exact r2.2.1 c (by rw [P.shape]; exact hc)
    have hpos : ∀ n ∈ s, 0 < n := broadcasts_pos _ _ hb (by
      intro a ha
      simp only [List.mem_cons, List.not_mem_nil, or_false] at ha
      rcases ha with rfl | rfl
      · exact ok_pos hx.ok
      · exact ok_pos hy.ok)
    refine ⟨⟨⟨⟨P.wf.len, P.wf.nonneg, fun c hc => ?_, by rw [hnext]; exact P.wf.block⟩, by rw [P.shape]; exact hpos, hw⟩, fun _ => ⟨P.self, P.off⟩⟩, ?_, ⟨by rw [hnext]; exact P.frame.next, fun b hb' hnb => ?_⟩, ?_⟩
    · rw [P.shape] at hc
      rw [hread c hc]
      obtain ⟨u, hu⟩ := at_some hx.ok (hal x.val (Or.inl rfl)) hc
      obtain ⟨v, hv⟩ := at_some hy.ok (hal y.val (Or.inr rfl)) hc
      exact ⟨fn u v, by rw [binAt, hu, hv]; rfl⟩
    · show Sem.arr p.res.shape (clip p.res.shape fun c => p.res.read h3 c) = _
      rw [P.shape, clip_congr hread]
    · rw [List.mem_append, not_or] at hnb
      have nb : ∀ z : Ev V, b ∉ z.blks → z.tmp = true → z.val.blk? ≠ some b := by
        intro z hz ht hh
        exact hz (by simp [Ev.blks, ht, hh])
      rw [g3 b fun hf => nb y hnb.2 (P.fR hf).1, f3 b fun hf => nb x hnb.1 (P.fL hf).1, updated_other r2 ?_, P.frame.keep b hb' (by simp)]
      rintro rfl
      rcases P.place with hh | hh | hh
      · exact hnb.1 hh
      · exact hnb.2 hh
      · omega
    · rcases P.place with hh | hh | hh
      · exact Or.inl (List.mem_append_left _ hh)
      · exact Or.inl (List.mem_append_right _ hh)
      · exact Or.inr hh
  · exact Or.inr ⟨hb, by rw [seqBin, b1]⟩

/-! ### One operand -/

theorem seqUn_spec {L : Nat} {junk : Int → V} {fn : V → V} {dt : DT} {k : Kind} {x : Ev V} {a : Arr} {d : DT} (hv : x.val = .arr a d) {h : Heap V} (hx : x.Good h)
    (hne : a.shape.length ≠ 0) (hvec : k = .vloop → d = dt) (hw : 0 < dt.w) :
    ∃ h' b, seqUn L junk fn dt k x h = some (.ok (h', ⟨.arr b dt, true⟩)) ∧
      Done h (.arr a.shape fun c => (clip a.shape (fun c => a.read h c) c).map fn) dt x.blks h' b := by
  have hok := hx.ok
  rw [hv] at hok
  have v0 : V := by
    exact (hok.1.alloc _ (valid_zeros a.shape hok.2.1)).choose
  have fin : ∀ (b : Arr) (h0 h1 h' : Heap V), b.shape = a.shape → Arr.WF b h0 → b.NoRepeat → b.off = 0 → Frame h h0 [] → Updated h0 b (fun c => (a.read h0 (proj a.shape c)).map fn) h1 →
      h'.next = h1.next → (∀ z, z ≠ b.blk → z < h.next → z ∉ x.blks → h'.get z = h1.get z) → h'.get b.blk = h1.get b.blk → (b.blk ∈ x.blks ∨ h.next ≤ b.blk) →
      Done h (.arr a.shape fun c => (clip a.shape (fun c => a.read h c) c).map fn) dt x.blks h' b := by
    intro b h0 h1 h' hs wf self off fr up hn hk hb pl
    have hsame : h0.get a.blk = h.get a.blk := fr.keep _ hok.1.block (by simp)
    have hread : ∀ c, Valid c a.shape → b.read h' c = (a.read h c).map fn := by
      intro c hc
      rw [read_same hb, up.2.1 c (by rw [hs]; exact hc)]
      dsimp only
      rw [proj_self _ _ hc, read_same hsame]
    refine ⟨⟨⟨⟨wf.len, wf.nonneg, fun c hc => ?_, by rw [hn, up.1]; exact wf.block⟩, by rw [hs]; exact hok.2.1, hw⟩, fun _ => ⟨self, off⟩⟩, ?_, ⟨by rw [hn, up.1]; exact fr.next, fun z hz hnz => ?_⟩, pl⟩
    · rw [hs] at hc
      obtain ⟨v, hv⟩ := hok.1.alloc c hc
      exact ⟨fn v, by rw [hread c hc, hv]; rfl⟩
    · simp only [Val.sem, hs]
      congr 1
      funext c
      by_cases hc : Valid c a.shape
      · rw [clip, if_pos hc, clip, if_pos hc, hread c hc]
      · rw [clip, if_neg hc, clip, if_neg hc]; rfl
    · have hne : z ≠ b.blk := by
        rintro rfl
        rcases pl with hh | hh
        · exact hnz hh
        · omega
      rw [hk z hne hz hnz, updated_other up hne, fr.keep z hz (by simp)]
  rw [seqUn, hv]
  dsimp only
  cases hr : x.reuse dt a.shape.length with
  | some r =>
    obtain ⟨t1, v1, l1⟩ := reuse_some hr
    rw [hv] at v1
    injection v1 with v1 v2
    subst v1 v2
    have ho := hx.own t1
    rw [hv] at ho
    dsimp only
    have : ∃ h1, (if k = .vloop then vecUn L fn ⟨a, d.w⟩ ⟨a, d.w⟩ h else inplaceLoop h .all true (inplaceUnaryFunctor fn) ⟨a, d.w⟩ []) = some (.ok h1) ∧
        Updated h a (fun c => (a.read h (proj a.shape c)).map fn) h1 := by
      split
      · exact vecUn_ok v0 L fn ⟨a, d.w⟩ ⟨a, d.w⟩ h rfl hne rfl hok.1 hok.1 ho.1 (Or.inl rfl)
      · exact into_self h ⟨a, d.w⟩ hok.1 ho.1 fn
    obtain ⟨h1, e1, e2⟩ := this
    exact ⟨h1, a, by rw [e1]; rfl, fin a h h1 h1 rfl hok.1 ho.1 ho.2 (Frame.refl _ _) e2 rfl (fun _ _ _ _ => rfl) rfl (Or.inl (by simp [Ev.blks, t1, hv, Val.blk?]))⟩
  | none =>
    dsimp only
    obtain ⟨st, c1, c2, c3⟩ := create_spec junk (.arr a d) a.shape dt h (by intro a' d' he; injection he with e1 e2; rw [← e1]; exact hok.1.len) hw hok.1.nonneg
    rw [c1]
    dsimp only
    have hsep : Sep (⟨a.shape, st, h.next, 0⟩ : Arr) a := Or.inr (by have := hok.1.block; dsimp only; omega)
    have hwf := wf_new h dt.w junk a hok.1 (count a.shape)
    have : ∃ h1, (if k = .vloop then vecUn L fn ⟨a, d.w⟩ ⟨⟨a.shape, st, h.next, 0⟩, dt.w⟩ (h.new dt.w (count a.shape) junk) else
        inplaceLoop (h.new dt.w (count a.shape) junk) .all true (unaryFunctor fn) ⟨⟨a.shape, st, h.next, 0⟩, dt.w⟩ [⟨a, d.w⟩]) = some (.ok h1) ∧
        Updated (h.new dt.w (count a.shape) junk) ⟨a.shape, st, h.next, 0⟩ (fun c => (a.read (h.new dt.w (count a.shape) junk) (proj a.shape c)).map fn) h1 := by
      split
      · next hk => exact vecUn_ok v0 L fn ⟨a, d.w⟩ ⟨⟨a.shape, st, h.next, 0⟩, dt.w⟩ _ rfl hne (by rw [hvec hk]) hwf c2 c3 hsep
      · exact into_unary _ ⟨⟨a.shape, st, h.next, 0⟩, dt.w⟩ c2 c3 fn ⟨a, d.w⟩ hwf (aligned_refl _) hsep
    obtain ⟨h1, e1, e2⟩ := this
    have hkeep : h1.get a.blk = h.get a.blk := by
      rw [updated_other e2 (by have := hok.1.block; dsimp only; omega)]
      exact (frame_new h dt.w (count a.shape) junk).keep _ hok.1.block (by simp)
    obtain ⟨h2, f1, f2, f3⟩ := freeVal_spec (h := h1) (x := .arr a d) x.tmp (by
      intro ht
      refine ⟨ok_same (h := h) hok ⟨by rw [e2.1]; exact Nat.le_succ _, ?_⟩, by have := hx.own ht; rw [hv] at this; exact this⟩
      intro b hb
      rw [← Option.some.inj hb]; exact hkeep)
    refine ⟨h2, ⟨a.shape, st, h.next, 0⟩, by simp only [e1, Out.bind, f1], fin _ _ h1 h2 rfl c2 c3 rfl (frame_new _ _ _ _) e2 f2 ?_ ?_ (Or.inr (Nat.le_refl _))⟩
    · intro z hz1 hz2 hz3
      refine f3 z fun ht hh => hz3 ?_
      simp only [Ev.blks, ht, hv, if_true, hh, Option.toList_some, List.mem_singleton]
    · refine f3 _ fun _ hh => ?_
      have := hok.1.block
      have := Option.some.inj hh
      dsimp only at this
      omega

end Codon.NpFuse
