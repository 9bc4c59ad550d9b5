import Verif.NpFuse.Main
import Verif.Numpy.LoopProps
/-!
# The expression as it is written
-/
namespace Codon.NpFuse
open Codon.Numpy
variable {V : Type}

theorem clip_pos {s c : List Int} {e : List Int → Option V} (hc : Valid c s) : clip s e c = e c := if_pos hc

theorem wf_grows {h h' : Heap V} {a : Arr} (hw : a.WF h) (hg : Grows h h') : a.WF h' := wf_same hw hg.2 (hg.1 _ hw.block)
theorem read_grows {h h' : Heap V} {a : Arr} (hw : a.WF h) (hg : Grows h h') (c : List Int) : a.read h' c = a.read h c := read_same (hg.1 _ hw.block) c

theorem opd_spec (h : Heap V) (x : Val V) (hx : x.Ok h) : Grows h (x.opd h).1 ∧ (x.opd h).2.arr.WF (x.opd h).1 ∧ (x.opd h).2.arr.shape = x.shape ∧
    ∀ s c, Aligned x.shape s → Valid c s → (x.opd h).2.arr.read (x.opd h).1 (proj x.shape c) = (x.sem h).at c := by
  cases x with
  | arr a d => exact ⟨Grows.refl h, hx.1, rfl, fun s c ha hc => (at_arr ha hc).symm⟩
  | num v =>
    have hr : ∀ c : List Int, Arr.read ⟨[], [], h.next, 0⟩ (h.new 1 1 fun _ => v) c = some v := by
      intro c
      simp [Arr.read, ptrOff, Heap.new]
    refine ⟨⟨fun z hz => ?_, by simp [Val.opd, Heap.new]⟩, ⟨rfl, by simp [Val.opd], fun c _ => ⟨v, hr c⟩, by simp [Val.opd, Heap.new]⟩, rfl, fun s c _ _ => hr _⟩
    funext o
    simp only [Val.opd, Heap.new]
    rw [if_neg (by omega)]

theorem plainUn_spec (L : Nat) (junk : Int → V) (fn : V → V) (dt : DT) (k : Kind) (a : Arr) (d : DT) (h : Heap V) (hw : 0 < dt.w) (ha : a.WF h) (hne : a.shape ≠ []) (hk : k = .vloop → d = dt) :
    ∃ h' b, plainUn L junk fn dt k (.arr a d) h = some (.ok (h', .arr b dt)) ∧ NewArray h a.shape (fun c => (a.read h c).map fn) h' b := by
  have key : ∀ vec, (vec = true → dt.w = d.w) → ∃ h' b, (Out.bind (unaryCall L vec fn (fun _ => true) ⟨a, d.w⟩ none (.const true) dt.w junk h) fun r => some (.ok (ofAns h dt r))) =
      some (.ok (h', Val.arr b dt)) ∧ NewArray h a.shape (fun c => (a.read h c).map fn) h' b := by
    intro vec hv
    obtain ⟨h', r, u, e1, e2⟩ := c65_unary L vec fn (fun _ => true) ⟨a, d.w⟩ (.const true) dt.w junk h hw ha hne trivial hv
    exact ⟨h', r.arr, by rw [e1]; rfl, by simpa [Where.on] using e2⟩
  cases k with
  | oper =>
    obtain ⟨h', b, e1, e2⟩ := c64_unary h junk dt.w hw fn ⟨a, d.w⟩ ha
    exact ⟨h', b, by simp only [plainUn, e1, Out.bind], e2⟩
  | ufunc => exact key false (by simp)
  | vloop => exact key true fun _ => by rw [hk rfl]

theorem plainBin_spec (L : Nat) (junk : Int → V) (fn : V → V → V) (dt : DT) (k : Kind) (x y : Val V) (h : Heap V) (hw : 0 < dt.w) (hx : x.Ok h) (hy : y.Ok h) (hk : k ≠ .vloop)
    (s : List Int) (hs : Broadcasts [x.shape, y.shape] s) (hne : s ≠ []) :
    ∃ h1 h' b, plainBin L junk fn dt k x y h = some (.ok (h', .arr b dt)) ∧ Grows h h1 ∧ NewArray h1 s (fun c => clip s (binAt fn (x.sem h) (y.sem h)) c) h' b := by
  have hax := broadcasts_aligned _ _ hs x.shape (by simp)
  have hay := broadcasts_aligned _ _ hs y.shape (by simp)
  have fix : ∀ {h1 h' : Heap V} {b : Arr} {f : List Int → Option V}, NewArray h1 s f h' b → (∀ c, Valid c s → f c = binAt fn (x.sem h) (y.sem h) c) → NewArray h1 s (fun c => clip s (binAt fn (x.sem h) (y.sem h)) c) h' b := by
    rintro h1 h' b f ⟨q1, q2, q3, q4, q5, q6⟩ hf
    exact ⟨q1, q2, q3, q4, q5, fun c hc => by rw [q6 c hc, hf c hc]; exact (clip_pos hc).symm⟩
  have keyU : ∃ h1 h' b, (Out.bind (binaryCall L (decide (Kind.ufunc = .vloop)) fn (fun _ => true) (x.opd h).2 (y.opd (x.opd h).1).2 none (.const true) dt.w junk (y.opd (x.opd h).1).1) fun r => some (.ok (ofAns (y.opd (x.opd h).1).1 dt r))) =
      some (.ok (h', Val.arr b dt)) ∧ Grows h h1 ∧ NewArray h1 s (fun c => clip s (binAt fn (x.sem h) (y.sem h)) c) h' b := by
    obtain ⟨g1, w1, s1, r1⟩ := opd_spec h x hx
    obtain ⟨g2, w2, s2, r2⟩ := opd_spec (x.opd h).1 y (ok_same hy (same_grows hy g1))
    obtain ⟨h', r, u, e1, e2⟩ := c65_binary_partial L false fn (fun _ => true) (x.opd h).2 (y.opd (x.opd h).1).2 (.const true) dt.w junk (y.opd (x.opd h).1).1 hw (wf_grows w1 g2) w2 s
      (by rw [s1, s2]; exact hs) hne trivial (by simp)
    refine ⟨_, h', r.arr, by rw [show decide (Kind.ufunc = .vloop) = false from rfl, e1]; rfl, g1.trans g2, fix e2 fun c hc => ?_⟩
    simp only [Where.on, Option.bind_some, if_true, s1, s2]
    rw [read_grows w1 g2, r1 s c hax hc, r2 s c hay hc, sem_same (same_grows hy g1)]
    rfl
  cases k with
  | vloop => exact absurd rfl hk
  | ufunc =>
    cases x <;> cases y <;> exact keyU
  | oper =>
    cases x with
    | num u =>
      cases y with
      | num v =>
        obtain ⟨sh, hsh, e⟩ := hs.2.1
        simp only [Val.shape, List.mem_cons, List.not_mem_nil, or_false, or_self] at hsh
        rw [hsh] at e
        exact absurd (List.length_eq_zero_iff.mp e.symm) hne
      | arr b d =>
        have := broadcasts_nil_left _ _ hs
        subst this
        obtain ⟨h', r, e1, e2⟩ := c64_unary h junk dt.w hw (fn u) ⟨b, d.w⟩ hy.1
        refine ⟨h, h', r, by simp only [plainBin, e1, Out.bind], Grows.refl h, fix e2 fun c hc => ?_⟩
        rw [binAt, at_arr hay hc, proj_self b.shape c hc]; rfl
    | arr a d =>
      cases y with
      | num v =>
        have := broadcasts_nil_right _ _ hs
        subst this
        obtain ⟨h', r, e1, e2⟩ := c64_unary h junk dt.w hw (fun u => fn u v) ⟨a, d.w⟩ hx.1
        refine ⟨h, h', r, by simp only [plainBin, e1, Out.bind], Grows.refl h, fix e2 fun c hc => ?_⟩
        rw [binAt, at_arr hax hc, proj_self a.shape c hc]
        cases a.read h c <;> rfl
      | arr b d' =>
        obtain ⟨h', r, e1, e2⟩ := c64_binary h junk dt.w hw fn ⟨a, d.w⟩ ⟨b, d'.w⟩ hx.1 hy.1 s hs
        refine ⟨h, h', r, by simp only [plainBin, e1, Out.bind], Grows.refl h, fix e2 fun c hc => ?_⟩
        rw [binAt, at_arr hax hc, at_arr hay hc]

theorem plainBin_error (L : Nat) (junk : Int → V) (fn : V → V → V) (dt : DT) (k : Kind) (x y : Val V) (h : Heap V) (hx : x.Ok h) (hy : y.Ok h)
    (hs : ∀ s, ¬ Broadcasts [x.shape, y.shape] s) : plainBin L junk fn dt k x y h = some (.error .value) := by
  have n1 : ∀ (a : List Int), Broadcasts [a, []] a := fun a => ⟨by simp, ⟨a, by simp, rfl⟩, fun k _ => ⟨by simp [dimAt], a, by simp, rfl⟩⟩
  have n2 : ∀ (a : List Int), Broadcasts [[], a] a := fun a => ⟨by simp, ⟨a, by simp, rfl⟩, fun k _ => ⟨by simp [dimAt], a, by simp, rfl⟩⟩
  cases x with
  | num u => exact absurd (n2 _) (hs y.shape)
  | arr a d =>
    cases y with
    | num v => exact absurd (n1 _) (hs a.shape)
    | arr b d' =>
      cases k with
      | oper => simp only [plainBin, (c64_binary_error h junk dt.w fn ⟨a, d.w⟩ ⟨b, d'.w⟩ hs).1, Out.bind]
      | ufunc => simp only [plainBin, Val.opd, c65_binary_error L _ fn _ ⟨a, d.w⟩ ⟨b, d'.w⟩ _ dt.w junk h hs, Out.bind]
      | vloop => simp only [plainBin, Val.opd, c65_binary_error L _ fn _ ⟨a, d.w⟩ ⟨b, d'.w⟩ _ dt.w junk h hs, Out.bind]

/-- What evaluating an expression as it is written does. -/
structure Did (h : Heap V) (M : Tree V (Sem V)) (τ : Ty) (new : Prop) (h' : Heap V) (v : Val V) : Prop where
  grows : Grows h h'
  ok : v.Ok h'
  ty : v.ty = τ
  means : Means M (v.sem h')
  gives : new → Gives h (v.sem h') h' v

theorem plain_spec (L : Nat) (junk : Int → V) {h0 : Heap V} {μ : Act V → Sem V} : ∀ (t : Tree V (Act V)) (h : Heap V) (τ : Ty), Grows h0 h → (∀ a ∈ t.leaves, a.Pure h0 (μ a)) →
    t.tyOf Act.ty = some τ → t.Sized → t.NoVec2 →
    (∃ h' v, plain L junk t h = some (.ok (h', v)) ∧ Did h (t.map μ) τ (∀ x, t ≠ .leaf x) h' v) ∨ ((∀ m, ¬ Means (t.map μ) m) ∧ plain L junk t h = some (.error .value))
  | .leaf a, h, τ, hg, hp, ht, hz, hv => by
    obtain ⟨h1, v, e1, e2, e3, e4, e5⟩ := hp a (by simp [Tree.leaves]) h hg
    exact Or.inl ⟨h1, v, e1, e2, e3, by rw [e4]; exact Option.some.inj ht, by rw [e5]; exact .leaf _, fun hh => absurd rfl (hh a)⟩
  | .un fn dt k c l, h, τ, hg, hp, ht, hz, hv => by
    obtain ⟨d, n, t1, t2, t3, t4⟩ := ty_un ht
    rcases plain_spec L junk l h _ hg hp t1 hz.2 hv with ⟨h1, v, e, D⟩ | ⟨hm, e⟩
    · cases v with
      | num v => exact absurd D.ty (by simp [Val.ty])
      | arr a d' =>
        have hty := D.ty
        simp only [Val.ty, Ty.arr.injEq] at hty
        obtain ⟨h2, b, e1, q1, q2, q3, q4, q5, q6⟩ := plainUn_spec L junk fn dt k a d' h1 hz.1 D.ok.1 (fun h0 => t2 (by rw [← hty.2, h0]; rfl)) fun hk => by rw [hty.1, t3 hk]
        have hsem : (Val.arr b dt).sem h2 = .arr a.shape fun c => (clip a.shape (fun c => a.read h1 c) c).map fn := by
          simp only [Val.sem, q1]
          congr 1
          funext c
          unfold clip
          split
          · next hc => exact q6 c hc
          · rfl
        have hb := q2.block
        have hg2 : Grows h1 h2 := ⟨q4, by omega⟩
        have n1 := D.grows.2
        refine Or.inl ⟨h2, .arr b dt, by rw [plain, e]; exact e1, D.grows.trans hg2, ⟨q2, by rw [q1]; exact D.ok.2.1, hz.1⟩, by rw [t4, Val.ty, q1, hty.2], ?_, fun _ => ?_⟩
        · rw [hsem]; exact .un D.means
        · exact ⟨b, dt, rfl, q2, by omega, by rw [q1]; exact q5, (D.grows.trans hg2).1, rfl⟩
    · refine Or.inr ⟨fun m hh => ?_, by rw [plain, e]; rfl⟩
      cases hh with
      | un hl => exact hm _ hl
  | .bin fn dt k c l r, h, τ, hg, hp, ht, hz, hv => by
    obtain ⟨τ1, τ2, t1, t2, t3, t4⟩ := ty_bin ht
    rcases plain_spec L junk l h _ hg (fun a ha => hp a (by simp [Tree.leaves, ha])) t1 hz.2.1 hv.2.1 with ⟨h1, x, e, D⟩ | ⟨hm, e⟩
    · rcases plain_spec L junk r h1 _ (hg.trans D.grows) (fun a ha => hp a (by simp [Tree.leaves, ha])) t2 hz.2.2 hv.2.2 with ⟨h2, y, e', D'⟩ | ⟨hm, e'⟩
      · have hx := same_grows D.ok D'.grows
        have hxo := ok_same D.ok hx
        have hxm : Means (l.map μ) (x.sem h2) := by rw [sem_same hx]; exact D.means
        by_cases hs : ∃ s, Broadcasts [x.shape, y.shape] s
        · obtain ⟨s, hs⟩ := hs
          obtain ⟨t5, t6⟩ := t4 x y s D.ty D'.ty hs
          obtain ⟨h3, h4, b, e1, g3, q1, q2, q3, q4, q5, q6⟩ := plainBin_spec L junk fn dt k x y h2 hz.1 hxo D'.ok hv.1 s hs (fun h0 => t6 (by rw [h0]; rfl))
          have hb := q2.block
          have hg4 : Grows h2 h4 := g3.trans ⟨q4, by omega⟩
          have hgg := (D.grows.trans D'.grows).trans hg4
          have hsem : (Val.arr b dt).sem h4 = .arr s (clip s (binAt fn (x.sem h2) (y.sem h2))) := by
            simp only [Val.sem, q1]
            congr 1
            refine clip_congr fun c hc => ?_
            rw [q6 c hc]; exact clip_pos hc
          have n1 := (D.grows.trans D'.grows).2
          have n3 := g3.2
          refine Or.inl ⟨h4, .arr b dt, by rw [plain, e]; simp only [Out.bind, e', e1], hgg, ⟨q2, ?_, hz.1⟩, by rw [t5, Val.ty, q1], ?_, fun _ => ?_⟩
          · rw [q1]
            refine broadcasts_pos _ _ hs fun a ha => ?_
            simp only [List.mem_cons, List.not_mem_nil, or_false] at ha
            rcases ha with rfl | rfl
            · exact ok_pos hxo
            · exact ok_pos D'.ok
          · rw [hsem]
            exact .bin hxm D'.means (by rw [shape_sem, shape_sem]; exact hs)
          · exact ⟨b, dt, rfl, q2, by omega, by rw [q1]; exact q5, hgg.1, rfl⟩
        · refine Or.inr ⟨fun m hh => ?_, by rw [plain, e]; simp only [Out.bind, e', plainBin_error L junk fn dt k x y h2 hxo D'.ok fun s h5 => hs ⟨s, h5⟩]⟩
          cases hh with
          | bin hl hr hb =>
            rw [means_unique hxm _ hl, means_unique D'.means _ hr, shape_sem, shape_sem] at hb
            exact hs ⟨_, hb⟩
      · refine Or.inr ⟨fun m hh => ?_, by rw [plain, e]; simp only [Out.bind, e']⟩
        cases hh with
        | bin hl hr hs => exact hm _ hr
    · refine Or.inr ⟨fun m hh => ?_, by rw [plain, e]; rfl⟩
      cases hh with
      | bin hl hr hs => exact hm _ hl

theorem plain_right (L : Nat) (junk : Int → V) (t : Tree V (Act V)) (h : Heap V) (μ : Act V → Sem V) (τ : Ty) (hp : ∀ a ∈ t.leaves, a.Pure h (μ a))
    (ht : t.tyOf Act.ty = some τ) (hz : t.Sized) (hv : t.NoVec2) (hn : ∀ x, t ≠ .leaf x) : Right h (t.map μ) (plain L junk t h) := by
  rcases plain_spec L junk t h τ (Grows.refl h) hp ht hz hv with ⟨h', v, e, D⟩ | hh
  · exact Or.inl ⟨_, h', v, D.means, e, D.gives hn⟩
  · exact Or.inr hh

end Codon.NpFuse
