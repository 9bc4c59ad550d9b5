import Verif.Numpy.UfuncProps
import Verif.NpFuse.Flat
/-!
# Single operations storing their result in an array
-/
namespace Codon.NpFuse
open Codon.Numpy
variable {V : Type}

theorem broadcasts_cons (s : List Int) (args : List (List Int)) (h : ∀ a ∈ args, Aligned a s) : Broadcasts (s :: args) s := by
  refine ⟨?_, ⟨s, by simp, rfl⟩, fun k _ => ⟨?_, s, by simp, rfl⟩⟩
  · intro a ha
    rcases List.mem_cons.mp ha with rfl | ha
    · exact Nat.le_refl _
    · exact (h a ha).1
  · intro a ha
    rcases List.mem_cons.mp ha with rfl | ha
    · exact Or.inr rfl
    · exact aligned_dimAt a s (h a ha) k

theorem broadcasts_nil_right (a s : List Int) (h : Broadcasts [a, []] s) : s = a :=
  broadcasts_unique _ _ _ h (by
    refine ⟨by simp, ⟨a, by simp, rfl⟩, fun k _ => ⟨?_, a, by simp, rfl⟩⟩
    simp [dimAt])

theorem broadcasts_nil_left (a s : List Int) (h : Broadcasts [[], a] s) : s = a :=
  broadcasts_unique _ _ _ h (by
    refine ⟨by simp, ⟨a, by simp, rfl⟩, fun k _ => ⟨?_, a, by simp, rfl⟩⟩
    simp [dimAt])

/-- The arrays are the same one, or in different blocks. -/
def Sep (o x : Arr) : Prop := x = o ∨ x.blk ≠ o.blk

/-- A loop over the result and operands. -/
theorem loop_into (h : Heap V) (f : List Ptr → Heap V → Option (Heap V)) (g : List V → Option V) (o : Opd) (r : List Opd) (ho : o.arr.WF h) (hr : ∀ x ∈ r, x.arr.WF h)
    (hal : ∀ x ∈ r, Aligned x.arr.shape o.arr.shape) (hself : o.arr.NoRepeat) (hsep : ∀ x ∈ r, Sep o.arr x.arr)
    (hf : ∀ (ps : List Ptr) (z : Ptr) (h1 : Heap V) (vs : List V), vs.length = r.length + 1 → (z :: ps).map (fun p => h1.get p.1 p.2) = vs.map some →
      ∃ x, g vs = some x ∧ f (z :: ps) h1 = h1.write z.1 z.2 x) :
    ∃ h', inplaceLoop h .all true f o r = some (.ok h') ∧ Updated h o.arr (fun c => ((o :: r).mapM fun x : Opd => x.arr.read h (proj x.arr.shape c)).bind g) h' := by
  have hwf : ∀ x ∈ o :: r, x.arr.WF h := by
    intro x hx
    rcases List.mem_cons.mp hx with rfl | hx
    · exact ho
    · exact hr x hx
  have hal' : ∀ x ∈ o :: r, Aligned x.arr.shape o.arr.shape := by
    intro x hx
    rcases List.mem_cons.mp hx with rfl | hx
    · exact aligned_refl _
    · exact hal x hx
  have hb : Broadcasts ((o :: r).map (·.arr.shape)) o.arr.shape := by
    rw [List.map_cons]
    exact broadcasts_cons _ _ fun a ha => by obtain ⟨x, hx, rfl⟩ := List.mem_map.mp ha; exact hal x hx
  obtain ⟨cs, res, e1, e2, e3⟩ := loop_all o r none h.next o.arr.shape (by simp) (fun x hx => (hwf x hx).len) (fun x hx => (hwf x hx).nonneg) hb
  simp only [Fresh] at e3
  subst e3
  obtain ⟨h', h1, h2⟩ := inplaceLoop_spec h f g o r .all true hwf cs e2 hal' e1 hself (by
      intro x hx c c' hc hc' he
      rcases hsep x hx with hh | hh
      · rw [hh, proj_self _ _ hc'] at he
        exact hself c c' hc hc' he
      · exact absurd (congrArg Prod.fst he).symm hh) (by
      intro ps z h1 vs hl hm
      obtain ⟨x, hx, e⟩ := hf ps z h1 vs hl hm
      rw [e, hx])
  refine ⟨h', h1, updated_congr _ _ _ _ _ h2 fun c hc => ?_⟩
  obtain ⟨vs, v1, v2, v3⟩ := mapM_read h (o :: r) o.arr.shape c hc hwf hal'
  rw [v1]
  simp only [Option.bind_some]
  have := hf ((r.map fun x => x.arr.addr (proj x.arr.shape c))) (o.arr.addr (proj o.arr.shape c)) h vs (by simpa using v2) (by rw [← v3]; simp)
  obtain ⟨x, hx, _⟩ := this
  rw [hx]

/-! ### The element functions -/

section
variable (h : Heap V) (o : Opd) (ho : o.arr.WF h) (hself : o.arr.NoRepeat)
include ho hself

theorem into_unary (op : V → V) (x : Opd) (hx : x.arr.WF h) (ha : Aligned x.arr.shape o.arr.shape) (hs : Sep o.arr x.arr) :
    ∃ h', inplaceLoop h .all true (unaryFunctor op) o [x] = some (.ok h') ∧ Updated h o.arr (fun c => (x.arr.read h (proj x.arr.shape c)).map op) h' := by
  obtain ⟨h', e1, e2⟩ := loop_into h (unaryFunctor op) (fun vs => match vs with | [_, u] => some (op u) | _ => none) o [x] ho (by simpa using hx) (by simpa using ha) hself (by simpa using hs) (by
    intro ps z h1 vs hl hm
    match vs, hl with
    | [u, v], _ =>
      have hlp : ps.length = 1 := by simpa using congrArg List.length hm
      match ps, hlp, hm with
      | [y], _, hm =>
        simp only [List.map_cons, List.map_nil, List.cons.injEq, and_true] at hm
        exact ⟨op v, rfl, by simp only [unaryFunctor, hm.2]⟩)
  refine ⟨h', e1, updated_congr _ _ _ _ _ e2 fun c hc => ?_⟩
  obtain ⟨u, hu⟩ := dom_proj h o.arr ho _ (aligned_refl _) c hc
  obtain ⟨v, hv⟩ := dom_proj h x.arr hx _ ha c hc
  simp [hu, hv]

theorem into_self (op : V → V) : ∃ h', inplaceLoop h .all true (inplaceUnaryFunctor op) o [] = some (.ok h') ∧ Updated h o.arr (fun c => (o.arr.read h (proj o.arr.shape c)).map op) h' := by
  obtain ⟨h', e1, e2⟩ := loop_into h (inplaceUnaryFunctor op) (fun vs => match vs with | [u] => some (op u) | _ => none) o [] ho (by simp) (by simp) hself (by simp) (by
    intro ps z h1 vs hl hm
    match vs, hl with
    | [u], _ =>
      have hlp : ps.length = 0 := by simpa using congrArg List.length hm
      match ps, hlp, hm with
      | [], _, hm =>
        simp only [List.map_cons, List.map_nil, List.cons.injEq, and_true] at hm
        exact ⟨op u, rfl, by simp only [inplaceUnaryFunctor, hm]⟩)
  refine ⟨h', e1, updated_congr _ _ _ _ _ e2 fun c hc => ?_⟩
  obtain ⟨u, hu⟩ := dom_proj h o.arr ho _ (aligned_refl _) c hc
  simp [hu]

theorem into_binary (op : V → V → V) (x y : Opd) (hx : x.arr.WF h) (ha : Aligned x.arr.shape o.arr.shape) (hs : Sep o.arr x.arr) (hy : y.arr.WF h) (ha' : Aligned y.arr.shape o.arr.shape)
    (hs' : Sep o.arr y.arr) : ∃ h', inplaceLoop h .all true (binaryFunctor op) o [x, y] = some (.ok h') ∧
      Updated h o.arr (fun c => (x.arr.read h (proj x.arr.shape c)).bind fun u => (y.arr.read h (proj y.arr.shape c)).map (op u)) h' := by
  obtain ⟨h', e1, e2⟩ := loop_into h (binaryFunctor op) (fun vs => match vs with | [_, u, v] => some (op u v) | _ => none) o [x, y] ho (by simp [hx, hy]) (by simp [ha, ha']) hself
    (by simp [hs, hs']) (by
    intro ps z h1 vs hl hm
    match vs, hl with
    | [w, u, v], _ =>
      have hlp : ps.length = 2 := by simpa using congrArg List.length hm
      match ps, hlp, hm with
      | [p, q], _, hm =>
        simp only [List.map_cons, List.map_nil, List.cons.injEq, and_true] at hm
        exact ⟨op u v, rfl, by simp only [binaryFunctor, hm.2.1, hm.2.2]⟩)
  refine ⟨h', e1, updated_congr _ _ _ _ _ e2 fun c hc => ?_⟩
  obtain ⟨w, hw⟩ := dom_proj h o.arr ho _ (aligned_refl _) c hc
  obtain ⟨u, hu⟩ := dom_proj h x.arr hx _ ha c hc
  obtain ⟨v, hv⟩ := dom_proj h y.arr hy _ ha' c hc
  simp [hw, hu, hv]

theorem into_left (op : V → V → V) (y : Opd) (hy : y.arr.WF h) (ha' : Aligned y.arr.shape o.arr.shape)
    (hs' : Sep o.arr y.arr) : ∃ h', inplaceLoop h .all true (inplaceBinaryFunctor op) o [y] = some (.ok h') ∧
      Updated h o.arr (fun c => (o.arr.read h (proj o.arr.shape c)).bind fun u => (y.arr.read h (proj y.arr.shape c)).map (op u)) h' := by
  obtain ⟨h', e1, e2⟩ := loop_into h (inplaceBinaryFunctor op) (fun vs => match vs with | [u, v] => some (op u v) | _ => none) o [y] ho (by simp [hy]) (by simp [ha']) hself
    (by simp [hs']) (by
    intro ps z h1 vs hl hm
    match vs, hl with
    | [u, v], _ =>
      have hlp : ps.length = 1 := by simpa using congrArg List.length hm
      match ps, hlp, hm with
      | [q], _, hm =>
        simp only [List.map_cons, List.map_nil, List.cons.injEq, and_true] at hm
        exact ⟨op u v, rfl, by simp only [inplaceBinaryFunctor, hm.1, hm.2]⟩)
  refine ⟨h', e1, updated_congr _ _ _ _ _ e2 fun c hc => ?_⟩
  obtain ⟨u, hu⟩ := dom_proj h o.arr ho _ (aligned_refl _) c hc
  obtain ⟨v, hv⟩ := dom_proj h y.arr hy _ ha' c hc
  simp [hu, hv]

theorem into_right (op : V → V → V) (x : Opd) (hx : x.arr.WF h) (ha : Aligned x.arr.shape o.arr.shape)
    (hs : Sep o.arr x.arr) : ∃ h', inplaceLoop h .all true (inplaceRight op) o [x] = some (.ok h') ∧
      Updated h o.arr (fun c => (x.arr.read h (proj x.arr.shape c)).bind fun u => (o.arr.read h (proj o.arr.shape c)).map (op u)) h' := by
  obtain ⟨h', e1, e2⟩ := loop_into h (inplaceRight op) (fun vs => match vs with | [v, u] => some (op u v) | _ => none) o [x] ho (by simp [hx]) (by simp [ha]) hself
    (by simp [hs]) (by
    intro ps z h1 vs hl hm
    match vs, hl with
    | [v, u], _ =>
      have hlp : ps.length = 1 := by simpa using congrArg List.length hm
      match ps, hlp, hm with
      | [q], _, hm =>
        simp only [List.map_cons, List.map_nil, List.cons.injEq, and_true] at hm
        exact ⟨op u v, rfl, by simp only [inplaceRight, hm.1, hm.2]⟩)
  refine ⟨h', e1, updated_congr _ _ _ _ _ e2 fun c hc => ?_⟩
  obtain ⟨v, hv⟩ := dom_proj h o.arr ho _ (aligned_refl _) c hc
  obtain ⟨u, hu⟩ := dom_proj h x.arr hx _ ha c hc
  simp [hu, hv]

end

/-! ### The vectorised loop -/

theorem pickAbs_lt : ∀ (ns ss : List Int) (i : Nat) (best : Option (Nat × Int)), (∀ k st, best = some (k, st) → k < i) → ∀ k st, pickAbs ns ss i best = some (k, st) → k < i + ns.length
  | [], _, i, best, hb, k, st, h => by rw [pickAbs.eq_def] at h; dsimp only at h; have := hb k st h; simp; exact this
  | _ :: _, [], i, best, hb, k, st, h => by rw [pickAbs.eq_def] at h; dsimp only at h; have := hb k st h; simp; omega
  | n :: ns, s :: ss, i, best, hb, k, st, h => by
    rw [pickAbs.eq_def] at h
    dsimp only at h
    have := pickAbs_lt ns ss (i + 1) _ (by
      intro k' st' he
      split at he
      · split at he
        · cases he; omega
        · next k2 s2 =>
          have := hb k2 s2 rfl
          split at he
          · cases he; omega
          · cases he; omega
      · have := hb k' st' he; omega) k st h
    simp; omega

theorem absAxis_lt (sh st : List Int) (h : 0 < sh.length) : absAxis sh st < sh.length := by
  unfold absAxis
  split
  · exact h
  · next k s he =>
    have := pickAbs_lt sh st 0 none (by simp) k s he
    omega

theorem vecUn_ok (v0 : V) (L : Nat) (op : V → V) (x out : Opd) (h : Heap V) (hsh : x.arr.shape = out.arr.shape) (hne : out.arr.shape.length ≠ 0) (hw : x.w = out.w) (hx : x.arr.WF h)
    (ho : out.arr.WF h) (hself : out.arr.NoRepeat) (hsep : Sep out.arr x.arr) :
    ∃ h', vecUn L op x out h = some (.ok h') ∧ Updated h out.arr (fun c => (x.arr.read h (proj x.arr.shape c)).map op) h' := by
  have hover : ∀ c c', Valid c out.arr.shape → Valid c' out.arr.shape → out.arr.addr c = x.arr.addr c' → c = c' := by
    intro c c' hc hc' he
    rcases hsep with hh | hh
    · rw [hh] at he; exact hself c c' hc hc' he
    · exact absurd (congrArg Prod.fst he).symm hh
  have T : Target h out.arr.shape out.arr := ⟨rfl, ho, hself⟩
  obtain ⟨a, B⟩ := operand_of v0 hx hsh hover
  have hxl := B.len
  have hol := ho.len
  have main : ∃ h', vecUn L op x out h = some (.ok h') ∧ Updated h out.arr (fun c => (x.arr.read h c).map op) h' := by
    unfold vecUn
    rw [if_neg (by rw [hsh]; omega)]
    split
    · next h1 =>
      obtain ⟨h', e1, e2⟩ := unary_rows T B L x.w op 0 (by omega)
      refine ⟨h', ?_, e2⟩
      match hs : out.arr.shape, h1 with
      | [n], _ =>
        rw [hs] at e1 hxl hol
        obtain ⟨z1, z2⟩ := zero_ptr x.arr (by simpa using hxl.symm)
        obtain ⟨z3, z4⟩ := zero_ptr out.arr (by simpa using hol.symm)
        simp only [List.eraseIdx_cons_zero, multirange, rows, z1, z2, z3, z4, List.getD_cons_zero] at e1
        rw [show count [n] = n by simp [count]]
        cases hu : unaryLoop L x.w op (x.arr.blk, x.arr.off) (x.arr.strides.headD 0) (out.arr.blk, out.arr.off) (out.arr.strides.headD 0) n.toNat h with
        | none => rw [hu] at e1; cases e1
        | some h2 => rw [hu] at e1; rw [Option.some.inj e1]; rfl
    · split
      · next hc =>
        obtain ⟨_, f, f1, f2⟩ := contigMatch_cases x out hc
        rw [hw] at f1
        obtain ⟨h', e1, e2⟩ := unary_flat T B L out.w x.w op f (flat_of _ _ _ _ rfl hol f2) (flat_of _ _ _ _ hsh hxl f1)
        exact ⟨h', by rw [e1]; rfl, e2⟩
      · obtain ⟨h', e1, e2⟩ := unary_rows T B L x.w op (absAxis x.arr.shape x.arr.strides) (by rw [← hsh]; exact absAxis_lt _ _ (by rw [hsh]; omega))
        refine ⟨h', ?_, e2⟩
        dsimp only
        rw [hsh] at e1 ⊢
        rw [e1]; rfl
  obtain ⟨h', e1, e2⟩ := main
  exact ⟨h', e1, updated_congr _ _ _ _ _ e2 fun c hc => by rw [proj_self _ _ (by rw [hsh]; exact hc)]⟩

/-! ### New arrays -/

theorem packed_create (a : Arr) (w w' : Int) (s : List Int) (hw : 0 < w') (hl : a.shape.length = a.strides.length) (hn : ∀ n ∈ s, 0 ≤ n) : Packed s w' (createStrides a w s w') := by
  unfold createStrides
  split
  · next hs =>
    split
    · exact packed_stridesOf _ _ _ hw hn
    · split
      · exact packed_stridesOf _ _ _ hw hn
      · have hp : IsPerm ((sortByStride ((upto s.length).zip a.strides)).map (·.1.toNat)).reverse s.length := by
          have := order_isPerm a.strides
          rw [← hl, ← hs] at this
          exact (List.reverse_perm _).trans this
        generalize hax : ((sortByStride ((upto s.length).zip a.strides)).map (·.1.toNat)).reverse = ax at hp
        obtain ⟨h1, _, h3⟩ := kStrides_spec s ax w' (List.replicate a.strides.length 0) (hp.nodup_iff.mpr List.nodup_range) fun p hh => by
          rw [List.length_replicate, ← hl, ← hs]; exact List.mem_range.mp (hp.mem_iff.mp hh)
        refine packed_perm ax s _ w' hp (by rw [h1, List.length_replicate, ← hl, hs]) ?_
        rw [h3]
        have := packed_stridesOf (ax.map fun j => s.getD j 0) true w' hw (by
          intro n hh
          obtain ⟨j, hj, rfl⟩ := List.mem_map.mp hh
          have hj' := List.mem_range.mp (hp.mem_iff.mp hj)
          rw [List.getD_eq_getElem?_getD, List.getElem?_eq_getElem hj', Option.getD_some]
          exact hn _ (List.getElem_mem hj'))
        simpa [stridesOf] using this
  · exact packed_stridesOf _ _ _ hw hn

/-- The result of `create`. -/
theorem create_spec (junk : Int → V) (like : Val V) (s : List Int) (dt : DT) (h : Heap V) (hl : ∀ a d, like = .arr a d → a.shape.length = a.strides.length) (hw : 0 < dt.w) (hn : ∀ n ∈ s, 0 ≤ n) :
    ∃ st, create junk like s dt h = (h.new dt.w (count s) junk, ⟨s, st, h.next, 0⟩) ∧ Arr.WF ⟨s, st, h.next, 0⟩ (h.new dt.w (count s) junk) ∧ Arr.NoRepeat ⟨s, st, h.next, 0⟩ := by
  cases like with
  | num v => exact ⟨_, rfl, new_wf _ _ _ _ _ hw hn (packed_stridesOf _ _ _ hw hn), new_inj _ _ _ _ (packed_stridesOf _ _ _ hw hn)⟩
  | arr a d =>
    have hp := packed_create a d.w dt.w s hw (hl a d rfl) hn
    exact ⟨_, rfl, new_wf _ _ _ _ _ hw hn hp, new_inj _ _ _ _ hp⟩

/-! ### Freeing -/

theorem ptrOff_replicate : ∀ (n : Nat) (st : List Int), ptrOff (List.replicate n 0) st = 0
  | 0, st => by cases st <;> rfl
  | n + 1, [] => rfl
  | n + 1, s :: st => by simp [List.replicate_succ, ptrOff, ptrOff_replicate n st]

theorem valid_zeros : ∀ s : List Int, (∀ n ∈ s, 0 < n) → Valid (List.replicate s.length 0) s
  | [], _ => trivial
  | n :: s, h => ⟨⟨Int.le_refl 0, h n (by simp)⟩, valid_zeros s fun m hm => h m (by simp [hm])⟩

/-- The blocks that are not `b` are the same. -/
def Except' (h h' : Heap V) (b : Nat) : Prop := h'.next = h.next ∧ ∀ b', b' ≠ b → h'.get b' = h.get b'

theorem free_spec (h : Heap V) (a : Arr) (hwf : a.WF h) (hp : ∀ n ∈ a.shape, 0 < n) (ho : a.off = 0) : ∃ h', Heap.free h a = some h' ∧ Except' h h' a.blk := by
  obtain ⟨v, hv⟩ := hwf.alloc _ (valid_zeros a.shape hp)
  rw [Arr.read, ptrOff_replicate, ho] at hv
  refine ⟨⟨fun b o => if b = a.blk then none else h.get b o, h.next⟩, by rw [Heap.free, if_pos ⟨ho, Or.inr (by simpa using congrArg Option.isSome hv)⟩], rfl, fun b' hb => ?_⟩
  funext o
  dsimp only
  rw [if_neg hb]

end Codon.NpFuse
