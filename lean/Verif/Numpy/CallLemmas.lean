import Verif.Numpy.UfuncLemmas
import Verif.Numpy.UfuncSpec
/-!
# What the second halves of the calls of universal functions store
-/
namespace Codon.Numpy
variable {V : Type}

theorem stretches_iff (sh s : List Int) : Stretches sh s ↔ Aligned sh s := ⟨fun h => broadcasts_aligned _ _ h _ (by simp), aligned_fits sh s⟩

/-- `_loop` with the shape of the first array, which gets the values. -/
theorem first_ok (h : Heap V) (f : List Ptr → Heap V → Option (Heap V)) (g : List V → Option V) (a : Opd) (r : List Opd) (check : Bool)
    (hwf : ∀ x ∈ a :: r, x.arr.WF h) (hal : ∀ x ∈ r, Aligned x.arr.shape a.arr.shape) (hself : a.arr.NoRepeat) (hover : ∀ x ∈ r, a.arr.Apart x.arr)
    (hf : ∀ (ps : List Ptr) (z : Ptr) (h1 : Heap V) (vs : List V), vs.length = r.length + 1 → (z :: ps).map (fun p => h1.get p.1 p.2) = vs.map some →
      f (z :: ps) h1 = match g vs with | some x => h1.write z.1 z.2 x | none => some h1) :
    ∃ h', inplaceLoop h .first check f a r = some (.ok h') ∧
      Updated h a.arr (fun c => ((a :: r).mapM fun x : Opd => x.arr.read h (proj x.arr.shape c)).bind fun vs => match g vs with | some x => some x | none => a.arr.read h c) h' := by
  obtain ⟨cs, e1, e2⟩ := loop_first a r check h.next (fun x hx => (hwf x hx).len) (hwf a (by simp)).nonneg hal
  exact inplaceLoop_spec h f g a r .first check hwf cs e2 (fun x hx => by
    rcases List.mem_cons.mp hx with rfl | hx
    · exact aligned_refl _
    · exact hal x hx) e1 hself hover hf

theorem updated_congr (h : Heap V) (a : Arr) (e e' : List Int → Option V) (h' : Heap V) (hu : Updated h a e h') (he : ∀ c, Valid c a.shape → e c = e' c) : Updated h a e' h' :=
  ⟨hu.1, fun c hc => by rw [hu.2.1 c hc, he c hc], hu.2.2⟩

theorem updated_nothing (h : Heap V) (a : Arr) : Updated h a (fun c => a.read h c) h := ⟨rfl, fun _ _ => rfl, fun _ _ => rfl⟩

theorem read_all (h : Heap V) (o : Arr) (ho : o.WF h) (x : Arr) (hx : x.WF h) (ha : Aligned x.shape o.shape) (c : List Int) (hc : Valid c o.shape) :
    ∃ v, x.read h (proj x.shape c) = some v := dom_proj h x hx _ ha c hc

theorem unaryInto_ok (L : Nat) (vec : Bool) (op : V → V) (tr : V → Bool) (x o : Opd) (wh : Where) (h : Heap V) (v0 : V) (hx : x.arr.WF h) (ho : o.arr.WF h)
    (hne : o.arr.shape.length ≠ 0) (hs : Stretches x.arr.shape o.arr.shape) (hself : o.arr.NoRepeat) (hap : o.arr.Apart x.arr) (hwh : wh.Fits h o.arr.shape) (hwo : wh.Apart o.arr)
    (hvec : vec = true → wh = .const true → x.arr.shape = o.arr.shape ∧ x.w = o.w) :
    ∃ h', unaryInto L vec op tr x o wh h = some (.ok (.arr h' o)) ∧ Updated h o.arr (unaryElem op tr x.arr o.arr wh h) h' := by
  have hal := (stretches_iff _ _).mp hs
  match wh, hwh, hwo, hvec with
  | .const false, _, _, _ => exact ⟨h, rfl, updated_congr _ _ _ _ _ (updated_nothing h o.arr) fun c _ => by simp [unaryElem, Where.on]⟩
  | .const true, _, _, hvec =>
    cases vec with
    | true =>
      obtain ⟨e1, e2⟩ := hvec rfl rfl
      obtain ⟨h', f1, f2⟩ := applyUnary_ok v0 L op x o h e1 hne e2 hx ho hself (fun c c' hc hc' he => by
        refine hap c c' hc hc' ?_
        rw [he, proj_self _ _ (by rw [e1]; exact hc')])
      refine ⟨h', by simp only [unaryInto, if_true]; rw [f1]; rfl, updated_congr _ _ _ _ _ f2 fun c hc => ?_⟩
      simp only [unaryElem, Where.on, Option.bind_some, if_true]
      rw [proj_self _ _ (by rw [e1]; exact hc)]
    | false =>
      have hwf : ∀ y ∈ [o, x], y.arr.WF h := by simp [hx, ho]
      have hb : Broadcasts ([o, x].map fun y : Opd => y.arr.shape) o.arr.shape := by
        obtain ⟨b1, b2, b3⟩ := hs
        refine ⟨fun sh hsh => b1 sh ?_, ⟨o.arr.shape, by simp, rfl⟩, fun k hk => ⟨fun sh hsh => (b3 k hk).1 sh ?_, o.arr.shape, by simp, rfl⟩⟩ <;>
        · simp only [List.map_cons, List.map_nil, List.mem_cons, List.not_mem_nil, or_false] at hsh ⊢; tauto
      obtain ⟨cs, res, e1, e2, e3⟩ := loop_all_uncheck o [x] h.next o.arr.shape (fun y hy => (hwf y hy).len) (fun y hy => (hwf y hy).nonneg) hb
      simp only [Fresh] at e3
      subst e3
      obtain ⟨h', f1, f2⟩ := inplaceLoop_spec h (unaryFunctor op) (fun vs => match vs with | [_, u] => some (op u) | _ => none) o [x] .all false hwf cs e2
        (fun y hy => broadcasts_aligned _ _ hb _ (List.mem_map_of_mem hy)) e1 hself (fun y hy => by rw [List.mem_singleton.mp hy]; exact hap) (by
          intro ps z h1 vs hl hm
          match vs, hl with
          | [v, u], _ =>
            have hlp : ps.length = 1 := by simpa using congrArg List.length hm
            match ps, hlp, hm with
            | [p], _, hm =>
              simp only [List.map_cons, List.map_nil, List.cons.injEq, and_true] at hm
              simp only [unaryFunctor, hm.2])
      refine ⟨h', by simp only [unaryInto, Bool.false_eq_true, if_false]; rw [f1]; rfl, updated_congr _ _ _ _ _ f2 fun c hc => ?_⟩
      obtain ⟨v, hv⟩ := read_all h o.arr ho o.arr ho (aligned_refl _) c hc
      obtain ⟨u, hu⟩ := read_all h o.arr ho x.arr hx hal c hc
      simp [unaryElem, Where.on, List.mapM_cons, hv, hu]
  | .mask m, ⟨m1, m2⟩, m3, _ =>
    obtain ⟨h', f1, f2⟩ := first_ok h (unaryWhere tr op) (fun vs => match vs with | [_, u, m] => if tr m then some (op u) else none | _ => none) o [x, m] true
      (by simp [hx, ho, m1]) (by simp [hal, (stretches_iff _ _).mp m2]) hself (by simp only [List.mem_cons, List.not_mem_nil, or_false, forall_eq_or_imp, forall_eq]; exact ⟨hap, m3⟩) (by
        intro ps z h1 vs hl hm
        match vs, hl with
        | [v, u, m], _ =>
          have hlp : ps.length = 2 := by simpa using congrArg List.length hm
          match ps, hlp, hm with
          | [p, q], _, hm =>
            simp only [List.map_cons, List.map_nil, List.cons.injEq, and_true] at hm
            simp only [unaryWhere, hm.2.2]
            cases htr : tr m with
            | true => simp only [if_true, unaryFunctor, hm.2.1]
            | false => simp only [Bool.false_eq_true, if_false])
    refine ⟨h', by simp only [unaryInto]; rw [f1]; rfl, updated_congr _ _ _ _ _ f2 fun c hc => ?_⟩
    obtain ⟨v, hv⟩ := read_all h o.arr ho o.arr ho (aligned_refl _) c hc
    obtain ⟨u, hu⟩ := read_all h o.arr ho x.arr hx hal c hc
    obtain ⟨b, hb⟩ := read_all h o.arr ho m.arr m1 ((stretches_iff _ _).mp m2) c hc
    cases htr : tr b <;> simp [unaryElem, Where.on, List.mapM_cons, hv, hu, hb, htr]

theorem proj_nil (c : List Int) : proj [] c = [] := by simp [proj]

theorem binaryInto_ok (L : Nat) (vec : Bool) (op : V → V → V) (tr : V → Bool) (x y o : Opd) (wh : Where) (h : Heap V) (v0 : V) (hx : x.arr.WF h) (hy : y.arr.WF h) (ho : o.arr.WF h)
    (hxy : vec = true → ¬ (x.arr.shape.length = 0 ∧ y.arr.shape.length = 0)) (hsx : Stretches x.arr.shape o.arr.shape) (hsy : Stretches y.arr.shape o.arr.shape)
    (hself : o.arr.NoRepeat) (hapx : o.arr.Apart x.arr) (hapy : o.arr.Apart y.arr) (hwh : wh.Fits h o.arr.shape) (hwo : wh.Apart o.arr) (hvec : vec = true → wh = .const true → VecSafe L x y o.arr.shape o.w) :
    ∃ h', binaryInto L vec op tr x y o wh h = some (.ok (.arr h' o)) ∧ Updated h o.arr (binaryElem op tr x.arr y.arr o.arr wh h) h' := by
  have hax := (stretches_iff _ _).mp hsx
  have hay := (stretches_iff _ _).mp hsy
  match wh, hwh, hwo, hvec with
  | .const false, _, _, _ => exact ⟨h, rfl, updated_congr _ _ _ _ _ (updated_nothing h o.arr) fun c _ => by simp [binaryElem, Where.on]⟩
  | .const true, _, _, hvec =>
    cases vec with
    | true =>
      obtain ⟨e1, e2, e3, e4, e5, e6⟩ := hvec rfl rfl
      obtain ⟨h', f1, f2⟩ := applyBinary_ok v0 L op x y o h e1 (by have := hxy rfl; have := hax.1; have := hay.1; omega) (hxy rfl) e2 e3 hx hy ho hax hay e4 e5 (by tauto) hself hapx hapy
      refine ⟨h', by simp only [binaryInto, if_true]; rw [f1]; rfl, updated_congr _ _ _ _ _ f2 fun c hc => ?_⟩
      simp only [binaryElem, Where.on, Option.bind_some, if_true]
    | false =>
      simp only [binaryInto, Bool.false_eq_true, if_false]
      have hsc : ∀ z : Opd, z.arr.WF h → z.arr.shape.length = 0 → h.get z.arr.blk z.arr.off = z.arr.read h [] := by
        intro z hz hl
        have : z.arr.strides = [] := by have := hz.len; rw [hl] at this; exact List.length_eq_zero_iff.mp this.symm
        rw [Arr.read, this]; simp [ptrOff]
      have one : ∀ (z : Opd) (f : V → V), z.arr.WF h → Aligned z.arr.shape o.arr.shape → o.arr.Apart z.arr →
          ∃ h', inplaceLoop h .first false (unaryFunctor f) o [z] = some (.ok h') ∧ Updated h o.arr (fun c => (z.arr.read h (proj z.arr.shape c)).map f) h' := by
        intro z f hz haz hapz
        obtain ⟨h', f1, f2⟩ := first_ok h (unaryFunctor f) (fun vs => match vs with | [_, u] => some (f u) | _ => none) o [z] false
          (by simp [hz, ho]) (by simp [haz]) hself (by simp [hapz]) (by
            intro ps p h1 vs hl hm
            match vs, hl with
            | [v, u], _ =>
              have hlp : ps.length = 1 := by simpa using congrArg List.length hm
              match ps, hlp, hm with
              | [q], _, hm =>
                simp only [List.map_cons, List.map_nil, List.cons.injEq, and_true] at hm
                simp only [unaryFunctor, hm.2])
        refine ⟨h', f1, updated_congr _ _ _ _ _ f2 fun c hc => ?_⟩
        obtain ⟨v, hv⟩ := read_all h o.arr ho o.arr ho (aligned_refl _) c hc
        obtain ⟨u, hu⟩ := read_all h o.arr ho z.arr hz haz c hc
        simp [List.mapM_cons, hv, hu]
      split
      · next hl =>
        have hnil : x.arr.shape = [] := List.length_eq_zero_iff.mp hl
        obtain ⟨u, hu⟩ := hx.alloc [] (by rw [hnil]; trivial)
        rw [hsc x hx hl, hu]
        obtain ⟨h', f1, f2⟩ := one y (op u) hy hay hapy
        refine ⟨h', by dsimp only; rw [f1]; rfl, updated_congr _ _ _ _ _ f2 fun c hc => ?_⟩
        simp [binaryElem, Where.on, hnil, proj_nil, hu]
      · split
        · next hl =>
          have hnil : y.arr.shape = [] := List.length_eq_zero_iff.mp hl
          obtain ⟨v, hv⟩ := hy.alloc [] (by rw [hnil]; trivial)
          rw [hsc y hy hl, hv]
          obtain ⟨h', f1, f2⟩ := one x (fun u => op u v) hx hax hapx
          refine ⟨h', by dsimp only; rw [f1]; rfl, updated_congr _ _ _ _ _ f2 fun c hc => ?_⟩
          obtain ⟨u, hu⟩ := read_all h o.arr ho x.arr hx hax c hc
          simp [binaryElem, Where.on, hnil, proj_nil, hu, hv]
        · obtain ⟨h', f1, f2⟩ := first_ok h (binaryFunctor op) (fun vs => match vs with | [_, u, v] => some (op u v) | _ => none) o [x, y] false
            (by simp [hx, hy, ho]) (by simp [hax, hay]) hself (by simp [hapx, hapy]) (by
              intro ps z h1 vs hl hm
              match vs, hl with
              | [v, u, m], _ =>
                have hlp : ps.length = 2 := by simpa using congrArg List.length hm
                match ps, hlp, hm with
                | [p, q], _, hm =>
                  simp only [List.map_cons, List.map_nil, List.cons.injEq, and_true] at hm
                  simp only [binaryFunctor, hm.2.1, hm.2.2])
          refine ⟨h', by rw [f1]; rfl, updated_congr _ _ _ _ _ f2 fun c hc => ?_⟩
          obtain ⟨w, hw⟩ := read_all h o.arr ho o.arr ho (aligned_refl _) c hc
          obtain ⟨u, hu⟩ := read_all h o.arr ho x.arr hx hax c hc
          obtain ⟨v, hv⟩ := read_all h o.arr ho y.arr hy hay c hc
          simp [binaryElem, Where.on, List.mapM_cons, hu, hv, hw]
  | .mask m, ⟨m1, m2⟩, m3, _ =>
    obtain ⟨h', f1, f2⟩ := first_ok h (binaryWhere tr op) (fun vs => match vs with | [_, u, v, m] => if tr m then some (op u v) else none | _ => none) o [x, y, m] true
      (by simp [hx, hy, ho, m1]) (by simp [hax, hay, (stretches_iff _ _).mp m2]) hself (by simp only [List.mem_cons, List.not_mem_nil, or_false, forall_eq_or_imp, forall_eq]; exact ⟨hapx, hapy, m3⟩) (by
        intro ps z h1 vs hl hm
        match vs, hl with
        | [v, u, w, m], _ =>
          have hlp : ps.length = 3 := by simpa using congrArg List.length hm
          match ps, hlp, hm with
          | [p, q, r], _, hm =>
            simp only [List.map_cons, List.map_nil, List.cons.injEq, and_true] at hm
            simp only [binaryWhere, hm.2.2.2]
            cases htr : tr m with
            | true => simp only [if_true, binaryFunctor, hm.2.1, hm.2.2.1]
            | false => simp only [Bool.false_eq_true, if_false])
    refine ⟨h', by simp only [binaryInto]; rw [f1]; rfl, updated_congr _ _ _ _ _ f2 fun c hc => ?_⟩
    obtain ⟨w, hw⟩ := read_all h o.arr ho o.arr ho (aligned_refl _) c hc
    obtain ⟨u, hu⟩ := read_all h o.arr ho x.arr hx hax c hc
    obtain ⟨v, hv⟩ := read_all h o.arr ho y.arr hy hay c hc
    obtain ⟨b, hb⟩ := read_all h o.arr ho m.arr m1 ((stretches_iff _ _).mp m2) c hc
    cases htr : tr b <;> simp [binaryElem, Where.on, List.mapM_cons, hu, hv, hw, hb, htr]

end Codon.Numpy
