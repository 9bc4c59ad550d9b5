import Verif.Fuse.Spec

namespace Codon.Fuse

open ListM (L Sl Rel)
open Codon.SliceSpec (first last positions)

variable {T W E : Type}

section monad
variable {α β : Type} {x : M T W E α} {f : α → M T W E β} {s s' : State T W}

theorem bind_of_ok {a : α} (h : x s = .ok a s') : (x >>= f) s = f a s' := by
  show (match x s with | .ub => _ | .exc e s => _ | .ok a s => _) = _
  rw [h]

theorem bind_of_exc {e : Exn E} (h : x s = .exc e s') : (x >>= f) s = .exc e s' := by
  show (match x s with | .ub => _ | .exc e s => _ | .ok a s => _) = _
  rw [h]

theorem bind_of_ub (h : x s = .ub) : (x >>= f) s = .ub := by
  show (match x s with | .ub => _ | .exc e s => _ | .ok a s => _) = _
  rw [h]

theorem pure_ok (a : α) : (pure a : M T W E α) s = .ok a s := rfl

theorem lift_ok {x : ListM.R α} {a : α} (h : x = .ok a) : (lift x : M T W E α) s = .ok a s := by
  subst h; rfl

theorem deref_ok {a : Nat} {l : L T} (h : s.heap[a]? = some l) :
    (deref a : M T W E (L T)) s = .ok l s := by
  unfold deref; rw [h]

end monad

/-- The list with exactly these elements and no spare capacity. -/
def exact (xs : List T) : L T := ⟨xs.map some, xs.length⟩

theorem exact_rel (xs : List T) : Rel (exact xs) xs := ⟨[], by simp [exact]⟩

theorem add_exact {l l' : L T} {xs ys : List T} (h : Rel l xs) (h' : Rel l' ys) :
    ListM.add l l' = .ok (exact (xs ++ ys)) := by
  obtain ⟨r, rfl⟩ := h
  obtain ⟨r', rfl⟩ := h'
  unfold ListM.add
  obtain ⟨q, e1, e2⟩ := ListM.newCap_rel (T := T) ((xs.length : Int) + ys.length)
  simp only
  rw [e1]
  simp only [Out.bind_ok]
  have h1 := memcpyB_eq (ε := ListM.Err) (p := ([] : Block T)) (q := q.take xs.length)
    (t := q.drop xs.length) (a := []) (b := xs.map some) (c := r) (d := 0) (s := 0)
    (n := (xs.length : Int)) rfl rfl (by simp) (by simp; omega)
  simp only [List.nil_append, List.take_append_drop] at h1
  rw [h1]
  simp only [Out.bind_ok]
  have h2 := memcpyB_eq (ε := ListM.Err) (p := xs.map some) (q := q.drop xs.length)
    (t := []) (a := []) (b := ys.map some) (c := r') (d := (xs.length : Int)) (s := 0)
    (n := (ys.length : Int)) (by simp) rfl (by simp) (by simp; omega)
  simp only [List.nil_append, List.append_nil] at h2
  rw [h2]
  simp [exact]

/-! ### The helpers of the fused code -/

theorem blit_eq {xs a b : List T} {r c : Block T} {k start n : Int} (hs : start = a.length)
    (hn : n = b.length) (hr : b.length ≤ r.length) :
    blit ⟨xs.map some ++ r, xs.length⟩ ⟨a.map some ++ (b.map some ++ c), k⟩ start n =
      .ok ⟨(xs ++ b).map some ++ r.drop b.length, (xs ++ b).length⟩ := by
  unfold blit
  have h := memcpyB_eq (ε := ListM.Err) (p := xs.map some) (q := r.take b.length)
    (t := r.drop b.length) (a := a.map some) (b := b.map some) (c := c) (d := (xs.length : Int))
    (s := start) (n := n) (by simp) (by simpa using hs) (by simpa using hn) (by simp; omega)
  rw [List.take_append_drop] at h
  dsimp only
  rw [h]
  simp [hn]

theorem put_eq {xs : List T} {x : T} {r : Block T} (hr : 1 ≤ r.length) :
    put ⟨xs.map some ++ r, xs.length⟩ x =
      .ok ⟨(xs ++ [x]).map some ++ r.drop 1, (xs ++ [x]).length⟩ := by
  cases r with
  | nil => simp at hr
  | cons c r =>
    unfold put
    dsimp only
    rw [st_append (by simp)]
    simp

theorem putAll_eq : ∀ (ys xs : List T) (r : Block T), ys.length ≤ r.length →
    putAll ⟨xs.map some ++ r, xs.length⟩ ys =
      .ok ⟨(xs ++ ys).map some ++ r.drop ys.length, (xs ++ ys).length⟩ := by
  intro ys
  induction ys with
  | nil => intro xs r _; simp [putAll]
  | cons y ys ih =>
    intro xs r hr
    simp only [List.length_cons] at hr
    unfold putAll
    rw [put_eq (by omega)]
    simp only [Out.bind_ok]
    rw [ih _ _ (by simp; omega)]
    simp [Nat.add_comm]

theorem putAt_eq {v : L T} {zs : List T} (h : Rel v zs) : ∀ (ps : List Nat) (xs : List T)
    (r : Block T), (∀ p ∈ ps, p < zs.length) → ps.length ≤ r.length →
    putAt ⟨xs.map some ++ r, xs.length⟩ v (ps.map fun p : Nat => (p : Int)) =
      .ok ⟨(xs ++ ps.filterMap fun p => zs[p]?).map some ++ r.drop ps.length,
        (xs ++ ps.filterMap fun p => zs[p]?).length⟩ := by
  obtain ⟨rz, rfl⟩ := h
  intro ps
  induction ps with
  | nil => intro xs r _ _; simp [putAt]
  | cons p ps ih =>
    intro xs r hp hr
    simp only [List.length_cons] at hr
    have hpz := hp p List.mem_cons_self
    rw [List.map_cons, putAt, ListM.get_ok (by omega) (by simpa using hpz)]
    simp only [Out.bind_ok]
    rw [put_eq (by omega)]
    simp only [Out.bind_ok]
    rw [ih _ _ (fun q hq => hp q (List.mem_cons_of_mem _ hq)) (by simp; omega)]
    have : List.filterMap (fun p => zs[p]?) (p :: ps) =
        zs[p] :: List.filterMap (fun p => zs[p]?) ps := by
      rw [List.filterMap_cons]; simp [hpz]
    rw [this]
    simp [Nat.add_comm]

theorem filterMap_length {zs : List T} {ps : List Nat} (h : ∀ p ∈ ps, p < zs.length) :
    (ps.filterMap fun p => zs[p]?).length = ps.length := by
  induction ps with
  | nil => rfl
  | cons p ps ih =>
    have hp := h p List.mem_cons_self
    rw [List.filterMap_cons]
    simp [hp, ih fun q hq => h q (List.mem_cons_of_mem _ hq)]

theorem slice_length (xs : List T) (start stop : Option Int) (k : Int) :
    (ListM.Spec.slice xs start stop k).length = (positions xs.length start stop k).length :=
  filterMap_length fun _ hp => (ListM.mem_positions.mp hp).1

theorem full_slice {s : Sl} (hf : s.isFull = true) (xs : List T) :
    ListM.Spec.slice xs s.start s.stop (s.step.getD 1) = xs := by
  have hs : s.start = none ∧ s.stop = none ∧ s.step = none := by
    unfold ListM.Sl.isFull at hf
    simp only [Bool.and_eq_true, Option.isNone_iff_eq_none] at hf
    exact ⟨hf.1.1, hf.1.2, hf.2⟩
  obtain ⟨a, e1, e2⟩ := ListM.adjust_rel s xs.length (by simp [hs.2.2])
  obtain ⟨f0, f1, f2, f3, f4⟩ := Slice.adjust_fields e2
  have hst : a.step = 1 := by rw [f0, hs.2.2]; rfl
  obtain ⟨p1, p2, p3, p4, p5, p6⟩ := ListM.positions_one e2 hst
  unfold ListM.Spec.slice
  rw [hs.2.2]
  simp only [Option.getD_none]
  rw [p1]
  have q1 : a.start = 0 := by rw [f2, hst, hs.1]; rfl
  have q2 : a.stop = xs.length := by rw [f3, hst, hs.2.1]; rfl
  rw [q1, q2, ListM.filterMap_prog_one _ _ _ (by simp)]
  simp

theorem sliceLen_eq {v : L T} {zs : List T} (h : Rel v zs) {s : Sl} (h0 : s.step ≠ some 0) :
    sliceLen v s = .ok ((ListM.Spec.slice zs s.start s.stop (s.step.getD 1)).length : Int) := by
  unfold sliceLen
  by_cases hf : s.isFull = true
  · rw [if_pos hf, full_slice hf, h.len]; rfl
  · rw [if_neg hf]
    obtain ⟨a, e1, e2⟩ := ListM.adjust_rel s zs.length h0
    rw [h.len, e1]
    obtain ⟨k1, k2, k3⟩ := Slice.c24_adjust_selects_python_positions _ _ _ _ _ e2
    have := congrArg List.length k1
    simp only [List.length_map, List.length_range] at this
    rw [slice_length, ← this]
    simp only [Out.bind_ok, Out.pure_eq]
    congr 1
    omega

theorem sliceAppend_eq {v : L T} {zs : List T} (h : Rel v zs) {s : Sl} (h0 : s.step ≠ some 0)
    (ha : Ascending zs.length s) {xs : List T} {r : Block T}
    (hr : (ListM.Spec.slice zs s.start s.stop (s.step.getD 1)).length ≤ r.length) :
    sliceAppend ⟨xs.map some ++ r, xs.length⟩ v s =
      .ok ⟨(xs ++ ListM.Spec.slice zs s.start s.stop (s.step.getD 1)).map some ++
          r.drop (ListM.Spec.slice zs s.start s.stop (s.step.getD 1)).length,
        (xs ++ ListM.Spec.slice zs s.start s.stop (s.step.getD 1)).length⟩ := by
  have hlen := h.len
  unfold sliceAppend
  by_cases hf : s.isFull = true
  · rw [full_slice hf] at hr ⊢
    rw [if_pos hf, hlen]
    obtain ⟨rz, rfl⟩ := h
    have := blit_eq (xs := xs) (a := []) (b := zs) (r := r) (c := rz) (k := zs.length)
      (start := 0) (n := zs.length) rfl rfl hr
    simpa using this
  · rw [if_neg hf]
    obtain ⟨a, e1, e2⟩ := ListM.adjust_rel s zs.length h0
    obtain ⟨f0, f1, f2, f3, f4⟩ := Slice.adjust_fields e2
    by_cases hn : s.step.isNone = true
    · rw [if_pos hn, hlen, e1]
      have hst : a.step = 1 := by rw [f0, Option.isNone_iff_eq_none.mp hn]; rfl
      obtain ⟨p1, p2, p3, p4, p5, p6⟩ := ListM.positions_one e2 hst
      have hsl : ListM.Spec.slice zs s.start s.stop (s.step.getD 1) =
          (zs.drop a.start.toNat).take (a.stop - a.start).toNat := by
        unfold ListM.Spec.slice
        rw [Option.isNone_iff_eq_none.mp hn]
        simp only [Option.getD_none]
        rw [p1, ListM.filterMap_prog_one]
        omega
      have hasc := ha (Option.isNone_iff_eq_none.mp hn)
      rw [hst] at f2 f3
      rw [← f2, ← f3] at hasc
      simp only [Out.bind_ok]
      rw [hsl] at hr ⊢
      obtain ⟨rz, rfl⟩ := h
      have hb : (zs.map some ++ rz) = (zs.take a.start.toNat).map some ++
          (((zs.drop a.start.toNat).take (a.stop - a.start).toNat).map some ++
            (((zs.drop a.start.toNat).drop (a.stop - a.start).toNat).map some ++ rz)) := by
        conv_lhs => rw [← List.take_append_drop a.start.toNat zs,
          ← List.take_append_drop (a.stop - a.start).toNat (zs.drop a.start.toNat)]
        simp only [List.map_append, List.append_assoc]
      rw [hb]
      exact blit_eq (by simp; omega) (by simp; omega) hr
    · rw [if_neg hn, hlen, e1]
      simp only [Out.bind_ok]
      have hra : ListM.rangeList a.start a.stop a.step =
          .ok ((positions zs.length s.start s.stop (s.step.getD 1)).map
            fun p : Nat => (p : Int)) := by
        unfold ListM.rangeList
        rw [Slice.c24_stop_agrees_with_length _ _ _ _ _ e2]
      rw [hra]
      simp only [Out.bind_ok]
      rw [slice_length] at hr ⊢
      rw [putAt_eq h _ _ _ (fun p hp => (ListM.mem_positions.mp hp).1) hr]
      rfl

/-! ### The fused code -/

theorem length_eq {s : State T W} {v : Saved T} {ys : List T} (h : Shows s v ys) :
    (v.length : M T W E Int) s = .ok ys.length s := by
  cases v with
  | val a =>
    obtain ⟨l, h1, h2⟩ := h
    rw [Saved.length]
    rw [bind_of_ok (deref_ok h1), h2.len]; rfl
  | slice a sl =>
    obtain ⟨xs, ⟨l, h1, h2⟩, h3, -, rfl⟩ := h
    rw [Saved.length]
    rw [bind_of_ok (deref_ok h1), lift_ok (sliceLen_eq h2 h3)]
  | literal vs => cases h; rfl

theorem append_eq {s : State T W} {v : Saved T} {ys xs : List T} {r : Block T} (h : Shows s v ys)
    (hr : ys.length ≤ r.length) :
    (v.append ⟨xs.map some ++ r, xs.length⟩ : M T W E (L T)) s =
      .ok ⟨(xs ++ ys).map some ++ r.drop ys.length, (xs ++ ys).length⟩ s := by
  cases v with
  | val a =>
    obtain ⟨l, h1, h2⟩ := h
    rw [Saved.append]
    rw [bind_of_ok (deref_ok h1)]
    obtain ⟨rz, rfl⟩ := h2
    have := blit_eq (xs := xs) (a := []) (b := ys) (r := r) (c := rz) (k := ys.length)
      (start := 0) (n := ys.length) rfl rfl hr
    exact lift_ok (by simpa using this)
  | slice a sl =>
    obtain ⟨zs, ⟨l, h1, h2⟩, h3, h4, rfl⟩ := h
    rw [Saved.append]
    rw [bind_of_ok (deref_ok h1)]
    exact lift_ok (sliceAppend_eq h2 h3 h4 hr)
  | literal vs => cases h; exact lift_ok (putAll_eq _ _ _ hr)

theorem countAll_eq {s : State T W} {vs : List (Saved T)} {yss : List (List T)}
    (h : List.Forall₂ (Shows s) vs yss) : ∀ n : Int,
    (countAll n vs : M T W E Int) s = .ok (n + yss.flatten.length) s := by
  induction h with
  | nil => intro n; simp [countAll, pure_ok]
  | cons h1 _ ih =>
    intro n
    unfold countAll
    rw [bind_of_ok (length_eq h1), ih]
    simp only [List.flatten_cons, List.length_append]
    congr 1
    omega

theorem appendAll_eq {s : State T W} {vs : List (Saved T)} {yss : List (List T)}
    (h : List.Forall₂ (Shows s) vs yss) : ∀ (xs : List T) (r : Block T),
    yss.flatten.length ≤ r.length →
    (appendAll ⟨xs.map some ++ r, xs.length⟩ vs : M T W E (L T)) s =
      .ok ⟨(xs ++ yss.flatten).map some ++ r.drop yss.flatten.length,
        (xs ++ yss.flatten).length⟩ s := by
  induction h with
  | nil => intro xs r _; simp [appendAll, pure_ok]
  | cons h1 _ ih =>
    intro xs r hr
    simp only [List.flatten_cons, List.length_append] at hr
    unfold appendAll
    rw [bind_of_ok (append_eq h1 (by omega)), ih _ _ (by rw [List.length_drop]; omega)]
    simp [Nat.add_comm]

theorem fused_eq {os : List (Opd T W E)} {s s' : State T W} {vs : List (Saved T)}
    {yss : List (List T)} (h : setupAll os s = .ok vs s') (hs : List.Forall₂ (Shows s') vs yss) :
    fused os s = .ok (exact yss.flatten) s' := by
  unfold fused
  rw [bind_of_ok h, bind_of_ok (countAll_eq hs 0)]
  obtain ⟨q, e1, e2⟩ := ListM.newCap_rel (T := T) (0 + (yss.flatten.length : Int))
  rw [bind_of_ok (lift_ok e1)]
  have := appendAll_eq (E := E) hs [] q (by omega)
  simp only [List.map_nil, List.nil_append, List.length_nil, Int.natCast_zero] at this
  rw [this]
  have : q.drop yss.flatten.length = [] := List.drop_eq_nil_of_le (by omega)
  rw [this, List.append_nil]; rfl

/-! ### The expression as written -/

theorem buildFrom_eq : ∀ (es : List (M T W E T)) (l : L T) (xs : List T) (s : State T W),
    Rel l xs →
    match saveAll es s with
    | .ok vs s' => ∃ l', buildFrom l es s = .ok l' s' ∧ Rel l' (xs ++ vs)
    | .exc e s' => buildFrom l es s = .exc e s'
    | .ub => buildFrom l es s = .ub := by
  intro es
  induction es with
  | nil => intro l xs s h; exact ⟨l, rfl, by simpa using h⟩
  | cons e es ih =>
    intro l xs s h
    unfold saveAll buildFrom
    cases he : e s with
    | ub => rw [bind_of_ub he, bind_of_ub he]
    | exc x s1 => rw [bind_of_exc he, bind_of_exc he]
    | ok v s1 =>
      rw [bind_of_ok he, bind_of_ok he]
      obtain ⟨l1, a1, a2⟩ := ListM.append_rel h v
      rw [bind_of_ok (lift_ok a1)]
      have := ih l1 _ s1 a2
      cases hv : saveAll es s1 with
      | ub => rw [bind_of_ub hv]; rw [hv] at this; exact this
      | exc x s2 => rw [bind_of_exc hv]; rw [hv] at this; exact this
      | ok vs s2 =>
        rw [bind_of_ok hv]; rw [hv] at this
        obtain ⟨l', b1, b2⟩ := this
        exact ⟨l', b1, by simpa using b2⟩

/-- What a list value contains in each of the given states. -/
def Val : Rv T → List T → List (State T W) → Prop
  | .ref a, ys, ss => ∀ s ∈ ss, Holds s a ys
  | .tmp l, ys, _ => Rel l ys

theorem new_rel : ∃ l : L T, ListM.new = .ok l ∧ Rel l [] :=
  ⟨⟨List.replicate 10 none, 0⟩, rfl, _, rfl⟩

theorem literal_start (n : Nat) (b : Bool) :
    ∃ l : L T, (if b then ListM.new else ListM.newCap n) = .ok l ∧ Rel l [] := by
  cases b with
  | true => exact new_rel
  | false =>
    obtain ⟨r, h, -⟩ := ListM.newCap_rel (T := T) n
    exact ⟨_, h, r, rfl⟩

/-- One operand. -/
theorem eval_setup (o : Opd T W E) (s : State T W) :
    match o.setup s with
    | .ok v s' => ∀ (ys : List T) (ss : List (State T W)), s' ∈ ss → (∀ s'' ∈ ss, Shows s'' v ys) →
        ∃ rv, o.eval s = .ok rv s' ∧ Val rv ys ss
    | .exc e s' => o.eval s = .exc e s'
    | .ub => o.eval s = .ub := by
  cases o with
  | val e =>
    rw [Opd.setup, Opd.eval]
    cases he : e s with
    | ub => rw [bind_of_ub he, bind_of_ub he]
    | exc x s1 => rw [bind_of_exc he, bind_of_exc he]
    | ok a s1 =>
      rw [bind_of_ok he, bind_of_ok he]
      exact fun ys ss _ h => ⟨_, rfl, h⟩
  | slice e sl =>
    rw [Opd.setup, Opd.eval]
    cases he : e s with
    | ub => rw [bind_of_ub he, bind_of_ub he]
    | exc x s1 => rw [bind_of_exc he, bind_of_exc he]
    | ok a s1 =>
      rw [bind_of_ok he, bind_of_ok he]
      cases hl : sl s1 with
      | ub => rw [bind_of_ub hl, bind_of_ub hl]
      | exc x s2 => rw [bind_of_exc hl, bind_of_exc hl]
      | ok k s2 =>
        rw [bind_of_ok hl, bind_of_ok hl]
        intro ys ss hm h
        obtain ⟨xs, ⟨l, h1, h2⟩, h3, -, rfl⟩ := h s2 hm
        obtain ⟨v, g1, g2⟩ := ListM.getSlice_rel h2 k h3
        refine ⟨.tmp v, ?_, g2⟩
        rw [bind_of_ok (deref_ok h1), bind_of_ok (lift_ok g1)]; rfl
  | literal es =>
    rw [Opd.setup, Opd.eval]
    obtain ⟨l, e1, e2⟩ := literal_start (T := T) es.length es.isEmpty
    rw [bind_of_ok (lift_ok e1)]
    have := buildFrom_eq es l [] s e2
    cases hv : saveAll es s with
    | ub => rw [hv] at this; rw [bind_of_ub hv, bind_of_ub this]
    | exc x s1 => rw [hv] at this; rw [bind_of_exc hv, bind_of_exc this]
    | ok vs s1 =>
      rw [hv] at this
      obtain ⟨l', b1, b2⟩ := this
      rw [bind_of_ok hv, bind_of_ok b1]
      intro ys ss hm h
      have : ys = vs := h s1 hm
      subst this
      refine ⟨.tmp l', rfl, ?_⟩
      show Rel l' ys
      simpa using b2

theorem setupAll_append (as bs : List (Opd T W E)) (s : State T W) :
    setupAll (as ++ bs) s = (setupAll as >>= fun vs => setupAll bs >>= fun ws =>
      (pure (vs ++ ws) : M T W E _)) s := by
  induction as generalizing s with
  | nil =>
    simp only [List.nil_append, setupAll]
    rw [bind_of_ok (pure_ok _)]
    cases h : setupAll bs s with
    | ub => rw [bind_of_ub h]
    | exc => rw [bind_of_exc h]
    | ok => rw [bind_of_ok h]; rfl
  | cons o os ih =>
    simp only [List.cons_append, setupAll]
    cases h : o.setup s with
    | ub => rw [bind_of_ub h, bind_of_ub (bind_of_ub h)]
    | exc => rw [bind_of_exc h, bind_of_exc (bind_of_exc h)]
    | ok v s1 =>
      rw [bind_of_ok h]
      cases h2 : setupAll os s1 with
      | ub =>
        rw [bind_of_ub (by rw [ih, bind_of_ub h2]),
          bind_of_ub (by rw [bind_of_ok h, bind_of_ub h2])]
      | exc =>
        rw [bind_of_exc (by rw [ih, bind_of_exc h2]),
          bind_of_exc (by rw [bind_of_ok h, bind_of_exc h2])]
      | ok vs s2 =>
        rw [bind_of_ok (x := o.setup >>= _) (by rw [bind_of_ok h, bind_of_ok h2]; rfl)]
        cases h3 : setupAll bs s2 with
        | ub => rw [bind_of_ub (by rw [ih, bind_of_ok h2, bind_of_ub h3]), bind_of_ub h3]
        | exc => rw [bind_of_exc (by rw [ih, bind_of_ok h2, bind_of_exc h3]), bind_of_exc h3]
        | ok ws s3 =>
          rw [bind_of_ok (by rw [ih, bind_of_ok h2, bind_of_ok h3]; rfl), bind_of_ok h3]
          rfl

theorem trail_append {as bs : List (Opd T W E)} : ∀ {s s' : State T W} {vs : List (Saved T)},
    setupAll as s = .ok vs s' →
    ∀ x ∈ s' :: trail bs s', x ∈ s :: trail (as ++ bs) s := by
  induction as with
  | nil => intro s s' vs h x hx; cases h; exact hx
  | cons o os ih =>
    intro s s' vs h x hx
    unfold setupAll at h
    cases ho : o.setup s with
    | ub => rw [bind_of_ub ho] at h; cases h
    | exc => rw [bind_of_exc ho] at h; cases h
    | ok v s1 =>
      rw [bind_of_ok ho] at h
      cases h2 : setupAll os s1 with
      | ub => rw [bind_of_ub h2] at h; cases h
      | exc => rw [bind_of_exc h2] at h; cases h
      | ok ws s2 =>
        rw [bind_of_ok h2] at h
        cases h
        have := ih h2 x hx
        simp only [List.cons_append, trail, ho]
        exact List.mem_cons_of_mem _ this

theorem steady_append {as bs : List (Opd T W E)} : ∀ {s s' : State T W} {vs : List (Saved T)},
    Steady (as ++ bs) s → setupAll as s = .ok vs s' → Steady bs s' := by
  induction as with
  | nil => intro s s' vs h1 h; cases h; exact h1
  | cons o os ih =>
    intro s s' vs h1 h
    unfold setupAll at h
    cases ho : o.setup s with
    | ub => rw [bind_of_ub ho] at h; cases h
    | exc => rw [bind_of_exc ho] at h; cases h
    | ok v s1 =>
      rw [bind_of_ok ho] at h
      simp only [List.cons_append, Steady, ho] at h1
      cases h2 : setupAll os s1 with
      | ub => rw [bind_of_ub h2] at h; cases h
      | exc => rw [bind_of_exc h2] at h; cases h
      | ok ws s2 =>
        rw [bind_of_ok h2] at h
        cases h
        exact ih h1.2 h2

theorem load_ok {rv : Rv T} {ys : List T} {ss : List (State T W)} {s : State T W}
    (h : Val rv ys ss) (hm : s ∈ ss) :
    ∃ l, (rv.load : M T W E (L T)) s = .ok l s ∧ Rel l ys := by
  cases rv with
  | ref a => obtain ⟨l, h1, h2⟩ := h s hm; exact ⟨l, deref_ok h1, h2⟩
  | tmp l => exact ⟨l, rfl, h⟩

theorem Val.mono {rv : Rv T} {ys : List T} {ss ss' : List (State T W)} (h : Val rv ys ss)
    (hs : ∀ s ∈ ss', s ∈ ss) : Val rv ys ss' := by
  cases rv with
  | ref a => exact fun s hm => h s (hs s hm)
  | tmp l => exact h

/-- A whole expression, followed by more operands. -/
theorem eval_tree : ∀ (t : Tree T W E) (rest : List (Opd T W E)) (s : State T W),
    Steady (t.inspect ++ rest) s →
    match setupAll t.inspect s with
    | .ok vs s' => ∃ rv yss, t.eval s = .ok rv s' ∧
        Val rv yss.flatten (s' :: trail rest s') ∧
        List.Forall₂ (fun v ys => ∀ s'' ∈ s' :: trail rest s', Shows s'' v ys) vs yss ∧
        ∀ l r, t = .add l r → rv = .tmp (exact yss.flatten)
    | .exc e s' => t.eval s = .exc e s'
    | .ub => t.eval s = .ub := by
  intro t
  induction t with
  | leaf o =>
    intro rest s h
    have ho := eval_setup o s
    simp only [Tree.inspect, setupAll, Tree.eval] at h ⊢
    cases hs : o.setup s with
    | ub => rw [hs] at ho; rw [bind_of_ub hs]; exact ho
    | exc => rw [hs] at ho; rw [bind_of_exc hs]; exact ho
    | ok v s1 =>
      rw [hs] at ho
      rw [bind_of_ok hs, bind_of_ok (pure_ok _)]
      simp only [List.cons_append, List.nil_append, Steady, hs] at h
      obtain ⟨⟨ys, hy⟩, -⟩ := h
      obtain ⟨rv, e1, e2⟩ := ho ys _ List.mem_cons_self hy
      refine ⟨rv, [ys], e1, by simpa using e2, .cons hy .nil, ?_⟩
      intro l r hc; cases hc
  | add l r ihl ihr =>
    intro rest s h
    simp only [Tree.inspect, List.append_assoc] at h ⊢
    have hl := ihl (r.inspect ++ rest) s h
    rw [setupAll_append]
    simp only [Tree.eval]
    cases hs : setupAll l.inspect s with
    | ub => rw [hs] at hl; rw [bind_of_ub hs]; exact bind_of_ub hl
    | exc => rw [hs] at hl; rw [bind_of_exc hs]; exact bind_of_exc hl
    | ok vs s1 =>
      rw [hs] at hl
      obtain ⟨rv1, yss1, a1, a2, a3, -⟩ := hl
      rw [bind_of_ok hs, bind_of_ok a1]
      have hr := ihr rest s1 (steady_append h hs)
      cases hs2 : setupAll r.inspect s1 with
      | ub => rw [hs2] at hr; rw [bind_of_ub hs2]; exact bind_of_ub hr
      | exc => rw [hs2] at hr; rw [bind_of_exc hs2]; exact bind_of_exc hr
      | ok ws s2 =>
        rw [hs2] at hr
        obtain ⟨rv2, yss2, b1, b2, b3, -⟩ := hr
        rw [bind_of_ok hs2, bind_of_ok b1]
        have hsub := trail_append (bs := rest) hs2
        obtain ⟨l1, c1, c2⟩ := load_ok (E := E) (a2.mono hsub) List.mem_cons_self
        obtain ⟨l2, d1, d2⟩ := load_ok (E := E) b2 List.mem_cons_self
        refine ⟨.tmp (exact (yss1 ++ yss2).flatten), yss1 ++ yss2, ?_, ?_, ?_, ?_⟩
        · rw [bind_of_ok c1, bind_of_ok d1, bind_of_ok (lift_ok (add_exact c2 d2))]
          simp [pure_ok]
        · exact exact_rel _
        · exact List.rel_append (a3.imp fun v ys hv x hx => hv x (hsub x hx)) b3
        · intro _ _ _; rfl

theorem fused_of_exc {os : List (Opd T W E)} {s s' : State T W} {e : Exn E}
    (h : setupAll os s = .exc e s') : fused os s = .exc e s' := by
  unfold fused; exact bind_of_exc h

theorem fused_of_ub {os : List (Opd T W E)} {s : State T W}
    (h : setupAll os s = .ub) : fused os s = .ub := by
  unfold fused; exact bind_of_ub h

end Codon.Fuse
