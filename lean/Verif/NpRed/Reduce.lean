import Verif.NpRed.Axes
/-!
# `_reduce` for any set of axes
-/
namespace Codon.NpRed
open Codon.Numpy Codon.NpLine
variable {V S O T : Type}

/-- Reversed if `t`. -/
def rv (t : Bool) (l : List Int) : List Int := if t then l.reverse else l

theorem rv_rv (t : Bool) (l : List Int) : rv t (rv t l) = l := by cases t <;> simp [rv]
theorem rv_length (t : Bool) (l : List Int) : (rv t l).length = l.length := by cases t <;> simp [rv]
theorem rv_off (t : Bool) (c s : List Int) (h : c.length = s.length) : ptrOff (rv t c) (rv t s) = ptrOff c s := by
  cases t
  · rfl
  · exact ptrOff_reverse c s h
theorem rv_valid (t : Bool) (c s : List Int) : Valid (rv t c) (rv t s) ↔ Valid c s := by
  cases t
  · rfl
  · exact valid_reverse c s

/-- The loop over the elements of the result. -/
theorem slow_ok (R : Redux V S O) (w wo : Int) (hwo : 0 < wo) (a : Arr) (h : Heap V) (hwf : a.WF h) (mask : List Bool) (_hmask : mask.length = a.shape.length) (t : Bool)
    (wh : Option (Arr × Heap Bool)) (hm : MaskOk a wh) (ho : Heap O) (junk : Int → O) (val : List Int → O)
    (ws ww : List Int) (hw : ∀ m g, wh = some (m, g) → ws = gone mask m.strides ∧ ww = rv t (stay mask m.strides))
    (hv : ∀ idx, Valid idx (stay mask a.shape) → reduceAll R w (sub a mask idx) h false (wh.map fun (m, g) => (sub m mask idx, g)) = .ok (val idx)) :
    ∃ h', fill R w h (gone mask a.shape) (gone mask a.strides) (rv t (stay mask a.strides)) a.blk a.off wh ws ww
        ⟨stay mask a.shape, rv t (stridesOf (stay mask a.shape) t wo), ho.next, 0⟩ (multirange (rv t (stay mask a.shape))) (ho.new wo (count (stay mask a.shape)) junk) = .ok h' ∧
      NewArray ho (stay mask a.shape) (fun idx => some (val idx)) h' ⟨stay mask a.shape, stridesOf (stay mask a.shape) t wo, ho.next, 0⟩ := by
  generalize hsh : stay mask a.shape = sh at hv ⊢
  have hn : ∀ n ∈ sh, 0 ≤ n := fun n hn => hwf.nonneg n (stay_mem mask _ _ (by rw [hsh]; exact hn))
  have hpk := packed_stridesOf sh t wo hwo hn
  generalize hst : stridesOf sh t wo = st at hpk ⊢
  have hsl : ∀ (x : Arr), x.shape = a.shape → x.shape.length = x.strides.length → (stay mask x.strides).length = sh.length := fun x h1 h2 => by
    rw [← hsh, ← h1]; exact (stay_lengths mask _ _ h2).1.symm
  have hval : ∀ idx ∈ multirange (rv t sh), Valid (rv t idx) sh := fun idx hi => by
    have := (mem_multirange _ _).mp hi
    rw [← rv_valid t, rv_rv]; exact this
  have hoff : ∀ idx ∈ multirange (rv t sh), ∀ s : List Int, s.length = sh.length → ptrOff idx (rv t s) = ptrOff (rv t idx) s := fun idx hi s hs => by
    have := rv_off t (rv t idx) s (by rw [Valid.length (hval idx hi), hs])
    rw [rv_rv] at this
    exact this
  have hstl : st.length = sh.length := hpk.len
  have hread : ∀ idx ∈ multirange (rv t sh), (⟨sh, rv t st, ho.next, 0⟩ : Arr).addr idx = (⟨sh, st, ho.next, 0⟩ : Arr).addr (rv t idx) := fun idx hi => by
    simp only [Arr.addr, hoff idx hi st hstl]
  obtain ⟨h', e1, e2, e3, e4⟩ := fill_ok R w h (gone mask a.shape) (gone mask a.strides) (rv t (stay mask a.strides)) a.blk a.off wh ws ww
    ⟨sh, rv t st, ho.next, 0⟩ (fun idx => val (rv t idx)) (multirange (rv t sh)) (ho.new wo (count sh) junk) (fun idx hi => by
      rw [← hv (rv t idx) (hval idx hi)]
      have c1 : (⟨gone mask a.shape, gone mask a.strides, a.blk, a.off + ptrOff idx (rv t (stay mask a.strides))⟩ : Arr) = sub a mask (rv t idx) := by
        rw [sub, hoff idx hi _ (hsl a rfl hwf.len)]
      rw [c1]
      cases wh with
      | none => rfl
      | some mg =>
        obtain ⟨m, g⟩ := mg
        obtain ⟨hmw, hms⟩ := hm m g rfl
        simp only [Option.map_some]
        obtain ⟨e1, e2⟩ := hw m g rfl
        rw [e1, e2, hoff idx hi _ (hsl m hms hmw.len)]
        simp only [sub, hms]) (fun idx hi => by
      have := (new_wf ho sh st wo junk hwo hn hpk).alloc (rv t idx) (hval idx hi)
      simp only [Arr.read] at this
      rw [hoff idx hi st hstl]
      exact this) (by
      refine List.Nodup.map_on (fun x hx y hy he => ?_) (nodup_multirange _)
      rw [hread x hx, hread y hy] at he
      have := new_inj ho sh st wo hpk _ _ (hval x hx) (hval y hy) he
      have := congrArg (rv t) this
      rwa [rv_rv, rv_rv] at this)
  refine ⟨h', e1, updated_new ho sh st wo junk hn hpk _ h' ⟨e2, fun c hc => ?_, fun p hp => ?_⟩ fun c _ => ⟨_, rfl⟩⟩
  · have hmem : rv t c ∈ multirange (rv t sh) := by rw [mem_multirange, rv_valid]; exact hc
    have := e3 (rv t c) hmem
    simp only [rv_rv] at this
    rw [hoff _ hmem st hstl, rv_rv] at this
    exact this
  · exact e4 p fun idx hi he => hp (rv t idx) (hval idx hi) (by rw [← hread idx hi]; exact he)

theorem stay_all_false : ∀ (m : List Bool) (l : List Int), (∀ b ∈ m, b = false) → m.length = l.length → stay m l = [] ∧ gone m l = l
  | [], [], _, _ => ⟨rfl, rfl⟩
  | b :: m, x :: l, hb, hl => by
    have : b = false := hb b (by simp)
    subst this
    obtain ⟨h1, h2⟩ := stay_all_false m l (fun b h => hb b (by simp [h])) (by simpa using hl)
    rw [stay_false, gone_false, h1, h2]
    exact ⟨rfl, rfl⟩
  | [], _ :: _, _, hl => by simp at hl
  | _ :: _, [], _, hl => by simp at hl

theorem all_axes (ax : List Nat) (n : Nat) (hax : ∀ k ∈ ax, k < n) (hnd : ax.Nodup) (hl : ax.length = n) : ∀ b ∈ maskOf ax n, b = false := by
  intro b hb
  obtain ⟨i, hi, rfl⟩ := List.mem_map.mp hb
  have hsub : ax ⊆ List.range n := fun k hk => List.mem_range.mpr (hax k hk)
  have hp : ax.Perm (List.range n) := (List.subperm_of_subset hnd hsub).perm_of_length_le (by simp [hl])
  have : i ∈ ax := hp.mem_iff.mpr hi
  simp [this]

theorem sub_all (a : Arr) (h : Heap V) (hwf : a.WF h) (ax : List Nat) (hax : ∀ k ∈ ax, k < a.shape.length) (hnd : ax.Nodup) (hl : ax.length = a.shape.length) (idx : List Int) :
    sub a (maskOf ax a.shape.length) idx = a ∧ outPart ax a.shape = [] := by
  have hf := all_axes ax _ hax hnd hl
  obtain ⟨h1, h2⟩ := stay_all_false _ a.shape hf (maskOf_length _ _)
  obtain ⟨h3, h4⟩ := stay_all_false _ a.strides hf (by rw [maskOf_length, hwf.len])
  refine ⟨?_, by rw [outPart_eq]; exact h1⟩
  rw [sub, h2, h3, h4]
  have : ptrOff idx [] = 0 := by cases idx <;> rfl
  rw [this, Int.add_zero]

theorem gradual_eq' (G : Gradual V O) (w wo : Int) (a : Arr) (h : Heap V) (hwf : a.WF h) (ax : List Nat) (hax : ∀ k ∈ ax, k < a.shape.length) (ho : Heap O) (junk : Int → O) :
    ∃ ts : List (List Int), ts.Perm (multirange (gone (maskOf ax a.shape.length) a.shape)) ∧
      gradual G w wo a h ax ho junk = (do
        let ho' ← rounds G w wo h ⟨stay (maskOf ax a.shape.length) a.shape, stridesOf (stay (maskOf ax a.shape.length) a.shape) a.shouldTranspose wo, ho.next, 0⟩
          (stay (maskOf ax a.shape.length) a.shape) (stay (maskOf ax a.shape.length) a.strides) a.blk a.off (ts.map fun t => ptrOff t (gone (maskOf ax a.shape.length) a.strides)) 0
          (ho.new wo (count (stay (maskOf ax a.shape.length) a.shape)) fun i => G.start.getD (junk i))
        return (ho', ⟨stay (maskOf ax a.shape.length) a.shape, stridesOf (stay (maskOf ax a.shape.length) a.shape) a.shouldTranspose wo, ho.next, 0⟩)) := by
  obtain ⟨ts, hp, he⟩ := gradual_eq G w wo a h hwf ax hax ho junk
  exact ⟨ts, hp, he.trans (by cases G.start <;> rfl)⟩

theorem reduceAxes_ok (R : Redux V S O) (dom : List V → Prop) (P : List V → O → Prop) (law : Law R dom P) (w wo : Int) (hwo : 0 < wo) (a : Arr) (h : Heap V) (hwf : a.WF h)
    (ax : List Nat) (hax : ∀ k ∈ ax, k < a.shape.length) (hnd : ax.Nodup) (wh : Option (Arr × Heap Bool)) (hm : MaskOk a wh) (ho : Heap O) (junk : Int → O)
    (hne : count a.shape = 0 → R.raises = false) (hdom : ∀ idx vs, Valid idx (outPart ax a.shape) → Group h a wh ax idx vs → dom vs)
    (hs : Sym dom P ∨ (wh = none ∧ R.loop = none ∧ R.gradual = none ∧ ∀ idx, Straight w (sub a (maskOf ax a.shape.length) idx))) :
    (ax.length = a.shape.length → ∃ o vs, reduceAxes R w wo a h ax wh ho junk = .ok (.num o) ∧ Group h a wh ax [] vs ∧ P vs o) ∧
    (ax.length ≠ a.shape.length → ∃ h' r, reduceAxes R w wo a h ax wh ho junk = .ok (.arr h' r) ∧ Reduced P h a wh ax ho h' r) := by
  have hs' : ∀ idx, Sym dom P ∨ ((wh.map fun (m, g) => (sub m (maskOf ax a.shape.length) idx, g)) = none ∧ R.loop = none ∧ Straight w (sub a (maskOf ax a.shape.length) idx)) := fun idx => by
    rcases hs with hs | ⟨h1, h2, _, h4⟩
    · exact Or.inl hs
    · exact Or.inr ⟨by rw [h1]; rfl, h2, h4 idx⟩
  have hmask' : ∀ idx, Valid idx (outPart ax a.shape) → MaskOk (sub a (maskOf ax a.shape.length) idx) (wh.map fun (m, g) => (sub m (maskOf ax a.shape.length) idx, g)) := by
    intro idx hi m' g' he
    cases wh with
    | none => cases he
    | some mg =>
      obtain ⟨m, g⟩ := mg
      obtain ⟨hmw, hms⟩ := hm m g rfl
      injection he with he
      injection he with e1 e2
      subst e1 e2
      refine ⟨sub_wf m g _ hmw (by rw [maskOf_length, hms]) idx (by rw [hms]; rw [outPart_eq] at hi; exact hi), ?_⟩
      simp only [sub, hms]
  have key : ∀ idx, Valid idx (outPart ax a.shape) → ∀ empty, ¬ (empty = true ∧ count (sub a (maskOf ax a.shape.length) idx).shape = 0 ∧ R.raises = true) →
      ∃ o vs, reduceAll R w (sub a (maskOf ax a.shape.length) idx) h empty (wh.map fun (m, g) => (sub m (maskOf ax a.shape.length) idx, g)) = .ok o ∧ Group h a wh ax idx vs ∧ P vs o := by
    intro idx hi empty hemp
    obtain ⟨vs, hvs, hg⟩ := sub_group a h ax hwf wh hm idx hi
    obtain ⟨o, e1, e2⟩ := reduceAll_ok R dom P law w (sub a (maskOf ax a.shape.length) idx) h empty _ (sub_wf a h _ hwf (maskOf_length _ _) idx (by rw [outPart_eq] at hi; exact hi))
      (hmask' idx hi) vs hvs (hdom idx vs hi hg) hemp (hs' idx)
    exact ⟨o, vs, e1, hg, e2⟩
  refine ⟨fun hl => ?_, fun hl => ?_⟩
  · obtain ⟨e1, e2⟩ := sub_all a h hwf ax hax hnd hl []
    have hwhe : (wh.map fun (m, g) => (sub m (maskOf ax a.shape.length) [], g)) = wh := by
      cases wh with
      | none => rfl
      | some mg =>
        obtain ⟨m, g⟩ := mg
        obtain ⟨hmw, hms⟩ := hm m g rfl
        have := (sub_all m g hmw ax (by rw [hms]; exact hax) hnd (by rw [hms]; exact hl) []).1
        rw [hms] at this
        simp only [Option.map_some, this]
    obtain ⟨o, vs, k1, k2, k3⟩ := key [] (by rw [e2]; trivial) true (by
      rw [e1]
      rintro ⟨_, h2, h3⟩
      rw [hne h2] at h3; cases h3)
    rw [e1, hwhe] at k1
    exact ⟨o, vs, by rw [reduceAxes, if_pos hl, k1]; rfl, k2, k3⟩
  · rw [reduceAxes, if_neg hl, if_neg (by
      rintro ⟨h2, h3⟩
      rw [hne h2] at h3; cases h3)]
    have hsh : outPart ax a.shape = stay (maskOf ax a.shape.length) a.shape := outPart_eq ax a.shape
    have slow : ∃ h' r, (do
        let ho' ← fill R w h (gone (maskOf ax a.shape.length) a.shape) (gone (maskOf ax a.shape.length) a.strides) (rv a.shouldTranspose (stay (maskOf ax a.shape.length) a.strides)) a.blk a.off wh
          (match wh with | some (m, _) => gone (maskOf ax a.shape.length) m.strides | none => []) (match wh with | some (m, _) => rv a.shouldTranspose (stay (maskOf ax a.shape.length) m.strides) | none => [])
          ⟨stay (maskOf ax a.shape.length) a.shape, rv a.shouldTranspose (stridesOf (stay (maskOf ax a.shape.length) a.shape) a.shouldTranspose wo), ho.next, 0⟩
          (multirange (rv a.shouldTranspose (stay (maskOf ax a.shape.length) a.shape))) (ho.new wo (count (stay (maskOf ax a.shape.length) a.shape)) junk)
        return Ans.arr ho' ⟨stay (maskOf ax a.shape.length) a.shape, stridesOf (stay (maskOf ax a.shape.length) a.shape) a.shouldTranspose wo, ho.next, 0⟩) =
        Except.ok (Ans.arr h' r) ∧ Reduced P h a wh ax ho h' r := by
      let val : List Int → O := fun idx =>
        match reduceAll R w (sub a (maskOf ax a.shape.length) idx) h false (wh.map fun (m, g) => (sub m (maskOf ax a.shape.length) idx, g)) with | .ok o => o | .error _ => junk 0
      have hval : ∀ idx, Valid idx (outPart ax a.shape) →
          reduceAll R w (sub a (maskOf ax a.shape.length) idx) h false (wh.map fun (m, g) => (sub m (maskOf ax a.shape.length) idx, g)) = .ok (val idx) ∧ ∃ vs, Group h a wh ax idx vs ∧ P vs (val idx) := by
        intro idx hi
        obtain ⟨o, vs, k1, k2, k3⟩ := key idx hi false (fun hh => by cases hh.1)
        have : val idx = o := by simp only [val, k1]
        rw [this]
        exact ⟨k1, vs, k2, k3⟩
      obtain ⟨h', e1, e2⟩ := slow_ok R w wo hwo a h hwf (maskOf ax a.shape.length) (maskOf_length _ _) a.shouldTranspose wh hm ho junk val
        (match wh with | some (m, _) => gone (maskOf ax a.shape.length) m.strides | none => []) (match wh with | some (m, _) => rv a.shouldTranspose (stay (maskOf ax a.shape.length) m.strides) | none => [])
        (fun m g he => by subst he; exact ⟨rfl, rfl⟩) fun idx hi => (hval idx (by rw [hsh]; exact hi)).1
      rw [e1]
      exact ⟨h', _, rfl, val, by rw [hsh]; exact e2, fun idx hi => (hval idx hi).2⟩
    cases hG : R.gradual with
    | none => exact slow
    | some G =>
      simp only []
      by_cases hc : wh.isNone ∧ 1 < a.shape.length ∧ 0 < minStride (stay (maskOf ax a.shape.length) a.strides) (-1) ∧
          minStride (stay (maskOf ax a.shape.length) a.strides) (-1) < minStride (gone (maskOf ax a.shape.length) a.strides) (-1)
      · rw [if_pos hc]
        have hwn : wh = none := Option.isNone_iff_eq_none.mp hc.1
        subst hwn
        have hsy : Sym dom P := by
          rcases hs with hs | ⟨_, _, h3, _⟩
          · exact hs
          · rw [hG] at h3; cases h3
        obtain ⟨ts, hp, he⟩ := gradual_eq' G w wo a h hwf ax hax ho junk
        rw [he]
        rw [← hsh]
        have hml := maskOf_length ax a.shape.length
        generalize hmk : maskOf ax a.shape.length = mask at *
        have hn : ∀ n ∈ outPart ax a.shape, 0 ≤ n := fun n hn => hwf.nonneg n (stay_mem mask _ _ (by rw [← hsh]; exact hn))
        have hpk := packed_stridesOf (outPart ax a.shape) a.shouldTranspose wo hwo hn
        generalize hst : stridesOf (outPart ax a.shape) a.shouldTranspose wo = st at hpk ⊢
        generalize hinit : (fun i => G.start.getD (junk i) : Int → O) = init
        have hgi : ∀ i : Int, init i = G.start.getD (junk i) := fun i => by rw [← hinit]
        let x : Arr := ⟨outPart ax a.shape, st, ho.next, 0⟩
        have hex : ∀ c, ∃ i, Valid c (outPart ax a.shape) → x.read (ho.new wo (count (outPart ax a.shape)) init) c = some (init i) := fun c => by
          by_cases hv : Valid c (outPart ax a.shape)
          · obtain ⟨i, hi⟩ := new_get ho wo hwo _ st init hn hpk c hv
            exact ⟨i, fun _ => hi⟩
          · exact ⟨0, fun hh => absurd hh hv⟩
        choose ci hci using hex
        have hlist : ∀ c, Valid c (outPart ax a.shape) → ∃ l vs, ((ts.map fun t => ptrOff t (gone mask a.strides)).mapM fun o => h.get a.blk (a.off + o + ptrOff c (stay mask a.strides))) = some l ∧
            Group h a none ax c vs ∧ l.Perm vs := by
          intro c hc
          obtain ⟨vs, hvs, hg⟩ := sub_group a h ax hwf none hm c hc
          rw [hmk] at hvs
          simp only [Elements, Option.map_none] at hvs
          have hwfs := sub_wf a h mask hwf hml c (by rw [← hsh]; exact hc)
          obtain ⟨l, hl⟩ := mapM_of_wf (sub a mask c) h hwfs ts fun t ht => (mem_multirange _ _).mp (hp.mem_iff.mp ht)
          refine ⟨l, vs, ?_, hg, mapM_perm _ hp l vs hl hvs⟩
          rw [mapM_map, ← hl]
          apply mapM_congr
          intro t _
          simp only [sub, Arr.read]
          congr 1
          ring
        obtain ⟨h', r1, r2, r3, r4⟩ := rounds_ok G w wo h x (outPart ax a.shape) (stay mask a.strides) a.blk a.off rfl hpk.len.symm
          (by rw [hsh]; exact (stay_lengths mask _ _ hwf.len).1) hn (new_inj ho _ st wo hpk) (ts.map fun t => ptrOff t (gone mask a.strides)) 0
          (ho.new wo (count (outPart ax a.shape)) init) (fun c => init (ci c)) (fun c hv => hci c hv) (fun c hv o hmem => by
            obtain ⟨l, vs, hl, _, _⟩ := hlist c hv
            have := mapM_some_map _ _ _ hl
            have hmem2 : h.get a.blk (a.off + o + ptrOff c (stay mask a.strides)) ∈ l.map some := by rw [← this]; exact List.mem_map.mpr ⟨o, hmem, rfl⟩
            obtain ⟨v, _, hv⟩ := List.mem_map.mp hmem2
            exact ⟨v, hv.symm⟩)
        have r1' : rounds G w wo h ⟨outPart ax a.shape, st, ho.next, 0⟩ (outPart ax a.shape) (stay mask a.strides) a.blk a.off (ts.map fun t => ptrOff t (gone mask a.strides)) 0
            (ho.new wo (count (outPart ax a.shape)) init) = .ok h' := r1
        rw [r1']
        let val : List Int → O := fun c => (x.read h' c).getD (junk 0)
        have hval : ∀ c, Valid c (outPart ax a.shape) → x.read h' c = some (val c) ∧ ∃ vs, Group h a none ax c vs ∧ P vs (val c) := by
          intro c hv
          obtain ⟨l, vs, hl, hg, hpl⟩ := hlist c hv
          have e := r3 c hv l hl
          have hvc : val c = stepList G l 0 (init (ci c)) := by simp only [val, e, Option.getD_some]
          refine ⟨by rw [hvc, e], vs, hg, ?_⟩
          rw [hvc, hgi]
          exact (hsy l vs hpl).2 _ (law.gradual G hG l ((hsy vs l hpl.symm).1 (hdom c vs hv hg)) _)
        refine ⟨h', ⟨outPart ax a.shape, st, ho.next, 0⟩, rfl, val, ?_, fun idx hi => (hval idx hi).2⟩
        exact updated_new ho (outPart ax a.shape) st wo init hn hpk _ h' ⟨r2, fun c hv => (hval c hv).1, r4⟩ fun c _ => ⟨_, rfl⟩
      · rw [if_neg hc]
        exact slow

end Codon.NpRed
