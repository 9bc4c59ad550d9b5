import Verif.Assign.Spec
import Verif.Operator.Lemmas
/-!
# Lemmas on assignments
-/
namespace Codon.Assign
open Codon.Operator
variable {σ ε V : Type}

/-- Written expressions do the same in the emitted code. -/
theorem evalEx_written (m : Mem σ ε V) : ∀ e : Ex σ ε V, e.written → evalEx m e = lift (pyEx m e)
  | .opnd run, _ => by simp only [evalEx, pyEx]
  | .name x, _ => by simp only [evalEx, pyEx]; rfl
  | .item o i, h => by
    simp only [evalEx, pyEx, evalEx_written m o h.1, evalEx_written m i h.2]
    funext s; simp only [andThen, lift]
    rcases pyEx m o s.1 with _ | ⟨s1, _ | x⟩ <;> simp only
    rcases pyEx m i s1 with _ | ⟨s2, _ | y⟩ <;> simp only
  | .attr o k, h => by
    simp only [evalEx, pyEx, evalEx_written m o h]
    funext s; simp only [andThen, lift]
    rcases pyEx m o s.1 with _ | ⟨s1, _ | x⟩ <;> simp only
  | .inpl op u l r, h => by
    simp only [evalEx, pyEx, evalEx_written m l h.1, evalEx_written m r h.2]
    funext s; simp only [andThen, lift]
    rcases pyEx m l s.1 with _ | ⟨s1, _ | x⟩ <;> simp only
    rcases pyEx m r s1 with _ | ⟨s2, _ | y⟩ <;> simp only

theorem lift_andThen {α β : Type} (p : M σ ε α) (f : α → M σ ε β) :
    lift (V := V) (andThen p f) = andThen (lift p) fun x => lift (f x) := by
  funext s; simp only [andThen, lift]
  rcases p s.1 with _ | ⟨s1, _ | x⟩ <;> simp only

/-- Running lifted code is running the code. -/
theorem exec_of_lift {m : Mem σ ε V} {ss : List (St σ ε V)} {p : M σ ε Unit} (h : runSts m ss = lift p) : exec m ss = p := by
  funext s
  simp only [exec, h, lift]
  rcases p s with _ | ⟨s1, r⟩ <;> rfl

theorem andThen_unit {σ : Type} (p : M σ ε Unit) : (andThen p fun _ => ret ()) = p := by
  funext s; simp only [andThen, ret]
  rcases p s with _ | ⟨s1, _ | x⟩ <;> rfl

/-! ## Unpacking -/

theorem runU_append (q : Seqs σ ε V) : ∀ (a b : List (USt σ ε V)), runU q (a ++ b) = andThen (runU q a) fun _ => runU q b
  | [], b => by simp only [List.nil_append, runU, ret_andThen]
  | .setTmp n r :: a, b => by simp only [List.cons_append, runU, runU_append q a b, andThen_assoc]
  | .store st r :: a, b => by simp only [List.cons_append, runU, runU_append q a b, andThen_assoc]

theorem Same.refl (q : Seqs σ ε V) (read : σ → V) (s : σ) : Same q read s s := ⟨fun _ => rfl, rfl⟩
theorem Same.trans {q : Seqs σ ε V} {read : σ → V} {s s' s'' : σ} (h : Same q read s s') (h' : Same q read s' s'') : Same q read s s'' :=
  ⟨fun w => (h'.1 w).trans (h.1 w), h'.2.trans h.2⟩

mutual
theorem Fits.same {q : Seqs σ ε V} {read : σ → V} {s s' : σ} (h : Same q read s s') : ∀ (p : Pat σ ε V) (v : V), Fits q s p v → Fits q s' p v
  | .tgt _, _, _ => by simp only [Fits]
  | .seq ps, v, hf => by
    simp only [Fits] at hf ⊢
    obtain ⟨l, vals, h1, h2, h3, h4⟩ := hf
    exact ⟨l, vals, by rw [h.1, h1], h2, h3, FitsAll.same h ps vals h4⟩
theorem FitsAll.same {q : Seqs σ ε V} {read : σ → V} {s s' : σ} (h : Same q read s s') : ∀ (ps : Pats σ ε V) (vs : List V),
    FitsAll q s ps vs → FitsAll q s' ps vs
  | .nil, _, _ => by simp only [FitsAll]
  | .cons _ _ _, [], _ => by simp only [FitsAll]
  | .cons _ p ps, x :: xs, hf => by
    simp only [FitsAll] at hf ⊢
    exact ⟨Fits.same h p x hf.1, FitsAll.same h ps xs hf.2⟩
end

/-- The right side `r` has the value `v`, also later on. -/
def StDen (q : Seqs σ ε V) (read : σ → V) (n : Nat) (r : Rhs σ ε V) (v : V) (s : σ) (t : Tmps V) : Prop :=
  ∀ s' t', Same q read s s' → (∀ k, k < n → t' k = t k) → evalRhs q r (s', t') = some ((s', t'), .ok v)

/-- The emitted statements `ss` do what `p` does. -/
def Does (q : Seqs σ ε V) (read : σ → V) (n : Nat) (ss : List (USt σ ε V)) (p : M σ ε Unit) (s : σ) (t : Tmps V) : Prop :=
  (p s = none ∧ runU q ss (s, t) = none) ∨
  (∃ s' e t', p s = some (s', .error e) ∧ runU q ss (s, t) = some ((s', t'), .error e)) ∨
  (∃ s' t', p s = some (s', .ok ()) ∧ runU q ss (s, t) = some ((s', t'), .ok ()) ∧ Same q read s s' ∧ ∀ k, k < n → t' k = t k)

theorem Does.append {q : Seqs σ ε V} {read : σ → V} {n n' : Nat} {ss ss' : List (USt σ ε V)} {p p' : M σ ε Unit} {s : σ} {t : Tmps V}
    (h : Does q read n ss p s t) (hn : n ≤ n')
    (h' : ∀ s' t', Same q read s s' → (∀ k, k < n → t' k = t k) → Does q read n' ss' p' s' t') :
    Does q read n (ss ++ ss') (andThen p fun _ => p') s t := by
  rcases h with ⟨h1, h2⟩ | ⟨s', e, t', h1, h2⟩ | ⟨s', t', h1, h2, h3, h4⟩
  · left; simp [andThen, runU_append, h1, h2]
  · right; left; exact ⟨s', e, t', by simp [andThen, h1], by simp [andThen, runU_append, h2]⟩
  · rcases h' s' t' h3 h4 with ⟨g1, g2⟩ | ⟨s2, e, t2, g1, g2⟩ | ⟨s2, t2, g1, g2, g3, g4⟩
    · left; simp [andThen, runU_append, h1, h2, g1, g2]
    · right; left; exact ⟨s2, e, t2, by simp [andThen, h1, g1], by simp [andThen, runU_append, h2, g2]⟩
    · right; right
      exact ⟨s2, t2, by simp [andThen, h1, g1], by simp [andThen, runU_append, h2, g2], h3.trans g3,
        fun k hk => (g4 k (by omega)).trans (h4 k hk)⟩

mutual
theorem unpack_le (q : Seqs σ ε V) : ∀ (p : Pat σ ε V) (n : Nat) (r : Rhs σ ε V) (n' : Nat) (ss : List (USt σ ε V)),
    unpack n r p = some (n', ss) → n ≤ n'
  | .tgt _, n, r, n', ss, h => by simp only [unpack, Option.some.injEq, Prod.mk.injEq] at h; omega
  | .seq ps, n, r, n', ss, h => by
    simp only [unpack] at h
    cases hr : r.isId with
    | true =>
      simp only [hr, if_true] at h
      cases h1 : unpackPre n r ps.size 0 ps with
      | none => rw [h1] at h; simp at h
      | some x =>
        rw [h1] at h; simp only [Option.some.injEq, Prod.mk.injEq] at h
        have := unpackPre_le q ps n r _ _ x.1 x.2 h1
        omega
    | false =>
      simp only [hr, Bool.false_eq_true, if_false] at h
      cases h1 : unpackPre (n + 1) (Rhs.tmp n : Rhs σ ε V) ps.size 0 ps with
      | none => rw [h1] at h; simp at h
      | some x =>
        rw [h1] at h; simp only [Option.some.injEq, Prod.mk.injEq] at h
        have := unpackPre_le q ps _ _ _ _ x.1 x.2 h1
        omega
theorem unpackPre_le (q : Seqs σ ε V) : ∀ (ps : Pats σ ε V) (n : Nat) (r : Rhs σ ε V) (size st n' : Nat) (ss : List (USt σ ε V)),
    unpackPre n r size st ps = some (n', ss) → n ≤ n'
  | .nil, n, r, size, st, n', ss, h => by simp only [unpackPre, Option.some.injEq, Prod.mk.injEq] at h; omega
  | .cons false p ps, n, r, size, st, n', ss, h => by
    simp only [unpackPre] at h
    cases h1 : unpack n (.idx r st) p with
    | none => rw [h1] at h; simp at h
    | some x =>
      rw [h1] at h; simp only at h
      cases h2 : unpackPre x.1 r size (st + 1) ps with
      | none => rw [h2] at h; simp at h
      | some y =>
        rw [h2] at h; simp only [Option.some.injEq, Prod.mk.injEq] at h
        have := unpack_le q p _ _ x.1 x.2 h1
        have := unpackPre_le q ps _ _ _ _ y.1 y.2 h2
        omega
  | .cons true p ps, n, r, size, st, n', ss, h => by
    simp only [unpackPre] at h
    cases h1 : unpack n (.slice r st (if size = st + 1 then none else some (-(size : Int) + st + 1))) p with
    | none => rw [h1] at h; simp at h
    | some x =>
      rw [h1] at h; simp only at h
      cases h2 : unpackPost x.1 r size (st + 1) ps with
      | none => rw [h2] at h; simp at h
      | some y =>
        rw [h2] at h; simp only [Option.some.injEq, Prod.mk.injEq] at h
        have := unpack_le q p _ _ x.1 x.2 h1
        have := unpackPost_le q ps _ _ _ _ y.1 y.2 h2
        omega
theorem unpackPost_le (q : Seqs σ ε V) : ∀ (ps : Pats σ ε V) (n : Nat) (r : Rhs σ ε V) (size st n' : Nat) (ss : List (USt σ ε V)),
    unpackPost n r size st ps = some (n', ss) → n ≤ n'
  | .nil, n, r, size, st, n', ss, h => by simp only [unpackPost, Option.some.injEq, Prod.mk.injEq] at h; omega
  | .cons true p ps, n, r, size, st, n', ss, h => by simp [unpackPost] at h
  | .cons false p ps, n, r, size, st, n', ss, h => by
    simp only [unpackPost] at h
    cases h1 : unpack n (.idx r (-((size - st : Nat) : Int))) p with
    | none => rw [h1] at h; simp at h
    | some x =>
      rw [h1] at h; simp only at h
      cases h2 : unpackPost x.1 r size (st + 1) ps with
      | none => rw [h2] at h; simp at h
      | some y =>
        rw [h2] at h; simp only [Option.some.injEq, Prod.mk.injEq] at h
        have := unpack_le q p _ _ x.1 x.2 h1
        have := unpackPost_le q ps _ _ _ _ y.1 y.2 h2
        omega
end

theorem StDen.mono {q : Seqs σ ε V} {read : σ → V} {n n' : Nat} {r : Rhs σ ε V} {v : V} {s s' : σ} {t t' : Tmps V}
    (h : StDen q read n r v s t) (hn : n ≤ n') (hs : Same q read s s') (ht : ∀ k, k < n → t' k = t k) : StDen q read n' r v s' t' :=
  fun s2 t2 h1 h2 => h s2 t2 (hs.trans h1) (fun k hk => (h2 k (by omega)).trans (ht k hk))

theorem StDen.idx {q : Seqs σ ε V} {read : σ → V} {n : Nat} {r : Rhs σ ε V} {v x : V} {s : σ} {t : Tmps V} {l : List V} {k : Int}
    (h : StDen q read n r v s t) (hl : q.items v s = some l) (hk : index l k = some x) : StDen q read n (.idx r k) x s t := by
  intro s' t' h1 h2
  simp only [evalRhs, andThen, h s' t' h1 h2, h1.1, hl, hk]

theorem StDen.slice {q : Seqs σ ε V} {read : σ → V} {n : Nat} {r : Rhs σ ε V} {v : V} {s : σ} {t : Tmps V} {l : List V} {st : Int} {en : Option Int}
    (h : StDen q read n r v s t) (hl : q.items v s = some l) (hv : q.isTuple v = false) :
    StDen q read n (.slice r st en) (q.ofList (sliceList l st.toNat en)) s t := by
  intro s' t' h1 h2
  simp only [evalRhs, andThen, h s' t' h1 h2, h1.1, hl, hv, Bool.false_eq_true, if_false]

theorem distribute_length (q : Seqs σ ε V) : ∀ (ps : Pats σ ε V) (l vals : List V), distribute q ps l = some vals → vals.length = ps.size
  | .nil, [], vals, h => by simp only [distribute, Option.some.injEq] at h; simp [← h, Pats.size]
  | .nil, _ :: _, vals, h => by simp [distribute] at h
  | .cons false _ _, [], vals, h => by simp [distribute] at h
  | .cons false _ ps, x :: l, vals, h => by
    simp only [distribute, Option.map_eq_some_iff] at h
    obtain ⟨vs, h1, rfl⟩ := h
    simp [Pats.size, distribute_length q ps l vs h1]
  | .cons true _ ps, l, vals, h => by
    simp only [distribute] at h
    split at h
    · next hle =>
      simp only [Option.some.injEq] at h
      subst h
      simp only [List.length_cons, List.length_drop, Pats.size]
      omega
    · simp at h

mutual
theorem unpack_does (q : Seqs σ ε V) (read : σ → V) : ∀ (p : Pat σ ε V) (n : Nat) (r : Rhs σ ε V) (n' : Nat) (ss : List (USt σ ε V)) (v : V) (s : σ) (t : Tmps V),
    unpack n r p = some (n', ss) → p.Keeps q read → Fits q s p v → StDen q read n r v s t → Does q read n ss (pyUnpack q p v) s t
  | .tgt store, n, r, n', ss, v, s, t, h, hk, _, hd => by
    simp only [unpack, Option.some.injEq, Prod.mk.injEq] at h
    obtain ⟨_, rfl⟩ := h
    have hd := hd s t (Same.refl _ _ _) (fun _ _ => rfl)
    simp only [Pat.Keeps] at hk
    simp only [Does, runU, pyUnpack, andThen, hd, lift]
    cases hs : store v s with
    | none => left; simp
    | some x =>
      obtain ⟨s', x⟩ := x
      cases x with
      | error e => right; left; exact ⟨s', e, t, rfl, rfl⟩
      | ok u => right; right; exact ⟨s', t, rfl, rfl, hk _ _ _ _ hs, fun _ _ => rfl⟩
  | .seq ps, n, r, n', ss, v, s, t, h, hk, hf, hd => by
    simp only [Fits] at hf
    obtain ⟨l, vals, hl, hdis, hstar, hfa⟩ := hf
    simp only [Pat.Keeps] at hk
    have hpy : pyUnpack q (.seq ps) v s = pyUnpackAll q ps vals s := by simp only [pyUnpack, hl, hdis]
    simp only [unpack] at h
    cases hr : r.isId with
    | true =>
      simp only [hr, if_true] at h
      cases h1 : unpackPre n r ps.size 0 ps with
      | none => rw [h1] at h; simp at h
      | some x =>
        rw [h1] at h; simp only [Option.some.injEq, Prod.mk.injEq, List.nil_append] at h
        obtain ⟨_, rfl⟩ := h
        have := unpackPre_does q read ps n r ps.size 0 x.1 x.2 v l l vals s t h1 hk hd hl (by simp) (by omega) hdis hstar hfa
        simpa only [Does, hpy] using this
    | false =>
      simp only [hr, Bool.false_eq_true, if_false] at h
      cases h1 : unpackPre (n + 1) (Rhs.tmp n : Rhs σ ε V) ps.size 0 ps with
      | none => rw [h1] at h; simp at h
      | some x =>
        rw [h1] at h; simp only [Option.some.injEq, Prod.mk.injEq] at h
        obtain ⟨_, rfl⟩ := h
        have hd' : StDen q read (n + 1) (Rhs.tmp n : Rhs σ ε V) v s (fun j => if j = n then some v else t j) := by
          intro s' t' _ h2
          have := h2 n (by omega)
          simp only [if_true] at this
          simp only [evalRhs, getTmp, this]
        have := unpackPre_does q read ps (n + 1) (.tmp n) ps.size 0 x.1 x.2 v l l vals s (fun j => if j = n then some v else t j) h1 hk hd' hl (by simp)
          (by omega) hdis hstar hfa
        have hd := hd s t (Same.refl _ _ _) (fun _ _ => rfl)
        simp only [Does, hpy, List.singleton_append, runU, andThen, hd, setTmp]
        rcases this with h | h | ⟨s', t', g1, g2, g3, g4⟩
        · exact .inl h
        · exact .inr (.inl h)
        · refine .inr (.inr ⟨s', t', g1, g2, g3, fun k hk => ?_⟩)
          rw [g4 k (by omega)]
          have : k ≠ n := by omega
          simp [this]
theorem unpackPre_does (q : Seqs σ ε V) (read : σ → V) : ∀ (ps : Pats σ ε V) (n : Nat) (r : Rhs σ ε V) (size st n' : Nat) (ss : List (USt σ ε V)) (v : V)
    (l l' vals : List V) (s : σ) (t : Tmps V),
    unpackPre n r size st ps = some (n', ss) → ps.Keeps q read → StDen q read n r v s t → q.items v s = some l → l' = l.drop st →
    size = st + ps.size → distribute q ps l' = some vals → (ps.hasStar = true → q.isTuple v = false) → FitsAll q s ps vals →
    Does q read n ss (pyUnpackAll q ps vals) s t
  | .nil, n, r, size, st, n', ss, v, l, l', vals, s, t, h, _, _, _, _, _, _, _, _ => by
    simp only [unpackPre, Option.some.injEq, Prod.mk.injEq] at h
    obtain ⟨_, rfl⟩ := h
    right; right
    exact ⟨s, t, by simp only [pyUnpackAll, ret], rfl, Same.refl _ _ _, fun _ _ => rfl⟩
  | .cons false p ps, n, r, size, st, n', ss, v, l, l', vals, s, t, h, hk, hd, hl, hl', hsz, hdis, hst, hfa => by
    simp only [unpackPre] at h
    simp only [Pats.Keeps] at hk
    simp only [Pats.size] at hsz
    cases h1 : unpack n (.idx r st) p with
    | none => rw [h1] at h; simp at h
    | some x =>
      rw [h1] at h; simp only at h
      cases h2 : unpackPre x.1 r size (st + 1) ps with
      | none => rw [h2] at h; simp at h
      | some y =>
        rw [h2] at h; simp only [Option.some.injEq, Prod.mk.injEq] at h
        obtain ⟨_, rfl⟩ := h
        cases l' with
        | nil => simp [distribute] at hdis
        | cons a l' =>
          simp only [distribute, Option.map_eq_some_iff] at hdis
          obtain ⟨vs, hdis, rfl⟩ := hdis
          simp only [FitsAll] at hfa
          simp only [pyUnpackAll]
          have hidx : index l (st : Int) = some a := by
            have : l[st]? = some a := by
              have := congrArg (fun z => z[0]?) hl'
              simpa [List.getElem?_drop] using this.symm
            simp [index, this]
          have d1 := unpack_does q read p n _ x.1 x.2 a s t h1 hk.1 hfa.1 (hd.idx hl hidx)
          have hle := unpack_le q p _ _ _ _ h1
          refine d1.append hle ?_
          intro s' t' hs ht
          refine unpackPre_does q read ps x.1 r size (st + 1) y.1 y.2 v l l' vs s' t' h2 hk.2 (hd.mono hle hs ht) (by rw [hs.1, hl]) ?_ (by omega) hdis
            (fun hh => hst (by simp [Pats.hasStar, hh])) (FitsAll.same hs _ _ hfa.2)
          have := congrArg (List.drop 1) hl'
          simpa [List.drop_drop, Nat.add_comm] using this
  | .cons true p ps, n, r, size, st, n', ss, v, l, l', vals, s, t, h, hk, hd, hl, hl', hsz, hdis, hst, hfa => by
    simp only [unpackPre] at h
    simp only [Pats.Keeps] at hk
    simp only [Pats.size] at hsz
    cases h1 : unpack n (.slice r st (if size = st + 1 then none else some (-(size : Int) + st + 1))) p with
    | none => rw [h1] at h; simp at h
    | some x =>
      rw [h1] at h; simp only at h
      cases h2 : unpackPost x.1 r size (st + 1) ps with
      | none => rw [h2] at h; simp at h
      | some y =>
        rw [h2] at h; simp only [Option.some.injEq, Prod.mk.injEq] at h
        obtain ⟨_, rfl⟩ := h
        simp only [distribute] at hdis
        split at hdis
        · next hle' =>
          simp only [Option.some.injEq] at hdis
          subst hdis
          simp only [FitsAll] at hfa
          simp only [pyUnpackAll]
          have hlen : l'.length = l.length - st := by rw [hl', List.length_drop]
          have hsl : sliceList l ((st : Int).toNat) (if size = st + 1 then none else some (-(size : Int) + st + 1)) = l'.take (l'.length - ps.size) := by
            by_cases hz : size = st + 1
            · simp only [if_pos hz, sliceList, Int.toNat_natCast, ← hl']
              congr 1; omega
            · simp only [if_neg hz, sliceList, Int.toNat_natCast, ← hl']
              congr 1; omega
          have hden := hd.slice (st := (st : Int)) (en := if size = st + 1 then none else some (-(size : Int) + st + 1)) hl (hst (by simp [Pats.hasStar]))
          rw [hsl] at hden
          have d1 := unpack_does q read p n _ x.1 x.2 _ s t h1 hk.1 hfa.1 hden
          have hle := unpack_le q p _ _ _ _ h1
          refine d1.append hle ?_
          intro s' t' hs ht
          refine unpackPost_does q read ps x.1 r size (st + 1) y.1 y.2 v l _ s' t' h2 hk.2 (hd.mono hle hs ht) (by rw [hs.1, hl]) ?_ ?_ ?_
            (FitsAll.same hs _ _ hfa.2)
          · rw [hl', List.drop_drop]
            by_cases hh : st ≤ l.length
            · congr 1
              simp only [List.length_drop]; omega
            · rw [List.drop_of_length_le (by omega), List.drop_of_length_le (by omega)]
          · omega
          · omega
        · simp at hdis
theorem unpackPost_does (q : Seqs σ ε V) (read : σ → V) : ∀ (ps : Pats σ ε V) (n : Nat) (r : Rhs σ ε V) (size st n' : Nat) (ss : List (USt σ ε V)) (v : V)
    (l vals : List V) (s : σ) (t : Tmps V),
    unpackPost n r size st ps = some (n', ss) → ps.Keeps q read → StDen q read n r v s t → q.items v s = some l → vals = l.drop (l.length - ps.size) →
    size = st + ps.size → ps.size ≤ l.length → FitsAll q s ps vals → Does q read n ss (pyUnpackAll q ps vals) s t
  | .nil, n, r, size, st, n', ss, v, l, vals, s, t, h, _, _, _, _, _, _, _ => by
    simp only [unpackPost, Option.some.injEq, Prod.mk.injEq] at h
    obtain ⟨_, rfl⟩ := h
    right; right
    exact ⟨s, t, by simp only [pyUnpackAll, ret], rfl, Same.refl _ _ _, fun _ _ => rfl⟩
  | .cons true p ps, n, r, size, st, n', ss, v, l, vals, s, t, h, _, _, _, _, _, _, _ => by simp [unpackPost] at h
  | .cons false p ps, n, r, size, st, n', ss, v, l, vals, s, t, h, hk, hd, hl, hv, hsz, hle', hfa => by
    simp only [unpackPost] at h
    simp only [Pats.Keeps] at hk
    simp only [Pats.size] at hsz hv hle'
    cases h1 : unpack n (.idx r (-((size - st : Nat) : Int))) p with
    | none => rw [h1] at h; simp at h
    | some x =>
      rw [h1] at h; simp only at h
      cases h2 : unpackPost x.1 r size (st + 1) ps with
      | none => rw [h2] at h; simp at h
      | some y =>
        rw [h2] at h; simp only [Option.some.injEq, Prod.mk.injEq] at h
        obtain ⟨_, rfl⟩ := h
        have hlt : l.length - (ps.size + 1) < l.length := by omega
        have hv' : vals = l[l.length - (ps.size + 1)] :: l.drop (l.length - ps.size) := by
          rw [hv, List.drop_eq_getElem_cons hlt]
          congr 2; omega
        rw [hv'] at hfa ⊢
        simp only [FitsAll] at hfa
        simp only [pyUnpackAll]
        have hidx : index l (-((size - st : Nat) : Int)) = some l[l.length - (ps.size + 1)] := by
          have e1 : size - st = ps.size + 1 := by omega
          rw [e1]
          unfold index
          rw [if_neg (by omega), if_pos (by omega)]
          have : (-((ps.size + 1 : Nat) : Int) + (l.length : Int)).toNat = l.length - (ps.size + 1) := by omega
          rw [this, List.getElem?_eq_getElem hlt]
        have d1 := unpack_does q read p n _ x.1 x.2 _ s t h1 hk.1 hfa.1 (hd.idx hl hidx)
        have hle := unpack_le q p _ _ _ _ h1
        refine d1.append hle ?_
        intro s' t' hs ht
        exact unpackPost_does q read ps x.1 r size (st + 1) y.1 y.2 v l _ s' t' h2 hk.2 (hd.mono hle hs ht) (by rw [hs.1, hl]) rfl (by omega) (by omega)
          (FitsAll.same hs _ _ hfa.2)
end

mutual
theorem unpack_isSome : ∀ (p : Pat σ ε V) (n : Nat) (r : Rhs σ ε V), (unpack n r p).isSome = p.oneStar
  | .tgt _, n, r => by simp [unpack, Pat.oneStar]
  | .seq ps, n, r => by
    simp only [unpack, Pat.oneStar]
    cases hr : r.isId with
    | true =>
      simp only [if_true]
      rw [← unpackPre_isSome ps n r ps.size 0]
      cases unpackPre n r ps.size 0 ps <;> rfl
    | false =>
      simp only [Bool.false_eq_true, if_false]
      rw [← unpackPre_isSome ps (n + 1) (.tmp n) ps.size 0]
      cases unpackPre (n + 1) (Rhs.tmp n : Rhs σ ε V) ps.size 0 ps <;> rfl
theorem unpackPre_isSome : ∀ (ps : Pats σ ε V) (n : Nat) (r : Rhs σ ε V) (size st : Nat), (unpackPre n r size st ps).isSome = ps.oneStar
  | .nil, n, r, size, st => by simp [unpackPre, Pats.oneStar]
  | .cons false p ps, n, r, size, st => by
    simp only [unpackPre, Pats.oneStar, Bool.false_and, Bool.not_false, Bool.and_true]
    rw [← unpack_isSome p n (.idx r st)]
    cases h1 : unpack n (.idx r st) p with
    | none => rfl
    | some x =>
      simp only [Option.isSome_some, Bool.true_and]
      rw [← unpackPre_isSome ps x.1 r size (st + 1)]
      cases unpackPre x.1 r size (st + 1) ps <;> rfl
  | .cons true p ps, n, r, size, st => by
    simp only [unpackPre, Pats.oneStar, Bool.true_and]
    rw [← unpack_isSome p n (.slice r st (if size = st + 1 then none else some (-(size : Int) + st + 1)))]
    cases h1 : unpack n (.slice r st (if size = st + 1 then none else some (-(size : Int) + st + 1))) p with
    | none => rfl
    | some x =>
      simp only [Option.isSome_some, Bool.true_and]
      rw [← unpackPost_isSome ps x.1 r size (st + 1)]
      cases unpackPost x.1 r size (st + 1) ps <;> rfl
theorem unpackPost_isSome : ∀ (ps : Pats σ ε V) (n : Nat) (r : Rhs σ ε V) (size st : Nat),
    (unpackPost n r size st ps).isSome = (ps.oneStar && !ps.hasStar)
  | .nil, n, r, size, st => by simp [unpackPost, Pats.oneStar, Pats.hasStar]
  | .cons true p ps, n, r, size, st => by simp [unpackPost, Pats.hasStar]
  | .cons false p ps, n, r, size, st => by
    simp only [unpackPost, Pats.oneStar, Pats.hasStar, Bool.false_and, Bool.not_false, Bool.and_true, Bool.false_or]
    rw [← unpack_isSome p n (.idx r (-((size - st : Nat) : Int)))]
    cases h1 : unpack n (.idx r (-((size - st : Nat) : Int))) p with
    | none => rfl
    | some x =>
      simp only [Option.isSome_some, Bool.true_and]
      rw [← unpackPost_isSome ps x.1 r size (st + 1)]
      cases unpackPost x.1 r size (st + 1) ps <;> rfl
end

end Codon.Assign
