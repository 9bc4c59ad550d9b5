import Verif.Ctl.Sim
/-!
# Which statements are rejected
-/

namespace Verif.Ctl

/-- Every `break` and `continue` is inside a loop; `il`: the statement itself is. -/
def Legal (il : Bool) : Src → Prop
  | .seq a b | .ite _ a b => Legal il a ∧ Legal il b
  | .loopElse _ _ e | .tforElse _ _ _ _ e => Legal il e
  | .mtch _ cs => go il cs
  | .brk | .cont => il = true
  | _ => True
where go (il : Bool) : Cases → Prop
  | .nil => True
  | .cons _ _ body rest => Legal il body ∧ go il rest

/-- No `case` has a `break` or `continue` for a loop around the `match`; no loop over a
tuple has an `else`. -/
def Plain : Src → Prop
  | .seq a b | .ite _ a b => Plain a ∧ Plain b
  | .loopElse _ _ e => Plain e
  | .tforElse _ _ _ _ _ => False
  | .mtch _ cs => Legal.go false cs
  | _ => True

mutual
theorem Legal.up : ∀ (s : Src) (il), Legal false s → Legal il s
  | .skip, il, h => by simp [Legal]
  | .act _, il, h => by simp [Legal]
  | .loop _ _, il, h => by simp [Legal]
  | .tfor _ _ _ _, il, h => by simp [Legal]
  | .seq a b, il, h => by
    simp only [Legal] at h ⊢; exact ⟨Legal.up a il h.1, Legal.up b il h.2⟩
  | .ite _ a b, il, h => by
    simp only [Legal] at h ⊢; exact ⟨Legal.up a il h.1, Legal.up b il h.2⟩
  | .loopElse _ _ e, il, h => by simp only [Legal] at h ⊢; exact Legal.up e il h
  | .tforElse _ _ _ _ e, il, h => by simp only [Legal] at h ⊢; exact Legal.up e il h
  | .mtch _ cs, il, h => by simp only [Legal] at h ⊢; exact Legal.upC cs il h
  | .brk, il, h => by simp [Legal] at h
  | .cont, il, h => by simp [Legal] at h
theorem Legal.upC : ∀ (cs : Cases) (il), Legal.go false cs → Legal.go il cs
  | .nil, il, h => by simp [Legal.go]
  | .cons _ _ b r, il, h => by
    simp only [Legal.go] at h ⊢; exact ⟨Legal.up b il h.1, Legal.upC r il h.2⟩
end

theorem visit_legal : ∀ (s : Src) (V k t k' t'), Plain s → visit V s k = .ok (t, k') →
    revisit V.sl t = .ok t' → Legal V.sl.isSome s
  | .skip, V, k, t, k', t', _, _, _ => by simp [Legal]
  | .act _, V, k, t, k', t', _, _, _ => by simp [Legal]
  | .loop _ _, V, k, t, k', t', _, _, _ => by simp [Legal]
  | .tfor _ _ _ _, V, k, t, k', t', _, _, _ => by simp [Legal]
  | .tforElse _ _ _ _ _, V, k, t, k', t', h, _, _ => by simp [Plain] at h
  | .mtch _ cs, V, k, t, k', t', h, _, _ => by
    simp only [Plain, Legal] at h ⊢; exact Legal.upC cs _ h
  | .seq a b, V, k, t, k', t', h, hv, hr => by
    simp only [Plain] at h
    simp only [visit, bind, Except.bind] at hv
    cases ha : visit V a k with
    | error e => simp [ha] at hv
    | ok p =>
      obtain ⟨ta, k1⟩ := p
      simp only [ha] at hv
      cases hb : visit V b k1 with
      | error e => simp [hb] at hv
      | ok p =>
        obtain ⟨tb, k2⟩ := p
        simp only [hb, Except.ok.injEq, Prod.mk.injEq] at hv
        obtain ⟨rfl, rfl⟩ := hv
        simp only [revisit, bind, Except.bind] at hr
        cases ra : revisit V.sl ta with
        | error e => simp [ra] at hr
        | ok ta' =>
          cases rb : revisit V.sl tb with
          | error e => simp [ra, rb] at hr
          | ok tb' =>
            simp only [Legal]
            exact ⟨visit_legal a V k ta k1 ta' h.1 ha ra, visit_legal b V k1 tb k2 tb' h.2 hb rb⟩
  | .ite f a b, V, k, t, k', t', h, hv, hr => by
    simp only [Plain] at h
    simp only [visit, bind, Except.bind] at hv
    cases ha : visit V a k with
    | error e => simp [ha] at hv
    | ok p =>
      obtain ⟨ta, k1⟩ := p
      simp only [ha] at hv
      cases hb : visit V b k1 with
      | error e => simp [hb] at hv
      | ok p =>
        obtain ⟨tb, k2⟩ := p
        simp only [hb, Except.ok.injEq, Prod.mk.injEq] at hv
        obtain ⟨rfl, rfl⟩ := hv
        simp only [revisit, bind, Except.bind] at hr
        cases ra : revisit V.sl ta with
        | error e => simp [ra] at hr
        | ok ta' =>
          cases rb : revisit V.sl tb with
          | error e => simp [ra, rb] at hr
          | ok tb' =>
            simp only [Legal]
            exact ⟨visit_legal a V k ta k1 ta' h.1 ha ra, visit_legal b V k1 tb k2 tb' h.2 hb rb⟩
  | .loopElse f a e, V, k, t, k', t', h, hv, hr => by
    simp only [Plain] at h
    simp only [visit, bind, Except.bind] at hv
    cases ha : visit ⟨some (some k), some none⟩ a (k + 1) with
    | error e => simp [ha] at hv
    | ok p =>
      obtain ⟨ta, k1⟩ := p
      simp only [ha] at hv
      cases hra : revisit (some none) ta with
      | error e => simp [hra] at hv
      | ok ta' =>
        simp only [hra] at hv
        cases hb : visit ⟨some (some k), V.sl⟩ e k1 with
        | error e => simp [hb] at hv
        | ok p =>
          obtain ⟨tb, k2⟩ := p
          simp only [hb, Except.ok.injEq, Prod.mk.injEq] at hv
          obtain ⟨rfl, rfl⟩ := hv
          simp only [revisit, bind, Except.bind, revisit_done _ _ _ _ hra] at hr
          cases rb : revisit V.sl tb with
          | error e => simp [rb] at hr
          | ok tb' =>
            simp only [Legal]
            exact visit_legal e ⟨some (some k), V.sl⟩ k1 tb k2 tb' h hb rb
  | .brk, ⟨bv, sl⟩, k, t, k', t', h, hv, hr => by
    simp only [Legal]
    rcases bv with _ | _ | v <;> rcases sl with _ | sl <;>
      simp [visit, visitBreak, bind, Except.bind] at hv <;> try rfl
    obtain ⟨rfl, rfl⟩ := hv
    simp [revisit, visitBreak, bind, Except.bind] at hr
  | .cont, ⟨bv, sl⟩, k, t, k', t', h, hv, hr => by
    simp only [Legal]
    rcases bv with _ | bv <;> rcases sl with _ | sl <;>
      simp [visit, visitCont, bind, Except.bind] at hv <;> rfl

theorem loopS_stuck (c body n s) (h : ∀ s, (body s).2 ≠ .stuck) :
    (loopS c body n s).2 ≠ .stuck := by
  induction n generalizing s with
  | zero => simp [loopS]
  | succ n ih =>
    simp only [loopS]
    have := h (c s).2
    split
    · generalize body (c s).2 = r at *
      obtain ⟨a, o⟩ := r
      cases o <;> simp_all
    · simp

theorem itemsS_stuck (x body vs s) (h : ∀ s, (body s).2 ≠ .stuck) :
    (itemsS x body vs s).2 ≠ .stuck := by
  induction vs generalizing s with
  | nil => simp [itemsS]
  | cons v vs ih =>
    simp only [itemsS]
    have := h (s.set x v)
    generalize body (s.set x v) = r at *
    obtain ⟨a, o⟩ := r
    cases o <;> simp_all

mutual
theorem runS_stuck (J n) : ∀ (s : Src) (st), (runS J n s st).2 ≠ .stuck
  | .skip, st => by simp [runS]
  | .act f, st => by simp only [runS]; split <;> simp
  | .seq a b, st => by
    have h1 := runS_stuck J n a st
    simp only [runS]
    split
    · exact runS_stuck J n b _
    · exact h1
  | .ite c a b, st => by
    simp only [runS]
    split
    · exact runS_stuck J n a _
    · exact runS_stuck J n b _
  | .loop c a, st => by
    have h1 := loopS_stuck c (runS J n a) n st (runS_stuck J n a)
    simp only [runS]
    split
    · simp
    · exact h1
  | .loopElse c a b, st => by
    have h1 := loopS_stuck c (runS J n a) n st (runS_stuck J n a)
    simp only [runS]
    split
    · exact runS_stuck J n b _
    · simp
    · exact h1
  | .tfor m it x a, st => by
    have h1 := itemsS_stuck x (runS J n a) (it.eval m st).1 (it.eval m st).2 (runS_stuck J n a)
    simp only [runS]
    split
    · simp
    · exact h1
  | .tforElse m it x a b, st => by
    have h1 := itemsS_stuck x (runS J n a) (it.eval m st).1 (it.eval m st).2 (runS_stuck J n a)
    simp only [runS]
    split
    · exact runS_stuck J n b _
    · simp
    · exact h1
  | .mtch e cs, st => by simp only [runS]; exact runCases_stuck J n cs _ _
  | .brk, st => by simp [runS]
  | .cont, st => by simp [runS]
theorem runCases_stuck (J n) : ∀ (cs : Cases) (v st), (runCases J n cs v st).2 ≠ .stuck
  | .nil, v, st => by simp [runCases]
  | .cons p g b r, v, st => by
    simp only [runCases]
    split
    · exact runCases_stuck J n r _ _
    · split
      · exact runS_stuck J n b _
      · split
        · exact runS_stuck J n b _
        · exact runCases_stuck J n r _ _
end

theorem loopT_cont (c : TSt → Bool × TSt) (body : TSt → TSt × Out)
    (hc : ∀ s, (c s).1 = true) (hb : ∀ s, (body s).2 = .cont) (n s) :
    (loopT c body n s).2 = .fuel := by
  induction n generalizing s with
  | zero => rfl
  | succ n ih =>
    simp only [loopT]
    have h1 := hc s
    generalize c s = r at *
    obtain ⟨b, s1⟩ := r
    simp only at h1
    subst h1
    have h2 := hb s1
    simp only
    generalize body s1 = r at *
    obtain ⟨s2, o⟩ := r
    simp only at h2
    subst h2
    exact ih s2

end Verif.Ctl
