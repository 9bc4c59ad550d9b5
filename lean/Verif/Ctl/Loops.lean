import Verif.Ctl.Code
/-!
# Loops: lemmas on both executions
-/

namespace Verif.Ctl

theorem revisit_done : ∀ (t : Tgt) (r r' t'), revisit r t = .ok t' → revisit r' t' = .ok t'
  | .skip, _, _, _, h => by simp only [revisit] at h; cases h; rfl
  | .act _, _, _, _, h => by simp only [revisit] at h; cases h; rfl
  | .setFlag _ _, _, _, _, h => by simp only [revisit] at h; cases h; rfl
  | .setVal _ _, _, _, _, h => by simp only [revisit] at h; cases h; rfl
  | .setTup _ _, _, _, _, h => by simp only [revisit] at h; cases h; rfl
  | .item _ _ _, _, _, _, h => by simp only [revisit] at h; cases h; rfl
  | .bindP _ _, _, _, _, h => by simp only [revisit] at h; cases h; rfl
  | .cont, _, _, _, h => by simp only [revisit] at h; cases h; rfl
  | .brk true, _, _, _, h => by simp only [revisit] at h; cases h; rfl
  | .brk false, r, r', t', h => by
    simp only [revisit, visitBreak] at h
    rcases r with _ | _ | g <;> simp at h <;> subst h <;> rfl
  | .seq a b, r, r', t', h => by
    simp only [revisit, bind, Except.bind] at h
    cases ha : revisit r a with
    | error e => simp [ha] at h
    | ok a' =>
      cases hb : revisit r b with
      | error e => simp [ha, hb] at h
      | ok b' =>
        simp [ha, hb] at h; subst h
        simp [revisit, revisit_done a r r' a' ha, revisit_done b r r' b' hb, bind, Except.bind]
  | .ite c a b, r, r', t', h => by
    simp only [revisit, bind, Except.bind] at h
    cases ha : revisit r a with
    | error e => simp [ha] at h
    | ok a' =>
      cases hb : revisit r b with
      | error e => simp [ha, hb] at h
      | ok b' =>
        simp [ha, hb] at h; subst h
        simp [revisit, revisit_done a r r' a' ha, revisit_done b r r' b' hb, bind, Except.bind]
  | .loop g c a, r, r', t', h => by
    simp only [revisit, bind, Except.bind] at h
    cases ha : revisit (some g) a with
    | error e => simp [ha] at h
    | ok a' =>
      simp [ha] at h; subst h
      simp [revisit, revisit_done a _ (some g) a' ha, bind, Except.bind]
  | .ifFlag t a, r, r', t', h => by
    simp only [revisit, bind, Except.bind] at h
    cases ha : revisit r a with
    | error e => simp [ha] at h
    | ok a' =>
      simp [ha] at h; subst h
      simp [revisit, revisit_done a r r' a' ha, bind, Except.bind]
  | .test p t a, r, r', t', h => by
    simp only [revisit, bind, Except.bind] at h
    cases ha : revisit r a with
    | error e => simp [ha] at h
    | ok a' =>
      simp [ha] at h; subst h
      simp [revisit, revisit_done a r r' a' ha, bind, Except.bind]

theorem loopS_out (c body n s) : (loopS c body n s).2 ≠ .cont := by
  induction n generalizing s with
  | zero => simp [loopS]
  | succ n ih =>
    simp only [loopS]
    split
    · split
      · exact ih _
      · exact ih _
      · rename_i h1 h2
        intro e
        generalize body (c s).2 = r at *
        obtain ⟨a, o⟩ := r
        simp only at e
        subst e
        exact h2 _ rfl
    · simp

theorem itemsS_out (x body vs s) : (itemsS x body vs s).2 ≠ .cont := by
  induction vs generalizing s with
  | nil => simp [itemsS]
  | cons v vs ih =>
    simp only [itemsS]
    split
    · exact ih _
    · exact ih _
    · rename_i h1 h2
      intro e
      generalize body (s.set x v) = r at *
      obtain ⟨a, o⟩ := r
      simp only at e
      subst e
      exact h2 _ rfl

mutual
/-- A statement without `break` (`continue`) of its own does not end by it. -/
theorem good_out (J n) : ∀ (s : Src) (b c he) (st), Good b c he s →
    (b = false → (runS J n s st).2 ≠ .brk) ∧ (c = false → (runS J n s st).2 ≠ .cont)
  | .skip, b, c, he, st, _ => by simp [runS]
  | .act f, b, c, he, st, _ => by
    simp only [runS]
    cases (f st).2 <;> simp
  | .seq x y, b, c, he, st, h => by
    have h1 := good_out J n x b c he st h.1
    simp only [runS]
    split
    · exact good_out J n y b c he _ h.2
    · exact h1
  | .ite f x y, b, c, he, st, h => by
    simp only [runS]
    split
    · exact good_out J n x b c he _ h.1
    · exact good_out J n y b c he _ h.2
  | .loop f x, b, c, he, st, h => by
    have := loopS_out f (runS J n x) n st
    simp only [runS]
    generalize loopS f (runS J n x) n st = r at *
    obtain ⟨a, o⟩ := r
    cases o <;> simp_all
  | .loopElse f x y, b, c, he, st, h => by
    have h0 := loopS_out f (runS J n x) n st
    have h2 := fun st => good_out J n y (b && !he) c false st h.2
    simp only [runS]
    generalize loopS f (runS J n x) n st = r at *
    obtain ⟨a, o⟩ := r
    cases o <;> simp_all
  | .tfor k it x y, b, c, he, st, h => by
    have := itemsS_out x (runS J n y) (it.eval k st).1 (it.eval k st).2
    simp only [runS]
    generalize itemsS x (runS J n y) (it.eval k st).1 (it.eval k st).2 = r at *
    obtain ⟨a, o⟩ := r
    cases o <;> simp_all
  | .tforElse _ _ _ _ _, b, c, he, st, h => by simp [Good] at h
  | .mtch e cs, b, c, he, st, h => by
    have := goodC_out J n cs (e st).1 (e st).2 h
    simp only [runS]
    exact ⟨fun _ => this.1, fun _ => this.2⟩
  | .brk, b, c, he, st, h => by
    simp only [Good] at h; simp [runS, h]
  | .cont, b, c, he, st, h => by
    simp only [Good] at h; simp [runS, h]
theorem goodC_out (J n) : ∀ (cs : Cases) (v) (st), GoodC cs →
    (runCases J n cs v st).2 ≠ .brk ∧ (runCases J n cs v st).2 ≠ .cont
  | .nil, v, st, _ => by simp [runCases]
  | .cons p g body rest, v, st, h => by
    have h1 := fun st => good_out J n body false false false st h.2.2.1
    have h2 := fun st => goodC_out J n rest v st h.2.2.2
    simp only [runCases]
    split
    · exact h2 _
    · split
      · exact ⟨(h1 _).1 rfl, (h1 _).2 rfl⟩
      · split
        · exact ⟨(h1 _).1 rfl, (h1 _).2 rfl⟩
        · exact h2 _
end

theorem bindAll_tups (s : St) (bs) : (s.bindAll bs).tups = s.tups := by
  induction bs generalizing s with
  | nil => rfl
  | cons b bs ih => obtain ⟨x, v⟩ := b; exact ih _

theorem loopS_keeps (y c body n s) (hc : ∀ s, (c s).2.tups y = s.tups y)
    (hb : ∀ s, (body s).1.tups y = s.tups y) : (loopS c body n s).1.tups y = s.tups y := by
  induction n generalizing s with
  | zero => rfl
  | succ n ih =>
    simp only [loopS]
    have h1 := hb (c s).2
    rw [hc] at h1
    split
    · generalize body (c s).2 = r at *
      obtain ⟨a, o⟩ := r
      cases o <;> simp only at * <;> first | exact h1 | rw [ih, h1]
    · exact hc s

theorem itemsS_keeps (y x body vs s)
    (hb : ∀ s, (body s).1.tups y = s.tups y) : (itemsS x body vs s).1.tups y = s.tups y := by
  induction vs generalizing s with
  | nil => rfl
  | cons v vs ih =>
    simp only [itemsS]
    have h1 : (body (s.set x v)).1.tups y = s.tups y := hb (s.set x v)
    generalize body (s.set x v) = r at *
    obtain ⟨a, o⟩ := r
    cases o <;> simp only at * <;> first | exact h1 | rw [ih, h1]

mutual
theorem keeps (J n) (hJ : FailOk J) (y : Nat) : ∀ (s : Src) (st), Keeps y s →
    (runS J n s st).1.tups y = st.tups y
  | .skip, st, _ => rfl
  | .brk, st, _ => rfl
  | .cont, st, _ => rfl
  | .act f, st, h => h st
  | .seq a b, st, h => by
    have h1 := keeps J n hJ y a st h.1
    simp only [runS]
    split
    · rename_i s1 e
      rw [keeps J n hJ y b _ h.2]; rw [e] at h1; exact h1
    · exact h1
  | .ite c a b, st, h => by
    simp only [runS]
    split
    · rw [keeps J n hJ y a _ h.2.1, h.1]
    · rw [keeps J n hJ y b _ h.2.2, h.1]
  | .loop c a, st, h => by
    have := loopS_keeps y c (runS J n a) n st h.1 (fun s => keeps J n hJ y a s h.2)
    simp only [runS]
    split
    · rename_i e; rw [e] at this; exact this
    · exact this
  | .loopElse c a b, st, h => by
    have := loopS_keeps y c (runS J n a) n st h.1 (fun s => keeps J n hJ y a s h.2.1)
    simp only [runS]
    split
    · rename_i e; rw [e] at this; rw [keeps J n hJ y b _ h.2.2]; exact this
    · rename_i e; rw [e] at this; exact this
    · exact this
  | .tfor m it x a, st, h => by
    have := itemsS_keeps y x (runS J n a) (it.eval m st).1 (it.eval m st).2
      (fun s => keeps J n hJ y a s h.2)
    rw [h.1] at this
    simp only [runS]
    split
    · rename_i e; rw [e] at this; exact this
    · exact this
  | .tforElse m it x a b, st, h => by
    have := itemsS_keeps y x (runS J n a) (it.eval m st).1 (it.eval m st).2
      (fun s => keeps J n hJ y a s h.2.1)
    rw [h.1] at this
    simp only [runS]
    split
    · rename_i e; rw [e] at this; rw [keeps J n hJ y b _ h.2.2]; exact this
    · rename_i e; rw [e] at this; exact this
    · exact this
  | .mtch e cs, st, h => by
    simp only [runS]
    rw [keepsC J n hJ y cs _ _ h.2, h.1]
theorem keepsC (J n) (hJ : FailOk J) (y : Nat) : ∀ (cs : Cases) (v st), KeepsC y cs →
    (runCases J n cs v st).1.tups y = st.tups y
  | .nil, v, st, _ => rfl
  | .cons p g body rest, v, st, h => by
    simp only [runCases]
    split
    · rw [keepsC J n hJ y rest _ _ h.2.2, (hJ p v st).2.1]
    · split
      · rw [keeps J n hJ y body _ h.2.1, bindAll_tups]
      · rename_i g
        split
        · rw [keeps J n hJ y body _ h.2.1, h.1 g rfl, bindAll_tups]
        · rw [keepsC J n hJ y rest _ _ h.2.2, h.1 g rfl, bindAll_tups]
end

/-- A lowered loop against a loop. -/
theorem loop_sim (c : St → Bool × St) (B : St → St × Out) (T : TSt → TSt × Out)
    (I : Tm → Prop) (Q : Out → Tm → Prop) (hf : ∀ τ, I τ → Q .fuel τ)
    (hb : ∀ s τ, I τ → ∃ τ', T (s, τ) = (((B s).1, τ'), (B s).2) ∧
      (((B s).2 = .norm ∨ (B s).2 = .cont) → I τ') ∧
      ((B s).2 ≠ .norm → (B s).2 ≠ .cont → Q (B s).2 τ')) (n : Nat) (s : St) (τ : Tm) (hI : I τ) :
    ∃ τ', loopT (TCond.usr c).run T n (s, τ) =
        (((loopS c B n s).1, τ'),
          if (loopS c B n s).2 = .brk then .norm else (loopS c B n s).2) ∧
      ((loopS c B n s).2 = .norm → I τ') ∧ ((loopS c B n s).2 ≠ .norm → Q (loopS c B n s).2 τ') := by
  induction n generalizing s τ with
  | zero => exact ⟨τ, rfl, fun h => by simp [loopS] at h, fun _ => hf τ hI⟩
  | succ n ih =>
    cases hc : (c s).1 with
    | false =>
      refine ⟨τ, ?_, fun _ => hI, fun h => ?_⟩
      · simp [loopT, TCond.run, loopS, hc]
      · simp [loopS, hc] at h
    | true =>
      obtain ⟨τ1, h1, h2, h3⟩ := hb (c s).2 τ hI
      simp only [loopT, TCond.run, loopS, hc, if_true, h1]
      generalize B (c s).2 = r at *
      obtain ⟨s1, o⟩ := r
      cases o
      · exact ih s1 τ1 (h2 (.inl rfl))
      · exact ⟨τ1, rfl, fun h => by simp at h, fun _ => h3 (by simp) (by simp)⟩
      · exact ih s1 τ1 (h2 (.inr rfl))
      all_goals exact ⟨τ1, rfl, fun h => by simp at h, fun _ => h3 (by simp) (by simp)⟩

/-! ## Statements -/

/-- `continue` of an unrolled loop is a `break`. -/
def tr (sl : Option (Option Nat)) (o : Out) : Out :=
  match sl, o with
  | some (some _), .cont => .brk
  | _, o => o

/-- What running a statement does to the temporaries of the code around it. -/
def Rel (V : Ctx) (he : Bool) (k : Nat) (o : Out) (a b : Tm) : Prop :=
  ∀ i, i < k → b.va i = a.va i ∧ b.tu i = a.tu i ∧
    (V.bv ≠ some (some i) → V.sl ≠ some (some i) → b.fl i = a.fl i) ∧
    ((o = .norm ∨ o = .cont) → b.fl i = a.fl i) ∧
    (o = .brk → V.sl = some (some i) → b.fl i = false) ∧
    (o = .brk → he = true → V.bv = some (some i) → b.fl i = false)

/-- The lowered code of a statement with effect `F`. -/
def SimV (N : Nat) (V : Ctx) (he : Bool) (k0 : Nat) (F : St → St × Out)
    (mk : Nat → R (Tgt × Nat)) : Prop :=
  ∀ k1, k0 ≤ k1 → ∃ t k2 t', mk k1 = .ok (t, k2) ∧ k1 ≤ k2 ∧ revisit V.sl t = .ok t' ∧
    ∀ s τ, ∃ τ', runT N t' (s, τ) = (((F s).1, τ'), tr V.sl (F s).2) ∧ Rel V he k1 (F s).2 τ τ'

theorem Rel.agree {V he k o a b} (h : Rel V he k o a b) (hv : ∀ i, V.bv ≠ some (some i))
    (hs : ∀ i, V.sl ≠ some (some i)) : AgreeAll k a b :=
  fun i hi => ⟨(h i hi).1, (h i hi).2.1, (h i hi).2.2.1 (hv i) (hs i)⟩

theorem Rel.agreeNorm {V he k o a b} (h : Rel V he k o a b) (ho : o = .norm ∨ o = .cont) :
    AgreeAll k a b :=
  fun i hi => ⟨(h i hi).1, (h i hi).2.1, (h i hi).2.2.2.1 ho⟩

theorem AgreeAll.rel {V he k o a b} (h : AgreeAll k a b) (ho : o ≠ .brk) : Rel V he k o a b :=
  fun i hi => ⟨(h i hi).1, (h i hi).2.1, fun _ _ => (h i hi).2.2, fun _ => (h i hi).2.2,
    fun e => absurd e ho, fun e => absurd e ho⟩

theorem AgreeAll.relTrans {V he k o a b c} (h : AgreeAll k a b) (g : Rel V he k o b c) :
    Rel V he k o a c :=
  fun i hi =>
    ⟨(g i hi).1.trans (h i hi).1, (g i hi).2.1.trans (h i hi).2.1,
      fun x y => ((g i hi).2.2.1 x y).trans (h i hi).2.2,
      fun x => ((g i hi).2.2.2.1 x).trans (h i hi).2.2, (g i hi).2.2.2.2.1, (g i hi).2.2.2.2.2⟩

theorem Rel.mono {V he k l o a b} (h : Rel V he k o a b) (hl : l ≤ k) : Rel V he l o a b :=
  fun i hi => h i (by omega)

end Verif.Ctl
