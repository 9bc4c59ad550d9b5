import Verif.Dce.Simul
/-! # The pass only trims -/
namespace Codon.Dce

variable {gash : Bool} {M : Module}

theorem emptyRange_done {d a b : I64} (h : emptyRange d a b = true) : countDone a d b := by
  unfold emptyRange at h
  unfold countDone
  simp only [Bool.or_eq_true, Bool.and_eq_true] at h
  rcases h with ⟨h1, h2⟩ | ⟨h1, h2⟩
  · rw [if_neg]
    · exact h2
    · simp only [BitVec.slt_iff_toInt_lt, BitVec.ofNat_eq_ofNat] at h1 ⊢
      omega
  · rw [if_pos h1]; exact h2

theorem erase_bool {n : Node} {b : Bool} (h : Node.bool b = erase n) : n = .bool b := by
  cases n <;> simp [erase] at h
  rw [h]

theorem erase_int {n : Node} {b : I64} (h : Node.int b = erase n) : n = .int b := by
  cases n <;> simp [erase] at h
  rw [h]

theorem emptyLoop_iff {d : I64} {a b : Node} (h : emptyLoop d a b = true) :
    ∃ i j, a = .int i ∧ b = .int j ∧ emptyRange d i j = true := by
  unfold emptyLoop at h
  split at h
  · exact ⟨_, _, rfl, rfl, h⟩
  · cases h

theorem dce_trim {F : Nat → Nat} {O : Nat → Prop} {I : VarInfo} (A : Node) : ∀ (n : Node) (top fresh : Bool),
    erase A = erase n → (fresh = false → AnnOk I F A) → (∀ x, n.reads x → O x) → Trim I F O n (dce top fresh A) := by
  induction A with
  | cons st a b iha ihb =>
    intro n top fresh he ha hr
    cases n <;> simp only [erase, Node.cons.injEq, reduceCtorEq] at he
    simp only [Node.reads] at hr
    simp only [dce]
    split
    · rename_i h
      simp only [Bool.and_eq_true, Bool.not_eq_true', beq_iff_eq] at h
      obtain ⟨h1, h2⟩ := h
      have := ha h1
      simp only [AnnOk] at this
      refine .drop ?_ (ihb _ _ _ he.2.2 (fun h => (ha h).2.2) fun x hx => hr x (.inr hx))
      rw [← stat_erase, ← he.2.1, stat_erase]
      rw [h2] at this
      exact Nat.le_zero.1 this.1
    · exact .cons (iha _ _ _ he.2.1 (fun h => (ha h).2.1) fun x hx => hr x (.inl hx))
        (ihb _ _ _ he.2.2 (fun h => (ha h).2.2) fun x hx => hr x (.inr hx))
  | ite a b c iha ihb ihc =>
    intro n top fresh he ha hr
    cases n <;> simp only [erase, Node.ite.injEq, reduceCtorEq] at he
    simp only [Node.reads] at hr
    simp only [dce]
    split
    · rename_i h
      simp only [Bool.and_eq_true, beq_iff_eq] at h
      rw [h.2] at he
      rw [erase_bool he.1]
      exact .iteT (ihb _ _ _ he.2.1 (by simp) fun x hx => hr x (.inr (.inl hx)))
    · split
      · rename_i h
        simp only [Bool.and_eq_true, beq_iff_eq] at h
        rw [h.2] at he
        rw [erase_bool he.1]
        exact .iteF (ihc _ _ _ he.2.2 (by simp) fun x hx => hr x (.inr (.inr hx)))
      · exact .ite (iha _ _ _ he.1 (fun h => (ha h).1) fun x hx => hr x (.inl hx))
          (ihb _ _ _ he.2.1 (fun h => (ha h).2.1) fun x hx => hr x (.inr (.inl hx)))
          (ihc _ _ _ he.2.2 (fun h => (ha h).2.2) fun x hx => hr x (.inr (.inr hx)))
  | ternary a b c iha ihb ihc =>
    intro n top fresh he ha hr
    cases n <;> simp only [erase, Node.ternary.injEq, reduceCtorEq] at he
    simp only [Node.reads] at hr
    simp only [dce]
    split
    · rename_i h
      simp only [Bool.and_eq_true, beq_iff_eq] at h
      rw [h.2] at he
      rw [erase_bool he.1]
      exact .ternaryT (ihb _ _ _ he.2.1 (by simp) fun x hx => hr x (.inr (.inl hx)))
    · split
      · rename_i h
        simp only [Bool.and_eq_true, beq_iff_eq] at h
        rw [h.2] at he
        rw [erase_bool he.1]
        exact .ternaryF (ihc _ _ _ he.2.2 (by simp) fun x hx => hr x (.inr (.inr hx)))
      · exact .ternary (iha _ _ _ he.1 (fun h => (ha h).1) fun x hx => hr x (.inl hx))
          (ihb _ _ _ he.2.1 (fun h => (ha h).2.1) fun x hx => hr x (.inr (.inl hx)))
          (ihc _ _ _ he.2.2 (fun h => (ha h).2.2) fun x hx => hr x (.inr (.inr hx)))
  | while_ a b iha ihb =>
    intro n top fresh he ha hr
    cases n <;> simp only [erase, Node.while_.injEq, reduceCtorEq] at he
    simp only [Node.reads] at hr
    simp only [dce]
    split
    · rename_i h
      simp only [Bool.and_eq_true, beq_iff_eq] at h
      rw [h.2] at he
      rw [erase_bool he.1]
      exact .whileF
    · exact .while_ (iha _ _ _ he.1 (fun h => (ha h).1) fun x hx => hr x (.inl hx))
        (ihb _ _ _ he.2 (fun h => (ha h).2) fun x hx => hr x (.inr hx))
  | imp y a d b c iha ihb ihc =>
    intro n top fresh he ha hr
    cases n <;> simp only [erase, Node.imp.injEq, reduceCtorEq] at he
    obtain ⟨h1, h2, h3, h4, h5⟩ := he
    subst h1 h3
    simp only [Node.reads] at hr
    simp only [dce]
    split
    · rename_i h
      simp only [Bool.and_eq_true] at h
      obtain ⟨i, j, rfl, rfl, hd⟩ := emptyLoop_iff h.2
      rw [erase_int h2, erase_int h4]
      exact .impE (emptyRange_done hd)
    · exact .imp (iha _ _ _ h2 (fun h => (ha h).1) fun x hx => hr x (.inl hx))
        (ihb _ _ _ h4 (fun h => (ha h).2.1) fun x hx => hr x (.inr (.inl hx)))
        (ihc _ _ _ h5 (fun h => (ha h).2.2) fun x hx => hr x (.inr (.inr hx)))
  | tryc a b c d iha ihb ihc ihd =>
    intro n top fresh he ha hr
    cases n <;> simp only [erase, Node.tryc.injEq, reduceCtorEq] at he
    obtain ⟨h1, h2, h3, h4⟩ := he
    simp only [Node.reads] at hr
    simp only [dce]
    exact .tryc (iha _ _ _ h1 (fun h => (ha h).1) fun x hx => hr x (.inl hx))
        (ihb _ _ _ h2 (fun h => (ha h).2.1) fun x hx => hr x (.inr (.inl hx)))
        (ihc _ _ _ h3 (fun h => (ha h).2.2.1) fun x hx => hr x (.inr (.inr (.inl hx))))
        (ihd _ _ _ h4 (fun h => (ha h).2.2.2) fun x hx => hr x (.inr (.inr (.inr hx))))
  | ctch ty y a b iha ihb =>
    intro n top fresh he ha hr
    cases n <;> simp only [erase, Node.ctch.injEq, reduceCtorEq] at he
    obtain ⟨rfl, rfl, h1, h2⟩ := he
    simp only [Node.reads] at hr
    simp only [dce]
    exact .ctch (iha _ _ _ h1 (fun h => (ha h).1) fun x hx => hr x (.inl hx))
        (ihb _ _ _ h2 (fun h => (ha h).2) fun x hx => hr x (.inr hx))
  | for_ y a b iha ihb =>
    intro n top fresh he ha hr
    cases n <;> simp only [erase, Node.for_.injEq, reduceCtorEq] at he
    obtain ⟨rfl, h1, h2⟩ := he
    simp only [Node.reads] at hr
    simp only [dce]
    exact .for_ (iha _ _ _ h1 (fun h => (ha h).1) fun x hx => hr x (.inl hx))
        (ihb _ _ _ h2 (fun h => (ha h).2) fun x hx => hr x (.inr hx))
  | dyn a b iha ihb | arg a b iha ihb | flow a b iha ihb =>
    intro n top fresh he ha hr
    cases n <;> simp only [erase, Node.dyn.injEq, Node.arg.injEq, Node.flow.injEq, reduceCtorEq] at he
    obtain ⟨h1, h2⟩ := he
    simp only [Node.reads] at hr
    simp only [dce]
    constructor
    · exact iha _ _ _ h1 (fun h => (ha h).1) fun x hx => hr x (.inl hx)
    · exact ihb _ _ _ h2 (fun h => (ha h).2) fun x hx => hr x (.inr hx)
  | assign y a iha | call y a iha =>
    intro n top fresh he ha hr
    cases n <;> simp only [erase, Node.assign.injEq, Node.call.injEq, reduceCtorEq] at he
    obtain ⟨rfl, h1⟩ := he
    simp only [Node.reads] at hr
    simp only [dce]
    constructor
    exact iha _ _ _ h1 (fun h => ha h) fun x hx => hr x hx
  | ret a iha | throw_ a iha =>
    intro n top fresh he ha hr
    cases n <;> simp only [erase, Node.ret.injEq, Node.throw_.injEq, reduceCtorEq] at he
    simp only [Node.reads] at hr
    simp only [dce]
    constructor
    exact iha _ _ _ he (fun h => ha h) fun x hx => hr x hx
  | int | bool =>
    intro n top fresh he ha hr
    cases n <;> simp only [erase, Node.int.injEq, Node.bool.injEq, reduceCtorEq] at he
    rw [he]
    constructor
  | nil | brk | cont =>
    intro n top fresh he ha hr
    cases n <;> simp only [erase, reduceCtorEq] at he
    constructor
  | var x =>
    intro n top fresh he ha hr
    cases n <;> simp only [erase, Node.var.injEq, reduceCtorEq] at he
    subst he
    exact .var _ (hr _ rfl)

theorem right_analyze (gash : Bool) (M : Module) : Right gash M (fstatus (analyze gash M)) := by
  intro f hf
  unfold fstatus at hf
  cases h : (analyze gash M).res f with
  | none => rw [h] at hf; exact absurd hf (by decide)
  | some s =>
    rw [h] at hf
    simp only [Option.getD_some] at hf
    subst hf
    exact ((analyze_inv gash M).res f _ h).2

theorem dceModule_trim (gash : Bool) (M : Module) (f : Nat) (fn : Func) (h : M.funcs[f]? = some fn) :
    ∃ fn', (dceModule gash M).funcs[f]? = some fn' ∧
      TrimFunc (varInfo gash M) (fstatus (analyze gash M)) (Observable gash M) fn fn' := by
  refine ⟨dceFunc (analyze gash M) f fn, ?_, ?_⟩
  · simp only [dceModule, List.getElem?_mapIdx, h, Option.map_some]
  · cases fn with
    | ext => exact .ext
    | internal => exact .internal
    | bodied attr ps body =>
      have hr : ∀ x, body.reads x → Observable gash M x := fun x hx =>
        .inl ⟨_, List.mem_of_getElem? h, body, rfl, hx⟩
      simp only [dceFunc]
      cases hb : (analyze gash M).bodies f with
      | none => exact .bodied (dce_trim _ _ _ _ rfl (by simp) hr)
      | some b =>
        obtain ⟨attr', ps', body', h1, h2, h3⟩ := (analyze_inv gash M).bodies f b hb
        rw [h] at h1
        injection h1 with h1
        injection h1 with h4 h5 h6
        subst h6
        exact .bodied (dce_trim _ _ _ _ h2 (fun _ => h3) hr)

end Codon.Dce
