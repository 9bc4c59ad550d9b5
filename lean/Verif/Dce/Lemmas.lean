import Verif.Dce.Spec
import Mathlib.Algebra.Order.BigOperators.Group.List
/-! # Facts about the side-effect analysis -/
namespace Codon.Dce

/-! ### Uses of variables -/

theorem cnt_le (x : Nat) (n : Node) : cntAsg x n ≤ cntVar x n := by
  induction n <;> simp only [cntAsg, cntVar] <;> omega

theorem reads_cnt (x : Nat) (n : Node) (h : n.reads x) : cntAsg x n < cntVar x n := by
  induction n with
  | var y => simp only [Node.reads] at h; simp [cntAsg, cntVar, h]
  | int | bool | nil | brk | cont => simp [Node.reads] at h
  | cons _ a b iha ihb | while_ a b iha ihb | dyn a b iha ihb | arg a b iha ihb | flow a b iha ihb
  | for_ _ a b iha ihb | ctch _ _ a b iha ihb =>
    simp only [Node.reads] at h
    simp only [cntAsg, cntVar]
    have := cnt_le x a; have := cnt_le x b
    rcases h with h | h
    · have := iha h; omega
    · have := ihb h; omega
  | ite a b c iha ihb ihc | ternary a b c iha ihb ihc | imp _ a _ b c iha ihb ihc =>
    simp only [Node.reads] at h
    simp only [cntAsg, cntVar]
    have := cnt_le x a; have := cnt_le x b; have := cnt_le x c
    rcases h with h | h | h
    · have := iha h; omega
    · have := ihb h; omega
    · have := ihc h; omega
  | tryc a b c d iha ihb ihc ihd =>
    simp only [Node.reads] at h
    simp only [cntAsg, cntVar]
    have := cnt_le x a; have := cnt_le x b; have := cnt_le x c; have := cnt_le x d
    rcases h with h | h | h | h
    · have := iha h; omega
    · have := ihb h; omega
    · have := ihc h; omega
    · have := ihd h; omega
  | assign y a ih | call _ a ih | ret a ih | throw_ a ih =>
    simp only [Node.reads] at h
    simp only [cntAsg, cntVar]
    have := ih h
    omega

theorem sum_lt_of (x : Nat) (l : List Node) :
    (l.map (cntAsg x)).sum ≤ (l.map (cntVar x)).sum ∧
    ((∃ b ∈ l, b.reads x) → (l.map (cntAsg x)).sum < (l.map (cntVar x)).sum) := by
  induction l with
  | nil => simp
  | cons a l ih =>
    simp only [List.map_cons, List.sum_cons, List.mem_cons, exists_eq_or_imp]
    have := cnt_le x a
    refine ⟨by omega, ?_⟩
    rintro (h | h)
    · have := reads_cnt x a h; omega
    · have := ih.2 h; omega

theorem used_of_reads {M : Module} {x : Nat} (h : ∃ f ∈ M.funcs, ∃ b, f.body? = some b ∧ b.reads x) : used M x = true := by
  obtain ⟨f, hf, b, hb, hr⟩ := h
  have := (sum_lt_of x (M.funcs.filterMap Func.body?)).2 ⟨b, List.mem_filterMap.2 ⟨f, hf, hb⟩, hr⟩
  unfold used
  simp only [bne_iff_ne, ne_eq]
  omega

theorem not_obs_expr {gash : Bool} {M : Module} {x : Nat} (h : (varAssignStatus (varInfo gash M) x).1 = PURE) :
    ¬ Observable gash M x := by
  rintro (h1 | ⟨h1, h2⟩)
  · have := used_of_reads h1
    simp only [varAssignStatus, varInfo, this] at h
    cases hg : M.isGlobal x <;> simp [hg, UNKNOWN, NO_CAPTURE, PURE] at h
  · have : (gash || M.isExternal x) = true := by rcases h2 with h2 | h2 <;> simp [h2]
    simp only [varAssignStatus, varInfo, this, h1] at h
    simp at h
    cases h

theorem not_obs_func {gash : Bool} {M : Module} {x : Nat} (hg : M.isGlobal x = true)
    (h : (varAssignStatus (varInfo gash M) x).2 = PURE) : ¬ Observable gash M x := by
  rintro (h1 | ⟨h1, h2⟩)
  · have := used_of_reads h1
    simp only [varAssignStatus, varInfo, this, hg] at h
    split at h <;> simp at h <;> cases h
  · have : (gash || M.isExternal x) = true := by rcases h2 with h2 | h2 <;> simp [h2]
    simp only [varAssignStatus, varInfo, this, h1] at h
    simp at h
    cases h

/-! ### Statuses, given those of the functions -/

/-- Nat of a node as a statement or expression. -/
def stat (I : VarInfo) (F : Nat → Nat) : Node → Nat
  | .int _ | .bool _ | .var _ | .nil => PURE
  | .cons _ a b | .while_ a b | .arg a b | .flow a b => max (stat I F a) (stat I F b)
  | .ite a b c | .ternary a b c => max (stat I F a) (max (stat I F b) (stat I F c))
  | .for_ x a b => max (varAssignStatus I x).1 (max (stat I F a) (stat I F b))
  | .imp x a _ b c => max (varAssignStatus I x).1 (max (stat I F a) (max (stat I F b) (stat I F c)))
  | .tryc b cs e f => max (stat I F b) (max (stat I F e) (max (stat I F f) (stat I F cs)))
  | .ctch _ x a b => max (optAssignStatus I x).1 (max (stat I F a) (stat I F b))
  | .assign x a => max (varAssignStatus I x).1 (stat I F a)
  | .call f as => max (stat I F as) (F f)
  | .dyn _ _ | .throw_ _ => UNKNOWN
  | .brk | .cont => NO_CAPTURE
  | .ret a => max NO_CAPTURE (stat I F a)

/-- What a node adds to the status of its function. -/
def fstat (I : VarInfo) (F : Nat → Nat) : Node → Nat
  | .int _ | .bool _ | .var _ | .nil | .brk | .cont => PURE
  | .cons _ a b | .while_ a b | .arg a b | .flow a b => max (fstat I F a) (fstat I F b)
  | .ite a b c | .ternary a b c => max (fstat I F a) (max (fstat I F b) (fstat I F c))
  | .for_ x a b => max (varAssignStatus I x).2 (max (fstat I F a) (fstat I F b))
  | .imp x a _ b c => max (varAssignStatus I x).2 (max (fstat I F a) (max (fstat I F b) (fstat I F c)))
  | .tryc b cs e f => max (fstat I F b) (max (fstat I F e) (max (fstat I F f) (fstat I F cs)))
  | .ctch _ x a b => max (optAssignStatus I x).2 (max (fstat I F a) (fstat I F b))
  | .assign x a => max (varAssignStatus I x).2 (fstat I F a)
  | .call f as => max (fstat I F as) (F f)
  | .dyn _ _ => UNKNOWN
  | .throw_ a => max NO_CAPTURE (fstat I F a)
  | .ret a => fstat I F a

theorem stat_mono {I : VarInfo} {F G : Nat → Nat} (h : ∀ f, F f ≤ G f) (n : Node) : stat I F n ≤ stat I G n := by
  induction n with
  | call f as ih => simp only [stat]; have := h f; omega
  | _ => simp only [stat] <;> omega

theorem fstat_mono {I : VarInfo} {F G : Nat → Nat} (h : ∀ f, F f ≤ G f) (n : Node) : fstat I F n ≤ fstat I G n := by
  induction n with
  | call f as ih => simp only [fstat]; have := h f; omega
  | _ => simp only [fstat] <;> omega

/-- Forget the recorded statuses. -/
def erase : Node → Node
  | .int v => .int v
  | .bool b => .bool b
  | .var x => .var x
  | .nil => .nil
  | .cons _ a b => .cons 0 (erase a) (erase b)
  | .ite a b c => .ite (erase a) (erase b) (erase c)
  | .while_ a b => .while_ (erase a) (erase b)
  | .for_ x a b => .for_ x (erase a) (erase b)
  | .imp x a d b c => .imp x (erase a) d (erase b) (erase c)
  | .tryc a b c d => .tryc (erase a) (erase b) (erase c) (erase d)
  | .ctch ty x a b => .ctch ty x (erase a) (erase b)
  | .assign x a => .assign x (erase a)
  | .call f a => .call f (erase a)
  | .dyn a b => .dyn (erase a) (erase b)
  | .arg a b => .arg (erase a) (erase b)
  | .ternary a b c => .ternary (erase a) (erase b) (erase c)
  | .brk => .brk
  | .cont => .cont
  | .ret a => .ret (erase a)
  | .throw_ a => .throw_ (erase a)
  | .flow a b => .flow (erase a) (erase b)

theorem stat_erase (I : VarInfo) (F : Nat → Nat) (n : Node) : stat I F (erase n) = stat I F n := by
  induction n <;> simp only [erase, stat, *]

theorem fstat_erase (I : VarInfo) (F : Nat → Nat) (n : Node) : fstat I F (erase n) = fstat I F n := by
  induction n <;> simp only [erase, fstat, *]

theorem reads_erase (x : Nat) (n : Node) : (erase n).reads x ↔ n.reads x := by
  induction n <;> simp only [erase, Node.reads, *]

/-- Every recorded status is at least the status of the statement. -/
def AnnOk (I : VarInfo) (F : Nat → Nat) : Node → Prop
  | .int _ | .bool _ | .var _ | .nil | .brk | .cont => True
  | .cons st a b => stat I F a ≤ st ∧ AnnOk I F a ∧ AnnOk I F b
  | .while_ a b | .arg a b | .flow a b | .dyn a b | .for_ _ a b | .ctch _ _ a b => AnnOk I F a ∧ AnnOk I F b
  | .ite a b c | .ternary a b c | .imp _ a _ b c => AnnOk I F a ∧ AnnOk I F b ∧ AnnOk I F c
  | .tryc a b c d => AnnOk I F a ∧ AnnOk I F b ∧ AnnOk I F c ∧ AnnOk I F d
  | .assign _ a | .call _ a | .ret a | .throw_ a => AnnOk I F a

theorem annOk_mono {I : VarInfo} {F G : Nat → Nat} (h : ∀ f, F f ≤ G f) (n : Node) (hn : AnnOk I G n) :
    AnnOk I F n := by
  induction n with
  | cons st a b iha ihb =>
    obtain ⟨h1, h2, h3⟩ := hn
    exact ⟨Nat.le_trans (stat_mono h a) h1, iha h2, ihb h3⟩
  | _ => simp only [AnnOk] at hn ⊢ <;> grind

/-! ### The analysis -/

/-- The statuses of functions known so far. -/
def fstatus (σ : An) (f : Nat) : Nat := (σ.res f).getD UNKNOWN

/-- A status `s` of the function is right, given the statuses of the functions it calls: the one of its attribute,
`UNKNOWN`, or at least what its body adds. -/
def Just (I : VarInfo) (F : Nat → Nat) (s : Nat) : Func → Prop
  | .internal _ => True
  | .ext attr _ => s = attrStatus attr ∨ s = UNKNOWN
  | .bodied attr _ body => s = UNKNOWN ∨ (∃ a, attr = some a ∧ s = a.val) ∨ (attr = none ∧ fstat I F body ≤ s)

theorem just_mono {I : VarInfo} {F G : Nat → Nat} (h : ∀ f, F f ≤ G f) {s : Nat} {fn : Func} (hj : Just I G s fn) :
    Just I F s fn := by
  cases fn with
  | internal => trivial
  | ext => exact hj
  | bodied attr ps body =>
    rcases hj with h1 | h1 | ⟨h1, h2⟩
    · exact .inl h1
    · exact .inr (.inl h1)
    · exact .inr (.inr ⟨h1, Nat.le_trans (fstat_mono h body) h2⟩)

/-- What holds throughout the analysis. -/
structure Inv (I : VarInfo) (funcs : List Func) (σ : An) : Prop where
  res : ∀ f s, σ.res f = some s → s ≤ UNKNOWN ∧ ∃ fn, funcs[f]? = some fn ∧ Just I (fstatus σ) s fn
  bodies : ∀ f b', σ.bodies f = some b' → ∃ attr ps body, funcs[f]? = some (.bodied attr ps body) ∧
    erase b' = erase body ∧ AnnOk I (fstatus σ) b'

theorem inv_raise {I : VarInfo} {funcs : List Func} {σ : An} (h : Inv I funcs σ) (s : Nat) : Inv I funcs (σ.raise s) :=
  ⟨h.res, h.bodies⟩

theorem attr_le (a : Option (Fin 4)) : attrStatus a ≤ UNKNOWN := by
  cases a with
  | none => exact Nat.le_refl _
  | some a => have := a.isLt; simp only [attrStatus, UNKNOWN]; omega

theorem vas_le (I : VarInfo) (x : Nat) : (varAssignStatus I x).1 ≤ UNKNOWN ∧ (varAssignStatus I x).2 ≤ UNKNOWN := by
  unfold varAssignStatus UNKNOWN NO_CAPTURE PURE
  cases I.isGlobal x <;> cases I.used x <;> cases (I.gash || I.isExternal x) <;> simp

theorem oas_le (I : VarInfo) (x : Option Nat) :
    (optAssignStatus I x).1 ≤ UNKNOWN ∧ (optAssignStatus I x).2 ≤ UNKNOWN := by
  cases x with
  | none => simp [optAssignStatus, PURE]
  | some x => exact vas_le I x

/-- A step of the analysis: statuses of functions only go down, the status of the running function only up. -/
structure Seg (I : VarInfo) (funcs : List Func) (σ σ' : An) : Prop where
  inv : Inv I funcs σ'
  mono : ∀ g, fstatus σ' g ≤ fstatus σ g
  fs : σ.fs ≤ σ'.fs
  fsle : σ'.fs ≤ UNKNOWN
  keep : ∀ g s, σ.res g = some s → σ'.res g = some s

theorem Seg.trans {I : VarInfo} {funcs : List Func} {σ σ' σ'' : An} (h1 : Seg I funcs σ σ') (h2 : Seg I funcs σ' σ'') :
    Seg I funcs σ σ'' :=
  ⟨h2.inv, fun g => Nat.le_trans (h2.mono g) (h1.mono g), Nat.le_trans h1.fs h2.fs, h2.fsle,
    fun g s h => h2.keep g s (h1.keep g s h)⟩

theorem Seg.raise {I : VarInfo} {funcs : List Func} {σ σ' : An} (h : Seg I funcs σ σ') {k : Nat} (hk : k ≤ UNKNOWN) :
    Seg I funcs σ (σ'.raise k) :=
  ⟨inv_raise h.inv k, h.mono, by have := h.fs; simp only [An.raise]; omega, by have := h.fsle; simp only [An.raise]; omega,
    h.keep⟩

theorem raise_ge (σ : An) (k : Nat) : k ≤ (σ.raise k).fs := Nat.le_max_right _ _

/-- What is known about a node that was processed. -/
structure Keep (I : VarInfo) (n : Node) (s : Nat) (n' : Node) (σ : An) : Prop where
  stat : stat I (fstatus σ) n ≤ s
  le : s ≤ UNKNOWN
  fstat : fstat I (fstatus σ) n ≤ σ.fs
  er : erase n' = erase n
  ann : AnnOk I (fstatus σ) n'

theorem Keep.mono {I : VarInfo} {funcs : List Func} {n : Node} {s : Nat} {n' : Node} {σ σ' : An} (h : Keep I n s n' σ)
    (hs : Seg I funcs σ σ') : Keep I n s n' σ' :=
  ⟨Nat.le_trans (stat_mono hs.mono n) h.stat, h.le,
    Nat.le_trans (Nat.le_trans (fstat_mono hs.mono n) h.fstat) hs.fs, h.er, annOk_mono hs.mono _ h.ann⟩

theorem Keep.stat' {I : VarInfo} {n : Node} {s : Nat} {n' : Node} {σ : An} (h : Keep I n s n' σ) :
    Dce.stat I (fstatus σ) n' ≤ s := by
  have e := stat_erase I (fstatus σ) n'
  rw [h.er, stat_erase] at e
  have := h.stat
  omega

theorem Keep.raise {I : VarInfo} {n : Node} {s : Nat} {n' : Node} {σ : An} (h : Keep I n s n' σ) (k : Nat) :
    Keep I n s n' (σ.raise k) :=
  ⟨h.stat, h.le, by have := h.fstat; simp only [An.raise] at *; exact Nat.le_trans this (Nat.le_max_left _ _), h.er, h.ann⟩

/-- What processing a function guarantees. -/
def FnOk (I : VarInfo) (funcs : List Func) (fn : Nat → An → Nat × An) : Prop :=
  ∀ f σ, Inv I funcs σ → σ.fs ≤ UNKNOWN →
    Seg I funcs σ (fn f σ).2 ∧ fstatus (fn f σ).2 f ≤ (fn f σ).1 ∧ (fn f σ).1 ≤ UNKNOWN

theorem proc_ok {I : VarInfo} {funcs : List Func} {fn : Nat → An → Nat × An} (hfn : FnOk I funcs fn) (n : Node) :
    ∀ σ, Inv I funcs σ → σ.fs ≤ UNKNOWN →
      Seg I funcs σ (proc I fn n σ).2.2 ∧ Keep I n (proc I fn n σ).1 (proc I fn n σ).2.1 (proc I fn n σ).2.2 := by
  have hU : NO_CAPTURE ≤ UNKNOWN := by decide
  induction n with
  | int | bool | var | nil =>
    intro σ h1 h2
    exact ⟨⟨h1, fun _ => Nat.le_refl _, Nat.le_refl _, h2, fun _ _ h => h⟩, Nat.le_refl _, Nat.zero_le _, Nat.zero_le _, rfl, trivial⟩
  | brk | cont =>
    intro σ h1 h2
    exact ⟨⟨h1, fun _ => Nat.le_refl _, Nat.le_refl _, h2, fun _ _ h => h⟩, Nat.le_refl _, by simpa [proc] using hU, Nat.zero_le _, rfl, trivial⟩
  | cons _ a b iha ihb | while_ a b iha ihb | arg a b iha ihb | flow a b iha ihb =>
    intro σ h1 h2
    obtain ⟨sa, ka⟩ := iha σ h1 h2
    obtain ⟨sb, kb⟩ := ihb _ sa.inv sa.fsle
    have ka := ka.mono sb
    refine ⟨sa.trans sb, ?_, ?_, ?_, ?_, ?_⟩
    · have := ka.stat; have := kb.stat; simp only [proc, Dce.stat] at *; omega
    · have := ka.le; have := kb.le; simp only [proc] at *; omega
    · have := ka.fstat; have := kb.fstat; simp only [proc, Dce.fstat] at *; omega
    · simp only [proc, erase, ka.er, kb.er]
    · have := ka.stat'; have := ka.ann; have := kb.ann
      simp only [proc, AnnOk] at *
      refine ⟨?_, ?_⟩ <;> grind
  | ite a b c iha ihb ihc | ternary a b c iha ihb ihc =>
    intro σ h1 h2
    obtain ⟨sa, ka⟩ := iha σ h1 h2
    obtain ⟨sb, kb⟩ := ihb _ sa.inv sa.fsle
    obtain ⟨sc, kc⟩ := ihc _ sb.inv sb.fsle
    have ka := (ka.mono sb).mono sc
    have kb := kb.mono sc
    refine ⟨(sa.trans sb).trans sc, ?_, ?_, ?_, ?_, ?_⟩
    · have := ka.stat; have := kb.stat; have := kc.stat; simp only [proc, Dce.stat] at *; omega
    · have := ka.le; have := kb.le; have := kc.le; simp only [proc] at *; omega
    · have := ka.fstat; have := kb.fstat; have := kc.fstat; simp only [proc, Dce.fstat] at *; omega
    · simp only [proc, erase, ka.er, kb.er, kc.er]
    · exact ⟨ka.ann, kb.ann, kc.ann⟩
  | for_ x a b iha ihb =>
    intro σ h1 h2
    obtain ⟨sa, ka⟩ := iha σ h1 h2
    obtain ⟨sb, kb⟩ := ihb _ sa.inv sa.fsle
    have ka := (ka.mono sb).raise (varAssignStatus I x).2
    have kb := kb.raise (varAssignStatus I x).2
    have hv := vas_le I x
    refine ⟨(sa.trans sb).raise hv.2, ?_, ?_, ?_, ?_, ?_⟩
    · have := ka.stat; have := kb.stat; simp only [proc, Dce.stat] at *; omega
    · have := ka.le; have := kb.le; simp only [proc] at *; omega
    · have := ka.fstat; have := kb.fstat; have := raise_ge (proc I fn b (proc I fn a σ).2.2).2.2 (varAssignStatus I x).2
      simp only [proc, Dce.fstat] at *; omega
    · simp only [proc, erase, ka.er, kb.er]
    · exact ⟨ka.ann, kb.ann⟩
  | ctch ty x a b iha ihb =>
    intro σ h1 h2
    obtain ⟨sa, ka⟩ := iha σ h1 h2
    obtain ⟨sb, kb⟩ := ihb _ sa.inv sa.fsle
    have ka := (ka.mono sb).raise (optAssignStatus I x).2
    have kb := kb.raise (optAssignStatus I x).2
    have hv := oas_le I x
    refine ⟨(sa.trans sb).raise hv.2, ?_, ?_, ?_, ?_, ?_⟩
    · have := ka.stat; have := kb.stat; simp only [proc, Dce.stat] at *; omega
    · have := ka.le; have := kb.le; simp only [proc] at *; omega
    · have := ka.fstat; have := kb.fstat; have := raise_ge (proc I fn b (proc I fn a σ).2.2).2.2 (optAssignStatus I x).2
      simp only [proc, Dce.fstat] at *; omega
    · simp only [proc, erase, ka.er, kb.er]
    · exact ⟨ka.ann, kb.ann⟩
  | imp x a d b c iha ihb ihc =>
    intro σ h1 h2
    obtain ⟨sa, ka⟩ := iha σ h1 h2
    obtain ⟨sb, kb⟩ := ihb _ sa.inv sa.fsle
    obtain ⟨sc, kc⟩ := ihc _ sb.inv sb.fsle
    have ka := ((ka.mono sb).mono sc).raise (varAssignStatus I x).2
    have kb := (kb.mono sc).raise (varAssignStatus I x).2
    have kc := kc.raise (varAssignStatus I x).2
    have hv := vas_le I x
    refine ⟨((sa.trans sb).trans sc).raise hv.2, ?_, ?_, ?_, ?_, ?_⟩
    · have := ka.stat; have := kb.stat; have := kc.stat; simp only [proc, Dce.stat] at *; omega
    · have := ka.le; have := kb.le; have := kc.le; simp only [proc] at *; omega
    · have := ka.fstat; have := kb.fstat; have := kc.fstat
      have := raise_ge (proc I fn c (proc I fn b (proc I fn a σ).2.2).2.2).2.2 (varAssignStatus I x).2
      simp only [proc, Dce.fstat] at *; omega
    · simp only [proc, erase, ka.er, kb.er, kc.er]
    · exact ⟨ka.ann, kb.ann, kc.ann⟩
  | tryc b cs e f ihb ihcs ihe ihf =>
    intro σ h1 h2
    obtain ⟨sb, kb⟩ := ihb σ h1 h2
    obtain ⟨se, ke⟩ := ihe _ sb.inv sb.fsle
    obtain ⟨sf, kf⟩ := ihf _ se.inv se.fsle
    obtain ⟨sc, kc⟩ := ihcs _ sf.inv sf.fsle
    have kb := ((kb.mono se).mono sf).mono sc
    have ke := (ke.mono sf).mono sc
    have kf := kf.mono sc
    refine ⟨((sb.trans se).trans sf).trans sc, ?_, ?_, ?_, ?_, ?_⟩
    · have := kb.stat; have := ke.stat; have := kf.stat; have := kc.stat; simp only [proc, Dce.stat] at *; omega
    · have := kb.le; have := ke.le; have := kf.le; have := kc.le; simp only [proc] at *; omega
    · have := kb.fstat; have := ke.fstat; have := kf.fstat; have := kc.fstat; simp only [proc, Dce.fstat] at *; omega
    · simp only [proc, erase, kb.er, ke.er, kf.er, kc.er]
    · exact ⟨kb.ann, kc.ann, ke.ann, kf.ann⟩
  | assign x a iha =>
    intro σ h1 h2
    obtain ⟨sa, ka⟩ := iha σ h1 h2
    have ka := ka.raise (varAssignStatus I x).2
    have hv := vas_le I x
    refine ⟨sa.raise hv.2, ?_, ?_, ?_, ?_, ?_⟩
    · have := ka.stat; simp only [proc, Dce.stat] at *; omega
    · have := ka.le; simp only [proc] at *; omega
    · have := ka.fstat; have := raise_ge (proc I fn a σ).2.2 (varAssignStatus I x).2
      simp only [proc, Dce.fstat] at *; omega
    · simp only [proc, erase, ka.er]
    · exact ka.ann
  | call f a iha =>
    intro σ h1 h2
    obtain ⟨sa, ka⟩ := iha σ h1 h2
    obtain ⟨sf, hf1, hf2⟩ := hfn f _ sa.inv sa.fsle
    have ka := (ka.mono sf).raise (fn f (proc I fn a σ).2.2).1
    have e : ∀ k, fstatus ((fn f (proc I fn a σ).2.2).2.raise k) f = fstatus (fn f (proc I fn a σ).2.2).2 f := fun _ => rfl
    refine ⟨(sa.trans sf).raise hf2, ?_, ?_, ?_, ?_, ?_⟩
    · have := ka.stat; simp only [proc, Dce.stat, e] at *; omega
    · have := ka.le; simp only [proc] at *; omega
    · have := ka.fstat; have := raise_ge (fn f (proc I fn a σ).2.2).2 (fn f (proc I fn a σ).2.2).1
      simp only [proc, Dce.fstat, e] at *; omega
    · simp only [proc, erase, ka.er]
    · exact ka.ann
  | dyn a b iha ihb =>
    intro σ h1 h2
    obtain ⟨sa, ka⟩ := iha σ h1 h2
    obtain ⟨sb, kb⟩ := ihb _ sa.inv sa.fsle
    have ka := ka.mono sb
    refine ⟨(sa.trans sb).raise (Nat.le_refl _), Nat.le_refl _, Nat.le_refl _, ?_, ?_, ?_⟩
    · have := raise_ge (proc I fn b (proc I fn a σ).2.2).2.2 UNKNOWN
      simp only [proc, Dce.fstat] at *; omega
    · simp only [proc, erase, ka.er, kb.er]
    · exact ⟨(ka.raise UNKNOWN).ann, (kb.raise UNKNOWN).ann⟩
  | ret a iha =>
    intro σ h1 h2
    obtain ⟨sa, ka⟩ := iha σ h1 h2
    refine ⟨sa, ?_, ?_, ?_, ?_, ?_⟩
    · have := ka.stat; simp only [proc, Dce.stat] at *; omega
    · have := ka.le; simp only [proc] at *; omega
    · exact ka.fstat
    · simp only [proc, erase, ka.er]
    · exact ka.ann
  | throw_ a iha =>
    intro σ h1 h2
    obtain ⟨sa, ka⟩ := iha σ h1 h2
    have ka := ka.raise NO_CAPTURE
    refine ⟨sa.raise hU, Nat.le_refl _, Nat.le_refl _, ?_, ?_, ?_⟩
    · have := ka.fstat; have := raise_ge (proc I fn a σ).2.2 NO_CAPTURE
      simp only [proc, Dce.fstat] at *; omega
    · simp only [proc, erase, ka.er]
    · exact ka.ann

end Codon.Dce
