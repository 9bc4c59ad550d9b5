import Verif.Dce.Purity
/-! # The pass keeps what programs do -/
namespace Codon.Dce

variable {gash : Bool} {M : Module}

/-- The second node is the first one without some statements that have no effect and without branches that are not
taken; all variables read are in `O`. -/
inductive Trim (I : VarInfo) (F : Nat → Nat) (O : Nat → Prop) : Node → Node → Prop
  | int v : Trim I F O (.int v) (.int v)
  | bool b : Trim I F O (.bool b) (.bool b)
  | var x : O x → Trim I F O (.var x) (.var x)
  | nil : Trim I F O .nil .nil
  | cons {st st' a a' b b'} : Trim I F O a a' → Trim I F O b b' → Trim I F O (.cons st a b) (.cons st' a' b')
  | drop {st a b b'} : stat I F a = PURE → Trim I F O b b' → Trim I F O (.cons st a b) b'
  | ite {c c' a a' b b'} : Trim I F O c c' → Trim I F O a a' → Trim I F O b b' →
      Trim I F O (.ite c a b) (.ite c' a' b')
  | iteT {a b n} : Trim I F O a n → Trim I F O (.ite (.bool true) a b) n
  | iteF {a b n} : Trim I F O b n → Trim I F O (.ite (.bool false) a b) n
  | while_ {c c' b b'} : Trim I F O c c' → Trim I F O b b' → Trim I F O (.while_ c b) (.while_ c' b')
  | whileF {b} : Trim I F O (.while_ (.bool false) b) .nil
  | for_ {x c c' b b'} : Trim I F O c c' → Trim I F O b b' → Trim I F O (.for_ x c b) (.for_ x c' b')
  | imp {x a a' d b b' c c'} : Trim I F O a a' → Trim I F O b b' → Trim I F O c c' →
      Trim I F O (.imp x a d b c) (.imp x a' d b' c')
  | impE {x i d j c} : countDone i d j → Trim I F O (.imp x (.int i) d (.int j) c) .nil
  | tryc {a a' b b' c c' d d'} : Trim I F O a a' → Trim I F O b b' → Trim I F O c c' → Trim I F O d d' →
      Trim I F O (.tryc a b c d) (.tryc a' b' c' d')
  | ctch {ty x a a' b b'} : Trim I F O a a' → Trim I F O b b' → Trim I F O (.ctch ty x a b) (.ctch ty x a' b')
  | assign {x a a'} : Trim I F O a a' → Trim I F O (.assign x a) (.assign x a')
  | call {f a a'} : Trim I F O a a' → Trim I F O (.call f a) (.call f a')
  | dyn {a a' b b'} : Trim I F O a a' → Trim I F O b b' → Trim I F O (.dyn a b) (.dyn a' b')
  | arg {a a' b b'} : Trim I F O a a' → Trim I F O b b' → Trim I F O (.arg a b) (.arg a' b')
  | ternary {c c' a a' b b'} : Trim I F O c c' → Trim I F O a a' → Trim I F O b b' →
      Trim I F O (.ternary c a b) (.ternary c' a' b')
  | ternaryT {a b n} : Trim I F O a n → Trim I F O (.ternary (.bool true) a b) n
  | ternaryF {a b n} : Trim I F O b n → Trim I F O (.ternary (.bool false) a b) n
  | brk : Trim I F O .brk .brk
  | cont : Trim I F O .cont .cont
  | ret {a a'} : Trim I F O a a' → Trim I F O (.ret a) (.ret a')
  | throw_ {a a'} : Trim I F O a a' → Trim I F O (.throw_ a) (.throw_ a')
  | flow {a a' b b'} : Trim I F O a a' → Trim I F O b b' → Trim I F O (.flow a b) (.flow a' b')

inductive TrimForm (I : VarInfo) (F : Nat → Nat) (O : Nat → Prop) : Form → Form → Prop
  | node {n n'} : Trim I F O n n' → TrimForm I F O (.node n) (.node n')
  | args {n n'} : Trim I F O n n' → TrimForm I F O (.args n) (.args n')
  | loop {x v n n'} : Trim I F O n n' → TrimForm I F O (.loop x v n) (.loop x v n')
  | count {x i d j n n'} : Trim I F O n n' → TrimForm I F O (.count x i d j n) (.count x i d j n')
  | core {a a' b b' c c'} : Trim I F O a a' → Trim I F O b b' → Trim I F O c c' →
      TrimForm I F O (.core a b c) (.core a' b' c')
  | catches {n n' k} : Trim I F O n n' → TrimForm I F O (.catches n k) (.catches n' k)
  | fn {f vs} : TrimForm I F O (.fn f vs) (.fn f vs)

inductive TrimFunc (I : VarInfo) (F : Nat → Nat) (O : Nat → Prop) : Func → Func → Prop
  | bodied {attr ps n n'} : Trim I F O n n' → TrimFunc I F O (.bodied attr ps n) (.bodied attr ps n')
  | ext {attr sem} : TrimFunc I F O (.ext attr sem) (.ext attr sem)
  | internal {sem} : TrimFunc I F O (.internal sem) (.internal sem)

theorem setVar_same {s t : St} (h : SameObs gash M s t) (x : Nat) (v : Val) :
    SameObs gash M (setVar M.isGlobal s x v) (setVar M.isGlobal t x v) := by
  unfold setVar
  split
  · exact ⟨fun y hy => by simp only [h.glob y hy], h.loc, h.gens, h.trace⟩
  · exact ⟨h.glob, fun y hy => by simp only [h.loc y hy], h.gens, h.trace⟩

theorem setOpt_same {s t : St} (h : SameObs gash M s t) (x : Option Nat) (v : Val) :
    SameObs gash M (setOpt M.isGlobal s x v) (setOpt M.isGlobal t x v) := by
  cases x with
  | none => exact h
  | some x => exact setVar_same h x v

theorem getVar_same {s t : St} (h : SameObs gash M s t) {x : Nat} (hx : Observable gash M x) :
    getVar M.isGlobal s x = getVar M.isGlobal t x := by
  unfold getVar
  rw [h.glob x hx, h.loc x hx]

theorem nextItem_same {s t : St} (h : NoGens s) (ht : NoGens t) {v i v' : Val} {s' : St} (hn : nextItem v s = some (i, v', s')) :
    s' = s ∧ nextItem v t = some (i, v', t) := by
  unfold nextItem at hn ⊢
  split at hn
  · simp only [Option.some.injEq, Prod.mk.injEq] at hn ⊢
    exact ⟨hn.2.2.symm, hn.1, hn.2.1, trivial⟩
  · rw [show s.gens = fun _ => [] from h] at hn
    simp at hn
  · cases hn

theorem nextItem_same_none {s t : St} (ht : NoGens t) {v : Val} (hn : nextItem v s = none) : nextItem v t = none := by
  unfold nextItem at hn ⊢
  split at hn
  · cases hn
  · rw [show t.gens = fun _ => [] from ht]
  · rfl

theorem NoGens.setVar {s : St} (h : NoGens s) {x : Nat} {v : Val} : NoGens (Codon.Dce.setVar M.isGlobal s x v) :=
  (setVar_gens _ _ _ _).trans h

theorem NoGens.setOpt {s : St} (h : NoGens s) {x : Option Nat} {v : Val} : NoGens (Codon.Dce.setOpt M.isGlobal s x v) :=
  (setOpt_gens _ _ _ _).trans h

theorem SameObs.noGens {s t : St} (h : SameObs gash M s t) (hs : NoGens s) : NoGens t := by
  unfold NoGens at *; rw [← h.gens]; exact hs

theorem simul {F : Nat → Nat} (hF : Right gash M F) (ha : AttrsOk gash M) {funcs' : List Func}
    (hM : ∀ (f : Nat) fn, M.funcs[f]? = some fn → ∃ fn', funcs'[f]? = some fn' ∧
      TrimFunc (varInfo gash M) F (Observable gash M) fn fn')
    {G : Form} {s : St} {r : Res} {t : St} (hx : Exec M G s r t) :
    ∀ G' s', TrimForm (varInfo gash M) F (Observable gash M) G G' → NoGens s → SameObs gash M s s' →
    ∃ t', Exec { M with funcs := funcs' } G' s' r t' ∧ SameObs gash M t t' := by
  have key : ∀ {F s r t}, Exec M F s r t → NoGens s → NoGens t := by
    intro F s r t h1 h2; unfold NoGens; rw [exec_gens h1 h2]; exact h2
  have pur : ∀ {n s r t}, Exec M (.node n) s r t → NoGens s → stat (varInfo gash M) F n = PURE →
      ¬ r.abrupt ∧ SameObs gash M s t := fun h1 h2 h3 => (purity hF ha h1 h2).1 h3
  induction hx with
  | var =>
    rintro G' s' (⟨hT⟩) hg hs
    cases hT with | var _ ho => exact ⟨s', by rw [getVar_same hs ho]; exact Exec.var, hs⟩
  | cons h1 h2 ih1 ih2 =>
    rintro G' s' (⟨hT⟩) hg hs
    cases hT with
    | cons ta tb =>
      obtain ⟨t1, e1, o1⟩ := ih1 _ _ (.node ta) hg hs
      obtain ⟨t2, e2, o2⟩ := ih2 _ _ (.node tb) (key h1 hg) o1
      exact ⟨t2, .cons e1 e2, o2⟩
    | drop hp tb =>
      exact ih2 _ _ (.node tb) (key h1 hg) ((pur h1 hg hp).2.symm.trans hs)
  | consX h1 hr ih1 =>
    rintro G' s' (⟨hT⟩) hg hs
    cases hT with
    | cons ta tb =>
      obtain ⟨t1, e1, o1⟩ := ih1 _ _ (.node ta) hg hs
      exact ⟨t1, .consX e1 hr, o1⟩
    | drop hp tb => exact absurd hr (pur h1 hg hp).1
  | loopEnd hn =>
    rintro G' s' (⟨⟩|⟨⟩|⟨hT⟩) hg hs
    exact ⟨s', .loopEnd (nextItem_same_none (hs.noGens hg) hn), hs⟩
  | loopNext hn h1 hr h2 ih1 ih2 =>
    rintro G' s' (⟨⟩|⟨⟩|⟨hT⟩) hg hs
    obtain ⟨rfl, hn'⟩ := nextItem_same hg (hs.noGens hg) hn
    obtain ⟨t1, e1, o1⟩ := ih1 _ _ (.node hT) hg.setVar (setVar_same hs _ _)
    obtain ⟨t2, e2, o2⟩ := ih2 _ _ (.loop hT) (key h1 hg.setVar) o1
    exact ⟨t2, .loopNext hn' e1 hr e2, o2⟩
  | loopB hn h1 ih1 =>
    rintro G' s' (⟨⟩|⟨⟩|⟨hT⟩) hg hs
    obtain ⟨rfl, hn'⟩ := nextItem_same hg (hs.noGens hg) hn
    obtain ⟨t1, e1, o1⟩ := ih1 _ _ (.node hT) hg.setVar (setVar_same hs _ _)
    exact ⟨t1, .loopB hn' e1, o1⟩
  | loopR hn h1 hr ih1 =>
    rintro G' s' (⟨⟩|⟨⟩|⟨hT⟩) hg hs
    obtain ⟨rfl, hn'⟩ := nextItem_same hg (hs.noGens hg) hn
    obtain ⟨t1, e1, o1⟩ := ih1 _ _ (.node hT) hg.setVar (setVar_same hs _ _)
    exact ⟨t1, .loopR hn' e1 hr, o1⟩
  | countNext hn h1 hr h2 ih1 ih2 =>
    rintro G' s' (⟨⟩|⟨⟩|⟨⟩|⟨hT⟩) hg hs
    obtain ⟨t1, e1, o1⟩ := ih1 _ _ (.node hT) hg.setVar (setVar_same hs _ _)
    obtain ⟨t2, e2, o2⟩ := ih2 _ _ (.count hT) (key h1 hg.setVar) o1
    exact ⟨t2, .countNext hn e1 hr e2, o2⟩
  | countB hn h1 ih1 =>
    rintro G' s' (⟨⟩|⟨⟩|⟨⟩|⟨hT⟩) hg hs
    obtain ⟨t1, e1, o1⟩ := ih1 _ _ (.node hT) hg.setVar (setVar_same hs _ _)
    exact ⟨t1, .countB hn e1, o1⟩
  | countR hn h1 hr ih1 =>
    rintro G' s' (⟨⟩|⟨⟩|⟨⟩|⟨hT⟩) hg hs
    obtain ⟨t1, e1, o1⟩ := ih1 _ _ (.node hT) hg.setVar (setVar_same hs _ _)
    exact ⟨t1, .countR hn e1 hr, o1⟩
  | catchYes hk h1 ih1 =>
    rintro G' s' (⟨⟩|⟨⟩|⟨⟩|⟨⟩|⟨⟩|⟨hT⟩) hg hs
    cases hT with
    | ctch ta tb =>
      obtain ⟨t1, e1, o1⟩ := ih1 _ _ (.node ta) hg.setOpt (setOpt_same hs _ _)
      exact ⟨t1, .catchYes hk e1, o1⟩
  | assign h1 ih1 =>
    rintro G' s' (⟨hT⟩) hg hs
    cases hT with
    | assign ta =>
      obtain ⟨t1, e1, o1⟩ := ih1 _ _ (.node ta) hg hs
      exact ⟨_, .assign e1, setVar_same o1 _ _⟩
  | imp h1 h2 h3 ih1 ih2 ih3 =>
    rintro G' s' (⟨hT⟩) hg hs
    cases hT with
    | imp ta tb tc =>
      obtain ⟨t1, e1, o1⟩ := ih1 _ _ (.node ta) hg hs
      obtain ⟨t2, e2, o2⟩ := ih2 _ _ (.node tb) (key h1 hg) o1
      obtain ⟨t3, e3, o3⟩ := ih3 _ _ (.count tc) (key h2 (key h1 hg)) o2
      exact ⟨t3, .imp e1 e2 e3, o3⟩
    | impE hd =>
      cases h1; cases h2
      cases h3 with
      | countEnd => exact ⟨s', .nil, hs⟩
      | countNext hn => exact absurd hd hn
      | countB hn => exact absurd hd hn
      | countR hn => exact absurd hd hn
  | impX1 h1 hr ih1 =>
    rintro G' s' (⟨hT⟩) hg hs
    cases hT with
    | imp ta tb tc =>
      obtain ⟨t1, e1, o1⟩ := ih1 _ _ (.node ta) hg hs
      exact ⟨t1, .impX1 e1 hr, o1⟩
    | impE hd => cases h1; exact absurd hr id
  | impX2 h1 h2 hr ih1 ih2 =>
    rintro G' s' (⟨hT⟩) hg hs
    cases hT with
    | imp ta tb tc =>
      obtain ⟨t1, e1, o1⟩ := ih1 _ _ (.node ta) hg hs
      obtain ⟨t2, e2, o2⟩ := ih2 _ _ (.node tb) (key h1 hg) o1
      exact ⟨t2, .impX2 e1 e2 hr, o2⟩
    | impE hd => cases h2; exact absurd hr id
  | fnRet hf h1 ih1 =>
    rintro G' s' (_ | _ | _ | _ | _ | _ | _) hg hs
    obtain ⟨fn', hf', hT⟩ := hM _ _ hf
    cases hT with
    | bodied hT =>
      obtain ⟨t1, e1, o1⟩ := ih1 _ { s' with loc := bindParams _ _ } (.node hT) hg
        ⟨hs.glob, fun _ _ => rfl, hs.gens, hs.trace⟩
      exact ⟨_, .fnRet hf' e1, ⟨o1.glob, hs.loc, o1.gens, o1.trace⟩⟩
  | fnEnd hf h1 ih1 =>
    rintro G' s' (_ | _ | _ | _ | _ | _ | _) hg hs
    obtain ⟨fn', hf', hT⟩ := hM _ _ hf
    cases hT with
    | bodied hT =>
      obtain ⟨t1, e1, o1⟩ := ih1 _ { s' with loc := bindParams _ _ } (.node hT) hg
        ⟨hs.glob, fun _ _ => rfl, hs.gens, hs.trace⟩
      exact ⟨_, .fnEnd hf' e1, ⟨o1.glob, hs.loc, o1.gens, o1.trace⟩⟩
  | fnExc hf h1 ih1 =>
    rintro G' s' (_ | _ | _ | _ | _ | _ | _) hg hs
    obtain ⟨fn', hf', hT⟩ := hM _ _ hf
    cases hT with
    | bodied hT =>
      obtain ⟨t1, e1, o1⟩ := ih1 _ { s' with loc := bindParams _ _ } (.node hT) hg
        ⟨hs.glob, fun _ _ => rfl, hs.gens, hs.trace⟩
      exact ⟨_, .fnExc hf' e1, ⟨o1.glob, hs.loc, o1.gens, o1.trace⟩⟩
  | fnExt hf hsem =>
    rintro G' s' (_ | _ | _ | _ | _ | _ | _) hg hs
    obtain ⟨fn', hf', hT⟩ := hM _ _ hf
    cases hT with
    | ext =>
      rw [hs.trace] at hsem
      exact ⟨_, .fnExt hf' hsem, ⟨hs.glob, hs.loc, hs.gens, by simp only [hs.trace]⟩⟩
  | fnExtX hf hsem =>
    rintro G' s' (_ | _ | _ | _ | _ | _ | _) hg hs
    obtain ⟨fn', hf', hT⟩ := hM _ _ hf
    cases hT with
    | ext =>
      rw [hs.trace] at hsem
      exact ⟨_, .fnExtX hf' hsem, ⟨hs.glob, hs.loc, hs.gens, by simp only [hs.trace]⟩⟩
  | fnInternal hf =>
    rintro G' s' (_ | _ | _ | _ | _ | _ | _) hg hs
    obtain ⟨fn', hf', hT⟩ := hM _ _ hf
    cases hT with
    | internal => exact ⟨_, .fnInternal hf', hs⟩
  | int =>
    rintro G' s' (⟨hT⟩) hg hs
    cases hT
    exact ⟨s', .int, hs⟩
  | bool =>
    rintro G' s' (⟨hT⟩) hg hs
    cases hT
    exact ⟨s', .bool, hs⟩
  | nil =>
    rintro G' s' (⟨hT⟩) hg hs
    cases hT
    exact ⟨s', .nil, hs⟩
  | brk =>
    rintro G' s' (⟨hT⟩) hg hs
    cases hT
    exact ⟨s', .brk, hs⟩
  | cont =>
    rintro G' s' (⟨hT⟩) hg hs
    cases hT
    exact ⟨s', .cont, hs⟩
  | iteT h1 h2 ih1 ih2 =>
    rintro G' s' (⟨hT⟩) hg hs
    cases hT with
    | ite tc ta tb =>
      obtain ⟨t1, e1, o1⟩ := ih1 _ _ (.node tc) hg hs
      obtain ⟨t2, e2, o2⟩ := ih2 _ _ (.node ta) (key h1 hg) o1
      exact ⟨t2, .iteT e1 e2, o2⟩
    | iteT ta => cases h1; exact ih2 _ _ (.node ta) hg hs
    | iteF tb => cases h1
  | iteF h1 h2 ih1 ih2 =>
    rintro G' s' (⟨hT⟩) hg hs
    cases hT with
    | ite tc ta tb =>
      obtain ⟨t1, e1, o1⟩ := ih1 _ _ (.node tc) hg hs
      obtain ⟨t2, e2, o2⟩ := ih2 _ _ (.node tb) (key h1 hg) o1
      exact ⟨t2, .iteF e1 e2, o2⟩
    | iteT ta => cases h1
    | iteF tb => cases h1; exact ih2 _ _ (.node tb) hg hs
  | iteX h1 hr ih1 =>
    rintro G' s' (⟨hT⟩) hg hs
    cases hT with
    | ite tc ta tb =>
      obtain ⟨t1, e1, o1⟩ := ih1 _ _ (.node tc) hg hs
      exact ⟨t1, .iteX e1 hr, o1⟩
    | iteT ta => cases h1; exact absurd hr id
    | iteF tb => cases h1; exact absurd hr id
  | ternaryT h1 h2 ih1 ih2 =>
    rintro G' s' (⟨hT⟩) hg hs
    cases hT with
    | ternary tc ta tb =>
      obtain ⟨t1, e1, o1⟩ := ih1 _ _ (.node tc) hg hs
      obtain ⟨t2, e2, o2⟩ := ih2 _ _ (.node ta) (key h1 hg) o1
      exact ⟨t2, .ternaryT e1 e2, o2⟩
    | ternaryT ta => cases h1; exact ih2 _ _ (.node ta) hg hs
    | ternaryF tb => cases h1
  | ternaryF h1 h2 ih1 ih2 =>
    rintro G' s' (⟨hT⟩) hg hs
    cases hT with
    | ternary tc ta tb =>
      obtain ⟨t1, e1, o1⟩ := ih1 _ _ (.node tc) hg hs
      obtain ⟨t2, e2, o2⟩ := ih2 _ _ (.node tb) (key h1 hg) o1
      exact ⟨t2, .ternaryF e1 e2, o2⟩
    | ternaryT ta => cases h1
    | ternaryF tb => cases h1; exact ih2 _ _ (.node tb) hg hs
  | ternaryX h1 hr ih1 =>
    rintro G' s' (⟨hT⟩) hg hs
    cases hT with
    | ternary tc ta tb =>
      obtain ⟨t1, e1, o1⟩ := ih1 _ _ (.node tc) hg hs
      exact ⟨t1, .ternaryX e1 hr, o1⟩
    | ternaryT ta => cases h1; exact absurd hr id
    | ternaryF tb => cases h1; exact absurd hr id
  | whileF h1 ih1 =>
    rintro G' s' (⟨hT⟩) hg hs
    cases hT with
    | while_ tc tb =>
      obtain ⟨t1, e1, o1⟩ := ih1 _ _ (.node tc) hg hs
      exact ⟨t1, .whileF e1, o1⟩
    | whileF => cases h1; exact ⟨s', .nil, hs⟩
  | whileX h1 hr ih1 =>
    rintro G' s' (⟨hT⟩) hg hs
    cases hT with
    | while_ tc tb =>
      obtain ⟨t1, e1, o1⟩ := ih1 _ _ (.node tc) hg hs
      exact ⟨t1, .whileX e1 hr, o1⟩
    | whileF => cases h1; exact absurd hr id
  | whileT h1 h2 hr h3 ih1 ih2 ih3 =>
    rintro G' s' (⟨hT⟩) hg hs
    cases hT with
    | while_ tc tb =>
      obtain ⟨t1, e1, o1⟩ := ih1 _ _ (.node tc) hg hs
      obtain ⟨t2, e2, o2⟩ := ih2 _ _ (.node tb) (key h1 hg) o1
      obtain ⟨t3, e3, o3⟩ := ih3 _ _ (.node (.while_ tc tb)) (key h2 (key h1 hg)) o2
      exact ⟨t3, .whileT e1 e2 hr e3, o3⟩
    | whileF => cases h1
  | whileB h1 h2 ih1 ih2 =>
    rintro G' s' (⟨hT⟩) hg hs
    cases hT with
    | while_ tc tb =>
      obtain ⟨t1, e1, o1⟩ := ih1 _ _ (.node tc) hg hs
      obtain ⟨t2, e2, o2⟩ := ih2 _ _ (.node tb) (key h1 hg) o1
      exact ⟨t2, .whileB e1 e2, o2⟩
    | whileF => cases h1
  | whileR h1 h2 hr ih1 ih2 =>
    rintro G' s' (⟨hT⟩) hg hs
    cases hT with
    | while_ tc tb =>
      obtain ⟨t1, e1, o1⟩ := ih1 _ _ (.node tc) hg hs
      obtain ⟨t2, e2, o2⟩ := ih2 _ _ (.node tb) (key h1 hg) o1
      exact ⟨t2, .whileR e1 e2 hr, o2⟩
    | whileF => cases h1
  | for_ h1 h2 ih1 ih2 =>
    rintro G' s' (⟨hT⟩) hg hs
    cases hT with
    | for_ tc tb =>
      obtain ⟨t1, e1, o1⟩ := ih1 _ _ (.node tc) hg hs
      obtain ⟨t2, e2, o2⟩ := ih2 _ _ (.loop tb) (key h1 hg) o1
      exact ⟨t2, .for_ e1 e2, o2⟩
  | forX h1 hr ih1 =>
    rintro G' s' (⟨hT⟩) hg hs
    cases hT with
    | for_ tc tb =>
      obtain ⟨t1, e1, o1⟩ := ih1 _ _ (.node tc) hg hs
      exact ⟨t1, .forX e1 hr, o1⟩
  | countEnd hd =>
    rintro G' s' (⟨⟩ | ⟨⟩ | ⟨⟩ | ⟨hT⟩) hg hs
    exact ⟨s', .countEnd hd, hs⟩
  | tryc h1 h2 ih1 ih2 =>
    rintro G' s' (⟨hT⟩) hg hs
    cases hT with
    | tryc ta tb tc td =>
      obtain ⟨t1, e1, o1⟩ := ih1 _ _ (.core ta tb tc) hg hs
      obtain ⟨t2, e2, o2⟩ := ih2 _ _ (.node td) (key h1 hg) o1
      exact ⟨t2, .tryc e1 e2, o2⟩
  | trycX h1 h2 hr ih1 ih2 =>
    rintro G' s' (⟨hT⟩) hg hs
    cases hT with
    | tryc ta tb tc td =>
      obtain ⟨t1, e1, o1⟩ := ih1 _ _ (.core ta tb tc) hg hs
      obtain ⟨t2, e2, o2⟩ := ih2 _ _ (.node td) (key h1 hg) o1
      exact ⟨t2, .trycX e1 e2 hr, o2⟩
  | coreElse h1 h2 ih1 ih2 =>
    rintro G' s' (⟨⟩ | ⟨⟩ | ⟨⟩ | ⟨⟩ | ⟨ta, tb, tc⟩) hg hs
    obtain ⟨t1, e1, o1⟩ := ih1 _ _ (.node ta) hg hs
    obtain ⟨t2, e2, o2⟩ := ih2 _ _ (.node tc) (key h1 hg) o1
    exact ⟨t2, .coreElse e1 e2, o2⟩
  | coreExc h1 h2 ih1 ih2 =>
    rintro G' s' (⟨⟩ | ⟨⟩ | ⟨⟩ | ⟨⟩ | ⟨ta, tb, tc⟩) hg hs
    obtain ⟨t1, e1, o1⟩ := ih1 _ _ (.node ta) hg hs
    obtain ⟨t2, e2, o2⟩ := ih2 _ _ (.catches tb) (key h1 hg) o1
    exact ⟨t2, .coreExc e1 e2, o2⟩
  | coreX h1 hr hk ih1 =>
    rintro G' s' (⟨⟩ | ⟨⟩ | ⟨⟩ | ⟨⟩ | ⟨ta, tb, tc⟩) hg hs
    obtain ⟨t1, e1, o1⟩ := ih1 _ _ (.node ta) hg hs
    exact ⟨t1, .coreX e1 hr hk, o1⟩
  | catchNone =>
    rintro G' s' (⟨⟩ | ⟨⟩ | ⟨⟩ | ⟨⟩ | ⟨⟩ | ⟨hT⟩) hg hs
    cases hT
    exact ⟨s', .catchNone, hs⟩
  | catchNo hk h1 ih1 =>
    rintro G' s' (⟨⟩ | ⟨⟩ | ⟨⟩ | ⟨⟩ | ⟨⟩ | ⟨hT⟩) hg hs
    cases hT with
    | ctch ta tb =>
      obtain ⟨t1, e1, o1⟩ := ih1 _ _ (.catches tb) hg hs
      exact ⟨t1, .catchNo hk e1, o1⟩
  | assignX h1 hr ih1 =>
    rintro G' s' (⟨hT⟩) hg hs
    cases hT with
    | assign ta =>
      obtain ⟨t1, e1, o1⟩ := ih1 _ _ (.node ta) hg hs
      exact ⟨t1, .assignX e1 hr, o1⟩
  | call h1 h2 ih1 ih2 =>
    rintro G' s' (⟨hT⟩) hg hs
    cases hT with
    | call ta =>
      obtain ⟨t1, e1, o1⟩ := ih1 _ _ (.args ta) hg hs
      obtain ⟨t2, e2, o2⟩ := ih2 _ _ (.fn ) (key h1 hg) o1
      exact ⟨t2, .call e1 e2, o2⟩
  | callX h1 hr ih1 =>
    rintro G' s' (⟨hT⟩) hg hs
    cases hT with
    | call ta =>
      obtain ⟨t1, e1, o1⟩ := ih1 _ _ (.args ta) hg hs
      exact ⟨t1, .callX e1 hr, o1⟩
  | dyn h1 h2 h3 ih1 ih2 ih3 =>
    rintro G' s' (⟨hT⟩) hg hs
    cases hT with
    | dyn ta tb =>
      obtain ⟨t1, e1, o1⟩ := ih1 _ _ (.node ta) hg hs
      obtain ⟨t2, e2, o2⟩ := ih2 _ _ (.args tb) (key h1 hg) o1
      obtain ⟨t3, e3, o3⟩ := ih3 _ _ (.fn ) (key h2 (key h1 hg)) o2
      exact ⟨t3, .dyn e1 e2 e3, o3⟩
  | dynX1 h1 hr ih1 =>
    rintro G' s' (⟨hT⟩) hg hs
    cases hT with
    | dyn ta tb =>
      obtain ⟨t1, e1, o1⟩ := ih1 _ _ (.node ta) hg hs
      exact ⟨t1, .dynX1 e1 hr, o1⟩
  | dynX2 h1 h2 hr ih1 ih2 =>
    rintro G' s' (⟨hT⟩) hg hs
    cases hT with
    | dyn ta tb =>
      obtain ⟨t1, e1, o1⟩ := ih1 _ _ (.node ta) hg hs
      obtain ⟨t2, e2, o2⟩ := ih2 _ _ (.args tb) (key h1 hg) o1
      exact ⟨t2, .dynX2 e1 e2 hr, o2⟩
  | argsNil =>
    rintro G' s' (⟨⟩ | ⟨hT⟩) hg hs
    cases hT
    exact ⟨s', .argsNil, hs⟩
  | argsCons h1 h2 ih1 ih2 =>
    rintro G' s' (⟨⟩ | ⟨hT⟩) hg hs
    cases hT with
    | arg ta tb =>
      obtain ⟨t1, e1, o1⟩ := ih1 _ _ (.node ta) hg hs
      obtain ⟨t2, e2, o2⟩ := ih2 _ _ (.args tb) (key h1 hg) o1
      exact ⟨t2, .argsCons e1 e2, o2⟩
  | argsX1 h1 hr ih1 =>
    rintro G' s' (⟨⟩ | ⟨hT⟩) hg hs
    cases hT with
    | arg ta tb =>
      obtain ⟨t1, e1, o1⟩ := ih1 _ _ (.node ta) hg hs
      exact ⟨t1, .argsX1 e1 hr, o1⟩
  | argsX2 h1 h2 hr ih1 ih2 =>
    rintro G' s' (⟨⟩ | ⟨hT⟩) hg hs
    cases hT with
    | arg ta tb =>
      obtain ⟨t1, e1, o1⟩ := ih1 _ _ (.node ta) hg hs
      obtain ⟨t2, e2, o2⟩ := ih2 _ _ (.args tb) (key h1 hg) o1
      exact ⟨t2, .argsX2 e1 e2 hr, o2⟩
  | ret h1 ih1 =>
    rintro G' s' (⟨hT⟩) hg hs
    cases hT with
    | ret ta =>
      obtain ⟨t1, e1, o1⟩ := ih1 _ _ (.node ta) hg hs
      exact ⟨t1, .ret e1, o1⟩
  | retX h1 hr ih1 =>
    rintro G' s' (⟨hT⟩) hg hs
    cases hT with
    | ret ta =>
      obtain ⟨t1, e1, o1⟩ := ih1 _ _ (.node ta) hg hs
      exact ⟨t1, .retX e1 hr, o1⟩
  | throw_ h1 ih1 =>
    rintro G' s' (⟨hT⟩) hg hs
    cases hT with
    | throw_ ta =>
      obtain ⟨t1, e1, o1⟩ := ih1 _ _ (.node ta) hg hs
      exact ⟨t1, .throw_ e1, o1⟩
  | throwX h1 hr ih1 =>
    rintro G' s' (⟨hT⟩) hg hs
    cases hT with
    | throw_ ta =>
      obtain ⟨t1, e1, o1⟩ := ih1 _ _ (.node ta) hg hs
      exact ⟨t1, .throwX e1 hr, o1⟩
  | flow h1 h2 ih1 ih2 =>
    rintro G' s' (⟨hT⟩) hg hs
    cases hT with
    | flow ta tb =>
      obtain ⟨t1, e1, o1⟩ := ih1 _ _ (.node ta) hg hs
      obtain ⟨t2, e2, o2⟩ := ih2 _ _ (.node tb) (key h1 hg) o1
      exact ⟨t2, .flow e1 e2, o2⟩
  | flowX h1 hr ih1 =>
    rintro G' s' (⟨hT⟩) hg hs
    cases hT with
    | flow ta tb =>
      obtain ⟨t1, e1, o1⟩ := ih1 _ _ (.node ta) hg hs
      exact ⟨t1, .flowX e1 hr, o1⟩

end Codon.Dce
