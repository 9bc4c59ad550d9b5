import Verif.Exc.TryTransit
/-!
The emitted code of a good statement does what the statement means.
-/
namespace Codon.Exc.Try
universe u v
variable {S : Type u} {V : Type v}

/-- The variables of a `try` when nothing is under way. -/
def CF (r : Regs V) : Prop := r.flag = .notThrown ∨ r.flag = .caught

/-- The variables when nothing is under way. -/
structure Calm (ρ : Nat → Regs V) : Prop where
  depth : ∀ k, (ρ k).depth = 0
  flag : ∀ k, CF (ρ k)

/-- The variables of the `try` statements that are not around us. -/
def Others (c : Ctx) (ρ : Nat → Regs V) : Prop := ∀ k k', HasKey c k' → ¬ HasKey c k → (ρ k).depth = 0 ∧ CF (ρ k)

/-- A `break` or `continue` for the loop at `l`. -/
def Leave (c : Ctx) (fl : Flag) (dir : Nat → Jump V) (o : Out V) (ρ : Nat → Regs V) : Prop :=
  (∀ k, (ρ k).depth = 0) ∧ (∀ k, ¬ HasKey c k → CF (ρ k)) ∧ ∃ l, innerLoop c = some l ∧
    ((o = .jump (dir l) ∧ (∀ q k, innerFin c = some (q, k) → q < l) ∧ ∀ k, CF (ρ k)) ∨
     ∃ q k, o = .jump (.fin q) ∧ l < q ∧
      (innerFin c = some (q, k) ∨ (innerTry c = some (q, k) ∧ ∀ q' k', innerFin c = some (q', k') → q' ≤ q)) ∧ (ρ k).flag = fl ∧ (ρ k).loopSeq = some l)

/-- How the ends of a statement show in the emitted code. -/
def Rel (c : Ctx) (par part : Bool) (r : Res V) (o : Out V) (ρ : Nat → Regs V) : Prop :=
  match r with
  | .norm => o = .fall ∧ Calm ρ
  | .brk => Leave c .brk .brk o ρ
  | .cont => Leave c .cont .cont o ρ
  | .ret v => part = false ∧ (∀ k, (ρ k).depth = 0) ∧ Others c ρ ∧
    match innerTry c with
    | none => o = .jump (.ret v)
    | some (p, k) => o = .jump (.fin p) ∧ (ρ k).flag = .ret ∧ (ρ k).retStore = some v
  | .exc e => (part = true → par = false) ∧ Others c ρ ∧
    (o = .jump (landing c e) ∨
      ∃ p k sel, innerTry c = some (p, k) ∧ part = false ∧ (ρ k).flag = .thrown ∧ (ρ k).store = some (e, sel) ∧
        ((o = .jump (.route p) ∧ Transit e sel false (ρ k).depth (tryStack c)) ∨ (o = .jump (.fin p) ∧ Transit e sel true (ρ k).depth (tryStack c))))

/-- The statement and its code agree. -/
def Agree (c : Ctx) (par part : Bool) (x : Option (Res V × S)) (y : Option (Out V × St S V)) : Prop :=
  match x, y with
  | none, none => True
  | some (r, m), some (o, st) => st.mem = m ∧ Rel c par part r o st.regs
  | _, _ => False

/-- The part of `run` for `try` after the body: the block `finallyBlock`. -/
def atFin (n : Nat) (c : Ctx) (key : Nat) (fin : Option (Stmt S V)) (st : St S V) : Option (Out V × St S V) :=
  match fin with
  | none => some (finish c key fin.isSome st)
  | some f =>
    match run n c f st with
    | some (.fall, st) => some (finish c key fin.isSome st)
    | r => r

/-- The meaning of the `finally` part after an end `r`. -/
def finally_ (n : Nat) (fin : Option (Stmt S V)) (r : Res V) (m : S) : Option (Res V × S) :=
  match fin with
  | none => some (r, m)
  | some f =>
    match eval n f m with
    | some (.norm, m) => some (r, m)
    | r' => r'

theorem switchLoop_mem (c : Ctx) (key : Nat) (st : St S V) (dir : Nat → Jump V) : (switchLoop c key st dir).2.mem = st.mem := by
  unfold switchLoop
  repeat' split
  all_goals rfl

theorem finish_mem (c : Ctx) (key : Nat) (b : Bool) (st : St S V) : (finish c key b st).2.mem = st.mem := by
  unfold finish
  dsimp only
  repeat' split
  all_goals first | rfl | exact switchLoop_mem ..

/-- `finallyBlock`: if the decision after the `finally` part is right, so is the whole. -/
theorem atFin_ok {n : Nat} {c : Ctx} {par : Bool} {key : Nat} {fin : Option (Stmt S V)}
    (hf : ∀ f, fin = some f → Plain false f) {st : St S V} (r : Res V)
    (hother : Others c st.regs)
    (hdec : ∀ m : S, Rel c par false r (finish c key fin.isSome { st with mem := m }).1 (finish c key fin.isSome { st with mem := m }).2.regs) :
    Agree c par false (finally_ n fin r st.mem) (atFin n c key fin st) := by
  cases fin with
  | none => exact ⟨finish_mem .., hdec st.mem⟩
  | some f =>
    simp only [finally_, atFin, run_plain n (hf f rfl) c (by simp) st]
    cases he : eval n f st.mem with
    | none => trivial
    | some x =>
      obtain ⟨r', m'⟩ := x
      rcases eval_plain n (hf f rfl) st.mem he with h | ⟨e, h⟩ | ⟨h, _⟩
      · subst h
        exact ⟨finish_mem .., hdec m'⟩
      · subst h
        exact ⟨rfl, by simp, hother, Or.inl rfl⟩
      · cases h

section decisions
variable {c : Ctx} {par lp : Bool} {key : Nat} {b : Bool} {st : St S V}

theorem finish_norm (h : Calm st.regs) : Rel c par false .norm (finish c key b st).1 (finish c key b st).2.regs := by
  have hfin : finish c key b st = (.fall, st) := by
    unfold finish
    rcases h.flag key with h1 | h1 <;> (simp only [h1, h.depth key]; split <;> rfl)
  rw [hfin]
  exact ⟨rfl, h⟩

theorem finish_ret (hd : ∀ k, (st.regs k).depth = 0) (ho : Others c st.regs) (hfl : (st.regs key).flag = .ret) {v : V}
    (hr : (st.regs key).retStore = some v)
    (hk : ∀ k, HasKey c k → k = key) : Rel c par false (.ret v) (finish c key b st).1 (finish c key b st).2.regs := by
  cases ht : innerTry c with
  | none =>
    have hfin : finish c key b st = (.jump (.ret v), st) := by simp [finish, hfl, hr, ht]
    rw [hfin]
    exact ⟨rfl, hd, ho, by rw [ht]⟩
  | some x =>
    obtain ⟨p, k⟩ := x
    have hfin : finish c key b st = (.jump (.fin p), st) := by simp [finish, hfl, ht, hd key]
    rw [hfin]
    refine ⟨rfl, hd, ho, ?_⟩
    rw [ht, hk k (hasKey_try ht)]
    exact ⟨rfl, hfl, hr⟩

theorem switch_ok (hn : noPart c) (hd : ∀ k, (st.regs k).depth = 0) (ho : ∀ k, k ≠ key → CF (st.regs k)) (fl : Flag)
    (hfl : (st.regs key).flag = fl) {l : Nat} (hl : innerLoop c = some l)
    (hs : (st.regs key).loopSeq = some l) (hk : ∀ k, HasKey c k → k = key) (dir : Nat → Jump V) :
    Leave c fl dir (switchLoop c key st dir).1 (switchLoop c key st dir).2.regs := by
  have hdone : ∀ k, CF ((setRegs st key fun r => { r with flag := .notThrown }).regs k) := fun k => by
    by_cases h : k = key
    · simp [setRegs, h, CF]
    · simpa [setRegs, h] using ho k h
  have hdep : ∀ k, ((setRegs st key fun r => { r with flag := .notThrown }).regs k).depth = 0 := fun k => by
    by_cases h : k = key
    · simp [setRegs, h, hd key]
    · simp [setRegs, h, hd k]
  cases ht : innerTry c with
  | none =>
    have : switchLoop c key st dir = (.jump (dir l), setRegs st key fun r => { r with flag := .notThrown }) := by
      simp [switchLoop, hs, isLoop_inner hl, ht]
    rw [this]
    refine ⟨hdep, fun k _ => hdone k, l, hl, Or.inl ⟨rfl, fun q k hq => ?_, hdone⟩⟩
    obtain ⟨p, k', h1, _⟩ := fin_le_try hn hq
    rw [ht] at h1
    cases h1
  | some x =>
    obtain ⟨p, k⟩ := x
    by_cases hlp : l < p
    · have : switchLoop c key st dir = (.jump (.fin p), st) := by simp [switchLoop, hs, isLoop_inner hl, ht, hlp]
      rw [this]
      have hkk := hk k (hasKey_try ht)
      subst hkk
      refine ⟨hd, fun k1 h1 => ho k1 (fun h => h1 (h ▸ hasKey_try ht)), l, hl, Or.inr ⟨p, k, rfl, hlp, Or.inr ⟨ht, fun q' k' hq => ?_⟩, hfl, hs⟩⟩
      obtain ⟨p2, k2, h1, h2⟩ := fin_le_try hn hq
      rw [ht] at h1
      cases h1
      exact h2
    · have : switchLoop c key st dir = (.jump (dir l), setRegs st key fun r => { r with flag := .notThrown }) := by
        simp [switchLoop, hs, isLoop_inner hl, ht, hlp]
      rw [this]
      refine ⟨hdep, fun k _ => hdone k, l, hl, Or.inl ⟨rfl, fun q k' hq => ?_, hdone⟩⟩
      obtain ⟨p2, k2, h1, h2⟩ := fin_le_try hn hq
      rw [ht] at h1
      cases h1
      have := innerTry_ne_loop ht hl
      omega

theorem finish_loop (hn : noPart c) (hd : ∀ k, (st.regs k).depth = 0) (ho : ∀ k, k ≠ key → CF (st.regs k)) {l : Nat} (hl : innerLoop c = some l)
    (hs : (st.regs key).loopSeq = some l) (hk : ∀ k, HasKey c k → k = key) :
    ((st.regs key).flag = .brk → Rel c par false .brk (finish c key b st).1 (finish c key b st).2.regs) ∧
    ((st.regs key).flag = .cont → Rel c par false .cont (finish c key b st).1 (finish c key b st).2.regs) := by
  constructor
  · intro hfl
    have : finish c key b st = switchLoop c key st .brk := by
      simp only [finish, hfl, hd key]
      split <;> rfl
    rw [this]
    exact switch_ok hn hd ho _ hfl hl hs hk _
  · intro hfl
    have : finish c key b st = switchLoop c key st .cont := by
      simp only [finish, hfl, hd key]
      split <;> rfl
    rw [this]
    exact switch_ok hn hd ho _ hfl hl hs hk _

theorem finish_thrown (hn : noPart c) (hd : Others c st.regs) (hfl : (st.regs key).flag = .thrown) {e : Exn} {sel : Nat}
    (hs : (st.regs key).store = some (e, sel)) (hk : ∀ k, HasKey c k → k = key) {own : Types} (hT : Transit e sel true (st.regs key).depth (own :: tryStack c))
    (hx : own.findIdx? (accepts e.id e.bases) = none) : Rel c par false (.exc e) (finish c key b st).1 (finish c key b st).2.regs := by
  cases ht : innerTry c with
  | none =>
    have : finish c key b st = (.jump (.resume e), st) := by simp [finish, hfl, hs, ht]
    rw [this]
    exact ⟨by simp, hd, Or.inl (by rw [landing_none hn ht])⟩
  | some x =>
    obtain ⟨p, k⟩ := x
    have hkk := hk k (hasKey_try ht)
    subst hkk
    obtain ⟨h1, h2⟩ := transit_fin hT (tryStack_ne ht) hx
    have : finish c k b st = (.jump (if (st.regs k).depth - 1 > 0 then .fin p else .route p), setRegs st k fun r => { r with depth := r.depth - 1 }) := by
      simp only [finish, ht]
      rw [if_pos h1]
    rw [this]
    refine ⟨by simp, fun k1 k' hx1 hx2 => ?_, Or.inr ⟨p, k, sel, ht, rfl, by simp [setRegs, hfl], by simp [setRegs, hs], ?_⟩⟩
    · by_cases hkk : k1 = k
      · subst hkk; exact absurd (hasKey_try ht) hx2
      · simp only [setRegs, if_neg hkk]
        exact hd k1 k' hx1 hx2
    · by_cases hz : (st.regs k).depth - 1 > 0
      · right
        rw [if_pos hz]
        refine ⟨rfl, ?_⟩
        rw [decide_eq_true hz] at h2
        simpa [setRegs] using h2
      · left
        rw [if_neg hz]
        refine ⟨rfl, ?_⟩
        rw [decide_eq_false hz] at h2
        simpa [setRegs] using h2

theorem finish_rethrow (ht : innerTry c = none) (hfl : (st.regs key).flag = .rethrow) {e : Exn} {sel : Nat} (hn : noPart c)
    (hs : (st.regs key).store = some (e, sel)) : Rel c par false (.exc e) (finish c key true st).1 (finish c key true st).2.regs := by
  have : finish c key true st = (.jump (landing c e), st) := by simp [finish, hfl, hs, ht]
  rw [this]
  exact ⟨by simp, fun k k' hx => absurd ht (by obtain ⟨p, k2, h⟩ := hasKey_some hn hx; simp [h]), Or.inl rfl⟩

end decisions

end Codon.Exc.Try
