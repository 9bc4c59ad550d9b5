import Verif.Exc.TrySim
/-!
The emitted code of a good statement does what the statement means: the induction.
-/
namespace Codon.Exc.Try
universe u v
variable {S : Type u} {V : Type v}

/-! ## The blocks of a `try`, by name -/

def keyOf (c : Ctx) (node : Nat) : Nat :=
  match innerTry c with
  | none => node
  | some (_, k) => k

def cPart (c : Ctx) (key : Nat) (fin : Option (Stmt S V)) : Ctx := if fin.isSome then .part key :: c else c

def entry (c : Ctx) (key : Nat) (st : St S V) : St S V :=
  let st := if (innerTry c).isNone && (innerLoop c).isNone then setRegs st key fun _ => Regs.init else st
  if (innerLoop c).isSome then setRegs st key fun r => { r with flag := .notThrown } else st

def atFinExc (n : Nat) (c : Ctx) (key : Nat) (fin : Option (Stmt S V)) (e : Exn) (st : St S V) : Option (Out V × St S V) :=
  atFin n c key fin (setRegs st key fun r => { r with store := some (e, 0), flag := .rethrow, depth := (tryStack c).length })

def after (n : Nat) (c : Ctx) (key : Nat) (fin : Option (Stmt S V)) (r : Option (Out V × St S V)) : Option (Out V × St S V) :=
  match r with
  | none => none
  | some (.fall, st) => atFin n c key fin st
  | some (.jump j, st) =>
    match j with
    | .fin p => if fin.isSome && p == c.length then atFin n c key fin st else some (.jump j, st)
    | .finExc p e => if fin.isSome && p == c.length then atFinExc n c key fin e st else some (.jump j, st)
    | _ => some (.jump j, st)

def atRoute (n : Nat) (c : Ctx) (key : Nat) (hs : List (Option Nat × (Exn → S → S) × Stmt S V)) (fin : Option (Stmt S V)) (st : St S V) :
    Option (Out V × St S V) :=
  match (st.regs key).store with
  | none => some (.jump .stuck, st)
  | some (e, sel) =>
    match dispatch (hs.map (·.1)) (tryStack c) sel (st.regs key).depth with
    | .inr d => atFin n c key fin (setRegs st key fun r => { r with depth := d })
    | .inl i =>
      match hs[i]? with
      | none => some (.jump .stuck, st)
      | some (_, bind, h) =>
        let st := setRegs st key fun r => { r with depth := 0, flag := .caught }
        after n c key fin (run n (cPart c key fin) h { st with mem := bind e st.mem })

def atExc (n : Nat) (c : Ctx) (key : Nat) (hs : List (Option Nat × (Exn → S → S) × Stmt S V)) (fin : Option (Stmt S V)) (e : Exn) (st : St S V) :
    Option (Out V × St S V) :=
  atRoute n c key hs fin (setRegs st key fun r =>
    { r with store := some (e, selector e (hs.map (·.1)) (tryStack c)), flag := .thrown, depth := (tryStack c).length })

def afterBody (n : Nat) (c : Ctx) (key : Nat) (hs : List (Option Nat × (Exn → S → S) × Stmt S V)) (els : Stmt S V) (fin : Option (Stmt S V))
    (r : Option (Out V × St S V)) : Option (Out V × St S V) :=
  match r with
  | none => none
  | some (.fall, st) => after n c key fin (run n (cPart c key fin) els st)
  | some (.jump j, st) =>
    match j with
    | .fin p => if p = c.length then atFin n c key fin st else some (.jump j, st)
    | .finExc p e => if p = c.length then atFinExc n c key fin e st else some (.jump j, st)
    | .exc p e => if p = c.length then atExc n c key hs fin e st else some (.jump j, st)
    | .route p => if p = c.length then atRoute n c key hs fin st else some (.jump j, st)
    | _ => some (.jump j, st)

theorem run_try (n : Nat) (c : Ctx) (node : Nat) (body : Stmt S V) (hs : List (Option Nat × (Exn → S → S) × Stmt S V)) (els : Stmt S V)
    (fin : Option (Stmt S V)) (st : St S V) :
    run (n + 1) c (.try_ node body hs els fin) st =
      afterBody n c (keyOf c node) hs els fin
        (run n (.body (keyOf c node) fin.isSome (hs.map (·.1)) :: c) body (entry c (keyOf c node) st)) := rfl

/-- The meaning of a `try`, likewise. -/
def meaning (n : Nat) (hs : List (Option Nat × (Exn → S → S) × Stmt S V)) (els : Stmt S V) (r : Option (Res V × S)) : Option (Res V × S) :=
  match r with
  | none => none
  | some (.norm, m) => eval n els m
  | some (.exc e, m) =>
    match hs.find? (fun h => accepts e.id e.bases h.1) with
    | none => some (.exc e, m)
    | some (_, bind, h) => eval n h (bind e m)
  | some (r, m) => some (r, m)

def withFinally (n : Nat) (fin : Option (Stmt S V)) (x : Option (Res V × S)) : Option (Res V × S) :=
  match x with
  | none => none
  | some (r, m) => finally_ n fin r m

theorem eval_try (n : Nat) (node : Nat) (body : Stmt S V) (hs : List (Option Nat × (Exn → S → S) × Stmt S V)) (els : Stmt S V)
    (fin : Option (Stmt S V)) (m : S) :
    eval (n + 1) (.try_ node body hs els fin) m = withFinally n fin (meaning n hs els (eval n body m)) := by
  have h : eval (n + 1) (.try_ node body hs els fin) m =
    match fin with
    | none => meaning n hs els (eval n body m)
    | some f =>
      match meaning n hs els (eval n body m) with
      | none => none
      | some (r, m) =>
        match eval n f m with
        | some (.norm, m) => some (r, m)
        | r' => r' := rfl
  rw [h]
  generalize meaning n hs els (eval n body m) = x
  cases fin <;> rcases x with _ | ⟨r, m⟩ <;> rfl

/-! ## The `try` -/

section tries
variable {n : Nat} {c : Ctx} {par lp : Bool} {key : Nat} {fin : Option (Stmt S V)}

/-- What holds of a `try` that is good. -/
structure Here (c : Ctx) (par lp : Bool) (key : Nat) (fin : Option (Stmt S V)) : Prop where
  ok : CtxOK c par false lp
  hk : ∀ k, HasKey c k → k = key
  hk2 : ∀ k, HasKey c k → HasKey c key
  plain : ∀ f, fin = some f → Plain false f

theorem others_body (h : Here c par lp key fin) {b : Bool} {own : Types} {ρ : Nat → Regs V} (ho : Others (.body key b own :: c) ρ) : Others c ρ := by
  intro k k' h1 h2
  refine ho k k' h1.cons fun h3 => h2 ?_
  rcases hasKey_body.mp h3 with rfl | h3
  · exact h.hk2 _ h1
  · exact h3

theorem others_set {f : Regs V → Regs V} {st : St S V} (h : Here c par lp key fin) (ho : Others c st.regs) : Others c (setRegs st key f).regs := by
  intro k k' h1 h2
  have : k ≠ key := fun hx => h2 (hx ▸ h.hk2 _ h1)
  simpa [setRegs, this] using ho k k' h1 h2

theorem others_calm {ρ : Nat → Regs V} (h : Calm ρ) : Others c ρ := fun k _ _ _ => ⟨h.depth k, h.flag k⟩

theorem after_ok (h : Here c par lp key fin) {x : Option (Res V × S)} {y : Option (Out V × St S V)}
    (hxy : Agree (cPart c key fin) par fin.isSome x y) : Agree c par false (withFinally n fin x) (after n c key fin y) := by
  have hn : noPart c := h.ok.open_ rfl
  rcases x with _ | ⟨r, m⟩ <;> rcases y with _ | ⟨o, st⟩
  · trivial
  · exact hxy.elim
  · exact hxy.elim
  obtain ⟨hm, hr⟩ := hxy
  subst hm
  by_cases hb : fin.isSome = false
  · have hc : cPart c key fin = c := by simp [cPart, hb]
    have hfin : fin = none := by cases fin <;> simp_all
    subst hfin
    rw [hc] at hr
    cases o with
    | fall =>
      cases r with
      | norm => exact atFin_ok (n := n) h.plain .norm (others_calm hr.2) fun m => finish_norm hr.2
      | brk =>
        obtain ⟨_, _, l, _, ⟨h1, _⟩ | ⟨_, _, h1, _⟩⟩ := hr <;> cases h1
      | cont =>
        obtain ⟨_, _, l, _, ⟨h1, _⟩ | ⟨_, _, h1, _⟩⟩ := hr <;> cases h1
      | ret v =>
        obtain ⟨_, _, _, h1⟩ := hr
        split at h1
        · cases h1
        · cases h1.1
      | exc e =>
        obtain ⟨_, _, h1 | ⟨_, _, _, _, _, _, _, ⟨h1, _⟩ | ⟨h1, _⟩⟩⟩ := hr <;> cases h1
    | jump j =>
      have : after n c key (none : Option (Stmt S V)) (some (.jump j, st)) = some (.jump j, st) := by
        cases j <;> rfl
      rw [this]
      exact ⟨rfl, hr⟩
  · have hb' : fin.isSome = true := by cases hx : fin.isSome <;> simp_all
    have hc : cPart c key fin = .part key :: c := by simp [cPart, hb']
    rw [hc, hb'] at hr
    cases r with
    | norm =>
      obtain ⟨rfl, hcalm⟩ := hr
      exact atFin_ok h.plain .norm (others_calm hcalm) fun m => finish_norm hcalm
    | ret v => cases hr.1
    | brk =>
      obtain ⟨hd, ho, l, hl, ⟨_, h1, _⟩ | ⟨q, k, rfl, hlq, hq, hfl, hs⟩⟩ := hr
      · have := h1 c.length key rfl
        have := innerLoop_lt (c := c) hl
        omega
      · have hqk : q = c.length ∧ k = key := by
          rcases hq with hq | ⟨hq, h2⟩
          · cases hq; exact ⟨rfl, rfl⟩
          · have := innerTry_lt (c := c) hq
            have := h2 c.length key rfl
            omega
        obtain ⟨rfl, rfl⟩ := hqk
        have ho' : ∀ k1, k1 ≠ k → CF (st.regs k1) := fun k1 h1 => ho k1 fun h2 => h1 ((hasKey_part.mp h2).elim id (h.hk k1))
        have : after n c k fin (some (.jump (.fin c.length), st)) = atFin n c k fin st := by simp [after, hb']
        rw [this]
        exact atFin_ok h.plain .brk (fun k1 k' h1 h2 => ⟨hd k1, ho' k1 fun hx => h2 (hx ▸ h.hk2 _ h1)⟩)
          fun m => (finish_loop (st := { st with mem := m }) hn hd ho' hl hs h.hk).1 hfl
    | cont =>
      obtain ⟨hd, ho, l, hl, ⟨_, h1, _⟩ | ⟨q, k, rfl, hlq, hq, hfl, hs⟩⟩ := hr
      · have := h1 c.length key rfl
        have := innerLoop_lt (c := c) hl
        omega
      · have hqk : q = c.length ∧ k = key := by
          rcases hq with hq | ⟨hq, h2⟩
          · cases hq; exact ⟨rfl, rfl⟩
          · have := innerTry_lt (c := c) hq
            have := h2 c.length key rfl
            omega
        obtain ⟨rfl, rfl⟩ := hqk
        have ho' : ∀ k1, k1 ≠ k → CF (st.regs k1) := fun k1 h1 => ho k1 fun h2 => h1 ((hasKey_part.mp h2).elim id (h.hk k1))
        have : after n c k fin (some (.jump (.fin c.length), st)) = atFin n c k fin st := by simp [after, hb']
        rw [this]
        exact atFin_ok h.plain .cont (fun k1 k' h1 h2 => ⟨hd k1, ho' k1 fun hx => h2 (hx ▸ h.hk2 _ h1)⟩)
          fun m => (finish_loop (st := { st with mem := m }) hn hd ho' hl hs h.hk).2 hfl
    | exc e =>
      obtain ⟨hp, ho, h1 | ⟨_, _, _, _, h1, _⟩⟩ := hr
      · have ht : innerTry c = none := by
          have h2 := h.ok.par
          rw [hp rfl] at h2
          cases hx : innerTry c with
          | none => rfl
          | some x => rw [hx] at h2; cases h2
        have hl : (landing (.part key :: c) e : Jump V) = .finExc c.length e := by
          simp only [landing, innerFin, innerTry, ht]
        rw [hl] at h1
        subst h1
        have : after n c key fin (some (.jump (.finExc c.length e), st)) = atFinExc n c key fin e st := by simp [after, hb']
        rw [this]
        have := atFin_ok (n := n) (c := c) (par := par) (key := key) h.plain
          (st := setRegs st key fun r => { r with store := some (e, 0), flag := .rethrow, depth := (tryStack c).length }) (.exc e)
          (fun k k' h1 => absurd ht (by obtain ⟨p, k2, h⟩ := hasKey_some hn h1; simp [h]))
          (fun m => by
            rw [hb']
            exact finish_rethrow (e := e) (sel := 0) ht (by simp [setRegs]) hn (by simp [setRegs]))
        exact this
      · cases h1

theorem find_of_findIdx {hs : List (Option Nat × (Exn → S → S) × Stmt S V)} {p : Option Nat → Bool} {i : Nat} (h : (hs.map (·.1)).findIdx? p = some i) :
    ∃ x ∈ hs, hs[i]? = some x ∧ hs.find? (fun h => p h.1) = some x := by
  induction hs generalizing i with
  | nil => cases h
  | cons a t ih =>
    rw [List.map_cons, List.findIdx?_cons] at h
    by_cases hp : p a.1
    · rw [if_pos hp] at h
      cases h
      exact ⟨a, List.mem_cons_self .., rfl, List.find?_cons_of_pos (p := fun h : Option Nat × (Exn → S → S) × Stmt S V => p h.1) hp⟩
    · rw [if_neg hp] at h
      cases hj : (t.map (·.1)).findIdx? p with
      | none => rw [hj] at h; cases h
      | some j =>
        rw [hj] at h
        cases h
        obtain ⟨x, h1, h2, h3⟩ := ih hj
        exact ⟨x, List.mem_cons_of_mem _ h1, by simpa using h2, (List.find?_cons_of_neg (p := fun h : Option Nat × (Exn → S → S) × Stmt S V => p h.1) hp).trans h3⟩

theorem find_none {hs : List (Option Nat × (Exn → S → S) × Stmt S V)} {p : Option Nat → Bool} (h : (hs.map (·.1)).findIdx? p = none) :
    hs.find? (fun h => p h.1) = none := by
  rw [List.findIdx?_eq_none_iff] at h
  rw [List.find?_eq_none]
  intro x hx
  simpa using h x.1 (List.mem_map_of_mem hx)

/-- A statement agrees with its code in every state where nothing is under way. -/
def AgreeAll (n : Nat) (c : Ctx) (par part : Bool) (s : Stmt S V) : Prop :=
  ∀ st : St S V, Calm st.regs → Agree c par part (eval n s st.mem) (run n c s st)

theorem transit_none {e : Exn} {sel depth : Nat} {own : Types} {parents : List Types} (h : Transit e sel true depth (own :: parents)) :
    own.findIdx? (accepts e.id e.bases) = none := by
  cases hx : own.findIdx? (accepts e.id e.bases) with
  | none => rfl
  | some j =>
    unfold Transit at h
    rw [expected_own hx] at h
    simp [go] at h

variable {hs : List (Option Nat × (Exn → S → S) × Stmt S V)}

theorem thrown_fin_ok (h : Here c par lp key fin) {st : St S V} {e : Exn} {sel : Nat} (ho : Others c st.regs) (hfl : (st.regs key).flag = .thrown)
    (hs : (st.regs key).store = some (e, sel)) {own : Types} (hT : Transit e sel true (st.regs key).depth (own :: tryStack c)) :
    Agree c par false (finally_ n fin (.exc e) st.mem) (atFin n c key fin st) :=
  atFin_ok h.plain _ ho fun m => finish_thrown (st := { st with mem := m }) (h.ok.open_ rfl) ho hfl hs h.hk hT (transit_none hT)

theorem route_ok (h : Here c par lp key fin) (hh : ∀ x ∈ hs, AgreeAll n (cPart c key fin) par fin.isSome x.2.2) {els : Stmt S V}
    {st : St S V} {e : Exn} {sel : Nat} (ho : ∀ k, k ≠ key → (st.regs k).depth = 0 ∧ CF (st.regs k)) (hfl : (st.regs key).flag = .thrown)
    (hst : (st.regs key).store = some (e, sel)) (hT : Transit e sel false (st.regs key).depth (hs.map (·.1) :: tryStack c)) :
    Agree c par false (withFinally n fin (meaning n hs els (some (.exc e, st.mem)))) (atRoute n c key hs fin st) := by
  have hd := transit_route hT
  have ho' : Others c st.regs := fun k k' h1 h2 => ho k fun hx => h2 (hx ▸ h.hk2 _ h1)
  unfold atRoute
  rw [hst]
  dsimp only
  cases hx : dispatch (hs.map (·.1)) (tryStack c) sel (st.regs key).depth with
  | inr d =>
    rw [hx] at hd
    obtain ⟨h1, h2⟩ := hd
    have h3 : meaning n hs els (some (.exc e, st.mem)) = some (.exc e, st.mem) := by
      simp only [meaning, find_none h1]
    rw [h3]
    exact thrown_fin_ok (sel := sel) (own := hs.map (·.1)) (st := setRegs st key fun r => { r with depth := d }) h (others_set h ho') (by simp [setRegs, hfl]) (by simp [setRegs, hst])
      (by simpa [setRegs] using h2)
  | inl i =>
    rw [hx] at hd
    obtain ⟨⟨t, bind, b⟩, h1, h2, h3⟩ := find_of_findIdx hd
    have h4 : meaning n hs els (some (.exc e, st.mem)) = eval n b (bind e st.mem) := by
      simp only [meaning, h3]
    rw [h4]
    dsimp only
    rw [h2]
    dsimp only
    refine after_ok h (hh _ h1 ⟨bind e st.mem, (setRegs st key fun r => { r with depth := 0, flag := .caught }).regs⟩ ⟨fun k => ?_, fun k => ?_⟩)
    · by_cases hk : k = key
      · simp [setRegs, hk]
      · simpa [setRegs, hk] using (ho k hk).1
    · by_cases hk : k = key
      · simp [setRegs, hk, CF]
      · simpa [setRegs, hk] using (ho k hk).2

theorem body_ok (h : Here c par lp key fin) (hh : ∀ x ∈ hs, AgreeAll n (cPart c key fin) par fin.isSome x.2.2)
    (hpos : ∀ x ∈ hs, x.1 ≠ some 0) {els : Stmt S V} (he : AgreeAll n (cPart c key fin) par fin.isSome els)
    {x : Option (Res V × S)} {y : Option (Out V × St S V)} (hxy : Agree (.body key fin.isSome (hs.map (·.1)) :: c) true false x y) :
    Agree c par false (withFinally n fin (meaning n hs els x)) (afterBody n c key hs els fin y) := by
  have hn : noPart c := h.ok.open_ rfl
  have hn' : noPart (.body key fin.isSome (hs.map (·.1)) :: c) := fun k hk => by
    rcases List.mem_cons.mp hk with hk | hk
    · cases hk
    · exact hn k hk
  rcases x with _ | ⟨r, m⟩ <;> rcases y with _ | ⟨o, st⟩
  · trivial
  · exact hxy.elim
  · exact hxy.elim
  obtain ⟨hm, hr⟩ := hxy
  subst hm
  cases r with
  | norm =>
    obtain ⟨rfl, hcalm⟩ := hr
    exact after_ok h (he st hcalm)
  | ret v =>
    obtain ⟨_, hd, ho, ho2, hfl, hret⟩ := hr
    subst ho2
    have : afterBody n c key hs els fin (some (.jump (.fin c.length), st)) = atFin n c key fin st := by simp [afterBody]
    rw [this]
    exact atFin_ok h.plain (.ret v) (others_body h ho) fun m => finish_ret (st := { st with mem := m }) hd (others_body h ho) hfl hret h.hk
  | brk =>
    obtain ⟨hd, ho, l, hl, ⟨rfl, h1, hcf⟩ | ⟨q, k, rfl, hlq, hq, hfl, hs'⟩⟩ := hr
    · have hfin : fin = none := by
        cases fin with
        | none => rfl
        | some f =>
          have := h1 c.length key rfl
          have := innerLoop_lt (c := c) hl
          omega
      subst hfin
      exact ⟨rfl, hd, fun k _ => hcf k, l, hl, Or.inl ⟨rfl, h1, hcf⟩⟩
    · have ho' : ∀ k1, k1 ≠ key → CF (st.regs k1) := fun k1 h1 => ho k1 fun h2 => h1 ((hasKey_body.mp h2).elim id (h.hk k1))
      by_cases hqp : q = c.length
      · have hkk : k = key := by
          rcases hq with hq | ⟨hq, _⟩
          · rcases hasKey_body.mp (hasKey_fin hq) with h1 | h1
            · exact h1
            · exact h.hk k h1
          · cases hq; rfl
        subst hkk hqp
        have : afterBody n c k hs els fin (some (.jump (.fin c.length), st)) = atFin n c k fin st := by simp [afterBody]
        rw [this]
        exact atFin_ok h.plain .brk (fun k1 k' h1 h2 => ⟨hd k1, ho' k1 fun hx => h2 (hx ▸ h.hk2 _ h1)⟩)
          fun m => (finish_loop (st := { st with mem := m }) hn hd ho' hl hs' h.hk).1 hfl
      · have hfin : fin = none := by
          cases fin with
          | none => rfl
          | some f =>
            rcases hq with hq | ⟨hq, _⟩
            · cases hq; exact absurd rfl hqp
            · cases hq; exact absurd rfl hqp
        subst hfin
        have hq' : innerFin c = some (q, k) := by
          rcases hq with hq | ⟨hq, _⟩
          · exact hq
          · cases hq; exact absurd rfl hqp
        have : afterBody n c key hs els (none : Option (Stmt S V)) (some (.jump (.fin q), st)) = some (.jump (.fin q), st) := by simp [afterBody, hqp]
        rw [this]
        refine ⟨rfl, hd, fun k1 h1 => ho k1 fun h2 => h1 ?_, l, hl, Or.inr ⟨q, k, rfl, hlq, Or.inl hq', hfl, hs'⟩⟩
        rcases hasKey_body.mp h2 with rfl | h2
        · exact h.hk2 _ (hasKey_fin hq')
        · exact h2
  | cont =>
    obtain ⟨hd, ho, l, hl, ⟨rfl, h1, hcf⟩ | ⟨q, k, rfl, hlq, hq, hfl, hs'⟩⟩ := hr
    · have hfin : fin = none := by
        cases fin with
        | none => rfl
        | some f =>
          have := h1 c.length key rfl
          have := innerLoop_lt (c := c) hl
          omega
      subst hfin
      exact ⟨rfl, hd, fun k _ => hcf k, l, hl, Or.inl ⟨rfl, h1, hcf⟩⟩
    · have ho' : ∀ k1, k1 ≠ key → CF (st.regs k1) := fun k1 h1 => ho k1 fun h2 => h1 ((hasKey_body.mp h2).elim id (h.hk k1))
      by_cases hqp : q = c.length
      · have hkk : k = key := by
          rcases hq with hq | ⟨hq, _⟩
          · rcases hasKey_body.mp (hasKey_fin hq) with h1 | h1
            · exact h1
            · exact h.hk k h1
          · cases hq; rfl
        subst hkk hqp
        have : afterBody n c k hs els fin (some (.jump (.fin c.length), st)) = atFin n c k fin st := by simp [afterBody]
        rw [this]
        exact atFin_ok h.plain .cont (fun k1 k' h1 h2 => ⟨hd k1, ho' k1 fun hx => h2 (hx ▸ h.hk2 _ h1)⟩)
          fun m => (finish_loop (st := { st with mem := m }) hn hd ho' hl hs' h.hk).2 hfl
      · have hfin : fin = none := by
          cases fin with
          | none => rfl
          | some f =>
            rcases hq with hq | ⟨hq, _⟩
            · cases hq; exact absurd rfl hqp
            · cases hq; exact absurd rfl hqp
        subst hfin
        have hq' : innerFin c = some (q, k) := by
          rcases hq with hq | ⟨hq, _⟩
          · exact hq
          · cases hq; exact absurd rfl hqp
        have : afterBody n c key hs els (none : Option (Stmt S V)) (some (.jump (.fin q), st)) = some (.jump (.fin q), st) := by simp [afterBody, hqp]
        rw [this]
        refine ⟨rfl, hd, fun k1 h1 => ho k1 fun h2 => h1 ?_, l, hl, Or.inr ⟨q, k, rfl, hlq, Or.inl hq', hfl, hs'⟩⟩
        rcases hasKey_body.mp h2 with rfl | h2
        · exact h.hk2 _ (hasKey_fin hq')
        · exact h2
  | exc e =>
    obtain ⟨_, ho, h1⟩ := hr
    have hoK : ∀ k, k ≠ key → (st.regs k).depth = 0 ∧ CF (st.regs k) := fun k hk =>
      ho k key (hasKey_body.mpr (Or.inl rfl)) fun h2 => hk ((hasKey_body.mp h2).elim id (h.hk k))
    rcases h1 with rfl | ⟨p, k, sel, ht, _, hfl, hst, ⟨rfl, hT⟩ | ⟨rfl, hT⟩⟩
    · rw [landing_open hn' (p := c.length) (k := key) rfl]
      have : afterBody n c key hs els fin (some (.jump (.exc c.length e), st)) = atExc n c key hs fin e st := by simp [afterBody]
      rw [this]
      refine route_ok (sel := selector e (hs.map (·.1)) (tryStack c)) h hh (els := els) (st := setRegs st key fun r =>
        { r with store := some (e, selector e (hs.map (·.1)) (tryStack c)), flag := .thrown, depth := (tryStack c).length })
        (fun k hk => by simpa [setRegs, hk] using hoK k hk) (by simp [setRegs]) (by simp [setRegs]) ?_
      simp only [setRegs, if_true]
      refine transit_start e _ _ fun p hp => ?_
      rcases List.mem_cons.mp hp with rfl | hp
      · intro h0
        obtain ⟨x, hx, hx2⟩ := List.mem_map.mp h0
        exact hpos x hx hx2
      · exact h.ok.pos p hp
    · cases ht
      have : afterBody n c key hs els fin (some (.jump (.route c.length), st)) = atRoute n c key hs fin st := by simp [afterBody]
      rw [this]
      exact route_ok h hh hoK hfl hst hT
    · cases ht
      have : afterBody n c key hs els fin (some (.jump (.fin c.length), st)) = atFin n c key fin st := by simp [afterBody]
      rw [this]
      have h3 : meaning n hs els (some (.exc e, st.mem)) = some (.exc e, st.mem) := by
        simp only [meaning, find_none (transit_none (own := hs.map (·.1)) hT)]
      rw [h3]
      have hT' : Transit e sel true (st.regs key).depth (hs.map (fun x => x.1) :: tryStack c) := hT
      have h4 := thrown_fin_ok (n := n) h (others_body h ho) hfl hst hT'
      exact h4

end tries

/-! ## All statements -/

theorem entry_calm (c : Ctx) (key : Nat) (st : St S V) (h : Calm st.regs) : Calm (entry c key st).regs ∧ (entry c key st).mem = st.mem := by
  unfold entry
  constructor
  · constructor
    · intro k
      have := h.depth k
      by_cases hk : k = key
      · subst hk
        split_ifs <;> simp [setRegs, Regs.init, *]
      · split_ifs <;> simp [setRegs, *]
    · intro k
      have := h.flag k
      by_cases hk : k = key
      · subst hk
        split_ifs <;> simp_all [setRegs, Regs.init, CF]
      · have h2 : ∀ (st' : St S V) f, (setRegs st' key f).regs k = st'.regs k := fun _ _ => if_neg hk
        split_ifs <;> simp only [h2] <;> exact this
  · split_ifs <;> rfl

theorem here_of {c : Ctx} {par lp : Bool} {fin : Option (Stmt S V)} (node : Nat) (hc : CtxOK c par false lp) (hp : ∀ f, fin = some f → Plain false f) :
    Here c par lp (keyOf c node) fin := by
  have hn := hc.open_ rfl
  have h2 : ∀ k, HasKey c k → HasKey c (keyOf c node) := fun k hk => by
    obtain ⟨p, k', h1⟩ := hasKey_some hn hk
    simp only [keyOf, h1]
    exact hasKey_try h1
  exact ⟨hc, fun k hk => hc.keys _ _ hk (h2 k hk), h2, hp⟩

theorem ctx_body {c : Ctx} {par lp : Bool} {fin : Option (Stmt S V)} {key : Nat} (h : Here c par lp key fin) (own : Types) (hpos : some 0 ∉ own) :
    CtxOK (.body key fin.isSome own :: c) true false lp where
  par := rfl
  lp := h.ok.lp
  keys := fun k k' h1 h2 => by
    rw [hasKey_body] at h1 h2
    have : ∀ k, (k = key ∨ HasKey c k) → k = key := fun k hk => hk.elim id (h.hk k)
    rw [this k h1, this k' h2]
  pos := fun p hp => by
    rcases List.mem_cons.mp hp with rfl | hp
    · exact hpos
    · exact h.ok.pos p hp
  open_ := fun _ k hk => by
    rcases List.mem_cons.mp hk with hk | hk
    · cases hk
    · exact h.ok.open_ rfl k hk
  shut := nofun

theorem ctx_part {c : Ctx} {par lp : Bool} {fin : Option (Stmt S V)} {key : Nat} (h : Here c par lp key fin) : CtxOK (cPart c key fin) par fin.isSome lp := by
  cases fin with
  | none => exact h.ok
  | some f =>
    exact {
      par := h.ok.par
      lp := h.ok.lp
      keys := fun k k' h1 h2 => by
        have : ∀ k, (k = key ∨ HasKey c k) → k = key := fun k hk => hk.elim id (h.hk k)
        rw [this k (hasKey_part.mp h1), this k' (hasKey_part.mp h2)]
      pos := h.ok.pos
      open_ := nofun
      shut := fun _ => ⟨c.length, key, rfl, fun p k' hp => innerTry_lt (c := c) hp⟩ }

theorem ctx_loop {c : Ctx} {par part lp : Bool} (h : CtxOK c par part lp) : CtxOK (.loop :: c) par part true where
  par := h.par
  lp := rfl
  keys := fun k k' h1 h2 => h.keys k k' (hasKey_loop.mp h1) (hasKey_loop.mp h2)
  pos := h.pos
  open_ := fun hp k hk => by
    rcases List.mem_cons.mp hk with hk | hk
    · cases hk
    · exact h.open_ hp k hk
  shut := h.shut

theorem leave_ok {c : Ctx} {st : St S V} (hcalm : Calm st.regs) {l : Nat} (hl : innerLoop c = some l) (fl : Flag) (dir : Nat → Jump V) :
    Leave c fl dir (.jump (leaveLoop c st fl dir).1) (leaveLoop c st fl dir).2.regs ∧ (leaveLoop c st fl dir).2.mem = st.mem := by
  unfold leaveLoop
  rw [hl]
  dsimp only
  cases hf : innerFin c with
  | none => exact ⟨⟨hcalm.depth, fun k _ => hcalm.flag k, l, hl, Or.inl ⟨rfl, by simp [hf], hcalm.flag⟩⟩, rfl⟩
  | some x =>
    obtain ⟨q, k⟩ := x
    dsimp only
    by_cases hq : q < l
    · rw [if_pos hq]
      refine ⟨⟨hcalm.depth, fun k _ => hcalm.flag k, l, hl, Or.inl ⟨rfl, fun q' k' h => ?_, hcalm.flag⟩⟩, rfl⟩
      rw [hf] at h; cases h; exact hq
    · rw [if_neg hq]
      have := innerFin_ne_loop hf hl
      refine ⟨⟨fun k' => ?_, fun k' hk' => ?_, l, hl, Or.inr ⟨q, k, rfl, by omega, Or.inl hf, by simp [setRegs], by simp [setRegs]⟩⟩, rfl⟩
      · have := hcalm.depth k'
        by_cases hk : k' = k
        · subst hk; simpa [setRegs] using this
        · simpa [setRegs, hk] using this
      · have hk : k' ≠ k := fun h => hk' (h ▸ hasKey_fin hf)
        simpa [setRegs, hk] using hcalm.flag k'

/-- A statement in a loop does not jump to a `finally` part on its `break`. -/
theorem leave_loop {c : Ctx} {fl : Flag} {dir : Nat → Jump V} {o : Out V} {ρ : Nat → Regs V} (h : Leave (.loop :: c) fl dir o ρ) :
    o = .jump (dir c.length) ∧ Calm ρ := by
  obtain ⟨hd, _, l, hl, ⟨rfl, _, hcf⟩ | ⟨q, k, _, hlq, hq, _⟩⟩ := h
  · cases hl
    exact ⟨rfl, hd, hcf⟩
  · cases hl
    exfalso
    rcases hq with hq | ⟨hq, _⟩
    · have := innerFin_lt (c := c) hq; omega
    · have := innerTry_lt (c := c) hq; omega

theorem agree_all : ∀ (n : Nat) {c : Ctx} {par part lp : Bool} {s : Stmt S V}, Good par part lp s → CtxOK c par part lp → AgreeAll n c par part s
  | 0, _, _, _, _, _, _, _ => fun _ _ => trivial
  | n + 1, c, par, part, lp, s, h, hc => by
    intro st hcalm
    cases h with
    | act hr =>
      rename_i f
      simp only [run, eval]
      rcases hf : f st.mem with ⟨m, _ | e⟩
      · exact ⟨rfl, rfl, hcalm⟩
      · refine ⟨rfl, fun h1 => ?_, others_calm hcalm, Or.inl rfl⟩
        cases hp : par with
        | false => rfl
        | true =>
          have := hr h1 hp st.mem
          rw [hf] at this
          cases this
    | skip => exact ⟨rfl, rfl, hcalm⟩
    | seq ha hb =>
      rename_i a b
      have h1 := agree_all n ha hc st hcalm
      simp only [run, eval]
      rcases hx : eval n a st.mem with _ | ⟨r, m⟩ <;> rcases hy : run n c a st with _ | ⟨o, st'⟩ <;> rw [hx, hy] at h1
      · trivial
      · exact h1.elim
      · exact h1.elim
      obtain ⟨hm, hr⟩ := h1
      subst hm
      cases r with
      | norm =>
        obtain ⟨rfl, hcalm'⟩ := hr
        exact agree_all n hb hc st' hcalm'
      | brk =>
        obtain ⟨_, _, l, _, ⟨rfl, _⟩ | ⟨_, _, rfl, _⟩⟩ := id hr <;> exact ⟨rfl, hr⟩
      | cont =>
        obtain ⟨_, _, l, _, ⟨rfl, _⟩ | ⟨_, _, rfl, _⟩⟩ := id hr <;> exact ⟨rfl, hr⟩
      | ret v =>
        obtain ⟨_, _, _, h1⟩ := id hr
        split at h1
        · subst h1; exact ⟨rfl, hr⟩
        · obtain ⟨rfl, _⟩ := h1; exact ⟨rfl, hr⟩
      | exc e =>
        obtain ⟨_, _, rfl | ⟨_, _, _, _, _, _, _, ⟨rfl, _⟩ | ⟨rfl, _⟩⟩⟩ := id hr <;> exact ⟨rfl, hr⟩
    | ite ha hb =>
      simp only [run, eval]
      split
      · exact agree_all n ha hc st hcalm
      · exact agree_all n hb hc st hcalm
    | loop hb =>
      rename_i t b
      simp only [run, eval]
      split
      · have h1 := agree_all n hb (ctx_loop hc) st hcalm
        rcases hx : eval n b st.mem with _ | ⟨r, m⟩ <;> rcases hy : run n (.loop :: c) b st with _ | ⟨o, st'⟩ <;> rw [hx, hy] at h1
        · trivial
        · exact h1.elim
        · exact h1.elim
        obtain ⟨hm, hr⟩ := h1
        subst hm
        cases r with
        | norm =>
          obtain ⟨rfl, hcalm'⟩ := hr
          exact agree_all n (.loop hb) hc st' hcalm'
        | brk =>
          obtain ⟨rfl, hcalm'⟩ := leave_loop hr
          simp only [if_true]
          exact ⟨rfl, rfl, hcalm'⟩
        | cont =>
          obtain ⟨rfl, hcalm'⟩ := leave_loop hr
          simp only [if_true]
          exact agree_all n (.loop hb) hc st' hcalm'
        | ret v =>
          obtain ⟨hp, hd, ho, h1⟩ := hr
          have ho' : Others c st'.regs := fun k k' h1 h2 => ho k k' h1.cons fun h3 => h2 (hasKey_loop.mp h3)
          change match innerTry c with | none => _ | some (p, k) => _ at h1
          cases ht : innerTry c with
          | none => rw [ht] at h1; subst h1; exact ⟨rfl, hp, hd, ho', by rw [ht]⟩
          | some x =>
            obtain ⟨p, k⟩ := x
            rw [ht] at h1
            obtain ⟨rfl, h2⟩ := h1
            exact ⟨rfl, hp, hd, ho', by rw [ht]; exact ⟨rfl, h2⟩⟩
        | exc e =>
          obtain ⟨hp, ho, h1⟩ := hr
          have ho' : Others c st'.regs := fun k k' h1 h2 => ho k k' h1.cons fun h3 => h2 (hasKey_loop.mp h3)
          have hrel : Rel c par part (.exc e) o st'.regs := ⟨hp, ho', h1⟩
          rcases h1 with rfl | ⟨_, _, _, _, _, _, _, ⟨rfl, _⟩ | ⟨rfl, _⟩⟩
          · rw [landing_loop] at hrel ⊢
            have : ∀ p, (landing c e : Jump V) ≠ .cont p ∧ (landing c e : Jump V) ≠ .brk p := fun p => by
              unfold landing
              repeat' split
              all_goals simp
            cases hj : (landing c e : Jump V) with
            | cont p => exact absurd hj (this p).1
            | brk p => exact absurd hj (this p).2
            | _ => rw [hj] at hrel; exact ⟨rfl, hrel⟩
          · exact ⟨rfl, hrel⟩
          · exact ⟨rfl, hrel⟩
      · exact ⟨rfl, rfl, hcalm⟩
    | brk =>
      obtain ⟨l, hl⟩ := Option.isSome_iff_exists.mp hc.lp.symm
      obtain ⟨h1, h2⟩ := leave_ok hcalm hl .brk .brk
      exact ⟨h2, h1⟩
    | cont =>
      obtain ⟨l, hl⟩ := Option.isSome_iff_exists.mp hc.lp.symm
      obtain ⟨h1, h2⟩ := leave_ok hcalm hl .cont .cont
      exact ⟨h2, h1⟩
    | ret =>
      rename_i v
      simp only [run, eval, leaveFun]
      cases ht : innerTry c with
      | none => exact ⟨rfl, rfl, hcalm.depth, others_calm hcalm, by rw [ht]⟩
      | some x =>
        obtain ⟨p, k⟩ := x
        refine ⟨rfl, rfl, fun k' => ?_, fun k1 k' h1 h2 => ?_, ?_⟩
        · have := hcalm.depth k'
          by_cases hk : k' = k
          · subst hk; simpa [setRegs] using this
          · simpa [setRegs, hk] using this
        · have hk : k1 ≠ k := fun h => h2 (h ▸ hasKey_try ht)
          have h3 := hcalm.depth k1
          have h4 := hcalm.flag k1
          constructor
          · simpa [setRegs, hk] using h3
          · simpa [setRegs, hk] using h4
        · rw [ht]
          simp [setRegs]
    | try_ hb h0 hh he hp =>
      rename_i node body hs els fin
      have here := here_of node hc hp
      have hpart := ctx_part here
      rw [run_try, eval_try]
      obtain ⟨hcalm', hm⟩ := entry_calm c (keyOf c node) st hcalm
      rw [← hm]
      refine body_ok here (fun x hx => agree_all n (hh x hx) hpart) h0 (agree_all n he hpart) ?_
      refine agree_all n hb (ctx_body here _ ?_) _ hcalm'
      intro hx
      obtain ⟨y, hy, hy2⟩ := List.mem_map.mp hx
      exact h0 y hy hy2

theorem runFun_eq (n : Nat) {s : Stmt S V} (h : Good false false false s) (m : S) : runFun n s m = evalFun n s m := by
  have hn : noPart [] := fun k hk => by cases hk
  have := agree_all n h (c := []) ⟨rfl, rfl, (fun k k' hk => by rcases hk with ⟨_, _, h⟩ | h <;> cases h), (fun p hp => by cases hp), fun _ => hn, nofun⟩
    ⟨m, fun _ => Regs.init⟩ ⟨fun _ => rfl, fun _ => Or.inl rfl⟩
  unfold runFun evalFun
  dsimp only at this
  rcases hx : eval n s m with _ | ⟨r, m'⟩ <;> rcases hy : run n [] s ⟨m, fun _ => Regs.init⟩ with _ | ⟨o, st'⟩ <;> rw [hx, hy] at this
  · rfl
  · exact this.elim
  · exact this.elim
  obtain ⟨rfl, hr⟩ := this
  cases r with
  | norm => obtain ⟨rfl, _⟩ := hr; rfl
  | brk => obtain ⟨_, _, l, hl, _⟩ := hr; cases hl
  | cont => obtain ⟨_, _, l, hl, _⟩ := hr; cases hl
  | ret v => obtain ⟨_, _, _, rfl⟩ := hr; rfl
  | exc e =>
    obtain ⟨_, _, rfl | ⟨_, _, _, h, _⟩⟩ := hr
    · rfl
    · cases h

end Codon.Exc.Try
