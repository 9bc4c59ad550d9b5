import Verif.Exc.TrySpec
namespace Codon.Exc.Try
universe u v
variable {S : Type u} {V : Type v}

/-! ## Positions -/

theorem innerTry_lt : ∀ {c : Ctx} {p k}, innerTry c = some (p, k) → p < c.length
  | .body _ _ _ :: c, p, k, h => by
    simp only [innerTry, Option.some.injEq, Prod.mk.injEq] at h
    simp [h.1.symm]
  | .loop :: c, p, k, h => Nat.lt_succ_of_lt (innerTry_lt (c := c) h)
  | .part _ :: c, p, k, h => Nat.lt_succ_of_lt (innerTry_lt (c := c) h)

theorem innerFin_lt : ∀ {c : Ctx} {p k}, innerFin c = some (p, k) → p < c.length
  | .body _ true _ :: c, p, k, h => by
    simp only [innerFin, Option.some.injEq, Prod.mk.injEq] at h
    simp [h.1.symm]
  | .body _ false _ :: c, p, k, h => Nat.lt_succ_of_lt (innerFin_lt (c := c) h)
  | .loop :: c, p, k, h => Nat.lt_succ_of_lt (innerFin_lt (c := c) h)
  | .part _ :: c, p, k, h => by
    simp only [innerFin, Option.some.injEq, Prod.mk.injEq] at h
    simp [h.1.symm]

theorem innerLoop_lt : ∀ {c : Ctx} {p}, innerLoop c = some p → p < c.length
  | .body _ _ _ :: c, p, h => Nat.lt_succ_of_lt (innerLoop_lt (c := c) h)
  | .loop :: c, p, h => by
    simp only [innerLoop, Option.some.injEq] at h
    simp [h.symm]
  | .part _ :: c, p, h => Nat.lt_succ_of_lt (innerLoop_lt (c := c) h)

theorem innerTry_ne_loop : ∀ {c : Ctx} {p k l}, innerTry c = some (p, k) → innerLoop c = some l → p ≠ l
  | .body _ _ _ :: c, p, k, l, h, h' => by
    simp only [innerTry, Option.some.injEq, Prod.mk.injEq] at h
    have := innerLoop_lt (c := c) h'
    omega
  | .loop :: c, p, k, l, h, h' => by
    simp only [innerLoop, Option.some.injEq] at h'
    have := innerTry_lt (c := c) h
    omega
  | .part _ :: c, p, k, l, h, h' => innerTry_ne_loop (c := c) h h'

theorem innerFin_ne_loop : ∀ {c : Ctx} {p k l}, innerFin c = some (p, k) → innerLoop c = some l → p ≠ l
  | .body _ true _ :: c, p, k, l, h, h' => by
    simp only [innerFin, Option.some.injEq, Prod.mk.injEq] at h
    have := innerLoop_lt (c := c) h'
    omega
  | .body _ false _ :: c, p, k, l, h, h' => innerFin_ne_loop (c := c) h h'
  | .loop :: c, p, k, l, h, h' => by
    simp only [innerLoop, Option.some.injEq] at h'
    have := innerFin_lt (c := c) h
    omega
  | .part _ :: c, p, k, l, h, h' => by
    simp only [innerFin, Option.some.injEq, Prod.mk.injEq] at h
    have := innerLoop_lt (c := c) h'
    omega

theorem isLoop_inner : ∀ {c : Ctx} {l}, innerLoop c = some l → isLoop c l = true
  | .body _ _ _ :: c, l, h => isLoop_inner (c := c) h
  | .loop :: c, l, h => by
    simp only [innerLoop, Option.some.injEq] at h
    simp [isLoop, h]
  | .part _ :: c, l, h => isLoop_inner (c := c) h

theorem tryStack_nil : ∀ {c : Ctx}, innerTry c = none → tryStack c = []
  | [], _ => rfl
  | .loop :: c, h => tryStack_nil (c := c) h
  | .part _ :: c, h => tryStack_nil (c := c) h

theorem tryStack_ne : ∀ {c : Ctx} {x}, innerTry c = some x → tryStack c ≠ []
  | .body _ _ _ :: c, _, _ => by simp [tryStack]
  | .loop :: c, _, h => tryStack_ne (c := c) h
  | .part _ :: c, _, h => tryStack_ne (c := c) h

/-- No frame of a handler or `else` part. -/
def noPart (c : Ctx) : Prop := ∀ k, Frame.part k ∉ c

theorem noPart.tail {fr : Frame} {c : Ctx} (h : noPart (fr :: c)) : noPart c := fun k hk => h k (List.mem_cons_of_mem _ hk)

theorem fin_le_try : ∀ {c : Ctx}, noPart c → ∀ {q k}, innerFin c = some (q, k) → ∃ p k', innerTry c = some (p, k') ∧ q ≤ p
  | .body _ true _ :: c, _, q, k, h => by
    simp only [innerFin, Option.some.injEq, Prod.mk.injEq] at h
    exact ⟨c.length, _, rfl, by omega⟩
  | .body _ false _ :: c, hn, q, k, h => ⟨c.length, _, rfl, by have := innerFin_lt (c := c) h; omega⟩
  | .loop :: c, hn, q, k, h => fin_le_try hn.tail (c := c) h
  | .part k' :: c, hn, q, k, h => absurd (List.mem_cons_self ..) (hn k')

/-- The key of a frame. -/
def HasKey (c : Ctx) (k : Nat) : Prop := (∃ b ts, Frame.body k b ts ∈ c) ∨ Frame.part k ∈ c

theorem HasKey.cons {fr : Frame} {c : Ctx} {k : Nat} (h : HasKey c k) : HasKey (fr :: c) k := by
  rcases h with ⟨b, ts, h⟩ | h
  · exact Or.inl ⟨b, ts, List.mem_cons_of_mem _ h⟩
  · exact Or.inr (List.mem_cons_of_mem _ h)

theorem hasKey_try : ∀ {c : Ctx} {p k}, innerTry c = some (p, k) → HasKey c k
  | .body _ b ts :: c, p, k, h => by
    simp only [innerTry, Option.some.injEq, Prod.mk.injEq] at h
    exact Or.inl ⟨b, ts, by rw [h.2]; exact List.mem_cons_self ..⟩
  | .loop :: c, p, k, h => (hasKey_try (c := c) h).cons
  | .part _ :: c, p, k, h => (hasKey_try (c := c) h).cons

theorem hasKey_fin : ∀ {c : Ctx} {p k}, innerFin c = some (p, k) → HasKey c k
  | .body _ true ts :: c, p, k, h => by
    simp only [innerFin, Option.some.injEq, Prod.mk.injEq] at h
    exact Or.inl ⟨true, ts, by rw [h.2]; exact List.mem_cons_self ..⟩
  | .body _ false ts :: c, p, k, h => (hasKey_fin (c := c) h).cons
  | .loop :: c, p, k, h => (hasKey_fin (c := c) h).cons
  | .part _ :: c, p, k, h => by
    simp only [innerFin, Option.some.injEq, Prod.mk.injEq] at h
    exact Or.inr (by rw [h.2]; exact List.mem_cons_self ..)

theorem hasKey_some : ∀ {c : Ctx}, noPart c → ∀ {k}, HasKey c k → ∃ p k', innerTry c = some (p, k')
  | .body k' _ _ :: c, _, _, _ => ⟨c.length, k', rfl⟩
  | .loop :: c, hn, k, h => hasKey_some (c := c) hn.tail (by
      rcases h with ⟨b, ts, h⟩ | h
      · rcases List.mem_cons.mp h with h | h
        · cases h
        · exact Or.inl ⟨b, ts, h⟩
      · exact absurd h (hn k))
  | .part k' :: c, hn, _, _ => absurd (List.mem_cons_self ..) (hn k')
  | [], _, _, h => by rcases h with ⟨_, _, h⟩ | h <;> cases h

theorem hasKey_loop {c : Ctx} {k : Nat} : HasKey (.loop :: c) k ↔ HasKey c k := by
  constructor
  · rintro (⟨b, ts, h⟩ | h)
    · rcases List.mem_cons.mp h with h | h
      · cases h
      · exact Or.inl ⟨b, ts, h⟩
    · rcases List.mem_cons.mp h with h | h
      · cases h
      · exact Or.inr h
  · exact HasKey.cons

theorem hasKey_body {c : Ctx} {key k : Nat} {b : Bool} {ts : Types} : HasKey (.body key b ts :: c) k ↔ k = key ∨ HasKey c k := by
  constructor
  · rintro (⟨b, ts, h⟩ | h)
    · rcases List.mem_cons.mp h with h | h
      · cases h; exact Or.inl rfl
      · exact Or.inr (Or.inl ⟨b, ts, h⟩)
    · rcases List.mem_cons.mp h with h | h
      · cases h
      · exact Or.inr (Or.inr h)
  · rintro (rfl | h)
    · exact Or.inl ⟨b, ts, List.mem_cons_self ..⟩
    · exact h.cons

theorem hasKey_part {c : Ctx} {key k : Nat} : HasKey (.part key :: c) k ↔ k = key ∨ HasKey c k := by
  constructor
  · rintro (⟨b, ts, h⟩ | h)
    · rcases List.mem_cons.mp h with h | h
      · cases h
      · exact Or.inr (Or.inl ⟨b, ts, h⟩)
    · rcases List.mem_cons.mp h with h | h
      · cases h; exact Or.inl rfl
      · exact Or.inr (Or.inr h)
  · rintro (rfl | h)
    · exact Or.inr (List.mem_cons_self ..)
    · exact h.cons

/-- What encloses a good statement. -/
structure CtxOK (c : Ctx) (par part lp : Bool) : Prop where
  par : par = (innerTry c).isSome
  lp : lp = (innerLoop c).isSome
  keys : ∀ k k', HasKey c k → HasKey c k' → k = k'
  pos : Positive (tryStack c)
  open_ : part = false → noPart c
  shut : part = true → ∃ q k, innerFin c = some (q, k) ∧ ∀ p k', innerTry c = some (p, k') → p < q

theorem landing_loop (c : Ctx) (e : Exn) : (landing (.loop :: c) e : Jump V) = landing c e := rfl

theorem landing_open {c : Ctx} (hn : noPart c) {p k} (h : innerTry c = some (p, k)) (e : Exn) : (landing c e : Jump V) = .exc p e := by
  unfold landing
  cases hf : innerFin c with
  | none => simp [h]
  | some x =>
    obtain ⟨q, k2⟩ := x
    obtain ⟨p', k', h1, h2⟩ := fin_le_try hn hf
    rw [h] at h1
    cases h1
    simp [h, h2]

theorem landing_none {c : Ctx} (hn : noPart c) (h : innerTry c = none) (e : Exn) : (landing c e : Jump V) = .resume e := by
  unfold landing
  cases hf : innerFin c with
  | none => simp [h]
  | some x =>
    obtain ⟨q, k2⟩ := x
    obtain ⟨p', k', h1, h2⟩ := fin_le_try hn hf
    rw [h] at h1
    cases h1

/-! ## Plain statements -/

/-- The emitted code of a plain statement. -/
def plainOut (c : Ctx) : Res V → Out V
  | .norm => .fall
  | .brk => .jump (.brk (c.length - 1))
  | .cont => .jump (.cont (c.length - 1))
  | .ret v => .jump (.ret v)
  | .exc e => .jump (landing c e)

theorem run_plain : ∀ (n : Nat) {lp : Bool} {s : Stmt S V}, Plain lp s → ∀ (c : Ctx), (lp = true → ∃ c', c = .loop :: c') → ∀ st : St S V,
    run n c s st = (eval n s st.mem).map fun r => (plainOut c r.1, { st with mem := r.2 })
  | 0, _, _, _, _, _, _ => rfl
  | n + 1, lp, s, h, c, hc, st => by
    cases h with
    | act =>
      rename_i f
      simp only [run, eval]
      rcases f st.mem with ⟨m, _ | e⟩ <;> rfl
    | skip => rfl
    | seq ha hb =>
      simp only [run, eval, run_plain n ha c hc st]
      rename_i a b
      rcases eval n a st.mem with _ | ⟨r, m⟩
      · rfl
      · cases r with
        | norm => simp [plainOut, run_plain n hb c hc]
        | _ => rfl
    | ite ha hb =>
      simp only [run, eval]
      split
      · exact run_plain n ha c hc st
      · exact run_plain n hb c hc st
    | loop hb =>
      simp only [run, eval]
      split
      · rw [run_plain n hb (.loop :: c) (fun _ => ⟨c, rfl⟩) st]
        rename_i b _
        rcases eval n b st.mem with _ | ⟨r, m⟩
        · rfl
        · cases r with
          | norm => simp [plainOut, run_plain n (.loop hb) c hc]
          | brk => simp [plainOut]
          | cont => simp [plainOut, run_plain n (.loop hb) c hc]
          | ret v => simp [plainOut]
          | exc e =>
            simp only [Option.map_some, plainOut, landing_loop]
            unfold landing
            repeat' split
            all_goals first | rfl | simp_all
      · rfl
    | brk =>
      obtain ⟨c', rfl⟩ := hc rfl
      simp only [run, eval, leaveLoop, innerLoop, innerFin, Option.map_some, plainOut]
      cases hf : innerFin c' with
      | none => rfl
      | some x => simp [innerFin_lt hf]
    | cont =>
      obtain ⟨c', rfl⟩ := hc rfl
      simp only [run, eval, leaveLoop, innerLoop, innerFin, Option.map_some, plainOut]
      cases hf : innerFin c' with
      | none => rfl
      | some x => simp [innerFin_lt hf]

/-- A plain `finally` part ends normally or with an exception. -/
theorem eval_plain : ∀ (n : Nat) {lp : Bool} {s : Stmt S V}, Plain lp s → ∀ (m : S) {r m'}, eval n s m = some (r, m') →
    r = .norm ∨ (∃ e, r = .exc e) ∨ (lp = true ∧ (r = .brk ∨ r = .cont))
  | n + 1, lp, s, h, m, r, m', he => by
    cases h with
    | act =>
      rename_i f
      simp only [eval] at he
      rcases hf : f m with ⟨m1, _ | e⟩ <;> rw [hf] at he <;> cases he
      · exact Or.inl rfl
      · exact Or.inr (Or.inl ⟨e, rfl⟩)
    | skip => cases he; exact Or.inl rfl
    | seq ha hb =>
      rename_i a b
      simp only [eval] at he
      cases h1 : eval n a m with
      | none => rw [h1] at he; cases he
      | some x =>
        obtain ⟨r1, m1⟩ := x
        rw [h1] at he
        cases r1 with
        | norm => exact eval_plain n hb m1 he
        | _ => cases he; exact eval_plain n ha m h1
    | ite ha hb =>
      simp only [eval] at he
      split at he
      · exact eval_plain n ha m he
      · exact eval_plain n hb m he
    | loop hb =>
      rename_i t b
      simp only [eval] at he
      split at he
      · cases h1 : eval n b m with
        | none => rw [h1] at he; cases he
        | some x =>
          obtain ⟨r1, m1⟩ := x
          rw [h1] at he
          cases r1 with
          | norm => exact eval_plain n (.loop hb) m1 he
          | cont => exact eval_plain n (.loop hb) m1 he
          | brk => cases he; exact Or.inl rfl
          | ret v =>
            rcases eval_plain n hb m h1 with h | ⟨e, h⟩ | ⟨_, h | h⟩ <;> cases h
          | exc e => cases he; exact Or.inr (Or.inl ⟨e, rfl⟩)
      · cases he; exact Or.inl rfl
    | brk => cases he; exact Or.inr (Or.inr ⟨rfl, Or.inl rfl⟩)
    | cont => cases he; exact Or.inr (Or.inr ⟨rfl, Or.inr rfl⟩)

end Codon.Exc.Try
