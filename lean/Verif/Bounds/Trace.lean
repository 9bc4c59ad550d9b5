import Verif.Bounds.Terms
/-!
# Executions and the checks of the pass
-/
namespace Codon.Bounds

/-! ### The last assignment -/

theorem last_foldl (x : Nat) (t : List Event) : ∀ acc, t.foldl (fun acc e => match e with
    | .write d y v => if y = x then some (d, v) else acc
    | .read _ _ => acc) acc = (last x t).or acc := by
  induction t with
  | nil => intro acc; rfl
  | cons e t ih =>
    intro acc
    have h0 : last x (e :: t) = _ := ih _
    rw [h0, List.foldl_cons, ih]
    cases e with
    | read => simp
    | write d y v => by_cases h : y = x <;> simp [h]

theorem last_append (x : Nat) (a b : List Event) : last x (a ++ b) = (last x b).or (last x a) := by
  rw [last, List.foldl_append]; exact last_foldl x b _

theorem last_none {x : Nat} {t : List Event} (h : x ∉ wrote t) : last x t = none := by
  induction t with
  | nil => rfl
  | cons e t ih =>
    have : last x (e :: t) = (last x t).or (last x [e]) := last_append x [e] t
    rw [this]
    cases e with
    | read l y => rw [ih (by simpa [wrote] using h)]; rfl
    | write d y v =>
      have h' : x ≠ y ∧ x ∉ wrote t := by simpa [wrote] using h
      rw [ih h'.2]
      have : ¬ y = x := fun e => h'.1 e.symm
      simp [last, this]

theorem last_some {x : Nat} {t : List Event} (h : x ∈ wrote t) : ∃ d v, last x t = some (d, v) := by
  induction t with
  | nil => simp [wrote] at h
  | cons e t ih =>
    have : last x (e :: t) = (last x t).or (last x [e]) := last_append x [e] t
    rw [this]
    by_cases hx : x ∈ wrote t
    · obtain ⟨d, v, h⟩ := ih hx
      exact ⟨d, v, by rw [h]; rfl⟩
    · cases e with
      | read l y => exact absurd (by simpa [wrote] using h) hx
      | write d y v =>
        have : x = y := by
          have : x = y ∨ x ∈ wrote t := by simpa [wrote] using h
          exact this.resolve_right hx
        subst this
        exact ⟨d, v, by rw [last_none hx]; simp [last]⟩

theorem last_mem {x : Nat} {t : List Event} {d : RDef} {v : Val} (h : last x t = some (d, v)) : .write d x v ∈ t := by
  induction t with
  | nil => simp [last] at h
  | cons e t ih =>
    have h2 : last x (e :: t) = (last x t).or (last x [e]) := last_append x [e] t
    rw [h2] at h
    cases ht : last x t with
    | some q =>
      rw [ht] at h
      exact List.mem_cons_of_mem _ (ih (by rw [ht]; simpa using h))
    | none =>
      rw [ht] at h
      cases e with
      | read l y => simp [last] at h
      | write d' y v' =>
        simp only [last, List.foldl_cons, List.foldl_nil, Option.none_or] at h
        split at h
        · cases h; rename_i hy; subst hy; exact List.mem_cons_self ..
        · cases h

theorem mem_wrote {d : RDef} {x : Nat} {v : Val} {t : List Event} (h : .write d x v ∈ t) : x ∈ wrote t := by
  simp only [wrote, List.mem_filterMap]
  exact ⟨_, h, rfl⟩

theorem reads_wrote (e : E) : wrote e.reads = [] := by
  induction e with
  | add a b iha ihb => simp only [wrote, E.reads, List.filterMap_append] at *; simp [iha, ihb]
  | sub a b iha ihb => simp only [wrote, E.reads, List.filterMap_append] at *; simp [iha, ihb]
  | _ => rfl

theorem wrote_append (a b : List Event) : wrote (a ++ b) = wrote a ++ wrote b := by simp [wrote]

theorem last_reads (x : Nat) (t u : List Event) (h : wrote u = []) : last x (t ++ u) = last x t := by
  rw [last_append, last_none (by simp [h])]; rfl

theorem AllSplits.at {P : List Event → Event → Prop} {q : List Event} {e : Event} {r : List Event} : ∀ {p p0},
    AllSplits P p0 (p ++ e :: r) → q = p0 ++ p → P q e := by
  intro p
  induction p with
  | nil => intro p0 h hq; subst hq; simpa using h.1
  | cons f p ih =>
    intro p0 h hq
    exact ih h.2 (by simp [hq])

/-! ### Evaluation -/

def ival (t : List Event) (x : Nat) : Int :=
  match last x t with
  | some (_, .int v) => v
  | _ => 0

def alen (t : List Event) (x : Nat) : Int :=
  match last x t with
  | some (_, .arr (n :: _)) => n
  | _ => 0

/-- The arrays whose length is used. -/
def E.lens : E → List (Nat × Nat)
  | .len loc x => [(loc, x)]
  | .size loc x => [(loc, x)]
  | .add a b => a.lens ++ b.lens
  | .sub a b => a.lens ++ b.lens
  | _ => []

theorem bind2 {a b : Option Int} {g : Int → Int → Int} {v : Int}
    (h : (do let x ← a; let y ← b; pure (g x y)) = some v) : ∃ x y, a = some x ∧ b = some y ∧ v = g x y := by
  cases a with
  | none => cases h
  | some x =>
    cases b with
    | none => cases h
    | some y => exact ⟨x, y, rfl, rfl, by cases h; rfl⟩

theorem exact_lin (t : List Event) (e : E) : ∀ v, e.exact t = some v →
    (∀ x ∈ e.sizes, ∀ d sh, last x t = some (d, .arr sh) → sh.length = 1) → v = e.lin (ival t) (alen t) := by
  unfold E.exact
  induction e with
  | const v => intro w h _; cases h; rfl
  | var l x =>
    intro w h _
    simp only [E.evalWith] at h
    simp only [E.lin, ival]
    split at h
    · rename_i hl; cases h; rw [hl]
    · cases h
  | len l x =>
    intro w h _
    simp only [E.evalWith] at h
    simp only [E.lin, alen]
    split at h
    · rename_i hl; cases h; rw [hl]
    · cases h
  | size l x =>
    intro w h hs
    simp only [E.evalWith] at h
    simp only [E.lin, alen]
    split at h
    · rename_i d sh hl
      have := hs x (by simp [E.sizes]) d sh hl
      match sh, this with
      | [n], _ => cases h; rw [hl]; simp
    · cases h
  | other => intro w h; cases h
  | add a b iha ihb =>
    intro w h hs
    obtain ⟨x, y, hx, hy, rfl⟩ := bind2 h
    rw [iha _ hx fun x hx => hs x (List.mem_append_left _ hx), ihb _ hy fun x hx => hs x (List.mem_append_right _ hx)]
    rfl
  | sub a b iha ihb =>
    intro w h hs
    obtain ⟨x, y, hx, hy, rfl⟩ := bind2 h
    rw [iha _ hx fun x hx => hs x (List.mem_append_left _ hx), ihb _ hy fun x hx => hs x (List.mem_append_right _ hx)]
    rfl

theorem eval_exact (t : List Event) (e : E) : ∀ v, e.eval t = some v → ∃ w, e.exact t = some w ∧
    v.bmod (2 ^ 64) = w.bmod (2 ^ 64) := by
  unfold E.exact E.eval
  induction e with
  | const v => intro w h; cases h; exact ⟨_, rfl, rfl⟩
  | var l x =>
    intro w h
    exact ⟨w, h, rfl⟩
  | len l x => intro w h; exact ⟨w, h, rfl⟩
  | size l x => intro w h; exact ⟨w, h, rfl⟩
  | other => intro w h; cases h
  | add a b iha ihb =>
    intro w h
    obtain ⟨x, y, hx, hy, rfl⟩ := bind2 h
    obtain ⟨x', hx', ex⟩ := iha _ hx
    obtain ⟨y', hy', ey⟩ := ihb _ hy
    refine ⟨x' + y', by simp [E.evalWith, hx', hy'], ?_⟩
    rw [wrap, Int.bmod_bmod, ← Int.bmod_add_bmod, ex, Int.bmod_add_bmod, ← Int.add_bmod_bmod, ey, Int.add_bmod_bmod]
  | sub a b iha ihb =>
    intro w h
    obtain ⟨x, y, hx, hy, rfl⟩ := bind2 h
    obtain ⟨x', hx', ex⟩ := iha _ hx
    obtain ⟨y', hy', ey⟩ := ihb _ hy
    refine ⟨x' - y', by simp [E.evalWith, hx', hy'], ?_⟩
    rw [wrap, Int.bmod_bmod, ← Int.bmod_sub_bmod, ex, Int.bmod_sub_bmod, ← Int.sub_bmod_bmod, ey, Int.sub_bmod_bmod]

theorem wrap_fits (v : Int) : Fits (wrap v) := by
  unfold Fits wrap
  have h1 := @Int.le_bmod v (2 ^ 64) (by decide)
  have h2 := @Int.bmod_lt v (2 ^ 64) (by decide)
  constructor <;> omega

theorem fits_bmod {v : Int} (h : Fits v) : v.bmod (2 ^ 64) = v := by
  unfold Fits at h
  apply Int.bmod_eq_of_le <;> omega

theorem eval_fits {t : List Event} {e : E} {v : Int} {p : Nat → Nat → Bool} (h : e.eval t = some v)
    (hp : 0 < e.varCoef p) (hv : ∀ ev ∈ t, ∀ d x v, ev = .write d x v → v.Ok) : Fits v := by
  unfold E.eval at h
  cases e with
  | var l x =>
    simp only [E.evalWith] at h
    split at h
    · rename_i d w hl
      cases h
      exact hv _ (last_mem hl) _ _ _ rfl
    · cases h
  | add a b => obtain ⟨x, y, hx, hy, rfl⟩ := bind2 h; exact wrap_fits _
  | sub a b => obtain ⟨x, y, hx, hy, rfl⟩ := bind2 h; exact wrap_fits _
  | const => simp [E.varCoef] at hp
  | len => simp [E.varCoef] at hp
  | size => simp [E.varCoef] at hp
  | other => cases h

theorem lin_congr {ρ ℓ ρ' ℓ' : Nat → Int} (e : E) (h1 : ∀ q ∈ e.vars, ρ q.2 = ρ' q.2) (h2 : ∀ q ∈ e.lens, ℓ q.2 = ℓ' q.2) :
    e.lin ρ ℓ = e.lin ρ' ℓ' := by
  induction e with
  | const => rfl
  | other => rfl
  | var l x => exact h1 (l, x) (by simp [E.vars])
  | len l x => exact h2 (l, x) (by simp [E.lens])
  | size l x => exact h2 (l, x) (by simp [E.lens])
  | add a b iha ihb =>
    simp only [E.lin]
    rw [iha (fun q h => h1 q (List.mem_append_left _ h)) (fun q h => h2 q (List.mem_append_left _ h)),
      ihb (fun q h => h1 q (List.mem_append_right _ h)) (fun q h => h2 q (List.mem_append_right _ h))]
  | sub a b iha ihb =>
    simp only [E.lin]
    rw [iha (fun q h => h1 q (List.mem_append_left _ h)) (fun q h => h2 q (List.mem_append_left _ h)),
      ihb (fun q h => h1 q (List.mem_append_right _ h)) (fun q h => h2 q (List.mem_append_right _ h))]

theorem vars_reads (e : E) : ∀ q ∈ e.vars, Event.read q.1 q.2 ∈ e.reads := by
  induction e with
  | var l x => intro q h; simp only [E.vars, List.mem_singleton] at h; subst h; simp [E.reads]
  | add a b iha ihb =>
    intro q h
    exact List.mem_append.2 ((List.mem_append.1 h).imp (iha q) (ihb q))
  | sub a b iha ihb =>
    intro q h
    exact List.mem_append.2 ((List.mem_append.1 h).imp (iha q) (ihb q))
  | _ => intro q h; simp [E.vars] at h

theorem lens_reads (e : E) : ∀ q ∈ e.lens, Event.read q.1 q.2 ∈ e.reads := by
  induction e with
  | len l x => intro q h; simp only [E.lens, List.mem_singleton] at h; subst h; simp [E.reads]
  | size l x => intro q h; simp only [E.lens, List.mem_singleton] at h; subst h; simp [E.reads]
  | add a b iha ihb =>
    intro q h
    exact List.mem_append.2 ((List.mem_append.1 h).imp (iha q) (ihb q))
  | sub a b iha ihb =>
    intro q h
    exact List.mem_append.2 ((List.mem_append.1 h).imp (iha q) (ihb q))
  | _ => intro q h; simp [E.lens] at h

/-- Lengths are read from arrays. -/
theorem eval_lens (t : List Event) (e : E) : ∀ v, e.eval t = some v → ∀ q ∈ e.lens, ∃ d sh, last q.2 t = some (d, .arr sh) := by
  unfold E.eval
  induction e with
  | len l x =>
    intro v h q hq
    simp only [E.lens, List.mem_singleton] at hq; subst hq
    simp only [E.evalWith] at h
    split at h
    · rename_i d n tl hl; exact ⟨d, _, hl⟩
    · cases h
  | size l x =>
    intro v h q hq
    simp only [E.lens, List.mem_singleton] at hq; subst hq
    simp only [E.evalWith] at h
    split at h
    · rename_i d sh hl; exact ⟨d, _, hl⟩
    · cases h
  | add a b iha ihb =>
    intro v h q hq
    obtain ⟨x, y, hx, hy, -⟩ := bind2 h
    exact (List.mem_append.1 hq).elim (iha _ hx q) (ihb _ hy q)
  | sub a b iha ihb =>
    intro v h q hq
    obtain ⟨x, y, hx, hy, -⟩ := bind2 h
    exact (List.mem_append.1 hq).elim (iha _ hx q) (ihb _ hy q)
  | _ => intro v h q hq; simp [E.lens] at hq

/-! ### The counter -/

theorem counter_up {step s e c : Int} (h : Counter step s e c) (hpos : 0 < step) (hs : Fits s) (hov : e + step ≤ 2 ^ 63) :
    s ≤ c ∧ c < e := by
  induction h with
  | first h => simp only [goesOn, hpos, if_true] at h; omega
  | @next c _ h ih =>
    simp only [goesOn, hpos, if_true] at h
    refine ⟨?_, h⟩
    have : wrap (c + step) = c + step := fits_bmod (by unfold Fits at *; omega)
    omega

theorem counter_down {step s e c : Int} (h : Counter step s e c) (hneg : step < 0) (hs : Fits s)
    (hov : -2 ^ 63 ≤ e + step + 1) : c ≤ s ∧ e < c := by
  have hp : ¬ step > 0 := by omega
  induction h with
  | first h => simp only [goesOn, hp, if_false] at h; omega
  | @next c _ h ih =>
    simp only [goesOn, hp, if_false] at h
    refine ⟨?_, h⟩
    have : wrap (c + step) = c + step := fits_bmod (by unfold Fits at *; omega)
    omega

/-! ### The checks -/

/-- A read that passed the check. -/
def Passed (L : Loop) (rd : RD) (R : List (Nat × Nat)) (loc x : Nat) : Prop :=
  if x = L.var then isOriginalLoopVar L rd loc = true else ∃ d, rd x loc = [d] ∧ R.lookup x = some d.id

def Ext (R R' : List (Nat × Nat)) : Prop := ∀ x i, R.lookup x = some i → R'.lookup x = some i

theorem Passed.mono {L : Loop} {rd : RD} {R R' : List (Nat × Nat)} {loc x : Nat} (h : Passed L rd R loc x) (he : Ext R R') :
    Passed L rd R' loc x := by
  unfold Passed at *
  split
  · rename_i hx; rwa [if_pos hx] at h
  · rename_i hx; rw [if_neg hx] at h
    obtain ⟨d, h1, h2⟩ := h
    exact ⟨d, h1, he _ _ h2⟩

theorem check_spec {L : Loop} {rd : RD} {R R' : List (Nat × Nat)} {loc x : Nat} (h : check L rd R loc x = some R') :
    Ext R R' ∧ Passed L rd R' loc x := by
  unfold check at h
  unfold Passed
  split at h
  · rename_i hx
    split at h
    · rename_i ho; cases h; exact ⟨fun _ _ h => h, by rw [if_pos hx]; exact ho⟩
    · cases h
  · rename_i hx
    rw [if_neg hx]
    split at h
    · rename_i d hd
      split at h
      · rename_i hn
        cases h
        refine ⟨fun y i hy => ?_, d, hd, by simp⟩
        have : y ≠ x := by rintro rfl; rw [hn] at hy; cases hy
        have : (y == x) = false := by simpa using this
        rw [List.lookup_cons, this, hy]
      · rename_i i hi
        split at h
        · rename_i he; cases h; subst he; exact ⟨fun _ _ h => h, d, hd, hi⟩
        · cases h
    · cases h

theorem checkTerms_spec {L : Loop} {rd : RD} (ts : List Term) : ∀ {R R' : List (Nat × Nat)},
    checkTerms L rd ts R = some R' → Ext R R' ∧ ∀ t ∈ ts, t.kind ≠ .int → Passed L rd R' t.loc t.x := by
  induction ts with
  | nil => intro R R' h; cases h; exact ⟨fun _ _ h => h, by simp⟩
  | cons t ts ih =>
    intro R R' h
    unfold checkTerms at h
    split at h
    · rename_i hk
      obtain ⟨h1, h2⟩ := ih h
      refine ⟨h1, fun u hu hne => ?_⟩
      rcases List.mem_cons.1 hu with rfl | hu
      · exact absurd hk hne
      · exact h2 u hu hne
    · simp only [Option.bind_eq_bind, Option.bind_eq_some_iff] at h
      obtain ⟨R1, hc, h⟩ := h
      obtain ⟨e1, p1⟩ := check_spec hc
      obtain ⟨e2, p2⟩ := ih h
      refine ⟨fun x i hx => e2 _ _ (e1 _ _ hx), fun u hu hne => ?_⟩
      rcases List.mem_cons.1 hu with rfl | hu
      · exact p1.mono e2
      · exact p2 u hu hne

theorem checkAll_spec {L : Loop} {ix : Index} {rd : RD} {idx start stop : List Term}
    (h : checkAll L ix rd idx start stop = true) : ∃ R, Passed L rd R ix.loc ix.arr ∧
      (∀ t ∈ start, t.kind ≠ .int → Passed L rd R t.loc t.x) ∧ (∀ t ∈ stop, t.kind ≠ .int → Passed L rd R t.loc t.x) ∧
      ∀ t ∈ idx, t.kind ≠ .int → Passed L rd R t.loc t.x := by
  unfold checkAll at h
  rw [Option.isSome_iff_exists] at h
  obtain ⟨R, h⟩ := h
  simp only [Option.bind_eq_bind, Option.bind_eq_some_iff] at h
  obtain ⟨R1, h1, R2, h2, R3, h3, h4⟩ := h
  obtain ⟨-, p1⟩ := check_spec h1
  obtain ⟨e2, p2⟩ := checkTerms_spec _ h2
  obtain ⟨e3, p3⟩ := checkTerms_spec _ h3
  obtain ⟨e4, p4⟩ := checkTerms_spec _ h4
  exact ⟨R, ((p1.mono e2).mono e3).mono e4, fun t ht hk => ((p2 t ht hk).mono e3).mono e4,
    fun t ht hk => (p3 t ht hk).mono e4, p4⟩

end Codon.Bounds
