import Verif.Twister.World
/-!
# C46: the Mersenne Twister and its saved states
-/
namespace Codon.Twister

variable {F : Type}

/-- The world without generators. -/
def World.empty : World F := ⟨[], [], []⟩

/-- **C46** Any program on any number of generators (made, seeded, drawn from, saved and restored in any order) sees the
    numbers of the specification: each generator is the sequence of its key, a position and the spare value of `gauss`;
    a saved state is a copy of these.  No cell outside the array or not yet written is read, unless the program names a
    generator or state that does not exist, or seeds with an empty key. -/
theorem c46_refines (fl : Floats F) (ops : List (Op F)) :
    (∀ o a, Spec.run fl {} ops = some (o, a) → ∃ w, run fl World.empty ops = .ok (o, w)) ∧
      (Spec.run fl {} ops = none → run fl World.empty ops = .ub) := by
  have h := run_rel fl ops (rel_empty (F := F))
  constructor
  · intro o a e
    rw [e] at h
    obtain ⟨w, h, _⟩ := h
    exact ⟨w, h⟩
  · intro e
    rw [e] at h
    exact h

/-- The specification has a run for a program with two generators. -/
example : Spec.run (F := Nat) ⟨fun a b => a.toNat + b.toNat, fun a _ => a, fun _ b => b, fun a _ _ => a⟩ {}
    [.new [1], .new [2, 3], .word 0, .getstate 0, .gauss 0 0 1, .random 1, .setstate 1 0, .word 1] ≠ none := by
  simp [Spec.run, Spec.step]

/-- **C46** After any program, the block of every generator has its 625 cells written, and the index is at most 624. -/
theorem c46_index (fl : Floats F) (ops : List (Op F)) {o : List (Obs F)} {w : World F} (h : run fl World.empty ops = .ok (o, w)) :
    ∀ x ∈ w.gens, ∃ d, w.heap[x.data]? = some d ∧ d.length = 625 ∧ (∀ c ∈ d, c ≠ none) ∧
      ∃ i : Word, d.head? = some (some i) ∧ i.toNat ≤ 624 := by
  have hr := run_rel fl ops (rel_empty (F := F))
  rw [show (⟨[], [], []⟩ : World F) = World.empty from rfl, h] at hr
  cases hs : Spec.run fl {} ops with
  | none => rw [hs] at hr; cases hr
  | some q =>
    obtain ⟨o', a⟩ := q
    rw [hs] at hr
    obtain ⟨w', e, r⟩ := hr
    cases e
    intro x hx
    obtain ⟨g, lg, rfl⟩ := List.mem_iff_getElem.1 hx
    obtain ⟨_, d, hd, s⟩ := r.gens g _ (a.gens[g]'(r.gl ▸ lg)) (List.getElem?_eq_getElem lg) (List.getElem?_eq_getElem _)
    refine ⟨d, hd, s.len, ?_⟩
    obtain ⟨b, i, e, hi, rfl⟩ := s
    constructor
    · intro c hc
      unfold blk at hc
      obtain ⟨j, _, rfl⟩ := List.mem_map.1 hc
      cases j <;> simp [mix]
    · refine ⟨BitVec.ofNat 32 i, ?_, by simp; omega⟩
      unfold blk
      rw [List.head?_map, List.head?_range]
      rfl

theorem draws_same (fl : Floats F) : ∀ (ds : List (Spec.Draw F)) (a b : Spec.W F) (g h : Nat) (y : Spec.G F),
    a.gens[g]? = some y → b.gens[h]? = some y →
    ∃ o a' b', Spec.run fl a (ds.map (Spec.Draw.on g)) = some (o, a') ∧ Spec.run fl b (ds.map (Spec.Draw.on h)) = some (o, b') := by
  intro ds
  induction ds with
  | nil => intro a b g h y _ _; exact ⟨_, _, _, rfl, rfl⟩
  | cons d ds ih =>
    intro a b g h y ha hb
    have lg := (List.getElem?_eq_some_iff.1 ha).1
    have lh := (List.getElem?_eq_some_iff.1 hb).1
    have one : ∃ (o : Obs F) (y' : Spec.G F), Spec.step fl a (d.on g) = some (o, { a with gens := a.gens.set g y' }) ∧
        Spec.step fl b (d.on h) = some (o, { b with gens := b.gens.set h y' }) := by
      cases d with
      | word =>
        refine ⟨.word (Spec.stream y.key y.pos), { y with pos := y.pos + 1 }, ?_, ?_⟩
        · simp only [Spec.Draw.on, Spec.step, ha, Option.map_some]
        · simp only [Spec.Draw.on, Spec.step, hb, Option.map_some]
      | random =>
        refine ⟨.float (Spec.float fl y 0), { y with pos := y.pos + 2 }, ?_, ?_⟩
        · simp only [Spec.Draw.on, Spec.step, ha, Option.map_some]
        · simp only [Spec.Draw.on, Spec.step, hb, Option.map_some]
      | gauss mu sigma =>
        simp only [Spec.Draw.on, Spec.step, ha, hb, Option.map_some]
        cases y.spare with
        | none => exact ⟨_, _, rfl, rfl⟩
        | some z => exact ⟨_, _, rfl, rfl⟩
    obtain ⟨o, y', e1, e2⟩ := one
    obtain ⟨os, a', b', r1, r2⟩ := ih { a with gens := a.gens.set g y' } { b with gens := b.gens.set h y' } g h y' (by simp [lg]) (by simp [lh])
    refine ⟨o :: os, a', b', ?_, ?_⟩
    · simp only [List.map_cons, Spec.run, e1, Option.bind_some, r1, Option.map_some]
    · simp only [List.map_cons, Spec.run, e2, Option.bind_some, r2, Option.map_some]

/-- **C46** The state of generator `g` is saved, any program runs, the state is restored into generator `h` (the same or
    another): taking numbers from `h` gives exactly what taking them from `g` gave at the time of saving. -/
theorem c46_restore (fl : Floats F) (before between : List (Op F)) (g h : Nat) (ds : List (Spec.Draw F))
    {o0 o3 : List (Obs F)} {w0 w3 : World F}
    (h0 : run fl World.empty before = .ok (o0, w0))
    (h3 : run fl World.empty (before ++ .getstate g :: between ++ [.setstate h w0.saved.length]) = .ok (o3, w3)) :
    ∃ o u u', run fl w0 (ds.map (Spec.Draw.on g)) = .ok (o, u) ∧ run fl w3 (ds.map (Spec.Draw.on h)) = .ok (o, u') := by
  have r0 := run_rel fl before (rel_empty (F := F))
  have r3 := run_rel fl (before ++ .getstate g :: between ++ [.setstate h w0.saved.length]) (rel_empty (F := F))
  rw [show (⟨[], [], []⟩ : World F) = World.empty from rfl] at r0 r3
  rw [h0] at r0
  rw [h3] at r3
  cases s0 : Spec.run fl {} before with
  | none => rw [s0] at r0; cases r0
  | some q =>
    obtain ⟨p0, a0⟩ := q
    rw [s0] at r0
    obtain ⟨w, e, rel0⟩ := r0
    cases e
    cases s3 : Spec.run fl {} (before ++ .getstate g :: between ++ [.setstate h w0.saved.length]) with
    | none => rw [s3] at r3; cases r3
    | some q =>
      obtain ⟨p3, a3⟩ := q
      rw [s3] at r3
      obtain ⟨w, e, rel3⟩ := r3
      cases e
      rw [List.append_assoc, spec_run_append, s0] at s3
      simp only [Option.bind_some] at s3
      obtain ⟨q1, t1, t2⟩ := Option.map_eq_some_iff.1 s3
      cases t2
      simp only [List.cons_append, Spec.run] at t1
      obtain ⟨q2, u1, u2⟩ := Option.bind_eq_some_iff.1 t1
      obtain ⟨q3, v1, v2⟩ := Option.map_eq_some_iff.1 u2
      obtain ⟨q3o, q3a⟩ := q3
      cases v2
      rw [spec_run_append] at v1
      obtain ⟨q4, x1, x2⟩ := Option.bind_eq_some_iff.1 v1
      obtain ⟨q5, y1, y2⟩ := Option.map_eq_some_iff.1 x2
      cases y2
      simp only [Spec.run] at y1
      obtain ⟨q6, z1, z2⟩ := Option.bind_eq_some_iff.1 y1
      simp only [Option.map_some, Option.some.injEq] at z2
      subst z2
      simp only [Spec.step] at u1 z1
      obtain ⟨y, hy, e2⟩ := Option.map_eq_some_iff.1 u1
      subst e2
      obtain ⟨y2, hy2, e3⟩ := Option.bind_eq_some_iff.1 z1
      obtain ⟨y3, hy3, e4⟩ := Option.map_eq_some_iff.1 e3
      subst e4
      have pre := spec_run_saved fl between x1
      have : q4.2.saved[w0.saved.length]? = some y := by
        rw [rel0.sl]
        obtain ⟨t, e⟩ := pre
        rw [← e]
        simp
      rw [this] at hy3
      cases hy3
      have lh := (List.getElem?_eq_some_iff.1 hy2).1
      obtain ⟨o, a', b', d1, d2⟩ := draws_same fl ds a0 { q4.2 with gens := q4.2.gens.set h y } g h y hy (by simp [lh])
      have f1 := run_rel fl (ds.map (Spec.Draw.on g)) rel0
      have f2 := run_rel fl (ds.map (Spec.Draw.on h)) rel3
      rw [d1] at f1
      simp only at f2
      rw [d2] at f2
      obtain ⟨u, f1, _⟩ := f1
      obtain ⟨u', f2, _⟩ := f2
      exact ⟨o, u, u', f1, f2⟩

/-- **C46** `seed(a)` uses the digits of `|a|` in base 2³², at least one. -/
theorem c46_seed_key (a : BitVec 64) :
    seedKey a = if a.toInt.natAbs < 2 ^ 32 then [BitVec.ofNat 32 a.toInt.natAbs]
      else [BitVec.ofNat 32 (a.toInt.natAbs % 2 ^ 32), BitVec.ofNat 32 (a.toInt.natAbs / 2 ^ 32)] := by
  have e : a.abs.toNat = a.toInt.natAbs := by
    rw [BitVec.toNat_abs, BitVec.toInt_eq_msb_cond]
    have := a.isLt
    by_cases c : a.msb = true
    · simp only [c, if_true]; omega
    · simp only [c]; simp
  unfold seedKey intKey
  generalize a.abs = m at *
  have hm := m.isLt
  have lo : m.setWidth 32 = BitVec.ofNat 32 (a.toInt.natAbs % 2 ^ 32) := by
    apply BitVec.eq_of_toNat_eq
    simp [e]
  have hi : (m.sshiftRight 32).setWidth 32 = BitVec.ofNat 32 (a.toInt.natAbs / 2 ^ 32) := by
    apply BitVec.eq_of_getLsbD_eq
    intro i h
    rw [← e]
    rw [BitVec.getLsbD_setWidth, BitVec.getLsbD_sshiftRight, BitVec.getLsbD_ofNat, Nat.testBit_div_two_pow]
    simp only [h, show 32 + i < 64 by omega, show ¬ 64 ≤ i by omega, decide_true, decide_false, Bool.true_and, if_true, Bool.not_false, BitVec.getLsbD]
    rw [Nat.add_comm]
  dsimp only
  rw [lo, hi]
  by_cases c : a.toInt.natAbs < 2 ^ 32
  · rw [if_pos c, Nat.div_eq_of_lt c, Nat.mod_eq_of_lt c]; rfl
  · rw [if_neg c, if_pos]
    intro h0
    have := congrArg BitVec.toNat h0
    simp at this
    omega

/-- The hypotheses of `c46_restore` are met: save after one number, take more, restore into another generator. -/
example (fl : Floats F) : ∃ o0 w0 o3 w3, run fl World.empty [.new [1], .new [2, 3], .word 0] = .ok (o0, w0) ∧ w0.saved.length = 0 ∧
    run fl World.empty ([.new [1], .new [2, 3], .word 0] ++ .getstate 0 :: [.random 0, .word 1] ++ [.setstate 1 0]) = .ok (o3, w3) := by
  obtain ⟨w0, h0⟩ := (c46_refines fl [.new [1], .new [2, 3], .word 0]).1 _ _ (by simp [Spec.run, Spec.step]; exact ⟨rfl, rfl⟩)
  obtain ⟨w3, h3⟩ := (c46_refines fl ([.new [1], .new [2, 3], .word 0] ++ .getstate 0 :: [.random 0, .word 1] ++ [.setstate 1 0])).1 _ _
    (by simp [Spec.run, Spec.step]; exact ⟨rfl, rfl⟩)
  refine ⟨_, w0, _, w3, h0, ?_, h3⟩
  have r := run_rel fl [.new [1], .new [2, 3], .word 0] (rel_empty (F := F))
  rw [show (⟨[], [], []⟩ : World F) = World.empty from rfl, h0] at r
  simp [Spec.run, Spec.step] at r
  obtain ⟨w, e, r⟩ := r
  cases e
  exact r.sl

end Codon.Twister
