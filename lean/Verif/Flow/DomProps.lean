import Verif.Flow.DomModel
import Mathlib.Data.List.Basic
import Mathlib.Tactic.Common
/-!
# C06: dominator sets
-/
namespace Codon.Flow

/-! ### Specification -/

/-- `Path g b p`: `p` is the list of blocks visited, last first, by a way from the entry to `b`. -/
inductive Path (g : Graph) : Nat → List Nat → Prop
  | entry : Path g 0 [0]
  | step {p b ps} : Path g p ps → p ∈ g.preds b → Path g b (b :: ps)

/-- Every way to `b` goes through `a`. -/
def Dominates (g : Graph) (a b : Nat) : Prop := ∀ ps, Path g b ps → a ∈ ps

def Reachable (g : Graph) (b : Nat) : Prop := ∃ ps, Path g b ps

/-- Blocks have numbers below `n`; nothing leads back to the entry. -/
structure Graph.Ok (g : Graph) : Prop where
  pos : 0 < g.n
  preds : ∀ b p, p ∈ g.preds b → p < g.n ∧ b < g.n
  entry : g.preds 0 = []

/-! ### The loop -/

theorem foldl_and (D : Doms) (x : Nat) (ps : List Nat) (a : Bool) :
    ps.foldl (fun acc q => acc && D q x) a = (a && ps.all (fun q => D q x)) := by
  induction ps generalizing a with
  | nil => simp
  | cons p ps ih => simp [ih, Bool.and_assoc]

theorem meet_iff (D : Doms) (ps : List Nat) (x : Nat) :
    meet D ps x = true ↔ ps ≠ [] ∧ ∀ p ∈ ps, D p x = true := by
  cases ps with
  | nil => simp [meet]
  | cons p ps => simp [meet, foldl_and]

theorem newSet_iff (g : Graph) (D : Doms) (b x : Nat) :
    newSet g D b x = true ↔ x = b ∨ g.preds b ≠ [] ∧ ∀ p ∈ g.preds b, D p x = true := by
  simp [newSet, meet_iff]

theorem newSet_mono {g : Graph} {D E : Doms} (h : ∀ b x, D b x = true → E b x = true) (b x : Nat)
    (hx : newSet g D b x = true) : newSet g E b x = true := by
  rw [newSet_iff] at hx ⊢
  rcases hx with hx | ⟨h1, h2⟩
  · exact Or.inl hx
  · exact Or.inr ⟨h1, fun p hp => h p x (h2 p hp)⟩

/-- Recomputing a block can only take bits away. -/
def Shrinks (g : Graph) (D : Doms) : Prop := ∀ b x, newSet g D b x = true → D b x = true

theorem initDoms_shrinks {g : Graph} (h : g.Ok) : Shrinks g initDoms := by
  intro b x hx
  unfold initDoms
  split
  · subst b
    rw [newSet_iff] at hx
    rcases hx with rfl | ⟨h1, -⟩
    · simp
    · exact absurd h.entry h1
  · rfl

def upd (D : Doms) (b : Nat) (v : Nat → Bool) : Doms := fun c => if c = b then v else D c

theorem upd_le {g : Graph} {D : Doms} (h : Shrinks g D) (b : Nat) :
    ∀ c x, upd D b (newSet g D b) c x = true → D c x = true := by
  intro c x hx
  unfold upd at hx
  split at hx
  · subst c; exact h b x hx
  · exact hx

theorem upd_shrinks {g : Graph} {D : Doms} (h : Shrinks g D) (b : Nat) :
    Shrinks g (upd D b (newSet g D b)) := by
  intro c x hx
  have h1 := newSet_mono (upd_le h b) c x hx
  unfold upd
  split
  · subst c; exact h1
  · exact h c x h1

/-- Number of bits set. -/
def weight (n : Nat) (D : Doms) : Nat :=
  ((List.range n).map fun b => ((List.range n).countP fun x => D b x)).sum

theorem countP_le_of {n : Nat} {u v : Nat → Bool} (h : ∀ x, u x = true → v x = true) :
    (List.range n).countP u ≤ (List.range n).countP v :=
  List.countP_mono_left fun x _ hx => h x hx

theorem countP_lt_of {l : List Nat} {u v : Nat → Bool} (h : ∀ x, u x = true → v x = true)
    (hne : ∃ x ∈ l, u x ≠ v x) : l.countP u < l.countP v := by
  induction l with
  | nil => simp at hne
  | cons a l ih =>
    have hle : l.countP u ≤ l.countP v := List.countP_mono_left fun x _ hx => h x hx
    rw [List.countP_cons, List.countP_cons]
    obtain ⟨x, hx, hxx⟩ := hne
    rcases List.mem_cons.1 hx with rfl | hx
    · cases hu : u x with
      | true => exact absurd (by rw [hu, h x hu]) hxx
      | false =>
        cases hv : v x with
        | true => simp; omega
        | false => rw [hu, hv] at hxx; exact absurd rfl hxx
    · have := ih ⟨x, hx, hxx⟩
      cases hu : u a with
      | true => simp [h a hu]; omega
      | false => simp; omega

theorem sum_map_le {l : List Nat} {u v : Nat → Nat} (h : ∀ x, u x ≤ v x) :
    (l.map u).sum ≤ (l.map v).sum := by
  induction l with
  | nil => simp
  | cons a l ih => simp only [List.map_cons, List.sum_cons]; have := h a; omega

theorem sum_map_lt {l : List Nat} {u v : Nat → Nat} (h : ∀ x, u x ≤ v x) (hlt : ∃ x ∈ l, u x < v x) :
    (l.map u).sum < (l.map v).sum := by
  induction l with
  | nil => simp at hlt
  | cons a l ih =>
    simp only [List.map_cons, List.sum_cons]
    have h1 := h a
    have h2 := sum_map_le (l := l) h
    obtain ⟨x, hx, hxx⟩ := hlt
    rcases List.mem_cons.1 hx with rfl | hx
    · omega
    · have := ih ⟨x, hx, hxx⟩
      omega

theorem weight_le_sq (n : Nat) (D : Doms) : weight n D ≤ n * n := by
  unfold weight
  have h1 : ∀ b, (List.range n).countP (fun x => D b x) ≤ n := by
    intro b
    have := List.countP_le_length (p := fun x => D b x) (l := List.range n)
    simpa using this
  have h2 : ∀ l : List Nat, (l.map fun b => (List.range n).countP fun x => D b x).sum ≤ l.length * n := by
    intro l
    induction l with
    | nil => simp
    | cons a l ih =>
      simp only [List.map_cons, List.sum_cons, List.length_cons]
      have := h1 a
      rw [Nat.add_mul]
      omega
  simpa using h2 (List.range n)

/-- What a step does. -/
theorem domStep_cases (g : Graph) (D : Doms) (c : Bool) (b : Nat) :
    ((∀ x, x < g.n → newSet g D b x = D b x) ∧ domStep g (D, c) b = (D, c)) ∨
    ((∃ x, x < g.n ∧ newSet g D b x ≠ D b x) ∧
      domStep g (D, c) b = (upd D b (newSet g D b), true)) := by
  by_cases h : (List.range g.n).all (fun x => newSet g D b x == D b x) = true
  · left
    refine ⟨?_, by simp only [domStep]; rw [if_pos h]⟩
    intro x hx
    have := List.all_eq_true.1 h x (List.mem_range.2 hx)
    simpa using this
  · right
    refine ⟨?_, by simp only [domStep]; rw [if_neg h]; rfl⟩
    have h' := h
    simp only [List.all_eq_true, List.mem_range, beq_iff_eq, Classical.not_forall] at h'
    obtain ⟨x, hx, hne⟩ := h'
    exact ⟨x, hx, hne⟩

theorem weight_upd_lt {g : Graph} {D : Doms} (h : Shrinks g D) {b : Nat} (hb : b < g.n)
    (hne : ∃ x, x < g.n ∧ newSet g D b x ≠ D b x) :
    weight g.n (upd D b (newSet g D b)) < weight g.n D := by
  unfold weight
  refine sum_map_lt (fun c => countP_le_of (upd_le h b c)) ⟨b, List.mem_range.2 hb, ?_⟩
  obtain ⟨x, hx, hxx⟩ := hne
  refine countP_lt_of (upd_le h b b) ⟨x, List.mem_range.2 hx, ?_⟩
  simpa [upd] using hxx

/-- An invariant of the steps is one of the loop. -/
theorem domFold_spec {g : Graph} (I : Doms → Prop) (hI : ∀ D b, b < g.n → Shrinks g D → I D →
      I (upd D b (newSet g D b))) :
    ∀ (l : List Nat) (D : Doms) (c : Bool), (∀ b ∈ l, b < g.n) → Shrinks g D → I D →
    let r := l.foldl (domStep g) (D, c)
    Shrinks g r.1 ∧ I r.1 ∧ weight g.n r.1 ≤ weight g.n D ∧
    (r.2 = false → c = false ∧ r.1 = D ∧ ∀ b ∈ l, ∀ x, x < g.n → newSet g D b x = D b x) ∧
    (c = false → r.2 = true → weight g.n r.1 < weight g.n D) := by
  intro l
  induction l with
  | nil => intro D c _ h1 h2; exact ⟨h1, h2, Nat.le_refl _, fun h => ⟨h, rfl, by simp⟩, fun h1 h2 => absurd (h1.symm.trans h2) (by simp)⟩
  | cons b l ih =>
    intro D c hl h1 h2
    have hb := hl b (List.mem_cons_self ..)
    have hl' : ∀ b ∈ l, b < g.n := fun x hx => hl x (List.mem_cons_of_mem _ hx)
    simp only [List.foldl_cons]
    rcases domStep_cases g D c b with ⟨he, hs⟩ | ⟨hne, hs⟩
    · rw [hs]
      obtain ⟨r1, r2, r3, r4, r5⟩ := ih D c hl' h1 h2
      refine ⟨r1, r2, r3, ?_, r5⟩
      intro hf
      obtain ⟨q1, q2, q3⟩ := r4 hf
      refine ⟨q1, q2, fun y hy => ?_⟩
      rcases List.mem_cons.1 hy with rfl | hy
      · exact he
      · exact q3 y hy
    · rw [hs]
      have hw := weight_upd_lt h1 hb hne
      obtain ⟨r1, r2, r3, r4, r5⟩ := ih _ true hl' (upd_shrinks h1 b) (hI D b hb h1 h2)
      refine ⟨r1, r2, by omega, ?_, fun _ _ => by omega⟩
      intro hf
      exact absurd (r4 hf).1 (by simp)

theorem domLoop_spec {g : Graph} (I : Doms → Prop) (hI : ∀ D b, b < g.n → Shrinks g D → I D →
      I (upd D b (newSet g D b))) :
    ∀ (f : Nat) (D : Doms), weight g.n D < f → Shrinks g D → I D →
    ∃ E, domLoop g f D = some E ∧ I E ∧ ∀ b x, b < g.n → x < g.n → newSet g E b x = E b x := by
  intro f
  induction f with
  | zero => intro D h; omega
  | succ f ih =>
    intro D hw h1 h2
    obtain ⟨r1, r2, r3, r4, r5⟩ := domFold_spec I hI (List.range g.n) D false
      (fun b hb => List.mem_range.1 hb) h1 h2
    simp only [domLoop]
    split
    · rename_i hc
      have := r5 rfl hc
      exact ih _ (by unfold domPass; omega) r1 r2
    · rename_i hc
      have hc' : (domPass g D).2 = false := by simpa using hc
      obtain ⟨-, q2, q3⟩ := r4 hc'
      refine ⟨_, rfl, r2, ?_⟩
      intro b x hb hx
      have := q3 b (List.mem_range.2 hb) x hx
      unfold domPass
      rw [q2]
      exact this

/-! ### The properties -/

theorem Path.lt {g : Graph} (h : g.Ok) {b : Nat} {ps : List Nat} (hp : Path g b ps) : b < g.n := by
  cases hp with
  | entry => exact h.pos
  | step _ hm => exact (h.preds _ _ hm).2

/-- The entry block is dominated by itself only, all along. -/
theorem entry_inv {g : Graph} (h : g.Ok) (D : Doms) (b : Nat) (hD : ∀ x, D 0 x = true → x = 0) :
    ∀ x, upd D b (newSet g D b) 0 x = true → x = 0 := by
  intro x hx
  unfold upd at hx
  split at hx
  · rename_i hb
    subst hb
    rw [newSet_iff] at hx
    rcases hx with hx | ⟨h1, -⟩
    · exact hx
    · exact absurd h.entry h1
  · exact hD x hx

/-- The analysis ends, whatever the graph. -/
theorem c06_terminates (g : Graph) (h : g.Ok) : ∃ D, dominators g = some D := by
  obtain ⟨E, h1, -⟩ := domLoop_spec (g := g) (fun _ => True) (fun _ _ _ _ _ => trivial) (g.n * g.n + 1)
    initDoms (Nat.lt_succ_of_le (weight_le_sq _ _)) (initDoms_shrinks h) trivial
  exact ⟨E, h1⟩

/-- **C06**, one direction, for all graphs: what is reported is true. -/
theorem c06_sound (g : Graph) (h : g.Ok) (D : Doms) (hD : dominators g = some D) (a b : Nat) (ha : a < g.n)
    (hab : D b a = true) : Dominates g a b := by
  obtain ⟨E, h1, h2, h3⟩ := domLoop_spec (g := g) (fun D => ∀ x, D 0 x = true → x = 0)
    (fun D b _ _ hI => entry_inv h D b hI) (g.n * g.n + 1)
    initDoms (Nat.lt_succ_of_le (weight_le_sq _ _)) (initDoms_shrinks h) (by simp [initDoms])
  unfold dominators at hD
  rw [hD] at h1
  cases h1
  intro ps hp
  induction hp with
  | entry => rw [h2 a hab]; exact List.mem_cons_self ..
  | @step p b ps hp hm ih =>
    rw [← h3 b a (h.preds b p hm).2 ha, newSet_iff] at hab
    rcases hab with rfl | ⟨-, hall⟩
    · exact List.mem_cons_self ..
    · exact List.mem_cons_of_mem _ (ih (hall p hm))

/-- **C06**, other direction (partial: the graph must not have a block without predecessors other than the
entry; `c06_violation_no_predecessors` shows that this is needed): what is true is reported. -/
theorem c06_complete_partial (g : Graph) (h : g.Ok) (hpre : ∀ b, b < g.n → b ≠ 0 → g.preds b ≠ [])
    (D : Doms) (hD : dominators g = some D) (a b : Nat) (hdom : Dominates g a b) :
    D b a = true := by
  obtain ⟨E, h1, h2, -⟩ := domLoop_spec (g := g) (fun D => ∀ b a, Dominates g a b → D b a = true)
    (by
      intro D b hb _ hI c a hdom
      unfold upd
      split
      · subst c
        rw [newSet_iff]
        by_cases hab : a = b
        · exact Or.inl hab
        · right
          have hne : g.preds b ≠ [] := by
            apply hpre b hb
            rintro rfl
            have := hdom [0] .entry
            simp at this
            exact hab this
          refine ⟨hne, fun p hp => hI p a ?_⟩
          intro ps hps
          have := hdom (b :: ps) (.step hps hp)
          rcases List.mem_cons.1 this with h | h
          · exact absurd h hab
          · exact h
      · exact hI c a hdom) (g.n * g.n + 1)
    initDoms (Nat.lt_succ_of_le (weight_le_sq _ _)) (initDoms_shrinks h) (by
      intro b a hdom
      unfold initDoms
      split
      · subst b
        have := hdom [0] .entry
        simpa using this
      · rfl)
  unfold dominators at hD
  rw [hD] at h1
  cases h1
  exact h2 b a hdom

/-- The place `d` (a block and an index) is passed before or at the end of a run that visits the blocks
`ps` (last first) and stops at index `i` of the last. -/
def Passed (ps : List Nat) (i : Nat) (d : Nat × Nat) : Prop :=
  match ps with
  | [] => False
  | b :: rest => d.1 ∈ rest ∨ d.1 = b ∧ d.2 ≤ i

/-- A way to a block can be cut down so that the block is met at the end only. -/
theorem Path.first {g : Graph} {b c : Nat} {ps : List Nat} (hp : Path g b ps) (hc : c ∈ ps) :
    ∃ qs, Path g c (c :: qs) ∧ c ∉ qs := by
  induction hp with
  | entry => simp at hc; subst hc; exact ⟨[], .entry, by simp⟩
  | @step p b ps hp hm ih =>
    by_cases hcs : c ∈ ps
    · exact ih hcs
    · rcases List.mem_cons.1 hc with rfl | h
      · exact ⟨ps, .step hp hm, hcs⟩
      · exact absurd h hcs

theorem Path.head {g : Graph} {b : Nat} {ps : List Nat} (hp : Path g b ps) : ∃ qs, ps = b :: qs := by
  cases hp with
  | entry => exact ⟨[], rfl⟩
  | step _ _ => exact ⟨_, rfl⟩

/-- `isDominated` on values is sound: if it says yes, then every run that gets to `v` has passed `d`. -/
theorem c06_isDominated_sound (g : Graph) (h : g.Ok) (D : Doms) (hD : dominators g = some D)
    (v d : Nat × Nat) (hd : d.1 < g.n) (hres : isDominated D v d = true) :
    ∀ ps, Path g v.1 ps → Passed ps v.2 d := by
  intro ps hp
  obtain ⟨qs, rfl⟩ := hp.head
  unfold isDominated at hres
  unfold Passed
  split at hres
  · rename_i he
    exact Or.inr ⟨he.symm, by simpa using hres⟩
  · rename_i hne
    have := c06_sound g h D hD d.1 v.1 hd hres _ hp
    rcases List.mem_cons.1 this with h | h
    · exact absurd h.symm hne
    · exact Or.inl h

/-- ... and complete, for reachable values, on graphs as in `c06_complete_partial`. -/
theorem c06_isDominated_complete_partial (g : Graph) (h : g.Ok)
    (hpre : ∀ b, b < g.n → b ≠ 0 → g.preds b ≠ []) (D : Doms) (hD : dominators g = some D)
    (v d : Nat × Nat) (hv : Reachable g v.1) (hdom : ∀ ps, Path g v.1 ps → Passed ps v.2 d) :
    isDominated D v d = true := by
  unfold isDominated
  split
  · rename_i he
    obtain ⟨ps, hps⟩ := hv
    obtain ⟨qs0, rfl⟩ := hps.head
    obtain ⟨qs, hq, hn⟩ := hps.first (List.mem_cons_self ..)
    rcases hdom _ hq with h1 | ⟨-, h1⟩
    · rw [← he] at h1; exact absurd h1 hn
    · simpa using h1
  · rename_i hne
    refine c06_complete_partial g h hpre D hD _ _ ?_
    intro ps hps
    obtain ⟨qs, rfl⟩ := hps.head
    rcases hdom _ hps with h1 | ⟨h1, -⟩
    · exact List.mem_cons_of_mem _ h1
    · exact absurd h1.symm hne

/-! ### Examples -/

/-- `0 → 1 → {2, 3} → 4 → 1`, `4 → 5` -/
def exGraph : Graph := ⟨6, fun b => match b with
  | 1 => [0, 4] | 2 => [1] | 3 => [1] | 4 => [2, 3] | 5 => [4] | _ => []⟩

theorem exGraph_ok : exGraph.Ok := by
  refine ⟨by decide, ?_, rfl⟩
  intro b p h
  unfold exGraph at h ⊢
  simp only at h ⊢
  split at h <;> simp at h <;> omega

example : ∀ b, b < exGraph.n → b ≠ 0 → exGraph.preds b ≠ [] := by decide

example : (dominators exGraph).map (fun D => (D 5 1, D 5 2, D 5 4, D 4 3, D 2 1)) =
    some (true, false, true, false, true) := by decide

/-- The graph of `for i in range(...)` after lowering (cfg.cpp:243-277): entry 0, `forBegin` 1, `forCheck` 2,
`endFor` 3, `forBody` 4, and `forUpdate` 5, which leads to `forCheck` but has no predecessor. -/
def loopGraph : Graph := ⟨6, fun b => match b with
  | 1 => [0] | 2 => [1, 4, 5] | 3 => [2] | 4 => [2] | _ => []⟩

theorem loopGraph_ok : loopGraph.Ok := by
  refine ⟨by decide, ?_, rfl⟩
  intro b p h
  unfold loopGraph at h ⊢
  simp only at h ⊢
  split at h <;> simp at h <;> omega

/-- C06 fails on the graphs of imperative loops: the block before the loop dominates the body, and even the
entry dominates it, but neither is reported, because the update block has no predecessors and still counts. -/
theorem c06_violation_no_predecessors : loopGraph.Ok ∧ Dominates loopGraph 1 4 ∧ Dominates loopGraph 0 4 ∧
    Reachable loopGraph 4 ∧ (dominators loopGraph).map (fun D => (D 4 1, D 4 0)) = some (false, false) := by
  refine ⟨loopGraph_ok, ?_, ?_, ?_, by decide⟩
  · have key : ∀ b ps, Path loopGraph b ps → b ≠ 0 ∧ b ≠ 5 → 1 ∈ ps := by
      intro b ps hp
      induction hp with
      | entry => intro h; exact absurd rfl h.1
      | @step p b ps hp hm ih =>
        rintro ⟨h0, h5⟩
        by_cases hb : b = 1
        · subst hb; exact List.mem_cons_self ..
        · refine List.mem_cons_of_mem _ (ih ?_)
          have h5' : p ≠ 5 := by
            rintro rfl
            cases hp with
            | step _ h => simp [loopGraph] at h
          unfold loopGraph at hm
          simp only at hm
          split at hm <;> simp at hm <;> omega
    exact fun ps hp => key 4 ps hp (by decide)
  · intro ps hp
    have key : ∀ b ps, Path loopGraph b ps → 0 ∈ ps := by
      intro b ps hp
      induction hp with
      | entry => exact List.mem_cons_self ..
      | step _ _ ih => exact List.mem_cons_of_mem _ ih
    exact key 4 ps hp
  · exact ⟨[4, 2, 1, 0], .step (.step (.step .entry (by decide)) (by decide)) (by decide)⟩

end Codon.Flow
