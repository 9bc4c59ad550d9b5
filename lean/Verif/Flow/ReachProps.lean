import Verif.Flow.ReachModel
import Mathlib.Data.List.Basic
import Mathlib.Data.List.Induction
import Mathlib.Data.List.Perm.Subperm
import Mathlib.Tactic.Common
/-!
# C05, C07: reaching definitions, constant propagation
-/
namespace Codon.Flow

/-! ### Specification -/

/-- `CPath g b bs`: starting at the entry, the blocks `bs` have been run through (in this order) and the
control is at the start of block `b`. -/
inductive CPath (g : Cfg) : Nat → List Nat → Prop
  | entry : CPath g 0 []
  | step {p b bs} : CPath g p bs → p ∈ g.preds b → CPath g b (bs ++ [p])

/-- What was executed by a run that went through `bs` and stopped after place `pos` of block `b`. -/
def trace (g : Cfg) (bs : List Nat) (b pos : Nat) : List Instr :=
  bs.flatMap g.code ++ (g.code b).take (pos + 1)

/-- The last assignment to `x`. -/
def lastAssign (x : Nat) (l : List Instr) : Option Instr :=
  l.reverse.find? fun i => i.kills == some x

/-- Blocks have numbers below `n`, successors and predecessors fit, instructions have different numbers,
nothing leads to the entry. -/
structure Cfg.Ok (g : Cfg) : Prop where
  pos : 0 < g.n
  preds : ∀ b p, p ∈ g.preds b → p < g.n ∧ b < g.n
  succs : ∀ b p, p ∈ g.preds b ↔ b ∈ g.succs p
  entry : g.preds 0 = []
  code : ∀ b, g.n ≤ b → g.code b = []
  ids : ∀ i j, i ∈ g.ordering → j ∈ g.ordering → i.id = j.id → i = j

/-! ### Sets of a block -/

theorem generated_append (l : List Instr) (i : Instr) (x : Nat) :
    generated (l ++ [i]) x = if i.kills = some x then some i.id else generated l x := by
  unfold generated
  rw [List.foldl_append]
  cases i with
  | assign id y v => by_cases h : x = y <;> simp [Instr.kills, Instr.id, h, eq_comm]
  | pointer => simp [Instr.kills]
  | other => simp [Instr.kills]

theorem lastAssign_append (x : Nat) (l : List Instr) (i : Instr) :
    lastAssign x (l ++ [i]) = if i.kills = some x then some i else lastAssign x l := by
  unfold lastAssign
  rw [List.reverse_append, List.reverse_singleton, List.singleton_append, List.find?_cons]
  by_cases h : i.kills = some x
  · simp [h]
  · rw [if_neg h, show (i.kills == some x) = false by simpa using h]

theorem generated_eq (x : Nat) (l : List Instr) : generated l x = (lastAssign x l).map Instr.id := by
  induction l using List.reverseRecOn with
  | nil => simp [generated, lastAssign]
  | append_singleton l i ih =>
    rw [generated_append, lastAssign_append, ih]
    split <;> simp

theorem lastAssign_some {x : Nat} {l : List Instr} {i : Instr} (h : lastAssign x l = some i) :
    i ∈ l ∧ i.kills = some x := by
  unfold lastAssign at h
  have h1 := List.find?_some h
  have h2 := List.mem_of_find?_eq_some h
  exact ⟨by simpa using h2, by simpa using h1⟩

theorem lastAssign_none {x : Nat} {l : List Instr} (h : lastAssign x l = none) :
    ∀ i ∈ l, i.kills ≠ some x := by
  unfold lastAssign at h
  rw [List.find?_eq_none] at h
  intro i hi hk
  exact h i (by simpa using hi) (by simpa using hk)

theorem lastAssign_append' (x : Nat) (l m : List Instr) :
    lastAssign x (l ++ m) = (lastAssign x m).or (lastAssign x l) := by
  unfold lastAssign
  rw [List.reverse_append, List.find?_append]

theorem genSet_iff (l : List Instr) (b : Nat) :
    genSet l b = true ↔ ∃ x i, lastAssign x l = some i ∧ i.id = b := by
  unfold genSet
  rw [List.any_eq_true]
  constructor
  · rintro ⟨i, hi, h⟩
    split at h
    · rename_i x hx
      rw [generated_eq] at h
      simp at h
      obtain ⟨a, h1, h2⟩ := h
      exact ⟨x, a, h1, h2⟩
    · cases h
  · rintro ⟨x, i, h1, h2⟩
    obtain ⟨h3, h4⟩ := lastAssign_some h1
    refine ⟨i, h3, ?_⟩
    rw [h4]
    simp only
    rw [generated_eq, h1]
    simp [h2]

theorem kills_isAssign {i : Instr} {x : Nat} (h : i.kills = some x) : ∃ d, i.def = some d := by
  cases i with
  | assign id y v => cases v <;> exact ⟨_, rfl⟩
  | _ => cases h

theorem killSet_iff (g : Cfg) (l : List Instr) (b : Nat) :
    killSet g l b = true ↔ ∃ x i a, i ∈ l ∧ i.kills = some x ∧ a ∈ g.ordering ∧ a.kills = some x ∧
      a.id ≠ i.id ∧ a.id = b := by
  unfold killSet
  rw [List.any_eq_true]
  constructor
  · rintro ⟨i, hi, h⟩
    split at h
    · rename_i id x v
      rw [List.any_eq_true] at h
      obtain ⟨a, ha, h⟩ := h
      simp at h
      exact ⟨x, _, a, hi, rfl, ha, h.1.1, h.1.2, h.2⟩
    · cases h
  · rintro ⟨x, i, a, hi, hk, ha, hak, hne, rfl⟩
    refine ⟨i, hi, ?_⟩
    cases i with
    | assign id y v =>
      simp only
      rw [List.any_eq_true]
      simp [Instr.kills] at hk
      subst hk
      exact ⟨a, ha, by simp [hak]; exact hne⟩
    | _ => cases hk

theorem mem_ordering {g : Cfg} {b : Nat} (hb : b < g.n) {i : Instr} (hi : i ∈ g.code b) {x : Nat}
    (hk : i.kills = some x) : i ∈ g.ordering := by
  unfold Cfg.ordering
  rw [List.mem_filter, List.mem_flatMap]
  exact ⟨⟨b, List.mem_range.2 hb, hi⟩, by rw [hk]; rfl⟩

/-! ### The loop -/

theorem unionOut_iff (out : Nat → Bits) (ps : List Nat) (x : Nat) :
    unionOut out ps x = true ↔ ∃ p ∈ ps, out p x = true := by
  unfold unionOut
  suffices h : ∀ (acc : Bits), (ps.foldl (fun acc p => fun b => acc b || out p b) acc) x = true ↔
      acc x = true ∨ ∃ p ∈ ps, out p x = true by simpa using h fun _ => false
  induction ps with
  | nil => simp
  | cons p ps ih => intro acc; rw [List.foldl_cons, ih]; simp [or_assoc]

theorem mem_push {q : List Nat} {b c : Nat} : c ∈ push q b ↔ c ∈ q ∨ c = b := by
  unfold push
  split
  · rename_i h
    constructor
    · exact Or.inl
    · rintro (h' | rfl)
      exacts [h', h]
  · simp

theorem mem_foldl_push {q l : List Nat} {c : Nat} : c ∈ l.foldl push q ↔ c ∈ q ∨ c ∈ l := by
  induction l generalizing q with
  | nil => simp
  | cons a l ih => rw [List.foldl_cons, ih, mem_push]; simp [or_assoc]

theorem nodup_foldl_push {q l : List Nat} (h : q.Nodup) : (l.foldl push q).Nodup := by
  induction l generalizing q with
  | nil => exact h
  | cons a l ih =>
    rw [List.foldl_cons]
    apply ih
    unfold push
    split
    · exact h
    · rename_i hn
      rw [List.nodup_append]
      exact ⟨h, by simp, by rintro x hx y hy rfl; simp at hy; subst hy; exact hn hx⟩

/-- The definition `b` gets to the end of block `c`: the set-up that the analysis solves. -/
inductive AtEnd (g : Cfg) : Nat → Nat → Prop
  | gen {c b} : genSet (g.code c) b = true → AtEnd g c b
  | pass {p c b} : AtEnd g p b → p ∈ g.preds c → killSet g (g.code c) b = false → AtEnd g c b

theorem code_lt {g : Cfg} (hg : g.Ok) {b : Nat} {i : Instr} (h : i ∈ g.code b) : b < g.n := by
  by_contra hn
  rw [hg.code b (by omega)] at h
  cases h

/-- Only assignments are in the sets. -/
theorem atEnd_ordering {g : Cfg} (hg : g.Ok) {c b : Nat} (hh : AtEnd g c b) :
    ∃ a ∈ g.ordering, a.id = b := by
  induction hh with
  | @gen c b hx =>
    rw [genSet_iff] at hx
    obtain ⟨x, i, h1, h2⟩ := hx
    obtain ⟨h3, h4⟩ := lastAssign_some h1
    exact ⟨i, mem_ordering (code_lt hg h3) h3 h4, h2⟩
  | pass _ _ _ ih => exact ih

structure RDInv (g : Cfg) (s : RDState) : Prop where
  /-- a block that does not wait is up to date -/
  done : ∀ c, c < g.n → c ∉ s.queue → s.ins c = unionOut s.out (g.preds c) ∧
    s.out c = newOut g c (s.ins c)
  /-- only growing -/
  grow : ∀ c x, s.out c x = true → newOut g c (unionOut s.out (g.preds c)) x = true
  /-- nothing but what is due -/
  exact : ∀ c b, s.out c b = true → AtEnd g c b
  queue : ∀ c ∈ s.queue, c < g.n
  nodup : s.queue.Nodup

theorem rdInit_inv (g : Cfg) : RDInv g (rdInit g) := by
  refine ⟨?_, ?_, ?_, ?_, ?_⟩
  · intro c hc hq
    exact absurd (by simp [rdInit, mem_foldl_push, hc]) hq
  · intro c x h
    have h' : genSet (g.code c) x = true := h
    simp [newOut, h']
  · intro c b h
    exact .gen h
  · intro c hc
    simpa [rdInit, mem_foldl_push] using hc
  · exact nodup_foldl_push List.nodup_nil

theorem newOut_mono {g : Cfg} {c : Nat} {i j : Bits} (h : ∀ x, i x = true → j x = true) {x : Nat}
    (hx : newOut g c i x = true) : newOut g c j x = true := by
  unfold newOut at hx ⊢
  simp only [Bool.or_eq_true, Bool.and_eq_true] at hx ⊢
  rcases hx with ⟨h1, h2⟩ | h1
  · exact Or.inl ⟨h _ h1, h2⟩
  · exact Or.inr h1

theorem unionOut_mono {o o' : Nat → Bits} {ps : List Nat} (h : ∀ p x, o p x = true → o' p x = true) (x : Nat)
    (hx : unionOut o ps x = true) : unionOut o' ps x = true := by
  rw [unionOut_iff] at hx ⊢
  obtain ⟨p, hp, hx⟩ := hx
  exact ⟨p, hp, h p x hx⟩

/-- the new `out` set of the block taken from the queue -/
def outOf (g : Cfg) (s : RDState) (b : Nat) : Bits := newOut g b (unionOut s.out (g.preds b))

def changed (g : Cfg) (s : RDState) (b : Nat) : Bool :=
  g.ordering.any fun a => outOf g s b a.id != s.out b a.id

/-- the state after a block was taken from the queue -/
def rdNext (g : Cfg) (s : RDState) (b : Nat) (q : List Nat) : RDState :=
  { ins := fun c => if c = b then unionOut s.out (g.preds b) else s.ins c
    out := fun c => if c = b then outOf g s b else s.out c
    queue := if changed g s b then (g.succs b).foldl push q else q }

theorem outOf_atEnd {g : Cfg} {s : RDState} (h : RDInv g s) (b x : Nat) (hx : outOf g s b x = true) :
    AtEnd g b x := by
  unfold outOf newOut at hx
  simp only [Bool.or_eq_true, Bool.and_eq_true, unionOut_iff] at hx
  rcases hx with ⟨⟨p, hp, hx⟩, hk⟩ | hx
  · exact .pass (h.exact p x hx) hp (by simpa using hk)
  · exact .gen hx

theorem changed_false {g : Cfg} (hg : g.Ok) {s : RDState} (h : RDInv g s) {b : Nat}
    (hc : changed g s b = false) : outOf g s b = s.out b := by
  funext x
  have hs : ∀ a ∈ g.ordering, outOf g s b a.id = s.out b a.id := by
    intro a ha
    unfold changed at hc
    rw [List.any_eq_false] at hc
    simpa using hc a ha
  rw [Bool.eq_iff_iff]
  constructor
  · intro hx
    obtain ⟨a, ha, rfl⟩ := atEnd_ordering hg (outOf_atEnd h b x hx)
    rw [← hs a ha]; exact hx
  · intro hx
    obtain ⟨a, ha, rfl⟩ := atEnd_ordering hg (h.exact b x hx)
    rw [hs a ha]; exact hx

theorem rdNext_grow {g : Cfg} {s : RDState} {b : Nat} {q : List Nat} (h : RDInv g s) :
    ∀ c x, s.out c x = true → (rdNext g s b q).out c x = true := by
  intro c x hx
  simp only [rdNext]
  split
  · subst c; exact h.grow b x hx
  · exact hx

theorem rdNext_inv {g : Cfg} (hg : g.Ok) {s : RDState} {b : Nat} {q : List Nat} (h : RDInv g s)
    (hq : s.queue = b :: q) : RDInv g (rdNext g s b q) := by
  have hb : b < g.n := h.queue b (by rw [hq]; exact List.mem_cons_self ..)
  have hnd := h.nodup
  rw [hq] at hnd
  have hgrow := rdNext_grow (b := b) (q := q) h
  refine ⟨?_, ?_, ?_, ?_, ?_⟩
  · intro c hc hcq
    -- nothing changed for the predecessors of `c`, unless `c` itself was recomputed
    have huni : unionOut (rdNext g s b q).out (g.preds c) = unionOut s.out (g.preds c) := by
      cases hch : changed g s b with
      | true =>
        have hque : (rdNext g s b q).queue = (g.succs b).foldl push q := by simp [rdNext, hch]
        rw [hque, mem_foldl_push] at hcq
        have hnp : b ∉ g.preds c := fun hp => hcq (Or.inr ((hg.succs c b).1 hp))
        funext x
        rw [Bool.eq_iff_iff, unionOut_iff, unionOut_iff]
        constructor
        · rintro ⟨p, hp, hx⟩
          refine ⟨p, hp, ?_⟩
          simp only [rdNext] at hx
          rw [if_neg (by rintro rfl; exact hnp hp)] at hx
          exact hx
        · rintro ⟨p, hp, hx⟩
          exact ⟨p, hp, hgrow p x hx⟩
      | false =>
        have hsame := changed_false hg h hch
        have : (rdNext g s b q).out = s.out := by
          funext c
          simp only [rdNext]
          split
          · subst c; exact hsame
          · rfl
        rw [this]
    by_cases hcb : c = b
    · subst hcb
      rw [huni]
      simp [rdNext, outOf]
    · have hcs : c ∉ s.queue := by
        rw [hq]
        intro hm
        rcases List.mem_cons.1 hm with hm | hm
        · exact hcb hm
        · apply hcq
          simp only [rdNext]
          split
          · rw [mem_foldl_push]; exact Or.inl hm
          · exact hm
      obtain ⟨d1, d2⟩ := h.done c hc hcs
      rw [huni]
      simp [rdNext, hcb]
      exact ⟨d1, d2⟩
  · intro c x hx
    refine newOut_mono (unionOut_mono hgrow) ?_
    simp only [rdNext] at hx
    split at hx
    · subst c; exact hx
    · exact h.grow c x hx
  · intro c x hx
    simp only [rdNext] at hx
    split at hx
    · subst c; exact outOf_atEnd h b x hx
    · exact h.exact c x hx
  · intro c hc
    simp only [rdNext] at hc
    split at hc
    · rw [mem_foldl_push] at hc
      rcases hc with hc | hc
      · exact h.queue c (by rw [hq]; exact List.mem_cons_of_mem _ hc)
      · exact (hg.preds c b ((hg.succs c b).2 hc)).2
    · exact h.queue c (by rw [hq]; exact List.mem_cons_of_mem _ hc)
  · simp only [rdNext]
    split
    · exact nodup_foldl_push (List.nodup_cons.1 hnd).2
    · exact (List.nodup_cons.1 hnd).2

/-- The bits still unset. -/
def missing (g : Cfg) (s : RDState) : Nat :=
  ((List.range g.n).map fun c => g.ordering.countP fun a => !s.out c a.id).sum

theorem countP_lt' {α : Type} {l : List α} {u v : α → Bool} (h : ∀ x, u x = true → v x = true)
    (hne : ∃ x ∈ l, u x ≠ v x) : l.countP u < l.countP v := by
  induction l with
  | nil => simp at hne
  | cons a l ih =>
    have hle : l.countP u ≤ l.countP v := List.countP_mono_left fun x _ hx => h x hx
    rw [List.countP_cons, List.countP_cons]
    obtain ⟨x, hx, hxx⟩ := hne
    rcases List.mem_cons.1 hx with rfl | hx
    · cases hu : u x with
      | true => exact absurd (by rw [hu, h x hu]) hxx
      | false =>
        cases hv : v x with
        | true => simp; omega
        | false => rw [hu, hv] at hxx; exact absurd rfl hxx
    · have := ih ⟨x, hx, hxx⟩
      cases hu : u a with
      | true => simp [h a hu]; omega
      | false => simp; omega

theorem sum_le' {l : List Nat} {u v : Nat → Nat} (h : ∀ x, u x ≤ v x) : (l.map u).sum ≤ (l.map v).sum := by
  induction l with
  | nil => simp
  | cons a l ih => simp only [List.map_cons, List.sum_cons]; have := h a; omega

theorem sum_lt' {l : List Nat} {u v : Nat → Nat} (h : ∀ x, u x ≤ v x) (hlt : ∃ x ∈ l, u x < v x) :
    (l.map u).sum < (l.map v).sum := by
  induction l with
  | nil => simp at hlt
  | cons a l ih =>
    simp only [List.map_cons, List.sum_cons]
    have h1 := h a
    have h2 := sum_le' (l := l) h
    obtain ⟨x, hx, hxx⟩ := hlt
    rcases List.mem_cons.1 hx with rfl | hx
    · omega
    · have := ih ⟨x, hx, hxx⟩
      omega

theorem missing_le (g : Cfg) (s : RDState) : missing g s ≤ g.n * g.ordering.length := by
  unfold missing
  have h2 : ∀ l : List Nat, (l.map fun c => g.ordering.countP fun a => !s.out c a.id).sum ≤
      l.length * g.ordering.length := by
    intro l
    induction l with
    | nil => simp
    | cons a l ih =>
      simp only [List.map_cons, List.sum_cons, List.length_cons]
      have := List.countP_le_length (p := fun x => !s.out a (Instr.id x)) (l := g.ordering)
      rw [Nat.add_mul]
      omega
  simpa using h2 (List.range g.n)

theorem missing_next {g : Cfg} {s : RDState} {b : Nat} {q : List Nat} (h : RDInv g s) :
    missing g (rdNext g s b q) ≤ missing g s ∧
    (b < g.n → changed g s b = true → missing g (rdNext g s b q) < missing g s) := by
  have hgrow := rdNext_grow (b := b) (q := q) h
  have hle : ∀ c, (g.ordering.countP fun a => !(rdNext g s b q).out c a.id) ≤
      g.ordering.countP fun a => !s.out c a.id := by
    intro c
    refine List.countP_mono_left fun a _ ha => ?_
    cases hx : s.out c a.id with
    | true => rw [hgrow c a.id hx] at ha; exact ha
    | false => rfl
  refine ⟨sum_le' hle, fun hb hc => sum_lt' hle ⟨b, List.mem_range.2 hb, ?_⟩⟩
  refine countP_lt' ?_ ?_
  · intro a ha
    cases hx : s.out b a.id with
    | true => rw [hgrow b a.id hx] at ha; exact ha
    | false => rfl
  · unfold changed at hc
    rw [List.any_eq_true] at hc
    obtain ⟨a, ha, hne⟩ := hc
    refine ⟨a, ha, ?_⟩
    simp [rdNext]
    simpa using hne

theorem queue_length {g : Cfg} {s : RDState} (h : RDInv g s) : s.queue.length ≤ g.n := by
  have : s.queue.Subperm (List.range g.n) :=
    List.subperm_of_subset h.nodup (fun c hc => List.mem_range.2 (h.queue c hc))
  simpa using this.length_le

theorem rdLoop_spec {g : Cfg} (hg : g.Ok) : ∀ (f : Nat) (s : RDState), RDInv g s →
    missing g s * (g.n + 1) + s.queue.length < f →
    ∃ s', rdLoop g f s = some s' ∧ RDInv g s' ∧ s'.queue = [] := by
  intro f
  induction f with
  | zero => intro s _ h; omega
  | succ f ih =>
    intro s h hf
    cases hq : s.queue with
    | nil => exact ⟨s, by simp [rdLoop, hq], h, hq⟩
    | cons b q =>
      have hinv := rdNext_inv hg h hq
      have hstep : rdLoop g (f + 1) s = rdLoop g f (rdNext g s b q) := by
        rw [rdLoop, hq]
        rfl
      rw [hstep]
      apply ih _ hinv
      obtain ⟨m1, m2⟩ := missing_next (b := b) (q := q) h
      have hb : b < g.n := h.queue b (by rw [hq]; exact List.mem_cons_self ..)
      rw [hq, List.length_cons] at hf
      have hl := queue_length hinv
      cases hc : changed g s b with
      | true =>
        have := m2 hb hc
        have h2 : (missing g (rdNext g s b q) + 1) * (g.n + 1) ≤ missing g s * (g.n + 1) :=
          Nat.mul_le_mul_right _ this
        rw [Nat.add_mul] at h2
        omega
      | false =>
        have hql : (rdNext g s b q).queue = q := by simp [rdNext, hc]
        rw [hql]
        have h2 : missing g (rdNext g s b q) * (g.n + 1) ≤ missing g s * (g.n + 1) :=
          Nat.mul_le_mul_right _ m1
        omega

/-- The analysis ends; its result is the least solution. -/
theorem rdAnalyze_spec {g : Cfg} (hg : g.Ok) : ∃ ins, rdAnalyze g = some ins ∧
    ∀ c x, c < g.n → (ins c x = true ↔ ∃ p ∈ g.preds c, AtEnd g p x) := by
  obtain ⟨s, h1, h2, h3⟩ := rdLoop_spec hg (rdFuel g) (rdInit g) (rdInit_inv g) (by
    have h1 := missing_le g (rdInit g)
    have h2 := queue_length (rdInit_inv g)
    have h3 := Nat.mul_le_mul_right (g.n + 1) h1
    unfold rdFuel
    rw [Nat.add_mul]
    omega)
  refine ⟨s.ins, by simp [rdAnalyze, h1], ?_⟩
  have hall : ∀ c x, AtEnd g c x → c < g.n → s.out c x = true := by
    intro c x hx
    induction hx with
    | @gen c x hx =>
      intro hc
      rw [(h2.done c hc (by rw [h3]; simp)).2]
      simp [newOut, hx]
    | @pass p c x _ hp hk ih =>
      intro hc
      obtain ⟨d1, d2⟩ := h2.done c hc (by rw [h3]; simp)
      rw [d2, d1]
      have hu : unionOut s.out (g.preds c) x = true := by
        rw [unionOut_iff]; exact ⟨p, hp, ih (hg.preds c p hp).1⟩
      simp [newOut, hu, hk]
  intro c x hc
  rw [(h2.done c hc (by rw [h3]; simp)).1, unionOut_iff]
  constructor
  · rintro ⟨p, hp, hx⟩; exact ⟨p, hp, h2.exact p x hx⟩
  · rintro ⟨p, hp, hx⟩; exact ⟨p, hp, hall p x hx (hg.preds c p hp).1⟩

/-! ### From paths to sets -/

/-- An assignment survives a block that does not assign the variable, and kills no other way. -/
theorem killSet_false {g : Cfg} (hg : g.Ok) {c : Nat} {i : Instr} {x : Nat} (hi : i ∈ g.ordering)
    (hk : i.kills = some x) (hn : ∀ j ∈ g.code c, j.kills ≠ some x) : killSet g (g.code c) i.id = false := by
  by_contra h
  rw [Bool.not_eq_false, killSet_iff] at h
  obtain ⟨y, j, a, hj, hjk, ha, hak, hne, he⟩ := h
  have := hg.ids a i ha hi he
  subst this
  rw [hk] at hak
  cases hak
  exact hn j hj hjk

theorem lastAssign_mem_ordering {g : Cfg} (hg : g.Ok) {bs : List Nat} {x : Nat} {i : Instr}
    (h : lastAssign x (bs.flatMap g.code) = some i) : i ∈ g.ordering := by
  obtain ⟨h1, h2⟩ := lastAssign_some h
  rw [List.mem_flatMap] at h1
  obtain ⟨b, _, h1⟩ := h1
  exact mem_ordering (code_lt hg h1) h1 h2

theorem atEnd_of_path {g : Cfg} (hg : g.Ok) {p : Nat} {bs : List Nat} (h : CPath g p bs) {x : Nat}
    {i : Instr} (hl : lastAssign x ((bs ++ [p]).flatMap g.code) = some i) : AtEnd g p i.id := by
  induction h with
  | entry =>
    refine .gen ?_
    rw [genSet_iff]
    exact ⟨x, i, by simpa using hl, rfl⟩
  | @step p b bs hp hm ih =>
    rw [List.flatMap_append, lastAssign_append'] at hl
    cases hb : lastAssign x (g.code b) with
    | some j =>
      have hj : lastAssign x (List.flatMap g.code [b]) = some j := by simpa using hb
      rw [hj] at hl
      simp at hl
      subst hl
      refine .gen ?_
      rw [genSet_iff]
      exact ⟨x, j, hb, rfl⟩
    | none =>
      have hj : lastAssign x (List.flatMap g.code [b]) = none := by simpa using hb
      rw [hj] at hl
      simp at hl
      have hl' : lastAssign x ((bs ++ [p]).flatMap g.code) = some i := by
        simpa [List.flatMap_append] using hl
      exact .pass (ih hl') hm
        (killSet_false hg (lastAssign_mem_ordering hg hl') (lastAssign_some hl').2 (lastAssign_none hb))

theorem mem_insertDef {l : List Def} {d e : Def} : e ∈ insertDef l d ↔ e ∈ l ∨ e = d := by
  unfold insertDef
  split
  · rename_i h
    constructor
    · exact Or.inl
    · rintro (h' | rfl)
      exacts [h', h]
  · simp

theorem mem_inDefs {g : Cfg} {ins : Nat → Bits} {b x : Nat} {d : Def} :
    d ∈ inDefs g ins b x ↔ ∃ a ∈ g.ordering, ins b a.id = true ∧ a.kills = some x ∧ a.def = some d := by
  unfold inDefs
  suffices h : ∀ (l : List Instr) (acc : List Def), d ∈ l.foldl (addDef ins b x) acc ↔
      d ∈ acc ∨ ∃ a ∈ l, ins b a.id = true ∧ a.kills = some x ∧ a.def = some d by
    simpa using h g.ordering []
  intro l
  induction l with
  | nil => intro acc; simp
  | cons a l ih =>
    intro acc
    rw [List.foldl_cons, ih]
    unfold addDef
    by_cases hc : (ins b a.id && a.kills == some x) = true
    · rw [if_pos hc]
      simp at hc
      obtain ⟨e, he⟩ := kills_isAssign hc.2
      rw [he]
      simp only [mem_insertDef]
      constructor
      · rintro ((h | rfl) | ⟨a', h1, h2⟩)
        · exact Or.inl h
        · exact Or.inr ⟨a, List.mem_cons_self .., hc.1, hc.2, he⟩
        · exact Or.inr ⟨a', List.mem_cons_of_mem _ h1, h2⟩
      · rintro (h | ⟨a', h1, h2, h3, h4⟩)
        · exact Or.inl (Or.inl h)
        · rcases List.mem_cons.1 h1 with rfl | h1
          · rw [he] at h4; cases h4; exact Or.inl (Or.inr rfl)
          · exact Or.inr ⟨a', h1, h2, h3, h4⟩
    · rw [if_neg hc]
      constructor
      · rintro (h | ⟨a', h1, h2⟩)
        · exact Or.inl h
        · exact Or.inr ⟨a', List.mem_cons_of_mem _ h1, h2⟩
      · rintro (h | ⟨a', h1, h2, h3, h4⟩)
        · exact Or.inl h
        · rcases List.mem_cons.1 h1 with rfl | h1
          · exact absurd (by simp [h2, h3]) hc
          · exact Or.inr ⟨a', h1, h2, h3, h4⟩

theorem walk_foldl (x : Nat) (l : List Instr) (s : List Def × Bool) :
    l.foldl (walk x) s = match lastAssign x l with
      | some i => (i.def.toList, true)
      | none => s := by
  induction l using List.reverseRecOn with
  | nil => rfl
  | append_singleton l i ih =>
    rw [List.foldl_append, lastAssign_append, ih]
    by_cases h : i.kills = some x
    · rw [if_pos h]
      obtain ⟨d, hd⟩ := kills_isAssign h
      simp [walk, h, hd]
    · rw [if_neg h]
      simp [walk, h]

/-! ### C05 -/

/-- The analysis ends. -/
theorem c05_terminates (g : Cfg) (hg : g.Ok) : ∃ ins, rdAnalyze g = some ins := by
  obtain ⟨ins, h, -⟩ := rdAnalyze_spec hg
  exact ⟨ins, h⟩

/-- The address of the variable is taken somewhere in the function. -/
def Taken (g : Cfg) (x : Nat) : Prop := ∃ b id, Instr.pointer id x ∈ g.code b

theorem invalidVar_iff {g : Cfg} (hg : g.Ok) (x : Nat) : invalidVar g x = true ↔ Taken g x := by
  unfold invalidVar Taken
  simp only [List.any_eq_true, List.mem_range]
  constructor
  · rintro ⟨b, hb, i, hi, h⟩
    split at h
    · rename_i id y
      have : y = x := by simpa using h
      subst this
      exact ⟨b, id, hi⟩
    · cases h
  · rintro ⟨b, id, h⟩
    exact ⟨b, code_lt hg h, _, h, by simp⟩

/-- **C05** A run comes from the entry to place `pos` of block `b`.  The last assignment of the local variable `x`
on this run is among the reported definitions (unless the address of `x` is taken somewhere, then nothing
is reported). -/
theorem c05_reaching (g : Cfg) (hg : g.Ok) (ins : Nat → Bits) (hins : rdAnalyze g = some ins)
    (global : Nat → Bool) (x b pos : Nat) (hx : ¬ Taken g x) (hgl : global x = false)
    (bs : List Nat) (hp : CPath g b bs) (i : Instr) (hi : lastAssign x (trace g bs b pos) = some i) :
    ∃ d, i.def = some d ∧ d ∈ reachingDefs g ins global x b pos := by
  obtain ⟨ins', h1, h2⟩ := rdAnalyze_spec hg
  rw [hins] at h1
  cases h1
  obtain ⟨d, hd⟩ := kills_isAssign (lastAssign_some hi).2
  refine ⟨d, hd, ?_⟩
  unfold reachingDefs
  rw [← invalidVar_iff hg, Bool.not_eq_true] at hx
  rw [hx, hgl]
  simp only [Bool.or_self, Bool.false_eq_true, if_false]
  rw [walk_foldl]
  unfold trace at hi
  rw [lastAssign_append'] at hi
  cases hl : lastAssign x ((g.code b).take (pos + 1)) with
  | some j =>
    rw [hl] at hi
    simp at hi
    subst hi
    simp [hd]
  | none =>
    rw [hl] at hi
    simp at hi
    simp only
    cases hp with
    | entry => simp [lastAssign] at hi
    | @step p b bs hp hm =>
      have hb0 : b ≠ 0 := by rintro rfl; rw [hg.entry] at hm; cases hm
      rw [if_neg (by simp [hb0])]
      rw [mem_inDefs]
      exact ⟨i, lastAssign_mem_ordering hg hi,
        (h2 b i.id (hg.preds b p hm).2).2 ⟨p, hm, atEnd_of_path hg hp hi⟩, (lastAssign_some hi).2, hd⟩

/-- `Clear g x a c`: from the end of block `a` a way leads to the end of block `c` on which `x` is not
assigned in a block after `a`. -/
inductive Clear (g : Cfg) (x : Nat) (a : Nat) : Nat → Prop
  | refl : Clear g x a a
  | step {p c} : Clear g x a p → p ∈ g.preds c → (∀ j ∈ g.code c, j.kills ≠ some x) → Clear g x a c

/-- Nothing is reported without reason: a reported definition either is the last assignment before the place
in its block, or it is the last one of its block and some way without assignments leads from there. -/
theorem c05_precise (g : Cfg) (hg : g.Ok) (ins : Nat → Bits) (hins : rdAnalyze g = some ins)
    (global : Nat → Bool) (x b pos : Nat) (hb : b < g.n) (d : Def)
    (hd : d ∈ reachingDefs g ins global x b pos) :
    (∃ i, lastAssign x ((g.code b).take (pos + 1)) = some i ∧ i.def = some d) ∨
    (lastAssign x ((g.code b).take (pos + 1)) = none ∧
      ∃ a p i, lastAssign x (g.code a) = some i ∧ i.def = some d ∧ Clear g x a p ∧ p ∈ g.preds b) := by
  obtain ⟨ins', h1, h2⟩ := rdAnalyze_spec hg
  rw [hins] at h1
  cases h1
  unfold reachingDefs at hd
  split at hd
  · cases hd
  · simp only at hd
    rw [walk_foldl] at hd
    cases hl : lastAssign x ((g.code b).take (pos + 1)) with
    | some j =>
      rw [hl] at hd
      simp at hd
      exact Or.inl ⟨j, rfl, hd⟩
    | none =>
      rw [hl] at hd
      simp only at hd
      split at hd
      · cases hd
      · rw [mem_inDefs] at hd
        obtain ⟨a, ha, hia, hak, had⟩ := hd
        rw [h2 b _ hb] at hia
        obtain ⟨p, hp, hat⟩ := hia
        refine Or.inr ⟨rfl, ?_⟩
        have key : ∀ c y, AtEnd g c y → y = a.id →
            ∃ e, lastAssign x (g.code e) = some a ∧ Clear g x e c := by
          intro c y hy
          induction hy with
          | @gen c y hy =>
            rintro rfl
            rw [genSet_iff] at hy
            obtain ⟨z, i, hi, hid⟩ := hy
            obtain ⟨m1, m2⟩ := lastAssign_some hi
            have := hg.ids i a (mem_ordering (code_lt hg m1) m1 m2) ha hid
            subst this
            rw [hak] at m2
            cases m2
            exact ⟨c, hi, .refl⟩
          | @pass p c y hy hp hk ih =>
            rintro rfl
            obtain ⟨e, e1, e2⟩ := ih rfl
            by_cases hex : ∃ j ∈ g.code c, j.kills = some x
            · -- then the assignment is the only one of `x` in the block: it is `a` itself
              obtain ⟨j, hj, hjk⟩ := hex
              have hall : ∀ j ∈ g.code c, j.kills = some x → j = a := by
                intro j hj hjk
                by_contra hne
                rw [← Bool.not_eq_true, killSet_iff] at hk
                refine hk ⟨x, j, a, hj, hjk, ha, hak, ?_, rfl⟩
                intro he
                exact hne (hg.ids a j ha (mem_ordering (code_lt hg hj) hj hjk) he).symm
              refine ⟨c, ?_, .refl⟩
              cases hl' : lastAssign x (g.code c) with
              | none => exact absurd hjk (lastAssign_none hl' j hj)
              | some k =>
                obtain ⟨m1, m2⟩ := lastAssign_some hl'
                rw [hall k m1 m2]
            · exact ⟨e, e1, .step e2 hp (fun j hj hjk => hex ⟨j, hj, hjk⟩)⟩
        obtain ⟨e, e1, e2⟩ := key p _ hat rfl
        exact ⟨e, p, a, e1, had, e2, hp⟩

/-! ### C07 -/

/-- What the instruction `i` does to the store.  A variable that is not exposed changes only by being
assigned, and then it holds the literal if a literal is assigned.  An exposed variable (global, or with its
address taken) may be changed by any instruction. -/
def Effect {κ : Type} (lit : Nat → Option κ) (exposed : Nat → Prop) (i : Instr) (s s' : Nat → Option κ) :
    Prop :=
  ∀ x, ¬ exposed x →
    (i.kills = some x → ∃ v, s' x = some v ∧
      ∀ val c, i.def = some (.known val) → lit val = some c → v = c) ∧
    (i.kills ≠ some x → s' x = s x)

/-- The stores `s` and `s'` before and after a run. -/
inductive Run {κ : Type} (lit : Nat → Option κ) (exposed : Nat → Prop) (s : Nat → Option κ) :
    List Instr → (Nat → Option κ) → Prop
  | nil : Run lit exposed s [] s
  | step {is i s1 s2} : Run lit exposed s is s1 → Effect lit exposed i s1 s2 →
      Run lit exposed s (is ++ [i]) s2

theorem run_lastAssign {κ : Type} {lit : Nat → Option κ} {exposed : Nat → Prop} {s s' : Nat → Option κ}
    {is : List Instr} (h : Run lit exposed s is s') {x : Nat} (hx : ¬ exposed x) :
    match lastAssign x is with
    | none => s' x = s x
    | some i => ∃ v, s' x = some v ∧ ∀ val c, i.def = some (.known val) → lit val = some c → v = c := by
  induction h with
  | nil => rfl
  | @step is i s1 s2 h1 h2 ih =>
    obtain ⟨e1, e2⟩ := h2 x hx
    by_cases hk : i.kills = some x
    · have : lastAssign x (is ++ [i]) = some i := by simp [lastAssign, hk]
      rw [this]
      exact e1 hk
    · have : lastAssign x (is ++ [i]) = lastAssign x is := by simp [lastAssign, hk]
      rw [this, e2 hk]
      exact ih

/-- **C07** If the pass replaces the read of the local variable `x` at place `pos` of block `b` by the constant `c`,
then on every run from the entry that gets there, the variable holds `c` — provided that it was assigned at
all (reading it otherwise is an error at run time, or ruled out by the scoping rules).  Variables that are
global or have their address taken may change at any time during the run. -/
theorem c07_const_prop {κ : Type} (g : Cfg) (hg : g.Ok) (ins : Nat → Bits) (hins : rdAnalyze g = some ins)
    (global : Nat → Bool) (lit : Nat → Option κ) (x b pos : Nat) (c : κ)
    (hrep : constProp g ins global lit x b pos = some c)
    (bs : List Nat) (hp : CPath g b bs) (s s' : Nat → Option κ) (h0 : s x = none)
    (hrun : Run lit (fun y => Taken g y ∨ global y = true) s (trace g bs b pos) s')
    (v : κ) (hv : s' x = some v) : v = c := by
  unfold constProp at hrep
  split at hrep
  · rename_i val heq
    have hne : invalidVar g x = false ∧ global x = false := by
      unfold reachingDefs at heq
      split at heq
      · cases heq
      · rename_i hh; simpa using hh
    have hnt : ¬ Taken g x := by rw [← invalidVar_iff hg, hne.1]; simp
    have hl := run_lastAssign hrun (x := x) (by rw [hne.2]; simpa using hnt)
    cases hla : lastAssign x (trace g bs b pos) with
    | none => rw [hla] at hl; simp only at hl; rw [hl, h0] at hv; cases hv
    | some i =>
      rw [hla] at hl
      obtain ⟨w, hw, hlit⟩ := hl
      obtain ⟨d, hd, hmem⟩ := c05_reaching g hg ins hins global x b pos hnt hne.2 bs hp i hla
      rw [heq] at hmem
      simp at hmem
      subst hmem
      rw [hv] at hw
      cases hw
      exact hlit val c hd hrep
  · cases hrep

/-! ### Examples -/

/-- `x = 1` (value 10); loop: `y = x`; `if …: x = 1'` (value 10 again) ; after the loop `x` is read.
Blocks: 0 entry → 1 head → 2 body, 4 exit; 2 → 3 → 1, 2 → 1. -/
def exCfg : Cfg where
  n := 5
  preds := fun b => match b with | 1 => [0, 2, 3] | 2 => [1] | 3 => [2] | 4 => [1] | _ => []
  succs := fun b => match b with | 0 => [1] | 1 => [2, 4] | 2 => [3, 1] | 3 => [1] | _ => []
  code := fun b => match b with
    | 0 => [.assign 100 0 (some 10), .assign 101 1 none]
    | 2 => [.other 102, .assign 103 1 (some 11)]
    | 3 => [.assign 104 2 (some 12), .assign 105 1 (some 13)]
    | 4 => [.other 106]
    | _ => []

theorem exCfg_ok : exCfg.Ok := by
  refine ⟨by decide, ?_, ?_, rfl, ?_, ?_⟩
  · intro b p h
    unfold exCfg at h ⊢
    simp only at h ⊢
    split at h <;> simp at h <;> omega
  · intro b p
    unfold exCfg
    simp only
    constructor
    · intro h; split at h <;> simp at h
      · rcases h with rfl | rfl | rfl <;> simp
      all_goals subst h; simp
    · intro h; split at h <;> simp at h
      · subst h; simp
      · rcases h with rfl | rfl <;> simp
      · rcases h with rfl | rfl <;> simp
      · subst h; simp
  · intro b hb
    unfold exCfg at hb ⊢
    simp only at hb ⊢
    split <;> first | omega | rfl
  · have : exCfg.ordering = [.assign 100 0 (some 10), .assign 101 1 none, .assign 103 1 (some 11),
        .assign 104 2 (some 12), .assign 105 1 (some 13)] := by decide
    rw [this]
    intro i j hi hj
    simp at hi hj
    rcases hi with rfl | rfl | rfl | rfl | rfl <;> rcases hj with rfl | rfl | rfl | rfl | rfl <;> simp [Instr.id]

/-- At the end, `x` (0) is known to be value 10, `y` (1) may come from three places. -/
example : (rdAnalyze exCfg).map (fun ins => (reachingDefs exCfg ins (fun _ => false) 0 4 0,
    reachingDefs exCfg ins (fun _ => false) 1 4 0, reachingDefs exCfg ins (fun _ => false) 2 1 0)) =
    some ([.known 10], [.unknown 101, .known 11, .known 13], [.known 12]) := by decide

example : (rdAnalyze exCfg).map (fun ins =>
    constProp exCfg ins (fun _ => false) (fun v => if v = 10 then some 7 else none) 0 4 0) = some (some 7) := by
  decide

example : CPath exCfg 4 [0, 1, 2, 3, 1] :=
  .step (.step (.step (.step (.step (bs := []) .entry (by decide)) (by decide)) (by decide)) (by decide))
    (by decide)

/-- A variable whose address is taken is never replaced. -/
example : (rdAnalyze { exCfg with code := fun b => if b = 4 then [.other 106, .pointer 107 0] else exCfg.code b }).map
    (fun ins => constProp
      { exCfg with code := fun b => if b = 4 then [.other 106, .pointer 107 0] else exCfg.code b }
      ins (fun _ => false) (fun v => if v = 10 then some 7 else none) 0 4 0) = some none := by
  decide

end Codon.Flow
