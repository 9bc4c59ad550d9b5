import Verif.Bltin.Model
import Verif.Bltin.Spec
import Mathlib.Tactic.Common

/-! Lemmas for C86. -/

namespace Codon.Bltin
open Spec

variable {α β : Type}

/-- What resuming does to a suspended generator. -/
def adv (x : Gen α) : Gen α :=
  match x.src x.pos with
  | some _ => { x with pos := x.pos + 1 }
  | none => { x with st := .fin }

theorem resume_live {g : Nat} {w : World α} (h : (w g).st = .live) : resume g w = some (w.set g (adv (w g))) := by
  unfold resume adv
  cases e : (w g).src (w g).pos <;> simp [h]

theorem set_same (w : World α) (g : Nat) (x : Gen α) : (w.set g x) g = x := by simp [World.set]

theorem set_other (w : World α) {g h : Nat} (x : Gen α) (hh : h ≠ g) : (w.set g x) h = w h := by simp [World.set, hh]

theorem set_set (w : World α) (g : Nat) (x y : Gen α) : (w.set g x).set g y = w.set g y := by
  funext h
  simp only [World.set]
  by_cases e : h = g <;> simp [e]

theorem set_self (w : World α) (g : Nat) : w.set g (w g) = w := by
  funext h
  simp only [World.set]
  by_cases e : h = g <;> simp [e]

theorem adv_src (x : Gen α) : (adv x).src = x.src := by
  unfold adv
  cases x.src x.pos <;> rfl

theorem adv_fin {x : Gen α} (h : x.st = .live) : (adv x).st = .fin ↔ x.src x.pos = none := by
  unfold adv
  cases e : x.src x.pos <;> simp [h]

theorem adv_some {x : Gen α} {a : α} (h : x.src x.pos = some a) : adv x = { x with pos := x.pos + 1 } := by
  unfold adv
  rw [h]

theorem adv_none {x : Gen α} (h : x.src x.pos = none) : adv x = { x with st := .fin } := by
  unfold adv
  rw [h]

theorem done_live {g : Nat} {w : World α} (h : (w g).st = .live) :
    done g w = some (((w g).src (w g).pos).isNone, w.set g (adv (w g))) := by
  unfold done
  rw [resume_live h]
  simp only [Option.bind_eq_bind, Option.bind_some, set_same]
  congr 2
  cases e : (w g).src (w g).pos with
  | none => rw [adv_none e]; rfl
  | some a => rw [adv_some e]; simp [h]

theorem value_adv {g : Nat} {w : World α} (h : (w g).st = .live) {a : α} (e : (w g).src (w g).pos = some a)
    {w' : World α} (hw : w' g = adv (w g)) : value g w' = some a := by
  unfold value
  rw [hw, adv_some e]
  dsimp only
  rw [h]
  exact e

/-! ## Loops -/

theorem forGen_next {σ ρ : Type} (body : σ → α → Ctl σ ρ) {g f : Nat} {s : σ} {w : World α} (h : (w g).st = .live) {a : α}
    (e : (w g).src (w g).pos = some a) : forGen body g (f + 1) s w =
      match body s a with
      | .next s => forGen body g f s (w.set g { w g with pos := (w g).pos + 1 })
      | .ret r => some (.inr r, w.set g { w g with pos := (w g).pos + 1 }) := by
  rw [forGen, resume_live h]
  simp only [Option.bind_eq_bind, Option.bind_some, set_same]
  rw [if_neg (by rw [adv_fin h, e]; simp), value_adv h e (set_same ..), adv_some e]
  rfl

theorem forGen_end {σ ρ : Type} (body : σ → α → Ctl σ ρ) {g f : Nat} {s : σ} {w : World α} (h : (w g).st = .live)
    (e : (w g).src (w g).pos = none) : forGen body g (f + 1) s w = some (.inl s, w.set g { w g with st := .dead }) := by
  rw [forGen, resume_live h]
  simp only [Option.bind_eq_bind, Option.bind_some, set_same]
  rw [if_pos ((adv_fin h).mpr e), adv_none e]
  simp [destroy, set_same, set_set]

/-- A loop that goes on while `t` does not hold. -/
theorem forGen_first {ρ : Type} {t : α → Bool} {r : ρ} {g : Nat} {q : Nat} : ∀ (n : Nat) {f : Nat} {w : World α},
    (w g).st = .live → First (w g).src t (w g).pos q → q - (w g).pos = n → n < f →
    forGen (fun (_ : Unit) a => if t a then .ret r else .next ()) g f () w =
      match (w g).src q with
      | none => some (.inl (), w.set g { w g with pos := q, st := .dead })
      | some _ => some (.inr r, w.set g { w g with pos := q + 1 }) := by
  intro n
  induction n with
  | zero =>
    intro f w h hq hn hf
    obtain ⟨h1, h2, h3⟩ := hq
    obtain ⟨f, rfl⟩ : ∃ f', f = f' + 1 := ⟨f - 1, by omega⟩
    have : q = (w g).pos := by omega
    subst this
    cases e : (w g).src (w g).pos with
    | none => rw [forGen_end _ h e]
    | some a => rw [forGen_next _ h e, h3 a e]; rfl
  | succ n ih =>
    intro f w h hq hn hf
    obtain ⟨h1, h2, h3⟩ := hq
    obtain ⟨f, rfl⟩ : ∃ f', f = f' + 1 := ⟨f - 1, by omega⟩
    obtain ⟨a, e, ha⟩ := h2 (w g).pos (Nat.le_refl _) (by omega)
    rw [forGen_next _ h e, ha]
    simp only [Bool.false_eq_true, if_false]
    have := ih (f := f) (w := w.set g { w g with pos := (w g).pos + 1 }) (by rw [set_same]; exact h)
      (by rw [set_same]; exact ⟨by dsimp only; omega, fun i hi => h2 i (by dsimp only at hi; omega), h3⟩)
      (by rw [set_same]; dsimp only; omega) (by omega)
    rw [this, set_same, set_set, set_set]

/-- A loop that never ends. -/
theorem forGen_forever {ρ : Type} {t : α → Bool} {r : ρ} {g : Nat} : ∀ (f : Nat) {w : World α}, (w g).st = .live →
    (∀ i, (w g).pos ≤ i → ∃ a, (w g).src i = some a ∧ t a = false) →
    forGen (fun (_ : Unit) a => if t a then .ret r else .next ()) g f () w = none := by
  intro f
  induction f with
  | zero => intro w _ _; rfl
  | succ f ih =>
    intro w h hi
    obtain ⟨a, e, ha⟩ := hi (w g).pos (Nat.le_refl _)
    rw [forGen_next _ h e, ha]
    simp only [Bool.false_eq_true, if_false]
    exact ih (by rw [set_same]; exact h) (by rw [set_same]; intro i hi'; exact hi i (by dsimp only at hi'; omega))

theorem filter_first {p : α → Bool} {g : Nat} {q : Nat} : ∀ (n : Nat) {f : Nat} {w : World α},
    (w g).st = .live → First (w g).src p (w g).pos q → q - (w g).pos = n → n < f →
    filterStep p g f w =
      match (w g).src q with
      | none => some (none, w.set g { w g with pos := q, st := .dead })
      | some a => some (some a, w.set g { w g with pos := q + 1 }) := by
  intro n
  induction n with
  | zero =>
    intro f w h hq hn hf
    obtain ⟨h1, h2, h3⟩ := hq
    obtain ⟨f, rfl⟩ : ∃ f', f = f' + 1 := ⟨f - 1, by omega⟩
    have : q = (w g).pos := by omega
    subst this
    rw [filterStep, resume_live h]
    simp only [Option.bind_eq_bind, Option.bind_some, set_same]
    cases e : (w g).src (w g).pos with
    | none =>
      rw [if_pos ((adv_fin h).mpr e), adv_none e]
      simp [destroy, set_same, set_set]
    | some a =>
      rw [if_neg (by rw [adv_fin h, e]; simp), value_adv h e (set_same ..), adv_some e, Option.bind_some, if_pos (h3 a e)]
      rfl
  | succ n ih =>
    intro f w h hq hn hf
    obtain ⟨h1, h2, h3⟩ := hq
    obtain ⟨f, rfl⟩ : ∃ f', f = f' + 1 := ⟨f - 1, by omega⟩
    obtain ⟨a, e, ha⟩ := h2 (w g).pos (Nat.le_refl _) (by omega)
    rw [filterStep, resume_live h]
    simp only [Option.bind_eq_bind, Option.bind_some, set_same]
    rw [if_neg (by rw [adv_fin h, e]; simp), value_adv h e (set_same ..), adv_some e, Option.bind_some,
      if_neg (by rw [ha]; simp)]
    have := ih (f := f) (w := w.set g { w g with pos := (w g).pos + 1 }) (by rw [set_same]; exact h)
      (by rw [set_same]; exact ⟨by dsimp only; omega, fun i hi => h2 i (by dsimp only at hi; omega), h3⟩)
      (by rw [set_same]; dsimp only; omega) (by omega)
    rw [this, set_same, set_set]
    dsimp only
    cases (w g).src q <;> simp [set_set]

/-! ## `zip` -/

/-- Resume each of the generators once. -/
def advAll (ids : List Nat) (w : World α) : World α := fun g => if g ∈ ids then adv (w g) else w g

/-- One of them is at its end. -/
def ends (ids : List Nat) (w : World α) : Bool := ids.any fun g => ((w g).src (w g).pos).isNone

theorem zipDone_eq : ∀ (ids : List Nat) (d : Bool) (w : World α), ids.Nodup → (∀ g ∈ ids, (w g).st = .live) →
    zipDone ids d w = some (d || ends ids w, advAll ids w)
  | [], d, w, _, _ => by
    have : advAll [] w = w := by funext g; simp [advAll]
    simp [zipDone, ends, this]
  | i :: is, d, w, hn, hl => by
    rw [List.nodup_cons] at hn
    rw [zipDone, done_live (hl i (by simp))]
    simp only [Option.bind_eq_bind, Option.bind_some]
    have hne : ∀ g ∈ is, g ≠ i := fun g hg h => hn.1 (h ▸ hg)
    rw [zipDone_eq is _ _ hn.2 (fun g hg => by rw [set_other _ _ (hne g hg)]; exact hl g (by simp [hg]))]
    have e1 : ends is (w.set i (adv (w i))) = ends is w := by
      unfold ends
      rw [Bool.eq_iff_iff, List.any_eq_true, List.any_eq_true]
      constructor
      · rintro ⟨g, hg, h⟩; rw [set_other _ _ (hne g hg)] at h; exact ⟨g, hg, h⟩
      · rintro ⟨g, hg, h⟩; exact ⟨g, hg, by rw [set_other _ _ (hne g hg)]; exact h⟩
    have e2 : advAll is (w.set i (adv (w i))) = advAll (i :: is) w := by
      funext g
      unfold advAll
      by_cases hg : g ∈ is
      · rw [if_pos hg, if_pos (by simp [hg]), set_other _ _ (hne g hg)]
      · rw [if_neg hg]
        by_cases hi : g = i
        · subst hi; rw [if_pos (by simp), set_same]
        · rw [if_neg (by simp [hi, hg]), set_other _ _ hi]
    rw [e1, e2]
    congr 2
    cases d <;> cases h : ((w i).src (w i).pos).isNone <;> simp [ends, h]

theorem destroyAll_eq : ∀ (ids : List Nat) (w : World α), ids.Nodup → (∀ g ∈ ids, (w g).st ≠ .dead) →
    destroyAll ids w = some fun g => if g ∈ ids then { w g with st := .dead } else w g
  | [], w, _, _ => by simp [destroyAll]
  | i :: is, w, hn, hl => by
    rw [List.nodup_cons] at hn
    have hne : ∀ g ∈ is, g ≠ i := fun g hg h => hn.1 (h ▸ hg)
    have hd : destroy i w = some (w.set i { w i with st := .dead }) := by
      unfold destroy
      cases h : (w i).st with
      | dead => exact absurd h (hl i (by simp))
      | live => rfl
      | fin => rfl
    rw [destroyAll, hd]
    simp only [Option.bind_eq_bind, Option.bind_some]
    rw [destroyAll_eq is _ hn.2 (fun g hg => by rw [set_other _ _ (hne g hg)]; exact hl g (by simp [hg]))]
    congr 1
    funext g
    by_cases hg : g ∈ is
    · rw [if_pos hg, if_pos (by simp [hg]), set_other _ _ (hne g hg)]
    · rw [if_neg hg]
      by_cases hi : g = i
      · subst hi; rw [if_pos (by simp), set_same]
      · rw [if_neg (by simp [hi, hg]), set_other _ _ hi]

/-- What the generators would yield next. -/
def heads (w : World α) : List Nat → List α
  | [] => []
  | g :: gs => match (w g).src (w g).pos with | some a => a :: heads w gs | none => heads w gs

theorem values_eq (ids : List Nat) (w : World α) : ∀ (is : List Nat), (∀ g ∈ is, g ∈ ids) →
    (∀ g ∈ is, (w g).st = .live) → ends is w = false → values is (advAll ids w) = some (heads w is)
  | [], _, _, _ => rfl
  | i :: is, hs, hl, he => by
    simp only [ends, List.any_cons, Bool.or_eq_false_iff] at he
    obtain ⟨h1, h2⟩ := he
    cases e : (w i).src (w i).pos with
    | none => rw [e] at h1; cases h1
    | some a =>
      rw [values, value_adv (hl i (by simp)) e (by simp [advAll, hs i (by simp)]),
        values_eq ids w is (fun g hg => hs g (by simp [hg])) (fun g hg => hl g (by simp [hg])) h2, heads, e]
      rfl

theorem pyZip_eq (src : Nat → Nat → Option α) (w : World α) : ∀ (ids : List Nat) (pos : Nat → Nat), ids.Nodup →
    (∀ g ∈ ids, (w g).src = src g ∧ (w g).pos = pos g) →
    (ends ids w = true → (pyZip src ids pos).1 = none) ∧
    (ends ids w = false → pyZip src ids pos = (some (heads w ids), fun g => if g ∈ ids then pos g + 1 else pos g))
  | [], pos, _, _ => by simp [ends, pyZip, heads]
  | i :: is, pos, hn, hp => by
    rw [List.nodup_cons] at hn
    have hne : ∀ g ∈ is, g ≠ i := fun g hg h => hn.1 (h ▸ hg)
    obtain ⟨p1, p2⟩ := hp i (by simp)
    cases e : src i (pos i) with
    | none =>
      have ee : ends (i :: is) w = true := by simp [ends, p1, p2, e]
      rw [ee]
      simp [pyZip, pyNext, e]
    | some a =>
      have ee : ends (i :: is) w = ends is w := by simp [ends, p1, p2, e]
      have ih := pyZip_eq src w is (fun h => if h = i then pos i + 1 else pos h) hn.2 (by
        intro g hg
        rw [if_neg (hne g hg)]
        exact hp g (by simp [hg]))
      rw [ee]
      simp only [pyZip, pyNext, e]
      constructor
      · intro h
        rw [ih.1 h]; rfl
      · intro h
        rw [ih.2 h]
        simp only [Option.map_some, heads, p1, p2, e, Prod.mk.injEq, true_and]
        funext g
        by_cases hg : g ∈ is
        · simp [hg, hne g hg]
        · by_cases hi : g = i
          · subst hi; simp [hg]
          · simp [hi, hg]

/-- The model's generators stand where Python's do. -/
def Rel (ids : List Nat) (src : Nat → Nat → Option α) (w : World α) (pos : Nat → Nat) : Prop :=
  ∀ g, (w g).src = src g ∧ (w g).pos = pos g ∧ (g ∈ ids → (w g).st = .live)

theorem zip_step {ids : List Nat} (h0 : ids ≠ []) (hn : ids.Nodup) {src : Nat → Nat → Option α} {w : World α}
    {pos : Nat → Nat} (h : Rel ids src w pos) :
    (∃ l p' w', pyZip src ids pos = (some l, p') ∧ zipStep ids w = some (some l, w') ∧ Rel ids src w' p' ∧
      ∀ g, (w' g).st = (w g).st) ∨
    (∃ p' w', pyZip src ids pos = (none, p') ∧ zipStep ids w = some (none, w') ∧
      (∀ g ∈ ids, (w' g).st = .dead) ∧ ∀ g, g ∉ ids → w' g = w g) := by
  have hl : ∀ g ∈ ids, (w g).st = .live := fun g hg => (h g).2.2 hg
  obtain ⟨p1, p2⟩ := pyZip_eq src w ids pos hn fun g _ => ⟨(h g).1, (h g).2.1⟩
  have hz : zipStep ids w = (zipDone ids false w).bind fun x =>
      if x.1 then (destroyAll ids x.2).bind fun w => some (none, w)
      else (values ids x.2).bind fun l => some (some l, x.2) := by
    cases ids with
    | nil => exact absurd rfl h0
    | cons i is =>
      unfold zipStep
      simp only [Option.bind_eq_bind]
      congr 1
  rw [zipDone_eq ids false w hn hl, Option.bind_some, Bool.false_or] at hz
  cases e : ends ids w with
  | false =>
    left
    rw [e, values_eq ids w ids (fun _ h => h) hl e] at hz
    refine ⟨_, _, _, p2 e, hz, ?_, ?_⟩
    · intro g
      dsimp only
      unfold advAll
      by_cases hg : g ∈ ids
      · have : ∃ a, (w g).src (w g).pos = some a := by
          have h' : ¬ ends ids w = true := by rw [e]; simp
          unfold ends at h'
          rw [List.any_eq_true] at h'
          cases hs : (w g).src (w g).pos with
          | none => exact absurd ⟨g, hg, by rw [hs]; rfl⟩ h'
          | some a => exact ⟨a, rfl⟩
        obtain ⟨a, ha⟩ := this
        rw [if_pos hg, if_pos hg, adv_some ha]
        exact ⟨(h g).1, by rw [← (h g).2.1], fun _ => hl g hg⟩
      · rw [if_neg hg, if_neg hg]
        exact ⟨(h g).1, (h g).2.1, fun h => absurd h hg⟩
    · intro g
      dsimp only
      unfold advAll
      by_cases hg : g ∈ ids
      · rw [if_pos hg]
        unfold adv
        cases hs : (w g).src (w g).pos with
        | none =>
          have h' : ¬ ends ids w = true := by rw [e]; simp
          unfold ends at h'
          rw [List.any_eq_true] at h'
          exact absurd ⟨g, hg, by rw [hs]; rfl⟩ h'
        | some a => rfl
      · rw [if_neg hg]
  | true =>
    right
    have hd : ∀ g ∈ ids, (advAll ids w g).st ≠ .dead := by
      intro g hg
      unfold advAll
      rw [if_pos hg]
      unfold adv
      cases (w g).src (w g).pos <;> simp [hl g hg]
    rw [e, destroyAll_eq ids _ hn hd] at hz
    refine ⟨(pyZip src ids pos).2, _, ?_, hz, ?_, ?_⟩
    · rw [← p1 e]
    · intro g hg
      simp [hg]
    · intro g hg
      simp [hg, advAll]

/-- Take up to `n` items from a generator of the model. -/
def takeM (step : World α → Option (Option β × World α)) : Nat → World α → Option (List β × World α)
  | 0, w => some ([], w)
  | n + 1, w => do
    match ← step w with
    | (none, w) => return ([], w)
    | (some b, w) => let r ← takeM step n w; return (b :: r.1, r.2)

theorem zip_take {ids : List Nat} (h0 : ids ≠ []) (hn : ids.Nodup) {src : Nat → Nat → Option α} : ∀ (n : Nat) {w : World α}
    {pos : Nat → Nat}, Rel ids src w pos → ∃ w', takeM (zipStep ids) n w = some ((takeN (pyZip src ids) n pos).1, w') ∧
      (∀ g, g ∉ ids → w' g = w g) ∧
      ((takeN (pyZip src ids) n pos).1.length = n → Rel ids src w' (takeN (pyZip src ids) n pos).2) := by
  intro n
  induction n with
  | zero => intro w pos h; exact ⟨w, rfl, fun _ _ => rfl, fun _ => h⟩
  | succ n ih =>
    intro w pos h
    have other : ∀ {r w'}, zipStep ids w = some (r, w') → ∀ g, g ∉ ids → w' g = w g := by
      have hl : ∀ g ∈ ids, (w g).st = .live := fun g hg => (h g).2.2 hg
      rcases zip_step h0 hn h with ⟨l, p', w1, e1, e2, _, _⟩ | ⟨p', w1, e1, e2, _, e4⟩
      · intro r w' hr g hg
        rw [e2] at hr
        cases hr
        cases ids with
        | nil => exact absurd rfl h0
        | cons i is =>
          unfold zipStep at e2
          simp only [Option.bind_eq_bind, zipDone_eq _ false w hn hl, Option.bind_some, Bool.false_or] at e2
          by_cases he : ends (i :: is) w = true
          · rw [if_pos he] at e2
            cases hd : destroyAll (i :: is) (advAll (i :: is) w) with
            | none => rw [hd] at e2; cases e2
            | some x => rw [hd] at e2; cases e2
          · rw [if_neg he] at e2
            cases hv : values (i :: is) (advAll (i :: is) w) with
            | none => rw [hv] at e2; cases e2
            | some x => rw [hv] at e2; cases e2; simp [advAll, hg]
      · intro r w' hr g hg
        rw [e2] at hr
        cases hr
        exact e4 g hg
    rcases zip_step h0 hn h with ⟨l, p', w1, e1, e2, e3, _⟩ | ⟨p', w1, e1, e2, e3, e4⟩
    · obtain ⟨w', k1, k2, k3⟩ := ih e3
      refine ⟨w', ?_, fun g hg => by rw [k2 g hg, other e2 g hg], ?_⟩
      · rw [takeM, e2]
        simp only [Option.bind_eq_bind, Option.bind_some, k1, takeN, e1]
        rfl
      · simp only [takeN, e1, List.length_cons, Nat.add_right_cancel_iff]
        exact k3
    · refine ⟨w1, ?_, fun g hg => other e2 g hg, ?_⟩
      · rw [takeM, e2]
        simp only [Option.bind_eq_bind, Option.bind_some, takeN, e1]
        rfl
      · simp [takeN, e1]

/-! ## `min`, `max` -/

theorem bestN_spec {below : α → α → Bool} (hw : Weak fun a b => below a b = true) : ∀ (l : List α) (m : α),
    IsFirstLeast (fun a b => below a b = true) (m :: l) (bestN below m l)
  | [], m => ⟨[], [], rfl, by simp, by simp⟩
  | i :: l, m => by
    rw [bestN]
    by_cases h : below i m = true
    · rw [if_pos h]
      obtain ⟨pre, post, e, h1, h2⟩ := bestN_spec hw l i
      generalize bestN below i l = x at *
      refine ⟨m :: pre, post, by rw [e]; rfl, ?_, h2⟩
      intro y hy
      rcases List.mem_cons.mp hy with rfl | hy
      · -- x is i or below i
        cases pre with
        | nil => cases e; exact h
        | cons p pre =>
          cases e
          have hxi := h1 i (by simp)
          by_contra hc
          exact hw.trans _ _ _ hc (hw.asymm _ _ h) hxi
      · exact h1 y hy
    · rw [if_neg h]
      obtain ⟨pre, post, e, h1, h2⟩ := bestN_spec hw l m
      generalize bestN below m l = x at *
      cases pre with
      | nil =>
        cases e
        refine ⟨[], i :: l, rfl, by simp, ?_⟩
        intro y hy
        rcases List.mem_cons.mp hy with rfl | hy
        · exact h
        · exact h2 y hy
      | cons p pre =>
        cases e
        refine ⟨m :: i :: pre, post, rfl, ?_, h2⟩
        intro y hy
        rcases List.mem_cons.mp hy with rfl | hy
        · exact h1 _ (by simp)
        · rcases List.mem_cons.mp hy with rfl | hy
          · have hxm := h1 m (by simp)
            by_contra hc
            exact hw.trans _ _ _ hc h hxm
          · exact h1 y (by simp [hy])

theorem bestLoop_eq (below : α → α → Bool) {g : Nat} : ∀ (l : List α) (s : α) {f : Nat} {w : World α}, (w g).st = .live →
    Rest (w g).src (w g).pos l → l.length < f →
    bestLoop below g f s w = some (bestN below s l, w.set g { w g with pos := (w g).pos + l.length, st := .fin })
  | [], s, f, w, h, hr, hf => by
    obtain ⟨f, rfl⟩ : ∃ f', f = f' + 1 := ⟨f - 1, by omega⟩
    have e : (w g).src (w g).pos = none := hr.2
    rw [bestLoop, done_live h, e, adv_none e]
    rfl
  | i :: l, s, f, w, h, hr, hf => by
    obtain ⟨f, rfl⟩ : ∃ f', f = f' + 1 := ⟨f - 1, by omega⟩
    have e : (w g).src (w g).pos = some i := hr.1 0 (by simp)
    rw [bestLoop, done_live h, e]
    simp only [Option.isNone_some, Option.bind_eq_bind, Option.bind_some, Bool.false_eq_true, if_false]
    rw [value_adv h e (set_same ..), adv_some e, Option.bind_some,
      bestLoop_eq below l _ (by rw [set_same]; exact h) (by
        rw [set_same]
        refine ⟨fun k hk => ?_, ?_⟩
        · have := hr.1 (k + 1) (by simpa using hk)
          dsimp only
          rw [show (w g).pos + 1 + k = (w g).pos + (k + 1) by omega, this]
          rfl
        · have := hr.2
          dsimp only
          rw [List.length_cons] at this
          rw [show (w g).pos + 1 + l.length = (w g).pos + (l.length + 1) by omega, this]) (by simpa using hf),
      set_same, set_set, bestN]
    simp only [List.length_cons]
    rw [show (w g).pos + 1 + l.length = (w g).pos + (l.length + 1) by omega]

theorem best1_eq (below : α → α → Bool) {g : Nat} (m : α) (l : List α) {d : Option α} {f : Nat} {w : World α}
    (h : (w g).st = .live) (hr : Rest (w g).src (w g).pos (m :: l)) (hf : l.length < f) :
    best1 below d f g w = some (some (bestN below m l), w.set g { w g with pos := (w g).pos + (l.length + 1), st := .dead }) := by
  have e : (w g).src (w g).pos = some m := hr.1 0 (by simp)
  unfold best1
  rw [done_live h, e]
  simp only [Option.isNone_some, Option.bind_eq_bind, Option.bind_some, Bool.not_false, if_true]
  rw [value_adv h e (set_same ..), adv_some e, Option.bind_some,
    bestLoop_eq below l m (by rw [set_same]; exact h) (by
      rw [set_same]
      refine ⟨fun k hk => ?_, ?_⟩
      · have := hr.1 (k + 1) (by simpa using hk)
        dsimp only
        rw [show (w g).pos + 1 + k = (w g).pos + (k + 1) by omega, this]
        rfl
      · have := hr.2
        dsimp only
        rw [List.length_cons] at this
        rw [show (w g).pos + 1 + l.length = (w g).pos + (l.length + 1) by omega, this]) hf, set_same, set_set]
  simp only [Option.bind_some, destroy, set_same, set_set]
  rw [show (w g).pos + 1 + l.length = (w g).pos + (l.length + 1) by omega]
  rfl

end Codon.Bltin
