import Verif.C3.Model
import Mathlib.Data.List.Basic
import Mathlib.Data.List.Nodup
import Mathlib.Logic.Relation
/-!
# C12: the method resolution order is a C3 linearisation
-/
namespace Codon.C3

variable {α : Type} [DecidableEq α]

/-- `r` is a common linear order of the sequences: without repetition, with each of the sequences in
its own order. -/
def Consistent (seqs : List (List α)) (r : List α) : Prop :=
  r.Nodup ∧ ∀ s ∈ seqs, s.Sublist r

/-- The C3 merge of the literature as a relation: take the first head that occurs in no tail,
remove it from the sequences, continue until the sequences are used up. -/
inductive Merges : List (List α) → List α → Prop
  | done {seqs : List (List α)} (h : ∀ s ∈ seqs, s = []) : Merges seqs []
  | step {seqs pre post : List (List α)} {x : α} {s r : List α}
      (split : seqs = pre ++ (x :: s) :: post)
      (good : ∀ t ∈ seqs, x ∉ t.tail)
      (first : ∀ y t, (y :: t) ∈ pre → ∃ t' ∈ seqs, y ∈ t'.tail)
      (next : Merges (seqs.map fun t => if t.head? = some x then t.tail else t) r) :
      Merges seqs (x :: r)

theorem notHead_iff (seqs : List (List α)) (x : α) :
    notHead seqs x = true ↔ ∃ s ∈ seqs, x ∈ s.tail := by
  simp [notHead, List.any_eq_true]

theorem findCand_some {all seqs : List (List α)} {c : α} (h : findCand all seqs = some c) :
    ∃ pre s post, seqs = pre ++ (c :: s) :: post ∧ (∀ t ∈ all, c ∉ t.tail) ∧
      ∀ y t, (y :: t) ∈ pre → ∃ t' ∈ all, y ∈ t'.tail := by
  induction seqs with
  | nil => simp [findCand] at h
  | cons a seqs ih =>
    cases a with
    | nil =>
      rw [findCand] at h
      obtain ⟨pre, s, post, e, g, f⟩ := ih h
      refine ⟨[] :: pre, s, post, by rw [e]; rfl, g, ?_⟩
      intro y t hm
      simp at hm
      exact f y t hm
    | cons x a =>
      rw [findCand] at h
      split at h
      · rename_i hx
        obtain ⟨pre, s, post, e, g, f⟩ := ih h
        refine ⟨(x :: a) :: pre, s, post, by rw [e]; rfl, g, ?_⟩
        intro y t hm
        simp at hm
        rcases hm with ⟨rfl, rfl⟩ | hm
        · exact (notHead_iff _ _).1 hx
        · exact f y t hm
      · rename_i hx
        injection h with h
        subst h
        refine ⟨[], a, seqs, rfl, ?_, by simp⟩
        intro t ht hm
        exact hx ((notHead_iff _ _).2 ⟨t, ht, hm⟩)

theorem findCand_none {all seqs : List (List α)} (h : findCand all seqs = none) :
    ∀ x t, (x :: t) ∈ seqs → ∃ t' ∈ all, x ∈ t'.tail := by
  induction seqs with
  | nil => intro x t hm; simp at hm
  | cons a seqs ih =>
    cases a with
    | nil =>
      rw [findCand] at h
      intro x t hm
      simp at hm
      exact ih h x t hm
    | cons y a =>
      rw [findCand] at h
      split at h
      · rename_i hy
        intro x t hm
        simp at hm
        rcases hm with ⟨rfl, rfl⟩ | hm
        · exact (notHead_iff _ _).1 hy
        · exact ih h x t hm
      · cases h

theorem dropHead_eq (c : α) (t : List α) :
    dropHead c t = if t.head? = some c then t.tail else t := by
  cases t with
  | nil => simp [dropHead]
  | cons x t =>
    simp only [dropHead, List.head?_cons, Option.some.injEq, List.tail_cons]
    by_cases h : c = x
    · simp [h]
    · rw [if_neg h, if_neg (fun e => h e.symm)]

theorem sum_dropHead_le (c : α) (seqs : List (List α)) :
    ((seqs.map (dropHead c)).map List.length).sum ≤ (seqs.map List.length).sum := by
  induction seqs with
  | nil => simp
  | cons s seqs ih =>
    have : (dropHead c s).length ≤ s.length := by
      cases s with
      | nil => simp [dropHead]
      | cons x s => simp only [dropHead]; split <;> simp
    simp only [List.map_cons, List.sum_cons]
    omega

theorem sum_dropHead_lt (c : α) (pre post : List (List α)) (s : List α) :
    (((pre ++ (c :: s) :: post).map (dropHead c)).map List.length).sum <
      ((pre ++ (c :: s) :: post).map List.length).sum := by
  have h1 := sum_dropHead_le c pre
  have h2 := sum_dropHead_le c post
  have h3 : (dropHead c (c :: s)).length = s.length := by simp [dropHead]
  simp only [List.map_append, List.map_cons, List.sum_append, List.sum_cons, h3, List.length_cons]
  omega

/-- For a stuck merge there is no common order: a head that comes first in the order is in no tail. -/
theorem stuck_inconsistent {seqs : List (List α)} (hne : ∃ s ∈ seqs, s ≠ [])
    (hst : ∀ x t, (x :: t) ∈ seqs → ∃ t' ∈ seqs, x ∈ t'.tail) (r : List α) :
    ¬ Consistent seqs r := by
  rintro ⟨hnd, hsub⟩
  -- the heads, ordered by position in `r`
  have key : ∀ n x t, (x :: t) ∈ seqs → r.idxOf x ≤ n → False := by
    intro n
    induction n with
    | zero =>
      intro x t hm hn
      obtain ⟨t', ht', hx⟩ := hst x t hm
      cases t' with
      | nil => simp at hx
      | cons y t' =>
        simp only [List.tail_cons] at hx
        have hs := hsub _ ht'
        have hlt := idx_lt hnd hs hx
        omega
    | succ n ih =>
      intro x t hm hn
      obtain ⟨t', ht', hx⟩ := hst x t hm
      cases t' with
      | nil => simp at hx
      | cons y t' =>
        simp only [List.tail_cons] at hx
        have hs := hsub _ ht'
        have hlt := idx_lt hnd hs hx
        exact ih y t' ht' (by omega)
  obtain ⟨s, hs, hn⟩ := hne
  cases s with
  | nil => exact hn rfl
  | cons x t => exact key _ x t hs (Nat.le_refl _)
where
  idx_lt {r : List α} (hnd : r.Nodup) {y x : α} {t : List α} (hs : (y :: t).Sublist r)
      (hx : x ∈ t) : r.idxOf y < r.idxOf x := by
    induction r with
    | nil => simp at hs
    | cons z r ih =>
      rw [List.nodup_cons] at hnd
      cases hs with
      | cons _ hs =>
        have hy : y ∈ r := hs.subset (by simp)
        have hx' : x ∈ r := hs.subset (by simp [hx])
        have e1 : z ≠ y := by rintro rfl; exact hnd.1 hy
        have e2 : z ≠ x := by rintro rfl; exact hnd.1 hx'
        rw [List.idxOf_cons_ne _ e1, List.idxOf_cons_ne _ e2]
        have := ih hnd.2 hs
        omega
      | cons_cons _ hs =>
        have hx' : x ∈ r := hs.subset hx
        have e2 : y ≠ x := by rintro rfl; exact hnd.1 hx'
        rw [List.idxOf_cons_self, List.idxOf_cons_ne _ e2]
        omega

theorem consistent_drop {seqs : List (List α)} {r : List α} (h : Consistent seqs r) (c : α) :
    Consistent (seqs.map (dropHead c)) r := by
  refine ⟨h.1, ?_⟩
  intro s hs
  simp only [List.mem_map] at hs
  obtain ⟨t, ht, rfl⟩ := hs
  refine List.Sublist.trans ?_ (h.2 t ht)
  cases t with
  | nil => simp [dropHead]
  | cons x t =>
    simp only [dropHead]
    split
    · exact List.sublist_cons_self _ _
    · exact List.Sublist.refl _

/-- The loop either completes the C3 merge or is stuck on inconsistent sequences. -/
theorem mergeLoop_cases : ∀ (fuel : Nat) (seqs : List (List α)) (acc : List α),
    (seqs.map List.length).sum < fuel →
    (∃ r, mergeLoop fuel seqs acc = some (acc ++ r) ∧ Merges seqs r) ∨
    (mergeLoop fuel seqs acc = some [] ∧ (∀ r, ¬ Consistent seqs r) ∧ ¬ ∃ r, Merges seqs r) := by
  intro fuel
  induction fuel with
  | zero => intro _ _ h; omega
  | succ fuel ih =>
    intro seqs acc hf
    rw [mergeLoop]
    by_cases hall : seqs.all (fun s => s.isEmpty) = true
    · left
      rw [if_pos hall]
      refine ⟨[], by simp, .done ?_⟩
      intro s hs
      have := List.all_eq_true.1 hall s hs
      simpa using this
    · rw [if_neg hall]
      have hne : ∃ s ∈ seqs, s ≠ [] := by
        by_contra hcon
        push_neg at hcon
        apply hall
        rw [List.all_eq_true]
        intro s hs
        simp [hcon s hs]
      cases hc : findCand seqs seqs with
      | none =>
        right
        have hst := findCand_none hc
        refine ⟨rfl, stuck_inconsistent hne hst, ?_⟩
        rintro ⟨r, hm⟩
        cases hm with
        | done h =>
          obtain ⟨s, hs, hn⟩ := hne
          exact hn (h s hs)
        | @step _ pre post x s r split good first next =>
          obtain ⟨t', ht', hx⟩ := hst x s (by rw [split]; simp)
          exact good t' ht' hx
      | some c =>
        obtain ⟨pre, s, post, e, good, first⟩ := findCand_some hc
        have hlt := sum_dropHead_lt c pre post s
        rw [← e] at hlt
        have hmap : seqs.map (dropHead c) =
            seqs.map fun t => if t.head? = some c then t.tail else t := by
          apply List.map_congr_left
          intro t _
          exact dropHead_eq c t
        rcases ih (seqs.map (dropHead c)) (acc ++ [c]) (by omega) with ⟨r, h1, h2⟩ | ⟨h1, h2, h3⟩
        · left
          refine ⟨c :: r, by dsimp only; rw [h1]; simp, .step e good first ?_⟩
          rw [← hmap]
          exact h2
        · right
          refine ⟨h1, ?_, ?_⟩
          · intro r hr
            exact h2 r (consistent_drop hr c)
          · rintro ⟨r, hm⟩
            apply h3
            cases hm with
            | done h =>
              obtain ⟨s, hs, hn⟩ := hne
              exact absurd (h s hs) hn
            | @step _ pre' post' x s' r split good' first' next =>
              have hx : x = c := by
                -- both are the first eligible head
                rw [e] at split
                rcases List.append_eq_append_iff.1 split with ⟨m, h4, h5⟩ | ⟨m, h4, h5⟩
                · cases m with
                  | nil => simp at h5; exact h5.1.1.symm
                  | cons a m =>
                    simp at h5
                    obtain ⟨t', ht', hm'⟩ := first' c s (by rw [h4]; simp [← h5.1])
                    exact absurd hm' (good t' ht')
                · cases m with
                  | nil => simp at h5; exact h5.1.1
                  | cons a m =>
                    simp at h5
                    obtain ⟨t', ht', hm'⟩ := first x s' (by rw [h4]; simp [← h5.1])
                    exact absurd hm' (good' t' ht')
              subst hx
              exact ⟨r, by rw [hmap]; exact next⟩

/-- The relation `Merges` is a function. -/
theorem merges_unique {seqs : List (List α)} {r r' : List α} (h : Merges seqs r)
    (h' : Merges seqs r') : r = r' := by
  induction h generalizing r' with
  | done h =>
    cases h' with
    | done => rfl
    | @step _ pre post x s r split good first next =>
      exact absurd (h (x :: s) (by rw [split]; simp)) (by simp)
  | @step seqs pre post x s r split good first next ih =>
    cases h' with
    | done h => exact absurd (h (x :: s) (by rw [split]; simp)) (by simp)
    | @step _ pre' post' x' s' r' split' good' first' next' =>
      have hx : x' = x := by
        have e := split.symm.trans split'
        rcases List.append_eq_append_iff.1 e with ⟨m, h4, h5⟩ | ⟨m, h4, h5⟩
        · cases m with
          | nil => simp at h5; exact h5.1.1.symm
          | cons a m =>
            simp at h5
            obtain ⟨t', ht', hm'⟩ := first' x s (by rw [h4]; simp [← h5.1])
            exact absurd hm' (good t' ht')
        · cases m with
          | nil => simp at h5; exact h5.1.1
          | cons a m =>
            simp at h5
            obtain ⟨t', ht', hm'⟩ := first x' s' (by rw [h4]; simp [← h5.1])
            exact absurd hm' (good' t' ht')
      subst hx
      rw [ih next']

/-- What a completed merge guarantees. -/
theorem merges_consistent {seqs : List (List α)} {r : List α} (h : Merges seqs r) :
    Consistent seqs r ∧ (∀ x, x ∈ r ↔ ∃ s ∈ seqs, x ∈ s) := by
  induction h with
  | done h =>
    refine ⟨⟨List.nodup_nil, fun s hs => by rw [h s hs]⟩, ?_⟩
    intro x
    simp only [List.not_mem_nil, false_iff]
    rintro ⟨s, hs, hx⟩
    rw [h s hs] at hx
    simp at hx
  | @step seqs pre post x s r split good first next ih =>
    obtain ⟨⟨hnd, hsub⟩, hmem⟩ := ih
    have hxr : x ∉ r := by
      rw [hmem]
      rintro ⟨t, ht, hx⟩
      simp only [List.mem_map] at ht
      obtain ⟨u, hu, rfl⟩ := ht
      have hg := good u hu
      split at hx
      · exact hg hx
      · rename_i hh
        cases u with
        | nil => simp at hx
        | cons y u =>
          simp at hx hh hg
          rcases hx with rfl | hx
          · exact hh rfl
          · exact hg hx
    refine ⟨⟨List.nodup_cons.2 ⟨hxr, hnd⟩, ?_⟩, ?_⟩
    · intro u hu
      have := hsub _ (List.mem_map_of_mem hu)
      split at this
      · rename_i hh
        cases u with
        | nil => simp at hh
        | cons y u =>
          simp at hh
          subst hh
          exact List.Sublist.cons_cons _ (by simpa using this)
      · exact List.Sublist.cons _ this
    · intro y
      simp only [List.mem_cons, hmem]
      constructor
      · rintro (rfl | ⟨t, ht, hy⟩)
        · exact ⟨_ :: s, by rw [split]; simp, List.mem_cons_self⟩
        · simp only [List.mem_map] at ht
          obtain ⟨u, hu, rfl⟩ := ht
          refine ⟨u, hu, ?_⟩
          split at hy
          · exact List.mem_of_mem_tail hy
          · exact hy
      · rintro ⟨u, hu, hy⟩
        by_cases hyx : y = x
        · exact Or.inl hyx
        · right
          refine ⟨_, List.mem_map_of_mem hu, ?_⟩
          split
          · rename_i hh
            cases u with
            | nil => simp at hh
            | cons z u =>
              simp at hh
              subst hh
              simp at hy
              rcases hy with rfl | hy
              · exact absurd rfl hyx
              · exact hy
          · exact hy

/-- `mergeC3` always returns; on a non-trivial input a non-empty result is exactly the C3 merge, it
orders all classes of the sequences consistently, and the empty result is returned exactly when no
common order of the sequences exists. -/
theorem c12_merge (seqs : List (List α)) (hne : ∃ s ∈ seqs, s ≠ []) :
    ∃ r, mergeC3 seqs = some r ∧
      (r ≠ [] → Merges seqs r ∧ Consistent seqs r ∧ ∀ x, x ∈ r ↔ ∃ s ∈ seqs, x ∈ s) ∧
      (r = [] ↔ ∀ r', ¬ Consistent seqs r') := by
  rcases mergeLoop_cases ((seqs.map List.length).sum + 1) seqs [] (by omega) with
    ⟨r, h1, h2⟩ | ⟨h1, h2, -⟩
  · refine ⟨r, by simpa [mergeC3] using h1, fun _ => ⟨h2, merges_consistent h2⟩, ?_⟩
    constructor
    · rintro rfl
      cases h2 with
      | done h =>
        obtain ⟨s, hs, hn⟩ := hne
        exact absurd (h s hs) hn
    · intro h
      exact absurd (merges_consistent h2).1 (h r)
  · exact ⟨[], h1, fun h => absurd rfl h, fun _ => h2, fun _ => rfl⟩

example : mergeC3 [["C"], ["A", "O"], ["B", "O"], ["A", "B"]] = some ["C", "A", "B", "O"] := by
  decide
example : mergeC3 [["C"], ["A", "B"], ["B", "A"]] = some [] := by decide

/-! ## Class hierarchies -/

/-- The direct-base relation of a sequence of declarations. -/
def IsBase (decls : List (α × List α)) (c b : α) : Prop := ∃ bases, (c, bases) ∈ decls ∧ b ∈ bases

/-- `b` is `c` or an ancestor of `c`. -/
def Ancestor (decls : List (α × List α)) : α → α → Prop := Relation.ReflTransGen (IsBase decls)

/-- The properties the order of one class must have. -/
structure GoodMro (decls : List (α × List α)) (mro : α → Option (List α)) (c : α) (bases r : List α) :
    Prop where
  /-- the class comes first -/
  head : r.head? = some c
  /-- no class occurs twice -/
  nodup : r.Nodup
  /-- exactly the class and its ancestors occur -/
  mem : ∀ x, x ∈ r ↔ Ancestor decls c x
  /-- the declared order of the direct bases is kept -/
  bases : bases.Sublist r
  /-- the order of every ancestor is kept -/
  parents : ∀ b ∈ r, ∃ rb, mro b = some rb ∧ rb.Sublist r

/-- Invariant of a sequence of declarations (latest first). -/
private structure Inv (decls : List (α × List α)) (env : Env α) : Prop where
  keys : env.map (·.1) = decls.map (·.1)
  nodup : (decls.map (·.1)).Nodup
  good : ∀ c bases, (c, bases) ∈ decls → ∃ r, env.mro c = some r ∧ GoodMro decls env.mro c bases r

omit [DecidableEq α] in
private theorem ancestor_declared {decls : List (α × List α)}
    (hcl : ∀ c bases, (c, bases) ∈ decls → ∀ b ∈ bases, b ∈ decls.map (·.1)) {c x : α}
    (hc : c ∈ decls.map (·.1)) (h : Ancestor decls c x) : x ∈ decls.map (·.1) := by
  induction h with
  | refl => exact hc
  | tail _ hb ih =>
    obtain ⟨bases, hm, hb⟩ := hb
    exact hcl _ _ hm _ hb

omit [DecidableEq α] in
private theorem ancestor_cons {decls : List (α × List α)} {c : α} {bases : List α}
    (hfresh : c ∉ decls.map (·.1))
    (hcl : ∀ c bases, (c, bases) ∈ decls → ∀ b ∈ bases, b ∈ decls.map (·.1))
    {d x : α} (hd : d ∈ decls.map (·.1)) :
    Ancestor ((c, bases) :: decls) d x ↔ Ancestor decls d x := by
  constructor
  · intro h
    induction h with
    | refl => exact .refl
    | tail _ hb ih =>
      obtain ⟨bs, hm, hb⟩ := hb
      simp at hm
      rcases hm with ⟨rfl, rfl⟩ | hm
      · exact absurd (ancestor_declared hcl hd ih) hfresh
      · exact .tail ih ⟨bs, hm, hb⟩
  · intro h
    induction h with
    | refl => exact .refl
    | tail _ hb ih =>
      obtain ⟨bs, hm, hb⟩ := hb
      exact .tail ih ⟨bs, by simp [hm], hb⟩

private theorem lookup_mem {env : Env α} {c : α} {r : List α} (h : env.mro c = some r) :
    c ∈ env.map (·.1) := by
  induction env with
  | nil => simp [Env.mro] at h
  | cons p env ih =>
    obtain ⟨k, v⟩ := p
    simp only [Env.mro, List.lookup_cons] at h
    by_cases hk : c = k
    · simp [hk]
    · have : (c == k) = false := by simp [hk]
      rw [this] at h
      simp [ih h]

private theorem mapM_lookup {env : Env α} {bases : List α} {ms : List (List α)}
    (h : bases.mapM (Env.mro env) = some ms) :
    (∀ b ∈ bases, ∃ m ∈ ms, env.mro b = some m) ∧ (∀ m ∈ ms, ∃ b ∈ bases, env.mro b = some m) := by
  induction bases generalizing ms with
  | nil => simp at h; subst h; simp
  | cons b bases ih =>
    rw [List.mapM_cons] at h
    cases hb : Env.mro env b with
    | none => rw [hb] at h; simp at h
    | some m =>
      cases hr : bases.mapM (Env.mro env) with
      | none => rw [hb, hr] at h; simp at h
      | some ms' =>
        rw [hb, hr] at h
        simp at h
        subst h
        obtain ⟨h1, h2⟩ := ih hr
        constructor
        · intro x hx
          simp at hx
          rcases hx with rfl | hx
          · exact ⟨m, by simp, hb⟩
          · obtain ⟨m', hm', e⟩ := h1 x hx
            exact ⟨m', by simp [hm'], e⟩
        · intro x hx
          simp at hx
          rcases hx with rfl | hx
          · exact ⟨b, by simp, hb⟩
          · obtain ⟨b', hb', e⟩ := h2 x hx
            exact ⟨b', by simp [hb'], e⟩

/-- The sequences merged for a class. -/
private theorem declare_ok {env env' : Env α} {c : α} {bases : List α}
    (h : declare env c bases = .ok env') :
    ∃ ms r seqs, bases.mapM (Env.mro env) = some ms ∧ env' = (c, r) :: env ∧
      (∀ s, s ∈ seqs ↔ s = [c] ∨ s ∈ ms ∨ (s = bases ∧ bases ≠ [])) ∧
      seqs.head? = some [c] ∧ Merges seqs r ∧ r ≠ [] := by
  unfold declare at h
  cases hm : bases.mapM (Env.mro env) with
  | none => rw [hm] at h; cases h
  | some ms =>
    rw [hm] at h
    dsimp only at h
    generalize hq : (if bases = [] then [c] :: ms else [c] :: ms ++ [bases]) = seqs at h
    have hmem : ∀ s, s ∈ seqs ↔ s = [c] ∨ s ∈ ms ∨ (s = bases ∧ bases ≠ []) := by
      intro s
      subst hq
      by_cases hb : bases = []
      · simp [hb]
      · simp [hb]
    have hhd : seqs.head? = some [c] := by
      subst hq
      by_cases hb : bases = [] <;> simp [hb]
    obtain ⟨r, h1, h2, -⟩ := c12_merge seqs ⟨[c], by rw [hmem]; simp, by simp⟩
    rw [h1] at h
    cases r with
    | nil => cases h
    | cons x r =>
      dsimp only at h
      injection h with h
      exact ⟨ms, x :: r, seqs, rfl, h.symm, hmem, hhd, (h2 (by simp)).1, by simp⟩

private theorem inv_step {decls : List (α × List α)} {env env' : Env α} {c : α} {bases : List α}
    (hinv : Inv decls env)
    (hcl : ∀ c bases, (c, bases) ∈ decls → ∀ b ∈ bases, b ∈ decls.map (·.1))
    (hfresh : c ∉ decls.map (·.1)) (h : declare env c bases = .ok env') :
    Inv ((c, bases) :: decls) env' ∧ ∀ b ∈ bases, b ∈ decls.map (·.1) := by
  obtain ⟨ms, r, seqs, hms, rfl, hmem, hhd, hmer, hrne⟩ := declare_ok h
  obtain ⟨hl1, hl2⟩ := mapM_lookup hms
  have hbases : ∀ b ∈ bases, b ∈ decls.map (·.1) := by
    intro b hb
    obtain ⟨m, -, e⟩ := hl1 b hb
    rw [← hinv.keys]
    exact lookup_mem e
  obtain ⟨⟨hnd, hsub⟩, hmr⟩ := merges_consistent hmer
  have hlook : ∀ d ∈ decls.map (·.1), Env.mro ((c, r) :: env) d = env.mro d := by
    intro d hd
    have : d ≠ c := by rintro rfl; exact hfresh hd
    have : (d == c) = false := by simp [this]
    simp [Env.mro, List.lookup_cons, this]
  have hself : Env.mro ((c, r) :: env) c = some r := by simp [Env.mro, List.lookup_cons]
  -- the order of a base: its members are its ancestors
  have hms_good : ∀ m ∈ ms, ∃ b ∈ bases, ∃ bs, (b, bs) ∈ decls ∧ env.mro b = some m ∧
      GoodMro decls env.mro b bs m := by
    intro m hm
    obtain ⟨b, hb, e⟩ := hl2 m hm
    have hbd := hbases b hb
    simp only [List.mem_map] at hbd
    obtain ⟨⟨b', bs⟩, hbm, rfl⟩ := hbd
    obtain ⟨r', e', hg⟩ := hinv.good _ _ hbm
    rw [e] at e'
    injection e' with e'
    subst e'
    exact ⟨b', hb, bs, hbm, e, hg⟩
  have hanc : ∀ x, x ∈ r ↔ Ancestor ((c, bases) :: decls) c x := by
    intro x
    rw [hmr]
    constructor
    · rintro ⟨s, hs, hx⟩
      rw [hmem] at hs
      rcases hs with rfl | hs | ⟨rfl, -⟩
      · simp at hx; subst hx; exact .refl
      · obtain ⟨b, hb, bs, hbm, e, hg⟩ := hms_good s hs
        have h1 := (hg.mem x).1 hx
        have h2 := (ancestor_cons (c := c) (bases := bases) hfresh hcl (hbases b hb)).2 h1
        exact Relation.ReflTransGen.head ⟨bases, by simp, hb⟩ h2
      · exact .single ⟨s, by simp, hx⟩
    · intro hx
      rcases Relation.ReflTransGen.cases_head hx with rfl | ⟨b, hb, hbx⟩
      · exact ⟨[c], by rw [hmem]; simp, by simp⟩
      · obtain ⟨bs, hm, hb⟩ := hb
        have hbs : b ∈ bases := by
          simp at hm
          rcases hm with rfl | hm
          · exact hb
          · exact absurd (List.mem_map_of_mem (f := (·.1)) hm) hfresh
        obtain ⟨m, hm', e⟩ := hl1 b hbs
        obtain ⟨b', hb', bs', hbm, e', hg⟩ := hms_good m hm'
        have h1 := (ancestor_cons (c := c) (bases := bases) hfresh hcl (hbases b hbs)).1 hbx
        refine ⟨m, by rw [hmem]; exact Or.inr (Or.inl hm'), ?_⟩
        have hbd := hbases b hbs
        simp only [List.mem_map] at hbd
        obtain ⟨⟨b2, bs2⟩, hbm2, rfl⟩ := hbd
        obtain ⟨r2, e2, hg2⟩ := hinv.good _ _ hbm2
        rw [e] at e2
        injection e2 with e2
        subst e2
        exact (hg2.mem x).2 h1
  have hhead : r.head? = some c := by
    cases hmer with
    | done h => exact absurd rfl hrne
    | @step _ pre post x s r' split good first next =>
      -- the first sequence is `[c]`; `c` is in no tail
      cases pre with
      | nil => rw [split] at hhd; simp at hhd; simp [hhd.1]
      | cons p pre =>
        rw [split] at hhd
        simp at hhd
        subst hhd
        obtain ⟨t', ht', hm'⟩ := first c [] (by simp)
        exfalso
        have hct : c ∈ t'.tail := hm'
        rw [hmem] at ht'
        rcases ht' with rfl | ht' | ⟨rfl, -⟩
        · simp at hct
        · obtain ⟨b, hb, bs, hbm, e, hg⟩ := hms_good t' ht'
          have := (hg.mem c).1 (List.mem_of_mem_tail hct)
          exact hfresh (ancestor_declared hcl (hbases b hb) this)
        · exact hfresh (hbases c (List.mem_of_mem_tail hct))
  refine ⟨⟨by simp [hinv.keys], by simpa using ⟨by simpa using hfresh, hinv.nodup⟩, ?_⟩, hbases⟩
  intro d bs hd
  simp only [List.mem_cons, Prod.mk.injEq] at hd
  by_cases hdc : d = c
  · subst hdc
    have hbs : bs = bases := by
      rcases hd with ⟨-, rfl⟩ | hd
      · rfl
      · exact absurd (List.mem_map_of_mem (f := (·.1)) hd) hfresh
    subst hbs
    refine ⟨r, hself, ⟨hhead, hnd, hanc, ?_, ?_⟩⟩
    · by_cases hb : bs = []
      · subst hb; simp
      · exact hsub bs (by rw [hmem]; exact Or.inr (Or.inr ⟨rfl, hb⟩))
    · intro b hb
      by_cases hbd : b = d
      · subst hbd; exact ⟨r, hself, List.Sublist.refl _⟩
      · rw [hmr] at hb
        obtain ⟨s, hs, hbs⟩ := hb
        have : ∃ m ∈ ms, b ∈ m := by
          rw [hmem] at hs
          rcases hs with rfl | hs | ⟨rfl, -⟩
          · simp at hbs; exact absurd hbs hbd
          · exact ⟨s, hs, hbs⟩
          · obtain ⟨m, hm', e⟩ := hl1 b hbs
            obtain ⟨b', hb', bs', hbm, e', hg⟩ := hms_good m hm'
            have hbd' := hbases b hbs
            simp only [List.mem_map] at hbd'
            obtain ⟨⟨b2, bs2⟩, hbm2, rfl⟩ := hbd'
            obtain ⟨r2, e2, hg2⟩ := hinv.good _ _ hbm2
            rw [e] at e2
            injection e2 with e2
            subst e2
            exact ⟨m, hm', (hg2.mem _).2 .refl⟩
        obtain ⟨m, hm', hbm⟩ := this
        obtain ⟨b', hb', bs', hbm', e', hg⟩ := hms_good m hm'
        obtain ⟨rb, e1, e2⟩ := hg.parents b hbm
        have hbdecl : b ∈ decls.map (·.1) := by rw [← hinv.keys]; exact lookup_mem e1
        refine ⟨rb, by rw [hlook b hbdecl]; exact e1, e2.trans (hsub m ?_)⟩
        rw [hmem]; exact Or.inr (Or.inl hm')
  · have hd' : (d, bs) ∈ decls := by
      rcases hd with ⟨e, -⟩ | hd
      · exact absurd e hdc
      · exact hd
    have hdd : d ∈ decls.map (·.1) := List.mem_map_of_mem (f := (·.1)) hd'
    obtain ⟨r', e', hg⟩ := hinv.good d bs hd'
    refine ⟨r', by rw [hlook d hdd]; exact e', ⟨hg.head, hg.nodup, ?_, hg.bases, ?_⟩⟩
    · intro x
      rw [hg.mem, ancestor_cons hfresh hcl hdd]
    · intro b hb
      obtain ⟨rb, e1, e2⟩ := hg.parents b hb
      have hbdecl : b ∈ decls.map (·.1) := by rw [← hinv.keys]; exact lookup_mem e1
      exact ⟨rb, by rw [hlook b hbdecl]; exact e1, e2⟩

/-- In a hierarchy of classes with distinct names that is accepted, the resolution order of every
class starts with the class, contains the class and its ancestors and nothing else, each once, and
keeps the declared order of the bases and the resolution order of every ancestor. -/
theorem c12_hierarchy (decls : List (α × List α)) (env : Env α)
    (hnd : (decls.map (·.1)).Nodup) (h : declareAll [] decls = .ok env) :
    ∀ c bases, (c, bases) ∈ decls →
      ∃ r, env.mro c = some r ∧ GoodMro decls env.mro c bases r := by
  have aux : ∀ (rest past : List (α × List α)) (e : Env α), Inv past e →
      (∀ c bases, (c, bases) ∈ past → ∀ b ∈ bases, b ∈ past.map (·.1)) →
      ((rest.reverse ++ past).map (·.1)).Nodup → declareAll e rest = .ok env →
      Inv (rest.reverse ++ past) env := by
    intro rest
    induction rest with
    | nil => intro past e hi _ _ hd; simp [declareAll] at hd; subst hd; simpa using hi
    | cons p rest ih =>
      obtain ⟨c, bases⟩ := p
      intro past e hi hcl hn hd
      rw [declareAll] at hd
      cases hdec : declare e c bases with
      | unknownBase => rw [hdec] at hd; cases hd
      | badMro => rw [hdec] at hd; cases hd
      | ok e' =>
        rw [hdec] at hd
        have hfresh : c ∉ past.map (·.1) := by
          simp only [List.reverse_cons, List.append_assoc, List.map_append] at hn
          have := (List.nodup_append.1 hn).2.1
          simp at this
          simpa using this.1
        obtain ⟨hi', hb⟩ := inv_step hi hcl hfresh hdec
        have := ih ((c, bases) :: past) e' hi' (by
          intro d bs hm b hbm
          simp only [List.mem_cons, Prod.mk.injEq] at hm
          rcases hm with ⟨rfl, rfl⟩ | hm
          · simp only [List.map_cons, List.mem_cons]; exact Or.inr (hb b hbm)
          · simp only [List.map_cons, List.mem_cons]; exact Or.inr (hcl d bs hm b hbm))
          (by simpa using hn) hd
        simpa using this
  have hi := aux decls [] [] ⟨rfl, by simp, by simp⟩ (by simp) (by
    rw [List.append_nil, List.map_reverse]
    exact List.nodup_reverse.2 hnd) h
  rw [List.append_nil] at hi
  have hanc : ∀ c x, Ancestor decls.reverse c x ↔ Ancestor decls c x := by
    intro c x
    have : IsBase decls.reverse = IsBase decls := by
      funext a b
      simp [IsBase]
    simp [Ancestor, this]
  intro c bases hm
  obtain ⟨r, e, hg⟩ := hi.good c bases (by simpa using hm)
  exact ⟨r, e, ⟨hg.head, hg.nodup, fun x => (hg.mem x).trans (hanc c x), hg.bases, hg.parents⟩⟩

/-- A class whose bases are all declared is rejected exactly when no order without repetition keeps
the class, the orders of its bases and the list of its bases. -/
theorem c12_reject (env : Env α) (c : α) (bases : List α) (ms : List (List α))
    (hms : bases.mapM (Env.mro env) = some ms) :
    declare env c bases = .badMro ↔ ∀ r, ¬ Consistent ([c] :: ms ++ [bases]) r := by
  unfold declare
  rw [hms]
  dsimp only
  generalize hq : (if bases = [] then [c] :: ms else [c] :: ms ++ [bases]) = seqs
  have hcons : ∀ r, Consistent ([c] :: ms ++ [bases]) r ↔ Consistent seqs r := by
    intro r
    subst hq
    by_cases hb : bases = []
    · subst hb
      simp only [if_true, Consistent]
      refine and_congr_right fun _ => ?_
      constructor
      · intro h s hs
        exact h s (by simp at hs ⊢; tauto)
      · intro h s hs
        simp at hs
        rcases hs with rfl | hs | rfl
        · exact h _ (by simp)
        · exact h _ (by simp [hs])
        · simp
    · rw [if_neg hb]
  simp only [hcons]
  obtain ⟨r, h1, -, h3⟩ := c12_merge seqs ⟨[c], by subst hq; split <;> simp, by simp⟩
  rw [h1, ← h3]
  cases r <;> simp

example : declareAll [] [("O", []), ("A", ["O"]), ("B", ["O"]), ("C", ["A", "B"])] =
    .ok [("C", ["C", "A", "B", "O"]), ("B", ["B", "O"]), ("A", ["A", "O"]), ("O", ["O"])] := by
  decide
example : declareAll [] [("A", []), ("B", ["A"]), ("C", ["A", "B"])] = .badMro := by decide

end Codon.C3
