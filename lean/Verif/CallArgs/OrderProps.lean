import Verif.CallArgs.OrderModel
import Verif.CallArgs.Props
import Mathlib.Data.List.Nodup
import Mathlib.Data.List.Perm.Basic
import Mathlib.Data.List.Sort
/-!
# C53: the arguments of a call are evaluated once each, in the order in which they are written

The full claim: for every call, `runCall arg slots s = pyCall n arg slots s`.  It is false: see the violations.  It is proved for calls in which
the arguments that `hasSideEffect` takes for harmless are: they change nothing, raise nothing, and have the same value whether evaluated
before or after the others.
-/
namespace Codon.CallArgs
universe u v w
variable {S : Type u} {E : Type v} {V : Type w}

/-! ## Specification -/

/-- Python: the arguments are evaluated in the order in which they are written; then they are bound to the parameters.  Type arguments are no
    values. -/
def pyCall (n : Nat) (arg : Nat → ArgExpr S E V) (slots : List (Bool × List Nat)) (s : S) : S × Except E (List (List (Option V))) :=
  match evalEach (fun i => (arg i).run) (List.range n) s with
  | (s, .error e) => (s, .error e)
  | (s, .ok vs) => (s, .ok ((slots.filter fun sl => !sl.1).map fun sl => sl.2.map fun i => vs[i]?))

/-- The result of a call as values that exist. -/
def someAll (r : S × Except E (List (List V))) : S × Except E (List (List (Option V))) :=
  match r with
  | (s, .error e) => (s, .error e)
  | (s, .ok vs) => (s, .ok (vs.map fun l => l.map some))

/-- The arguments taken for harmless are. -/
structure Harmless (n : Nat) (arg : Nat → ArgExpr S E V) (value : Nat → S → V) : Prop where
  run : ∀ i < n, hasSideEffect (arg i).kind = false → ∀ s, (arg i).run s = (s, .ok (value i s))
  stable : ∀ i < n, hasSideEffect (arg i).kind = false → ∀ j < n, hasSideEffect (arg j).kind = true → ∀ s, value i ((arg j).run s).1 = value i s

/-! ## Lemmas -/

/-- The values of all arguments of a list, given those of the arguments with side effects. -/
def weave (side : Nat → Bool) (val : Nat → V) : List Nat → List V → List V
  | [], _ => []
  | i :: is, vs =>
    if side i then
      match vs with
      | [] => []
      | v :: vs => v :: weave side val is vs
    else val i :: weave side val is vs

section
variable {n : Nat} {arg : Nat → ArgExpr S E V} {value : Nat → S → V}

theorem evalEach_split (h : Harmless n arg value) : ∀ (l : List Nat), (∀ i ∈ l, i < n) → ∀ s,
    evalEach (fun i => (arg i).run) l s =
      match evalEach (fun i => (arg i).run) (l.filter fun i => hasSideEffect (arg i).kind) s with
      | (s', .error e) => (s', .error e)
      | (s', .ok vs) => (s', .ok (weave (fun i => hasSideEffect (arg i).kind) (fun i => value i s) l vs))
  | [], _, s => rfl
  | i :: is, hl, s => by
    have hi := hl i (List.mem_cons_self ..)
    have his := fun j hj => hl j (List.mem_cons_of_mem _ hj)
    by_cases hs : hasSideEffect (arg i).kind = true
    · rw [List.filter_cons_of_pos (by simpa using hs)]
      simp only [evalEach]
      rcases hr : (arg i).run s with ⟨s1, e | v⟩
      · rfl
      · dsimp only
        rw [evalEach_split h is his s1]
        rcases evalEach (fun i => (arg i).run) (is.filter fun i => hasSideEffect (arg i).kind) s1 with ⟨s2, e | vs⟩
        · rfl
        · simp only [weave, hs, if_true]
          congr 3
          have : ∀ (l : List Nat), (∀ j ∈ l, j < n) → ∀ vs, weave (fun i => hasSideEffect (arg i).kind) (fun i => value i s1) l vs =
              weave (fun i => hasSideEffect (arg i).kind) (fun i => value i s) l vs := by
            intro l
            induction l with
            | nil => intro _ _; rfl
            | cons j l ih =>
              intro hl vs
              have hj := hl j (List.mem_cons_self ..)
              have hl' := fun k hk => hl k (List.mem_cons_of_mem _ hk)
              by_cases hsj : hasSideEffect (arg j).kind = true
              · cases vs with
                | nil => simp [weave, hsj]
                | cons v vs => simp [weave, hsj, ih hl']
              · have hst := h.stable j hj (by simpa using hsj) i hi hs s
                rw [hr] at hst
                simp only [weave, hsj, if_false, ih hl', Bool.false_eq_true]
                rw [hst]
          exact this is his vs
    · rw [List.filter_cons_of_neg (by simpa using hs)]
      have hs' : hasSideEffect (arg i).kind = false := by simpa using hs
      simp only [evalEach, h.run i hi hs' s]
      rw [evalEach_split h is his s]
      rcases evalEach (fun i => (arg i).run) (is.filter fun i => hasSideEffect (arg i).kind) s with ⟨s2, e | vs⟩
      · rfl
      · simp [weave, hs']

theorem evalEach_length (run : Nat → S → S × Except E V) : ∀ (l : List Nat) (s s' : S) (vs : List V), evalEach run l s = (s', .ok vs) → vs.length = l.length
  | [], s, s', vs, h => by cases h; rfl
  | i :: is, s, s', vs, h => by
    simp only [evalEach] at h
    rcases hr : run i s with ⟨s1, e | v⟩
    · rw [hr] at h; cases h
    · rw [hr] at h
      dsimp only at h
      rcases hx : evalEach run is s1 with ⟨s2, e | vs'⟩
      · rw [hx] at h; cases h
      · rw [hx] at h
        cases h
        simp [evalEach_length run is s1 s' vs' hx]

theorem lookup_zip_none {l : List Nat} {vs : List V} {i : Nat} (h : i ∉ l) : (l.zip vs).lookup i = none := by
  induction l generalizing vs with
  | nil => rfl
  | cons a l ih =>
    cases vs with
    | nil => rfl
    | cons v vs =>
      have h1 : (i == a) = false := by
        rw [beq_eq_false_iff_ne]
        intro hx; exact h (hx ▸ List.mem_cons_self ..)
      rw [List.zip_cons_cons, List.lookup_cons, h1]
      exact ih fun hx => h (List.mem_cons_of_mem _ hx)

/-- The value of argument `i`, given those of the arguments with side effects. -/
def valueOf (side : Nat → Bool) (val : Nat → V) (vars : List Nat) (vs : List V) (i : Nat) : Option V :=
  if side i then (vars.zip vs).lookup i else some (val i)

theorem weave_map (side : Nat → Bool) (val : Nat → V) : ∀ (l : List Nat), l.Nodup → ∀ vs : List V, vs.length = (l.filter side).length →
    (weave side val l vs).map some = l.map (valueOf side val (l.filter side) vs)
  | [], _, _, _ => rfl
  | i :: is, hn, vs, hv => by
    obtain ⟨hi, his⟩ := List.nodup_cons.mp hn
    by_cases hs : side i = true
    · rw [List.filter_cons_of_pos hs] at hv ⊢
      cases vs with
      | nil => simp at hv
      | cons v vs =>
        have ih := weave_map side val is his vs (by simpa using hv)
        simp only [weave, hs, if_true, List.map_cons, ih]
        congr 1
        · simp [valueOf, hs]
        · apply List.map_congr_left
          intro j hj
          have : (j == i) = false := by
            rw [beq_eq_false_iff_ne]
            rintro rfl
            exact hi hj
          simp [valueOf, List.lookup_cons, this]
    · rw [List.filter_cons_of_neg hs] at hv ⊢
      have ih := weave_map side val is his vs hv
      have hs' : side i = false := by simpa using hs
      simp only [weave, hs', Bool.false_eq_true, if_false, List.map_cons, ih]
      congr 1
      simp [valueOf, hs']

/-- Parameter by parameter is one after the other. -/
theorem evalSlots_flat (run : Nat → S → S × Except E V) : ∀ (ls : List (List Nat)) (s : S),
    match evalEach run ls.flatten s with
    | (s', .error e) => evalSlots run ls s = (s', .error e)
    | (s', .ok vs) => ∃ vss, evalSlots run ls s = (s', .ok vss) ∧ vss.flatten = vs ∧ vss.map List.length = ls.map List.length
  | [], s => ⟨[], rfl, rfl, rfl⟩
  | l :: ls, s => by
    have happ : ∀ (l l' : List Nat) (s : S), evalEach run (l ++ l') s = match evalEach run l s with
        | (s, .error e) => (s, .error e)
        | (s, .ok vs) => match evalEach run l' s with
          | (s, .error e) => (s, .error e)
          | (s, .ok vs') => (s, .ok (vs ++ vs')) := by
      intro l
      induction l with
      | nil =>
        intro l' s
        simp only [List.nil_append, evalEach]
        rcases evalEach run l' s with ⟨s, e | vs⟩ <;> rfl
      | cons i l ih =>
        intro l' s
        simp only [List.cons_append, evalEach]
        rcases run i s with ⟨s1, e | v⟩
        · rfl
        · dsimp only
          rw [ih]
          rcases evalEach run l s1 with ⟨s2, e | vs⟩
          · rfl
          · dsimp only
            rcases evalEach run l' s2 with ⟨s3, e | vs'⟩ <;> rfl
    rw [List.flatten_cons, happ]
    rcases hx : evalEach run l s with ⟨s1, e | v⟩
    · simp only [evalSlots, hx]
    · dsimp only
      have ih := evalSlots_flat run ls s1
      rcases hy : evalEach run ls.flatten s1 with ⟨s2, e | vs⟩
      · rw [hy] at ih
        dsimp only at ih ⊢
        simp only [evalSlots, hx, ih]
      · rw [hy] at ih
        obtain ⟨vss, h1, h2, h3⟩ := ih
        refine ⟨v :: vss, by simp only [evalSlots, hx, h1], by rw [List.flatten_cons, h2], ?_⟩
        rw [List.map_cons, List.map_cons, h3, evalEach_length run l s s1 v hx]

theorem regroup {α : Type} {β : Type w} : ∀ (ls : List (List α)) (vss : List (List β)) (f : α → β), vss.flatten = ls.flatten.map f →
    vss.map List.length = ls.map List.length → vss = ls.map fun l => l.map f
  | [], [], _, _, _ => rfl
  | l :: ls, v :: vss, f, h, hl => by
    simp only [List.map_cons, List.cons.injEq] at hl
    rw [List.flatten_cons, List.flatten_cons, List.map_append] at h
    obtain ⟨h1, h2⟩ := List.append_inj h (by simpa using hl.1)
    rw [List.map_cons, h1, regroup ls vss f h2 hl.2]
  | [], _ :: _, _, _, hl => by cases hl
  | _ :: _, [], _, _, hl => by cases hl

/-- The order of the arguments with side effects. -/
theorem foldl_add (side : Nat → Bool) (g : Bool) : ∀ (l : List Nat) (st : Ordering_),
    (l.foldl (addReordered side g) st).ordered = st.ordered ++ l.filter side ∧
    ((l.foldl (addReordered side g) st).inOrder = true → st.inOrder = true ∧ (g = true → l.filter side = []) ∧
      (st.ordered.Pairwise (· ≤ ·) → (st.ordered ++ l.filter side).Pairwise (· ≤ ·)))
  | [], st => by simp
  | i :: is, st => by
    obtain ⟨h1, h2⟩ := foldl_add side g is (addReordered side g st i)
    rw [List.foldl_cons]
    by_cases hs : side i = true
    · have hst : addReordered side g st i = ⟨st.inOrder && !g && notBefore st.ordered i, st.ordered ++ [i]⟩ := by simp [addReordered, hs]
      rw [hst] at h1 h2 ⊢
      rw [List.filter_cons_of_pos hs]
      refine ⟨by rw [h1]; simp, fun h => ?_⟩
      obtain ⟨k1, k2, k3⟩ := h2 h
      simp only [Bool.and_eq_true] at k1
      obtain ⟨⟨k4, k5⟩, k6⟩ := k1
      refine ⟨k4, fun hg => by simp [hg] at k5, fun hp => ?_⟩
      have hpi : (st.ordered ++ [i]).Pairwise (· ≤ ·) := by
        rw [List.pairwise_append]
        refine ⟨hp, by simp, fun a ha b hb => ?_⟩
        rw [List.mem_singleton] at hb
        subst hb
        cases hl : st.ordered.getLast? with
        | none => rw [List.getLast?_eq_none_iff] at hl; rw [hl] at ha; cases ha
        | some j =>
          rw [notBefore, hl] at k6
          simp only [Bool.not_eq_true', decide_eq_false_iff_not, Nat.not_lt] at k6
          obtain ⟨ys, hys⟩ := List.getLast?_eq_some_iff.mp hl
          rw [hys] at ha hp
          rw [List.pairwise_append] at hp
          rcases List.mem_append.mp ha with ha | ha
          · exact Nat.le_trans (hp.2.2 a ha j (by simp)) k6
          · rw [List.mem_singleton] at ha; omega
      have := k3 hpi
      simpa using this
    · have hst : addReordered side g st i = st := by simp [addReordered, hs]
      rw [hst] at h1 h2 ⊢
      rw [List.filter_cons_of_neg hs]
      exact ⟨h1, h2⟩

theorem orderLoop_spec (side : Nat → Bool) : ∀ (slots : List (Bool × List Nat)) (st : Ordering_),
    (orderLoop side st slots).ordered = st.ordered ++ (slots.map (·.2)).flatten.filter side ∧
    ((orderLoop side st slots).inOrder = true → st.inOrder = true ∧ (∀ sl ∈ slots, sl.1 = true → sl.2.filter side = []) ∧
      (st.ordered.Pairwise (· ≤ ·) → (orderLoop side st slots).ordered.Pairwise (· ≤ ·)))
  | [], st => by simp [orderLoop]
  | (g, l) :: rest, st => by
    obtain ⟨h1, h2⟩ := orderLoop_spec side rest (l.foldl (addReordered side g) st)
    obtain ⟨k1, k2⟩ := foldl_add side g l st
    refine ⟨?_, fun h => ?_⟩
    · simp only [orderLoop, List.map_cons, List.flatten_cons, List.filter_append]
      rw [h1, k1, List.append_assoc]
    · obtain ⟨h3, h4, h5⟩ := h2 h
      obtain ⟨k3, k4, k5⟩ := k2 h3
      refine ⟨k3, fun sl hsl hg => ?_, fun hp => h5 (k1 ▸ k5 hp)⟩
      rcases List.mem_cons.mp hsl with rfl | hsl
      · exact k4 hg
      · exact h4 sl hsl hg

theorem sublist_flatten {α : Type} {a b : List (List α)} (h : a.Sublist b) : a.flatten.Sublist b.flatten := by
  induction h with
  | slnil => exact .slnil
  | cons x _ ih => rw [List.flatten_cons]; exact ih.trans (List.sublist_append_right ..)
  | cons_cons x _ ih => rw [List.flatten_cons, List.flatten_cons]; exact (List.Sublist.refl x).append ih

theorem sorted_eq {l : List Nat} {n : Nat} {p : Nat → Bool} (hn : l.Nodup) (hp : l.Pairwise (· ≤ ·)) (hm : ∀ i, i ∈ l ↔ i < n ∧ p i = true) :
    l = (List.range n).filter p := by
  have hperm : l.Perm ((List.range n).filter p) := by
    rw [List.perm_ext_iff_of_nodup hn (List.nodup_range.filter _)]
    intro i
    rw [hm, List.mem_filter, List.mem_range]
  exact hperm.eq_of_pairwise (le := fun a b => a ≤ b) (fun a b _ _ h1 h2 => Nat.le_antisymm h1 h2) hp
    ((List.pairwise_le_range).filter _)

end

/-! ## The property -/

/-- Each argument is bound once. -/
def EachOnce (n : Nat) (slots : List (Bool × List Nat)) : Prop := (slots.map (·.2)).flatten.Perm (List.range n)

theorem runCall_eq {n : Nat} {arg : Nat → ArgExpr S E V} {value : Nat → S → V} (h : Harmless n arg value) {slots : List (Bool × List Nat)}
    (ho : EachOnce n slots) (s : S) : someAll (runCall arg slots s) = pyCall n arg slots s := by
  generalize hside : (fun i => hasSideEffect (arg i).kind) = side
  generalize hrun : (fun i => (arg i).run) = run
  have hnod : (slots.map (·.2)).flatten.Nodup := ho.nodup_iff.mpr List.nodup_range
  have hmem : ∀ i, i ∈ (slots.map (·.2)).flatten ↔ i < n := fun i => by rw [ho.mem_iff, List.mem_range]
  -- the slots with values
  have hsub : ((slots.filter fun sl => !sl.1).map (·.2)).flatten.Sublist (slots.map (·.2)).flatten :=
    sublist_flatten (List.Sublist.map _ List.filter_sublist)
  have hnodv := hnod.sublist hsub
  have hmemv : ∀ i ∈ ((slots.filter fun sl => !sl.1).map (·.2)).flatten, i < n := fun i hi => (hmem i).mp (hsub.subset hi)
  -- Python
  have hpy : pyCall n arg slots s = match evalEach run ((List.range n).filter side) s with
      | (s', .error e) => (s', .error e)
      | (s', .ok vs) => (s', .ok ((slots.filter fun sl => !sl.1).map fun sl => sl.2.map (valueOf side (fun i => value i s) ((List.range n).filter side) vs))) := by
    unfold pyCall
    have := evalEach_split h (List.range n) (fun i hi => List.mem_range.mp hi) s
    rw [hrun, hside] at this
    rw [hrun, this]
    rcases hx : evalEach run ((List.range n).filter side) s with ⟨s', e | vs⟩
    · rfl
    · dsimp only
      congr 2
      apply List.map_congr_left
      intro sl hsl
      apply List.map_congr_left
      intro i hi
      have hin : i < n := (hmem i).mp (List.mem_flatten.mpr ⟨sl.2, List.mem_map_of_mem (List.mem_filter.mp hsl).1, hi⟩)
      have hw := weave_map side (fun i => value i s) (List.range n) List.nodup_range vs (evalEach_length _ _ _ _ _ hx)
      have h1 : ((weave side (fun i => value i s) (List.range n) vs).map some)[i]? =
          ((List.range n).map (valueOf side (fun i => value i s) ((List.range n).filter side) vs))[i]? := by rw [hw]
      rw [List.getElem?_map, List.getElem?_map, List.getElem?_range hin] at h1
      simp only [Option.map_some] at h1
      cases hg : (weave side (fun i => value i s) (List.range n) vs)[i]? with
      | none => rw [hg] at h1; cases h1
      | some v =>
        rw [hg] at h1
        simpa using h1
  rw [hpy]
  obtain ⟨o1, o2⟩ := orderLoop_spec side slots ⟨true, []⟩
  rw [List.nil_append] at o1
  -- the arguments with side effects, in order
  have hcase : ∀ l : List Nat, l.Perm ((slots.map (·.2)).flatten.filter side) → l.Pairwise (· ≤ ·) → l = (List.range n).filter side := by
    intro l hl hp
    refine sorted_eq (hl.nodup_iff.mpr (hnod.filter _)) hp fun i => ?_
    rw [hl.mem_iff, List.mem_filter, hmem]
  unfold runCall
  dsimp only
  rw [hside, hrun]
  by_cases hin : (orderLoop side ⟨true, []⟩ slots).inOrder = true
  · rw [if_pos hin]
    obtain ⟨_, o3, o4⟩ := o2 hin
    have o5 := o4 List.Pairwise.nil
    rw [o1] at o5
    have hall := hcase _ (List.Perm.refl _) o5
    have hvals : ((slots.filter fun sl => !sl.1).map (·.2)).flatten.filter side = (List.range n).filter side := by
      rw [← hall]
      clear hall o5 o4 o2 o1 hcase hpy hnodv hmemv hsub hnod hmem ho hin
      induction slots with
      | nil => rfl
      | cons sl rest ih =>
        have ih' := ih fun x hx => o3 x (List.mem_cons_of_mem _ hx)
        obtain ⟨g, l⟩ := sl
        cases g with
        | true =>
          have := o3 (true, l) (List.mem_cons_self ..) rfl
          simp only [List.map_cons, List.flatten_cons, List.filter_append]
          rw [show (true, l).2.filter side = [] from this, List.nil_append, ← ih']
          simp
        | false =>
          simp only [List.map_cons, List.flatten_cons, List.filter_append]
          rw [List.filter_cons_of_pos (by simp), List.map_cons, List.flatten_cons, List.filter_append, ih']
    have hflat := evalSlots_flat run ((slots.filter fun sl => !sl.1).map (·.2)) s
    have hsplit := evalEach_split h _ hmemv s
    rw [hrun, hside, hvals] at hsplit
    rw [hsplit] at hflat
    rcases hx : evalEach run ((List.range n).filter side) s with ⟨s', e | vs⟩
    · rw [hx] at hflat
      dsimp only at hflat ⊢
      rw [hflat]
      rfl
    · rw [hx] at hflat
      obtain ⟨vss, f1, f2, f3⟩ := hflat
      rw [f1]
      simp only [someAll]
      congr 2
      have hw := weave_map side (fun i => value i s) _ hnodv vs (by rw [hvals]; exact evalEach_length _ _ _ _ _ hx)
      rw [← f2, hvals] at hw
      have := regroup ((slots.filter fun sl => !sl.1).map (·.2)) (vss.map fun l => l.map some)
        (valueOf side (fun i => value i s) ((List.range n).filter side) vs) (by
          rw [← hw, List.map_flatten]) (by rw [List.map_map, ← f3]; congr 1; funext l; simp)
      rw [this, List.map_map]
      rfl
  · rw [if_neg hin]
    have hvars : sortPos (orderLoop side ⟨true, []⟩ slots).ordered = (List.range n).filter side := by
      rw [o1]
      exact hcase _ (List.perm_insertionSort _ _) (List.pairwise_insertionSort _ _)
    rw [hvars]
    rcases hx : evalEach run ((List.range n).filter side) s with ⟨s', e | vs⟩
    · rfl
    · dsimp only
      have hlen := evalEach_length _ _ _ _ _ hx
      -- the state after the assignments does not change the other values
      have hkeep : ∀ i < n, side i = false → value i s' = value i s := by
        intro i hi hsi
        have : ∀ (l : List Nat), (∀ j ∈ l, j < n ∧ side j = true) → ∀ s s' vs, evalEach run l s = (s', .ok vs) → value i s' = value i s := by
          intro l
          induction l with
          | nil => intro _ s s' vs he; cases he; rfl
          | cons j l ih =>
            intro hl s s' vs he
            simp only [evalEach] at he
            have hj := hl j (List.mem_cons_self ..)
            have hst := h.stable i hi (by rw [← hsi, ← hside]) j hj.1 (by rw [← hj.2, ← hside]) s
            rw [show (arg j).run = run j by rw [← hrun]] at hst
            rcases hr : run j s with ⟨s1, e | v⟩
            · rw [hr] at he; cases he
            · rw [hr] at he hst
              dsimp only at he hst
              rcases hy : evalEach run l s1 with ⟨s2, e | vs2⟩
              · rw [hy] at he; cases he
              · rw [hy] at he
                cases he
                rw [ih (fun k hk => hl k (List.mem_cons_of_mem _ hk)) s1 s' vs2 hy, hst]
        exact this _ (fun j hj => by simpa using hj) s s' vs hx
      -- reading the variables
      have hread : ∀ (l : List Nat), (∀ i ∈ l, i < n) →
          ∃ ws, evalEach (readVar ((List.range n).filter side) vs run) l s' = (s', .ok ws) ∧ ws.map some = l.map (valueOf side (fun i => value i s) ((List.range n).filter side) vs) := by
        intro l
        induction l with
        | nil => intro _; exact ⟨[], rfl, rfl⟩
        | cons i l ih =>
          intro hl
          obtain ⟨ws, h1, h2⟩ := ih fun k hk => hl k (List.mem_cons_of_mem _ hk)
          have hi := hl i (List.mem_cons_self ..)
          by_cases hsi : side i = true
          · have hmemi : i ∈ (List.range n).filter side := by simp [hi, hsi]
            have hex : ∃ v, (((List.range n).filter side).zip vs).lookup i = some v := by
              have : ∀ (l : List Nat) (vs : List V), vs.length = l.length → i ∈ l → ∃ v, (l.zip vs).lookup i = some v := by
                intro l
                induction l with
                | nil => intro _ _ h; cases h
                | cons a l ih =>
                  intro vs hlen hm
                  cases vs with
                  | nil => cases hlen
                  | cons v vs =>
                    rw [List.zip_cons_cons, List.lookup_cons]
                    by_cases hia : (i == a) = true
                    · rw [hia]; exact ⟨v, rfl⟩
                    · have hia' : (i == a) = false := by simpa using hia
                      rw [hia']
                      refine ih vs (by simpa using hlen) ?_
                      rcases List.mem_cons.mp hm with rfl | hm
                      · simp at hia
                      · exact hm
              exact this _ _ hlen hmemi
            obtain ⟨v, hv⟩ := hex
            refine ⟨v :: ws, by simp only [evalEach, readVar, hv, h1], ?_⟩
            rw [List.map_cons, List.map_cons, h2]
            congr 1
            simp [valueOf, hsi, hv]
          · have hsi' : side i = false := by simpa using hsi
            have hnone : (((List.range n).filter side).zip vs).lookup i = none := lookup_zip_none (by simp [hsi'])
            have hr := h.run i hi (by rw [← hsi', ← hside]) s'
            rw [show (arg i).run = run i by rw [← hrun], hkeep i hi hsi'] at hr
            refine ⟨value i s :: ws, by simp only [evalEach, readVar, hnone, hr, h1], ?_⟩
            rw [List.map_cons, List.map_cons, h2]
            congr 1
            simp [valueOf, hsi']
      obtain ⟨ws, hw1, hw2⟩ := hread _ hmemv
      have hflat := evalSlots_flat (readVar ((List.range n).filter side) vs run) ((slots.filter fun sl => !sl.1).map (·.2)) s'
      rw [hw1] at hflat
      obtain ⟨vss, f1, f2, f3⟩ := hflat
      rw [f1]
      simp only [someAll]
      congr 2
      have := regroup ((slots.filter fun sl => !sl.1).map (·.2)) (vss.map fun l => l.map some)
        (valueOf side (fun i => value i s) ((List.range n).filter side) vs) (by
          rw [← hw2, ← f2, List.map_flatten]) (by rw [List.map_map, ← f3]; congr 1; funext l; simp)
      rw [this, List.map_map]
      rfl

/-! ### Each argument is bound once -/

theorem positional_nodup (args : List Arg) : (positional args).Nodup := by
  have h : ((positional args)).Sublist (args.zipIdx.map (·.2)) := by
    unfold positional
    generalize args.zipIdx = l
    induction l with
    | nil => exact .slnil
    | cons x l ih =>
      obtain ⟨a, i⟩ := x
      cases a with
      | none => simpa [List.filterMap_cons] using ih
      | some n => simpa [List.filterMap_cons] using ih.cons i
  refine List.Nodup.sublist h ?_
  rw [List.zipIdx_map_snd]
  exact List.nodup_range'

theorem keyword_index_inj {args : List Arg} {n m : String} {a : Nat} (h1 : (n, a) ∈ keywords args) (h2 : (m, a) ∈ keywords args) : n = m := by
  rw [mem_keywords] at h1 h2
  rw [h1] at h2
  injection h2 with h2
  injection h2

theorem keywords_snd_nodup (args : List Arg) : ((keywords args).map (·.2)).Nodup := by
  have h : ((keywords args).map (·.2)).Sublist (args.zipIdx.map (·.2)) := by
    unfold keywords
    generalize args.zipIdx = l
    induction l with
    | nil => exact .slnil
    | cons x l ih =>
      obtain ⟨a, i⟩ := x
      cases a with
      | none => simpa [List.filterMap_cons] using ih.cons i
      | some n => simpa [List.filterMap_cons] using ih
  refine List.Nodup.sublist h ?_
  rw [List.zipIdx_map_snd]
  exact List.nodup_range'

/-- How an argument got into a slot. -/
theorem slot_cases {ps : List Param} {args : List Arg} {slots : List (List Nat)} (hw : WellFormed ps) (hb : Binds ps args slots) {i : Nat} {l : List Nat}
    (hl : slots[i]? = some l) : l.Nodup ∧ ∀ a ∈ l,
      (∃ r, (positional args)[r]? = some a ∧ ((i < capacity ps ∧ r = i) ∨ (capacity ps ≤ r ∧ ∃ p, ps[i]? = some p ∧ p.stars = 1))) ∨
      (∃ n, (n, a) ∈ keywords args ∧ ∃ p, ps[i]? = some p ∧ ((p.stars = 0 ∧ p.name = n) ∨ (p.stars = 2 ∧ ∀ q ∈ ps, q.stars = 0 → q.name ≠ n))) := by
  have hi : i < slots.length := (List.getElem?_eq_some_iff.mp hl).1
  rw [hb.len] at hi
  have hp : ps[i]? = some ps[i] := List.getElem?_eq_getElem hi
  have hst : ps[i].stars = 0 ∨ ps[i].stars = 1 ∨ ps[i].stars = 2 := by
    have := hw.stars ps[i] (List.getElem_mem hi)
    omega
  by_cases hf : FilledByPosition ps args i
  · obtain ⟨a, h1, h2⟩ := hb.byPosition i hf
    rw [hl] at h2
    cases h2
    refine ⟨by simp, fun b hb' => ?_⟩
    rw [List.mem_singleton] at hb'
    subst hb'
    exact Or.inl ⟨i, h1, Or.inl ⟨hf.1, rfl⟩⟩
  · rcases hst with h0 | h1 | h2
    · have := hb.byName i _ hp h0 hf
      rw [hl] at this
      cases this
      refine ⟨(List.filter_sublist.map _).nodup (keywords_snd_nodup args), fun a ha => ?_⟩
      obtain ⟨⟨n, a'⟩, hm, rfl⟩ := List.mem_map.mp ha
      rw [List.mem_filter] at hm
      exact Or.inr ⟨n, hm.1, ps[i], hp, Or.inl ⟨h0, by have := hm.2; simp at this; exact this.symm⟩⟩
    · have := hb.star i _ hp h1
      rw [hl] at this
      cases this
      refine ⟨(List.drop_sublist _ _).nodup (positional_nodup args), fun a ha => ?_⟩
      obtain ⟨k, hk⟩ := List.mem_iff_getElem?.mp ha
      rw [List.getElem?_drop] at hk
      exact Or.inl ⟨_, hk, Or.inr ⟨by omega, ps[i], hp, h1⟩⟩
    · obtain ⟨l', hl', hperm⟩ := hb.kwstar i _ hp h2
      rw [hl] at hl'
      cases hl'
      refine ⟨hperm.nodup_iff.mpr ((List.filter_sublist.map _).nodup (keywords_snd_nodup args)), fun a ha => ?_⟩
      obtain ⟨⟨n, a'⟩, hm, rfl⟩ := List.mem_map.mp (hperm.mem_iff.mp ha)
      rw [List.mem_filter] at hm
      exact Or.inr ⟨n, hm.1, ps[i], hp, Or.inr ⟨h2, by simpa using hm.2⟩⟩

theorem one_star {ps : List Param} (hw : WellFormed ps) {i j : Nat} {p q : Param} (hi : ps[i]? = some p) (hj : ps[j]? = some q) (hp : p.stars = 1)
    (hq : q.stars = 1) : i = j := by
  by_contra hne
  have key : ∀ {ps : List Param} {i j : Nat} {p q : Param}, ps[i]? = some p → ps[j]? = some q → p.stars = 1 → q.stars = 1 → i < j →
      2 ≤ (ps.filter fun p => p.stars == 1).length := by
    intro ps i j p q hi hj hp hq hlt
    have h1 : [p, q].Sublist ps := by
      have ha : p ∈ ps.take j := by
        rw [List.mem_take_iff_getElem]
        have := (List.getElem?_eq_some_iff.mp hi)
        exact ⟨i, by have := this.1; omega, this.2⟩
      have hb : q ∈ ps.drop j := by
        rw [List.mem_iff_getElem?]
        exact ⟨0, by rw [List.getElem?_drop]; simpa using hj⟩
      have : ([p] ++ [q]).Sublist (ps.take j ++ ps.drop j) := (List.singleton_sublist.mpr ha).append (List.singleton_sublist.mpr hb)
      rwa [List.take_append_drop] at this
    have h2 := (h1.filter fun p => p.stars == 1).length_le
    simpa [hp, hq] using h2
  have := hw.oneStar
  rcases Nat.lt_or_gt_of_ne hne with h | h
  · have := key hi hj hp hq h; omega
  · have := key hj hi hq hp h; omega

/-- **C13** (same hypothesis as `c13_binding_partial`): in an accepted call every argument is bound to exactly one parameter. -/
theorem c13_each_once_partial (ps : List Param) (args : List Arg) (hw : WellFormed ps) (hd : namesDistinct args = true)
    (hstar : ∀ p ∈ ps, p.stars = 1 → ∀ k ∈ keywords args, k.1 ≠ p.name) (slots : List (List Nat))
    (h : reorderNamedArgs [] false ps args = .ok slots) : slots.flatten.Perm (List.range args.length) := by
  obtain ⟨hb, hne⟩ := (c13_binding_partial ps args hw hd hstar).1 slots h
  have hinj : ∀ {i j : Nat} {l m : List Nat} {a : Nat}, slots[i]? = some l → slots[j]? = some m → a ∈ l → a ∈ m → i = j := by
    intro i j l m a hl hm hal ham
    rcases (slot_cases hw hb hl).2 a hal with ⟨r, hr, c1⟩ | ⟨n, hn, p, hp, c1⟩ <;>
      rcases (slot_cases hw hb hm).2 a ham with ⟨r', hr', c2⟩ | ⟨n', hn', p', hp', c2⟩
    · have : r = r' := by
        obtain ⟨h1, h2⟩ := List.getElem?_eq_some_iff.mp hr
        obtain ⟨h3, h4⟩ := List.getElem?_eq_some_iff.mp hr'
        exact (positional_nodup args).getElem_inj_iff.mp (h2.trans h4.symm)
      subst this
      rcases c1 with ⟨c1, rfl⟩ | ⟨c1, p, hp, hp1⟩ <;> rcases c2 with ⟨c2, rfl⟩ | ⟨c2, q, hq, hq1⟩
      · rfl
      · omega
      · omega
      · exact one_star hw hp hq hp1 hq1
    · have h1 := (mem_positional _ _).mp (List.mem_of_getElem? hr)
      rw [(mem_keywords _ _ _).mp hn'] at h1
      cases h1
    · have h1 := (mem_positional _ _).mp (List.mem_of_getElem? hr')
      rw [(mem_keywords _ _ _).mp hn] at h1
      cases h1
    · have := keyword_index_inj hn hn'
      subst this
      rcases c1 with ⟨c1, c3⟩ | ⟨c1, c3⟩ <;> rcases c2 with ⟨c2, c4⟩ | ⟨c2, c4⟩
      · obtain ⟨h1, h2⟩ := List.getElem?_eq_some_iff.mp hp
        obtain ⟨h3, h4⟩ := List.getElem?_eq_some_iff.mp hp'
        have hn := hw.names
        have e1 : (ps.map (·.name))[i]'(by simpa using h1) = (ps.map (·.name))[j]'(by simpa using h3) := by
          simp [h2, h4, c3, c4]
        exact hn.getElem_inj_iff.mp e1
      · exact absurd c3 (c4 p (List.mem_of_getElem? hp) c1)
      · exact absurd c4 (c3 p' (List.mem_of_getElem? hp') c2)
      · have h1 := hw.lastKw i ⟨p, hp, c1⟩
        have h2 := hw.lastKw j ⟨p', hp', c2⟩
        omega
  have hnod : slots.flatten.Nodup := by
    rw [List.nodup_flatten]
    refine ⟨fun l hl => ?_, ?_⟩
    · obtain ⟨i, hi⟩ := List.mem_iff_getElem?.mp hl
      exact (slot_cases hw hb hi).1
    · rw [List.pairwise_iff_getElem]
      intro i j hi hj hij a ha hb'
      have := hinj (List.getElem?_eq_getElem hi) (List.getElem?_eq_getElem hj) ha hb'
      omega
  rw [List.perm_ext_iff_of_nodup hnod List.nodup_range]
  intro a
  rw [List.mem_range, List.mem_flatten]
  constructor
  · rintro ⟨l, hl, ha⟩
    obtain ⟨i, hi⟩ := List.mem_iff_getElem?.mp hl
    rcases (slot_cases hw hb hi).2 a ha with ⟨r, hr, _⟩ | ⟨n, hn, _⟩
    · exact (List.getElem?_eq_some_iff.mp ((mem_positional _ _).mp (List.mem_of_getElem? hr))).1
    · exact (List.getElem?_eq_some_iff.mp ((mem_keywords _ _ _).mp hn)).1
  · exact fun ha => c13_none_dropped_partial ps args hw hd hstar slots h a ha

/-! ### The order of evaluation -/

/-- **C53** (part): for every accepted call, if the arguments that count as harmless are, the emitted code ends in the state and with the values or the exception
    of an evaluation of the arguments in the order in which they are written, each once, and passes them to the parameters they are bound to. -/
theorem c53_in_order_partial (ps : List Param) (names : List Arg) (hw : WellFormed ps) (hd : namesDistinct names = true)
    (hstar : ∀ p ∈ ps, p.stars = 1 → ∀ k ∈ keywords names, k.1 ≠ p.name) (slots : List (List Nat))
    (hb : reorderNamedArgs [] false ps names = .ok slots) (arg : Nat → ArgExpr S E V) (value : Nat → S → V)
    (h : Harmless names.length arg value) (s : S) :
    someAll (runCall arg ((ps.map fun p => !p.isValue).zip slots) s) = pyCall names.length arg ((ps.map fun p => !p.isValue).zip slots) s := by
  refine runCall_eq h ?_ s
  have hlen := ((c13_binding_partial ps names hw hd hstar).1 slots hb).1.len
  unfold EachOnce
  rw [List.map_snd_zip (by simp [hlen])]
  exact c13_each_once_partial ps names hw hd hstar slots hb

/-! ### Cases and violations -/

namespace OrderCases

/-- `def f(a, b, c=0, *rest)` -/
def f : List Param := [⟨"a", 0, true, false⟩, ⟨"b", 0, true, false⟩, ⟨"c", 0, true, true⟩, ⟨"rest", 1, true, false⟩]

/-- A call that appends `k` to the trace and returns `k`. -/
def g (k : Nat) : ArgExpr (List Nat) Unit Nat := ⟨.other, fun s => (s ++ [k], .ok k)⟩

/-- `f(c=g(1), b=7, a=g(2))`. -/
def call1 : Nat → ArgExpr (List Nat) Unit Nat
  | 0 => g 1
  | 1 => ⟨.int, fun s => (s, .ok 7)⟩
  | _ => g 2

example : reorderNamedArgs [] false f [some "c", some "b", some "a"] = .ok [[2], [1], [0], []] := by decide

example : Harmless 3 call1 (fun _ _ => 7) := by
  constructor
  · intro i hi hs s
    match i, hi with
    | 0, _ => cases hs
    | 1, _ => rfl
    | 2, _ => cases hs
  · intros; rfl

example : runCall call1 ((f.map fun p => !p.isValue).zip [[2], [1], [0], []]) [] = ([1, 2], .ok [[2], [7], [1], []]) := rfl

/-- `f(b=x, a=g())` where `g` changes `x`: a variable counts as harmless, so the call is not reordered and `x` is read after `g` has run. -/
def call2 : Nat → ArgExpr Nat Unit Nat
  | 0 => ⟨.id, fun x => (x, .ok x)⟩
  | _ => ⟨.other, fun x => (x + 1, .ok 50)⟩

theorem c53_variable_violation :
    reorderNamedArgs [] false (f.take 2) [some "b", some "a"] = .ok [[1], [0]] ∧
    someAll (runCall call2 [(false, [1]), (false, [0])] 3) = (4, .ok [[some 50], [some 4]]) ∧
    pyCall 2 call2 [(false, [1]), (false, [0])] 3 = (4, .ok [[some 50], [some 3]]) := ⟨by decide, rfl, rfl⟩

/-- `f(b=x, a=f2(), c=g())` with the calls out of order: likewise when the calls are assigned to variables first. -/
def call3 : Nat → ArgExpr Nat Unit Nat
  | 0 => ⟨.id, fun x => (x, .ok x)⟩
  | 1 => ⟨.other, fun x => (x + 1, .ok 50)⟩
  | _ => ⟨.other, fun x => (x, .ok 60)⟩

theorem c53_variable_last_violation :
    someAll (runCall call3 [(false, [2]), (false, [1]), (false, [0])] 3) = (4, .ok [[some 60], [some 50], [some 4]]) ∧
    pyCall 3 call3 [(false, [2]), (false, [1]), (false, [0])] 3 = (4, .ok [[some 60], [some 50], [some 3]]) := ⟨rfl, rfl⟩

/-- `f(**h())` where `h` returns a record with the fields `b`, `a`: the state is the variable of the compiler that holds the record.  The argument for `a` is read from that
    variable before it is assigned (here: `99`). -/
def call4 : List (String × ArgExpr (Option (Nat × Nat)) Unit Nat) :=
  unpackRecord (fun s => s) (fun _ r => some r) (fun s => (s, .ok (5, 6))) (fun _ => 99) 0 [("b", fun r => r.1), ("a", fun r => r.2)]

def call4Arg (i : Nat) : ArgExpr (Option (Nat × Nat)) Unit Nat :=
  match call4[i]? with
  | some a => a.2
  | none => ⟨.none_, fun s => (s, .ok 0)⟩

theorem c53_record_violation :
    reorderNamedArgs [] false (f.take 2) (call4.map fun a => some a.1) = .ok [[1], [0]] ∧
    someAll (runCall call4Arg [(false, [1]), (false, [0])] none) = (some (5, 6), .ok [[some 99], [some 5]]) ∧
    pyCall 2 call4Arg [(false, [1]), (false, [0])] none = (some (5, 6), .ok [[some 6], [some 5]]) := ⟨by decide, rfl, rfl⟩

/-- A `yield` expression counts as harmless although it suspends the function. -/
def call5 : Nat → ArgExpr (List Nat) Unit Nat
  | 0 => ⟨.yield_, fun s => (s ++ [1], .ok 1)⟩
  | _ => g 2

theorem c53_yield_violation :
    someAll (runCall call5 [(false, [1]), (false, [0])] []) = ([2, 1], .ok [[some 2], [some 1]]) ∧
    pyCall 2 call5 [(false, [1]), (false, [0])] [] = ([1, 2], .ok [[some 2], [some 1]]) := ⟨rfl, rfl⟩

end OrderCases

end Codon.CallArgs
