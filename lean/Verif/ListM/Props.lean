import Verif.ListM.Slices

/-!
# Property theorems for `list` (C23)

`Op` is a call of a list method on one list, `Obs` is what the caller sees.  `Py xs op o ys` is
Python's behaviour: on the sequence `xs` the call shows `o` and leaves `ys`.  The theorems say that
every call of the modelled code is defined (no access outside the block, no read of an
uninitialised cell) and behaves as `Py`.
-/

namespace Codon.ListM

open Spec

inductive Op (T : Type) where
  | append (x : T) | extend (ys : List T) | insert (i : Int) (x : T) | pop (i : Int)
  | remove (x : T) | clear | reverse | setItem (i : Int) (x : T) | delItem (i : Int)
  | setSlice (s : Sl) (ys : List T) | delSlice (s : Sl) | iadd (ys : List T) | iaddSelf
  | imul (n : Int)
  | getItem (i : Int) | getSlice (s : Sl) | index (x : T) | find (x : T) | count (x : T)
  | contains (x : T) | add (ys : List T) | mul (n : Int) | iter | reversed | len | copy
  | eq (ys : List T)

inductive Obs (T : Type) where
  | unit | val (x : T) | seq (xs : List T) | int (n : Int) | bool (b : Bool) | error (e : Err)
deriving DecidableEq

section
set_option linter.unusedSectionVars false
variable {T : Type} [DecidableEq T]

/-- A call that is defined or raises; the list is unchanged when it raises. -/
def catchErr (l : L T) : R (Obs T × L T) → R (Obs T × L T)
  | .exc e => .ok (.error e, l)
  | r => r

/-- What a list returned by a method shows. -/
def shown (r : R (L T)) (l : L T) : R (Obs T × L T) := do return (.seq (← iter (← r)), l)

/-- The other operand, a list built from its elements. -/
def ofSeq (ys : List T) : R (L T) := do extend (← new) ys

/-- One call on the modelled list. -/
def step (l : L T) : Op T → R (Obs T × L T)
  | .append x => do return (.unit, ← append l x)
  | .extend ys => do return (.unit, ← extend l ys)
  | .insert i x => do return (.unit, ← insert l i x)
  | .pop i => catchErr l do let (l', x) ← pop l i; return (.val x, l')
  | .remove x => do let (l', b) ← remove l x; return (if b then .unit else .bool false, l')
  | .clear => .ok (.unit, clear l)
  | .reverse => do return (.unit, ← reverse l)
  | .setItem i x => catchErr l do return (.unit, ← setItem l i x)
  | .delItem i => catchErr l do return (.unit, ← delItem l i)
  | .setSlice s ys => do let o ← ofSeq ys; catchErr l do return (.unit, ← setSlice l s o)
  | .delSlice s => catchErr l do return (.unit, ← delSlice l s)
  | .iadd ys => do return (.unit, ← iadd l (← ofSeq ys))
  | .iaddSelf => do return (.unit, ← iaddSelf l)
  | .imul n => do return (.unit, ← imul l n)
  | .getItem i => catchErr l do return (.val (← getItem l i), l)
  | .getSlice s => catchErr l (shown (getSlice l s) l)
  | .index x => catchErr l do return (.int (← index l x), l)
  | .find x => do return (.int (← find l x), l)
  | .count x => do return (.int (← count l x), l)
  | .contains x => do return (.bool (← contains l x), l)
  | .add ys => do shown (add l (← ofSeq ys)) l
  | .mul n => shown (mul l n) l
  | .iter => do return (.seq (← iter l), l)
  | .reversed => do return (.seq (← reversed l), l)
  | .len => .ok (.int l.len, l)
  | .copy => shown (copy l) l
  | .eq ys => do return (.bool (← eq l (← ofSeq ys)), l)

/-- `xs` repeated `n` times (none if `n` is not positive). -/
def times (xs : List T) (n : Int) : List T := (List.replicate n.toNat xs).flatten

/-- Python's behaviour. -/
def Py (xs : List T) (op : Op T) (o : Obs T) (ys : List T) : Prop :=
  match op with
  | .append x => o = .unit ∧ ys = xs ++ [x]
  | .extend zs => o = .unit ∧ ys = xs ++ zs
  | .insert i x => o = .unit ∧ ys = xs.take (insPos xs.length i) ++ x :: xs.drop (insPos xs.length i)
  | .pop i =>
    match pos xs.length i with
    | some p => ∃ v, xs[p]? = some v ∧ o = .val v ∧ ys = xs.eraseIdx p
    | none => o = .error .indexError ∧ ys = xs
  | .remove x => if x ∈ xs then o = .unit ∧ ys = xs.erase x else o = .error .valueError ∧ ys = xs
  | .clear => o = .unit ∧ ys = []
  | .reverse => o = .unit ∧ ys = xs.reverse
  | .setItem i x =>
    match pos xs.length i with
    | some p => o = .unit ∧ ys = xs.set p x
    | none => o = .error .indexError ∧ ys = xs
  | .delItem i =>
    match pos xs.length i with
    | some p => o = .unit ∧ ys = xs.eraseIdx p
    | none => o = .error .indexError ∧ ys = xs
  | .setSlice s zs =>
    if s.step = some 0 then o = .error .valueError ∧ ys = xs
    else if s.step.getD 1 = 1 then o = .unit ∧ ys = assign xs s.start s.stop zs
    else if zs.length = (SliceSpec.positions xs.length s.start s.stop (s.step.getD 1)).length then
      o = .unit ∧ IsExtAssign xs s.start s.stop (s.step.getD 1) zs ys
    else o = .error .valueError ∧ ys = xs
  | .delSlice s =>
    if s.step = some 0 then o = .error .valueError ∧ ys = xs
    else o = .unit ∧ ys = Spec.delSlice xs s.start s.stop (s.step.getD 1)
  | .iadd zs => o = .unit ∧ ys = xs ++ zs
  | .iaddSelf => o = .unit ∧ ys = xs ++ xs
  | .imul n => o = .unit ∧ ys = times xs n
  | .getItem i =>
    (match pos xs.length i with
    | some p => ∃ v, xs[p]? = some v ∧ o = .val v
    | none => o = .error .indexError) ∧ ys = xs
  | .getSlice s =>
    (if s.step = some 0 then o = .error .valueError
    else o = .seq (slice xs s.start s.stop (s.step.getD 1))) ∧ ys = xs
  | .index x =>
    (if x ∈ xs then ∃ i : Nat, o = .int i ∧ xs[i]? = some x ∧ ∀ j < i, xs[j]? ≠ some x
    else o = .error .valueError) ∧ ys = xs
  | .find x =>
    (if x ∈ xs then ∃ i : Nat, o = .int i ∧ xs[i]? = some x ∧ ∀ j < i, xs[j]? ≠ some x
    else o = .int (-1)) ∧ ys = xs
  | .count x => o = .int (xs.count x) ∧ ys = xs
  | .contains x => o = .bool (decide (x ∈ xs)) ∧ ys = xs
  | .add zs => o = .seq (xs ++ zs) ∧ ys = xs
  | .mul n => o = .seq (times xs n) ∧ ys = xs
  | .iter => o = .seq xs ∧ ys = xs
  | .reversed => o = .seq xs.reverse ∧ ys = xs
  | .len => o = .int xs.length ∧ ys = xs
  | .copy => o = .seq xs ∧ ys = xs
  | .eq zs => o = .bool (decide (xs = zs)) ∧ ys = xs

theorem ofSeq_rel (ys : List T) : ∃ l, ofSeq ys = .ok l ∧ Rel l ys := by
  obtain ⟨l0, e1, e2⟩ := new_rel (T := T)
  obtain ⟨l1, f1, f2⟩ := extend_rel e2 ys
  exact ⟨l1, by unfold ofSeq; rw [e1]; exact f1, by simpa using f2⟩

theorem find_cases {xs : List T} {x : T} :
    (x ∉ xs ∧ xs.findIdx? (fun y => decide (y = x)) = none) ∨
    (x ∈ xs ∧ ∃ i : Nat, xs.findIdx? (fun y => decide (y = x)) = some i ∧ xs[i]? = some x ∧
      (∀ j < i, xs[j]? ≠ some x) ∧ xs.erase x = xs.eraseIdx i) := by
  cases h : xs.findIdx? (fun y => decide (y = x)) with
  | none =>
    left
    rw [List.findIdx?_eq_none_iff] at h
    exact ⟨fun hm => by simpa using h x hm, rfl⟩
  | some i =>
    right
    rw [List.findIdx?_eq_some_iff_getElem] at h
    obtain ⟨hi, h1, h2⟩ := h
    have h1' : xs[i] = x := by simpa using h1
    have h3 : xs[i]? = some x := by rw [List.getElem?_eq_getElem hi, h1']
    have h4 : ∀ j < i, xs[j]? ≠ some x := by
      intro j hj
      rw [List.getElem?_eq_getElem (by omega)]
      simpa using h2 j hj
    refine ⟨List.mem_of_getElem? h3, i, rfl, h3, h4, ?_⟩
    have hidx : xs.idxOf x = i := by
      have hlt : xs.idxOf x < xs.length := List.idxOf_lt_length_of_mem (List.mem_of_getElem? h3)
      have e1 : xs[xs.idxOf x]? = some x := by
        rw [List.getElem?_eq_getElem hlt]; simp
      rcases Nat.lt_trichotomy (xs.idxOf x) i with hl | hl | hl
      · exact absurd e1 (h4 _ hl)
      · exact hl
      · have := List.not_of_lt_findIdx (p := fun y => y == x) (i := i) hl
        simp [h1'] at this
    rw [List.erase_eq_eraseIdx_of_idxOf hidx]

theorem times_rel (xs : List T) (n : Int) (h : n ≤ 0) : times xs n = [] := by
  unfold times
  rw [show n.toNat = 0 by omega]; rfl

theorem getSlice_exc {l : L T} {xs : List T} (h : Rel l xs) (s : Sl) (h0 : s.step = some 0) :
    getSlice l s = .exc .valueError := by
  unfold getSlice
  rw [if_neg (by simp [Sl.isFull, h0]), if_neg (by simp [h0]), h.len, adjust_exc s _ h0]
  rfl

theorem delSlice_exc {l : L T} {xs : List T} (h : Rel l xs) (s : Sl) (h0 : s.step = some 0) :
    delSlice l s = .exc .valueError := by
  unfold delSlice
  rw [if_neg (by simp [Sl.isFull, h0]), h.len, adjust_exc s _ h0]
  rfl

theorem setSlice_exc {l o : L T} {xs : List T} (h : Rel l xs) (s : Sl) (h0 : s.step = some 0) :
    setSlice l s o = .exc .valueError := by
  unfold setSlice
  rw [if_neg (by simp [Sl.isFull, h0]), h.len, adjust_exc s _ h0]
  rfl

theorem setSlice_one {l o : L T} {xs ys : List T} (h : Rel l xs) (ho : Rel o ys) (s : Sl)
    (h1 : s.step.getD 1 = 1) :
    ∃ l', setSlice l s o = .ok l' ∧ Rel l' (assign xs s.start s.stop ys) := by
  have h0 : s.step ≠ some 0 := by intro hh; rw [hh] at h1; simp at h1
  obtain ⟨a, e1, e2⟩ := adjust_rel s xs.length h0
  obtain ⟨f0, f1, f2, f3, f4⟩ := Slice.adjust_fields e2
  rw [h1] at f0
  obtain ⟨p1, p2, p3, p4, p5, p6⟩ := positions_one e2 f0
  unfold setSlice
  by_cases hf : s.isFull = true
  · rw [if_pos hf, iter_rel ho]
    have hs : s.start = none ∧ s.stop = none ∧ s.step = none := by
      unfold Sl.isFull at hf
      simp only [Bool.and_eq_true, Option.isNone_iff_eq_none] at hf
      exact ⟨hf.1.1, hf.1.2, hf.2⟩
    obtain ⟨l', g1, g2⟩ := extend_rel (clear_rel h) ys
    refine ⟨l', g1, ?_⟩
    have : assign xs s.start s.stop ys = ys := by
      unfold assign
      simp only
      have q1 : SliceSpec.first xs.length s.start 1 = 0 := by rw [hs.1]; rfl
      have q2 : SliceSpec.last xs.length s.stop 1 = xs.length := by rw [hs.2.1]; rfl
      rw [q1, q2]
      simp
    rw [this]
    simpa using g2
  · rw [if_neg hf, h.len, e1]
    simp only [Out.bind_ok]
    rw [if_pos (Or.inr f0)]
    obtain ⟨ro, rfl⟩ := ho
    have := assignSlice_rel (ys := ys) h (ilow := a.start) (ihigh := a.stop) p2 p3 p5 ro
    rw [f0] at f2 f3
    unfold assign
    simp only
    rw [← f2, ← f3]
    exact this

theorem setSlice_ext {l o : L T} {xs ys : List T} (h : Rel l xs) (ho : Rel o ys) (s : Sl)
    (h0 : s.step ≠ some 0) (h1 : s.step.getD 1 ≠ 1) :
    if ys.length = (SliceSpec.positions xs.length s.start s.stop (s.step.getD 1)).length then
      ∃ l' zs, setSlice l s o = .ok l' ∧ Rel l' zs ∧
        IsExtAssign xs s.start s.stop (s.step.getD 1) ys zs
    else setSlice l s o = .exc .valueError := by
  obtain ⟨a, e1, e2⟩ := adjust_rel s xs.length h0
  obtain ⟨f0, f1, f2, f3, f4⟩ := Slice.adjust_fields e2
  have hp := Slice.adjust_positions e2
  have hns : s.step ≠ none := by intro hh; apply h1; rw [hh]; rfl
  have hal := (Slice.c24_adjust_selects_python_positions _ _ _ _ _ e2).2.1
  have hlp : (SliceSpec.positions xs.length s.start s.stop (s.step.getD 1)).length = a.length.toNat := by
    have := congrArg List.length hp
    simpa [Slice.prog, f0] using this
  have hset : setSlice l s o = if (ys.length : Int) ≠ a.length then .exc .valueError
      else setExtLoop l a.start a.step o 0 a.length.toNat := by
    unfold setSlice
    rw [if_neg (by simp [Sl.isFull, hns]), h.len, e1]
    simp only [Out.bind_ok]
    rw [if_neg (by
      rintro (q | q)
      · exact hns (Option.isNone_iff_eq_none.mp q)
      · exact h1 (f0 ▸ q)), ho.len]
  rw [hset, hlp]
  by_cases hl : ys.length = a.length.toNat
  · rw [if_pos hl, if_neg (by omega), ← f0]
    exact setExt_rel h ho e2 (by omega)
  · rw [if_neg hl, if_pos (by omega)]

/-- Every call of the modelled list is defined and behaves as Python, provided `remove` is called
with an element of the list. -/
theorem c23_step_agrees_with_python_partial {l : L T} {xs : List T} (h : Rel l xs) (op : Op T)
    (hrem : ∀ x, op = .remove x → x ∈ xs) :
    ∃ o l' ys, step l op = .ok (o, l') ∧ Py xs op o ys ∧ Rel l' ys := by
  cases op with
  | append x =>
    obtain ⟨l', e1, e2⟩ := append_rel h x
    exact ⟨_, l', _, by simp [step, e1], ⟨rfl, rfl⟩, e2⟩
  | extend zs =>
    obtain ⟨l', e1, e2⟩ := extend_rel h zs
    exact ⟨_, l', _, by simp [step, e1], ⟨rfl, rfl⟩, e2⟩
  | insert i x =>
    obtain ⟨l', e1, e2⟩ := insert_rel h i x
    exact ⟨_, l', _, by simp [step, e1], ⟨rfl, rfl⟩, e2⟩
  | pop i =>
    have := pop_rel h i
    cases hp : pos xs.length i with
    | some p =>
      rw [hp] at this
      obtain ⟨l', v, e1, e2, e3⟩ := this
      exact ⟨.val v, l', _, by simp [step, e1, catchErr], by simp only [Py, hp]; exact ⟨v, e2, rfl, trivial⟩, e3⟩
    | none =>
      rw [hp] at this
      exact ⟨.error .indexError, l, _, by simp [step, this, catchErr], by simp only [Py, hp]; exact ⟨trivial, trivial⟩, h⟩
  | remove x =>
    have hx := hrem x rfl
    rcases find_cases (xs := xs) (x := x) with ⟨hn, -⟩ | ⟨-, i, f1, f2, f3, f4⟩
    · exact absurd hx hn
    · have hfr := findFrom_rel h x
      rw [f1] at hfr
      have hil : i < xs.length := (List.getElem?_eq_some_iff.mp f2).1
      obtain ⟨r, rfl⟩ := h
      obtain ⟨l', e1, e2⟩ := delItem_nat (r := r) hil
      refine ⟨.unit, l', xs.erase x, ?_, by simp [Py, hx], f4 ▸ e2⟩
      simp only [step, remove]
      rw [hfr]
      simp [e1]
  | clear => exact ⟨_, _, _, rfl, ⟨rfl, rfl⟩, clear_rel h⟩
  | reverse =>
    obtain ⟨l', e1, e2⟩ := reverse_rel h
    exact ⟨_, l', _, by simp [step, e1], ⟨rfl, rfl⟩, e2⟩
  | setItem i x =>
    have := setItem_rel h i x
    cases hp : pos xs.length i with
    | some p =>
      rw [hp] at this
      obtain ⟨l', e1, e3⟩ := this
      exact ⟨.unit, l', _, by simp [step, e1, catchErr], by simp only [Py, hp]; exact ⟨trivial, trivial⟩, e3⟩
    | none =>
      rw [hp] at this
      exact ⟨.error .indexError, l, _, by simp [step, this, catchErr], by simp only [Py, hp]; exact ⟨trivial, trivial⟩, h⟩
  | delItem i =>
    have := delItem_rel h i
    cases hp : pos xs.length i with
    | some p =>
      rw [hp] at this
      obtain ⟨l', e1, e3⟩ := this
      exact ⟨.unit, l', _, by simp [step, e1, catchErr], by simp only [Py, hp]; exact ⟨trivial, trivial⟩, e3⟩
    | none =>
      rw [hp] at this
      exact ⟨.error .indexError, l, _, by simp [step, this, catchErr], by simp only [Py, hp]; exact ⟨trivial, trivial⟩, h⟩
  | setSlice s zs =>
    obtain ⟨o, o1, o2⟩ := ofSeq_rel zs
    by_cases h0 : s.step = some 0
    · exact ⟨.error .valueError, l, _, by simp [step, o1, setSlice_exc h s h0, catchErr],
        by simp only [Py, h0, if_true]; exact ⟨trivial, trivial⟩, h⟩
    · by_cases h1 : s.step.getD 1 = 1
      · obtain ⟨l', e1, e2⟩ := setSlice_one h o2 s h1
        exact ⟨.unit, l', _, by simp [step, o1, e1, catchErr],
          by simp only [Py, h0, h1, if_true, if_false]; exact ⟨trivial, trivial⟩, e2⟩
      · have := setSlice_ext h o2 s h0 h1
        split at this
        · rename_i hl
          obtain ⟨l', ys, e1, e2, e3⟩ := this
          exact ⟨.unit, l', ys, by simp [step, o1, e1, catchErr],
            by simp only [Py, h0, h1, hl, if_true, if_false]; exact ⟨trivial, e3⟩, e2⟩
        · rename_i hl
          exact ⟨.error .valueError, l, _, by simp [step, o1, this, catchErr],
            by simp only [Py, h0, h1, hl, if_false]; exact ⟨trivial, trivial⟩, h⟩
  | delSlice s =>
    by_cases h0 : s.step = some 0
    · exact ⟨.error .valueError, l, _, by simp [step, delSlice_exc h s h0, catchErr],
        by simp only [Py, h0, if_true]; exact ⟨trivial, trivial⟩, h⟩
    · obtain ⟨l', e1, e2⟩ := delSlice_rel h s h0
      exact ⟨.unit, l', _, by simp [step, e1, catchErr],
        by simp only [Py, h0, if_false]; exact ⟨trivial, trivial⟩, e2⟩
  | iadd zs =>
    obtain ⟨o, o1, o2⟩ := ofSeq_rel zs
    obtain ⟨l', e1, e2⟩ := iadd_rel h o2
    exact ⟨_, l', _, by simp [step, o1, e1], ⟨rfl, rfl⟩, e2⟩
  | iaddSelf =>
    obtain ⟨l', e1, e2⟩ := iaddSelf_rel h
    exact ⟨_, l', _, by simp [step, e1], ⟨rfl, rfl⟩, e2⟩
  | imul n =>
    obtain ⟨l', e1, e2⟩ := imul_rel h n
    exact ⟨_, l', _, by simp [step, e1], ⟨rfl, rfl⟩, e2⟩
  | getItem i =>
    have := getItem_rel h i
    cases hp : pos xs.length i with
    | some p =>
      rw [hp] at this
      have hlt := (pos_some hp).2
      simp only [List.getElem?_eq_getElem hlt] at this
      exact ⟨.val xs[p], l, xs, by simp [step, this, catchErr],
        by simp only [Py, hp]; exact ⟨⟨_, List.getElem?_eq_getElem hlt, rfl⟩, trivial⟩, h⟩
    | none =>
      rw [hp] at this
      exact ⟨.error .indexError, l, _, by simp [step, this, catchErr], by simp only [Py, hp]; exact ⟨trivial, trivial⟩, h⟩
  | getSlice s =>
    by_cases h0 : s.step = some 0
    · exact ⟨.error .valueError, l, _, by simp [step, getSlice_exc h s h0, catchErr, shown],
        by simp only [Py, h0, if_true]; exact ⟨trivial, trivial⟩, h⟩
    · obtain ⟨v, e1, e2⟩ := getSlice_rel h s h0
      exact ⟨.seq (slice xs s.start s.stop (s.step.getD 1)), l, _, by simp [step, e1, iter_rel e2, catchErr, shown],
        by simp only [Py, h0, if_false]; exact ⟨trivial, trivial⟩, h⟩
  | index x =>
    have hfr := findFrom_rel h x
    rcases find_cases (xs := xs) (x := x) with ⟨hn, f1⟩ | ⟨hx, i, f1, f2, f3, f4⟩
    · rw [f1] at hfr
      exact ⟨.error .valueError, l, xs, by simp [step, index, hfr, catchErr], by simp [Py, hn], h⟩
    · rw [f1] at hfr
      exact ⟨.int i, l, xs, by simp [step, index, hfr, catchErr],
        by simp only [Py, hx, if_true]; exact ⟨⟨i, rfl, f2, f3⟩, trivial⟩, h⟩
  | find x =>
    have hfr := findFrom_rel h x
    rcases find_cases (xs := xs) (x := x) with ⟨hn, f1⟩ | ⟨hx, i, f1, f2, f3, f4⟩
    · rw [f1] at hfr
      exact ⟨.int (-1), l, xs, by simp [step, find, hfr], by simp [Py, hn], h⟩
    · rw [f1] at hfr
      exact ⟨.int i, l, xs, by simp [step, find, hfr],
        by simp only [Py, hx, if_true]; exact ⟨⟨i, rfl, f2, f3⟩, trivial⟩, h⟩
  | count x => exact ⟨_, l, xs, by simp only [step, count_rel h x]; rfl, ⟨rfl, rfl⟩, h⟩
  | contains x =>
    have hfr := findFrom_rel h x
    rcases find_cases (xs := xs) (x := x) with ⟨hn, f1⟩ | ⟨hx, i, f1, -⟩
    · rw [f1] at hfr
      exact ⟨.bool false, l, xs, by simp [step, contains, hfr], by simp [Py, hn], h⟩
    · rw [f1] at hfr
      exact ⟨.bool true, l, xs, by simp [step, contains, hfr], by simp [Py, hx], h⟩
  | add zs =>
    obtain ⟨o, o1, o2⟩ := ofSeq_rel zs
    obtain ⟨v, e1, e2⟩ := add_rel h o2
    exact ⟨_, l, _, by simp [step, o1, e1, shown, iter_rel e2], ⟨rfl, rfl⟩, h⟩
  | mul n =>
    obtain ⟨v, e1, e2⟩ := mul_rel h n
    exact ⟨.seq (times xs n), l, _, by simp [step, e1, shown, iter_rel e2, times], ⟨rfl, rfl⟩, h⟩
  | iter => exact ⟨_, l, _, by simp [step, iter_rel h], ⟨rfl, rfl⟩, h⟩
  | reversed => exact ⟨_, l, _, by simp [step, reversed_rel h], ⟨rfl, rfl⟩, h⟩
  | len => exact ⟨_, l, _, rfl, by simp [Py, h.len], h⟩
  | copy => exact ⟨_, l, _, by simp [step, shown, copy_rel h, iter_rel h], ⟨rfl, rfl⟩, h⟩
  | eq zs =>
    obtain ⟨o, o1, o2⟩ := ofSeq_rel zs
    exact ⟨_, l, _, by simp [step, o1, eq_rel h o2], ⟨rfl, rfl⟩, h⟩

/-- A history of calls. -/
def run (l : L T) : List (Op T) → R (List (Obs T) × L T)
  | [] => .ok ([], l)
  | op :: ops => do
    let (o, l) ← step l op
    let (os, l) ← run l ops
    return (o :: os, l)

/-- Python's behaviour on a history. -/
inductive PyRun : List T → List (Op T) → List (Obs T) → List T → Prop where
  | nil (xs : List T) : PyRun xs [] [] xs
  | cons {xs ys zs : List T} {op : Op T} {ops : List (Op T)} {o : Obs T} {os : List (Obs T)} :
      Py xs op o ys → PyRun ys ops os zs → PyRun xs (op :: ops) (o :: os) zs

/-- Every history of calls on a list is defined and shows what Python shows, as long as `remove` is
only called with elements that are there. -/
theorem c23_history_agrees_with_python_partial {l : L T} {xs : List T} (h : Rel l xs) (ops : List (Op T))
    (hrem : ∀ pre x post, ops = pre ++ .remove x :: post → ∀ os ys, PyRun xs pre os ys → x ∈ ys) :
    ∃ os l' ys, run l ops = .ok (os, l') ∧ PyRun xs ops os ys ∧ Rel l' ys := by
  induction ops generalizing l xs with
  | nil => exact ⟨[], l, xs, rfl, .nil xs, h⟩
  | cons op ops ih =>
    obtain ⟨o, l1, ys, e1, e2, e3⟩ := c23_step_agrees_with_python_partial h op
      (fun x hx => hrem [] x ops (by rw [hx]; rfl) [] xs (.nil xs))
    obtain ⟨os, l2, zs, f1, f2, f3⟩ := ih e3 (fun pre x post hp os zs hz =>
      hrem (op :: pre) x post (by rw [hp]; rfl) (o :: os) zs (.cons e2 hz))
    exact ⟨o :: os, l2, zs, by simp [run, e1, f1], .cons e2 f2, f3⟩

/-- A history started on a fresh list. -/
theorem c23_fresh_list_history_partial (ops : List (Op T))
    (hrem : ∀ pre x post, ops = pre ++ .remove x :: post → ∀ os ys, PyRun [] pre os ys → x ∈ ys) :
    ∃ l os l' ys, new = .ok l ∧ run l ops = .ok (os, l') ∧ PyRun [] ops os ys ∧ iter l' = .ok ys := by
  obtain ⟨l, e1, e2⟩ := new_rel (T := T)
  obtain ⟨os, l', ys, f1, f2, f3⟩ := c23_history_agrees_with_python_partial e2 ops hrem
  exact ⟨l, os, l', ys, e1, f1, f2, iter_rel f3⟩

/-- Python's behaviour is a function: the observation is determined by the call. -/
theorem c23_python_observation_unique {xs : List T} {op : Op T} {o o' : Obs T} {ys ys' : List T}
    (h : Py xs op o ys) (h' : Py xs op o' ys') : o = o' ∧ ys = ys' := by
  have hfirst : ∀ {x : T} {i j : Nat}, xs[i]? = some x → (∀ k < i, xs[k]? ≠ some x) →
      xs[j]? = some x → (∀ k < j, xs[k]? ≠ some x) → i = j := by
    intro x i j h1 h2 h3 h4
    rcases Nat.lt_trichotomy i j with hl | hl | hl
    · exact absurd h1 (h4 i hl)
    · exact hl
    · exact absurd h3 (h2 j hl)
  cases op
  case pop i =>
    simp only [Py] at h h'
    cases hp : pos xs.length i with
    | some p =>
      rw [hp] at h h'
      obtain ⟨v, a1, a2, a3⟩ := h
      obtain ⟨w, b1, b2, b3⟩ := h'
      rw [a1] at b1; cases b1
      exact ⟨a2.trans b2.symm, a3.trans b3.symm⟩
    | none => rw [hp] at h h'; exact ⟨h.1.trans h'.1.symm, h.2.trans h'.2.symm⟩
  case getItem i =>
    simp only [Py] at h h'
    refine ⟨?_, h.2.trans h'.2.symm⟩
    cases hp : pos xs.length i with
    | some p =>
      rw [hp] at h h'
      obtain ⟨⟨v, a1, a2⟩, -⟩ := h
      obtain ⟨⟨w, b1, b2⟩, -⟩ := h'
      rw [a1] at b1; cases b1
      exact a2.trans b2.symm
    | none => rw [hp] at h h'; exact h.1.trans h'.1.symm
  case setSlice s zs =>
    simp only [Py] at h h'
    split at h
    · rename_i h0; rw [if_pos h0] at h'; exact ⟨h.1.trans h'.1.symm, h.2.trans h'.2.symm⟩
    · rename_i h0
      rw [if_neg h0] at h'
      split at h
      · rename_i h1; rw [if_pos h1] at h'; exact ⟨h.1.trans h'.1.symm, h.2.trans h'.2.symm⟩
      · rename_i h1
        rw [if_neg h1] at h'
        split at h
        · rename_i h2
          rw [if_pos h2] at h'
          refine ⟨h.1.trans h'.1.symm, ?_⟩
          obtain ⟨-, a1, a2, a3⟩ := h
          obtain ⟨-, b1, b2, b3⟩ := h'
          apply List.ext_getElem?
          intro p
          by_cases hs : SliceSpec.Selected xs.length s.start s.stop (s.step.getD 1) p
          · obtain ⟨i, hi, hp⟩ := List.getElem_of_mem (mem_positions.mpr hs)
            have : (SliceSpec.positions xs.length s.start s.stop (s.step.getD 1))[i]? = some p := by
              rw [List.getElem?_eq_getElem hi, hp]
            rw [a2 i p this, b2 i p this]
          · rw [a3 p hs, b3 p hs]
        · rename_i h2; rw [if_neg h2] at h'; exact ⟨h.1.trans h'.1.symm, h.2.trans h'.2.symm⟩
  case index x =>
    simp only [Py] at h h'
    refine ⟨?_, h.2.trans h'.2.symm⟩
    by_cases hx : x ∈ xs
    · rw [if_pos hx] at h h'
      obtain ⟨⟨i, a1, a2, a3⟩, -⟩ := h
      obtain ⟨⟨j, b1, b2, b3⟩, -⟩ := h'
      rw [a1, b1, hfirst a2 a3 b2 b3]
    · rw [if_neg hx] at h h'; exact h.1.trans h'.1.symm
  case find x =>
    simp only [Py] at h h'
    refine ⟨?_, h.2.trans h'.2.symm⟩
    by_cases hx : x ∈ xs
    · rw [if_pos hx] at h h'
      obtain ⟨⟨i, a1, a2, a3⟩, -⟩ := h
      obtain ⟨⟨j, b1, b2, b3⟩, -⟩ := h'
      rw [a1, b1, hfirst a2 a3 b2 b3]
    · rw [if_neg hx] at h h'; exact h.1.trans h'.1.symm
  case remove x =>
    simp only [Py] at h h'
    split at h
    · rename_i h0; rw [if_pos h0] at h'; exact ⟨h.1.trans h'.1.symm, h.2.trans h'.2.symm⟩
    · rename_i h0; rw [if_neg h0] at h'; exact ⟨h.1.trans h'.1.symm, h.2.trans h'.2.symm⟩
  case setItem i x =>
    simp only [Py] at h h'
    cases hp : pos xs.length i <;> rw [hp] at h h' <;>
      exact ⟨h.1.trans h'.1.symm, h.2.trans h'.2.symm⟩
  case delItem i =>
    simp only [Py] at h h'
    cases hp : pos xs.length i <;> rw [hp] at h h' <;>
      exact ⟨h.1.trans h'.1.symm, h.2.trans h'.2.symm⟩
  case delSlice s =>
    simp only [Py] at h h'
    split at h
    · rename_i h0; rw [if_pos h0] at h'; exact ⟨h.1.trans h'.1.symm, h.2.trans h'.2.symm⟩
    · rename_i h0; rw [if_neg h0] at h'; exact ⟨h.1.trans h'.1.symm, h.2.trans h'.2.symm⟩
  case getSlice s =>
    simp only [Py] at h h'
    refine ⟨?_, h.2.trans h'.2.symm⟩
    split at h
    · rename_i h0; rw [if_pos h0] at h'; exact h.1.trans h'.1.symm
    · rename_i h0; rw [if_neg h0] at h'; exact h.1.trans h'.1.symm
  all_goals
    simp only [Py] at h h'
    exact ⟨h.1.trans h'.1.symm, h.2.trans h'.2.symm⟩

/-- `l[s] = l` behaves as assigning an equal, separate list, except for the full slice. -/
theorem c23_assign_self_partial {l : L T} {xs : List T} (h : Rel l xs) (s : Sl) (hf : s.isFull = false) :
    setSliceSelf l s = setSlice l s l := by
  unfold setSliceSelf setSlice
  rw [if_neg (by simp [hf]), if_neg (by simp [hf]), copy_rel h]
  rfl

/-- Lexicographic order from `<` and `=` of the elements, as Python's list comparison. -/
def lexCmp (lt : T → T → Bool) : List T → List T → Int
  | [], [] => 0
  | [], _ :: _ => -1
  | _ :: _, [] => 1
  | x :: xs, y :: ys => if lt x y then -1 else if x = y then lexCmp lt xs ys else 1

theorem cmpLoop_eq (lt : T → T → Bool) (r r' : Block T) (n n' : Int) :
    ∀ (k : Nat) (b b' a a' : List T), a.length = a'.length → k = min b.length b'.length →
    ∃ o, cmpLoop lt ⟨(a ++ b).map some ++ r, n⟩ ⟨(a' ++ b').map some ++ r', n'⟩ a.length k = .ok o ∧
      lexCmp lt b b' = o.getD (if b.length < b'.length then -1 else if b.length = b'.length then 0 else 1) := by
  intro k
  induction k with
  | zero =>
    intro b b' a a' _ hk
    refine ⟨none, rfl, ?_⟩
    cases b <;> cases b' <;> simp_all [lexCmp]
  | succ k ih =>
    intro b b' a a' ha hk
    cases b with
    | nil => simp at hk
    | cons x b =>
      cases b' with
      | nil => simp at hk
      | cons y b' =>
        simp only [cmpLoop]
        rw [get_mid rfl, get_mid (by rw [ha])]
        simp only [Out.bind_ok, lexCmp]
        by_cases h1 : lt x y = true
        · simp only [h1, if_true]
          exact ⟨some (-1), rfl, rfl⟩
        · simp only [h1, if_false]
          by_cases h2 : x = y
          · simp only [h2, if_true]
            obtain ⟨o, e1, e2⟩ := ih b b' (a ++ [x]) (a' ++ [y]) (by simp [ha]) (by simp at hk; omega)
            refine ⟨o, ?_, ?_⟩
            · simpa [h2] using e1
            · rw [e2]; simp
          · simp only [h2, if_false]
            exact ⟨some 1, rfl, rfl⟩

/-- The four ordering comparisons are computed from `_cmp`, which is the lexicographic order. -/
theorem c23_comparison_is_lexicographic (lt : T → T → Bool)
    {l l' : L T} {xs ys : List T} (h : Rel l xs) (h' : Rel l' ys) :
    cmp lt l l' = .ok (lexCmp lt xs ys) := by
  obtain ⟨r, rfl⟩ := h
  obtain ⟨r', rfl⟩ := h'
  unfold cmp
  simp only
  have hm : (if (xs.length : Int) < (ys.length : Int) then (xs.length : Int) else ys.length).toNat
      = min xs.length ys.length := by
    split <;> omega
  rw [hm]
  obtain ⟨o, e1, e2⟩ := cmpLoop_eq lt r r' xs.length ys.length _ xs ys [] [] rfl rfl
  simp only [List.nil_append, List.length_nil] at e1
  rw [show (0 : Int) = ((0 : Nat) : Int) from rfl, e1]
  simp only [Out.bind_ok, e2]
  cases o with
  | some v => rfl
  | none =>
    simp only [Option.getD_none, Out.pure_eq]
    by_cases c1 : xs.length < ys.length
    · rw [if_pos (by omega), if_pos c1]
    · rw [if_neg (by omega), if_neg c1]
      by_cases c2 : xs.length = ys.length
      · rw [if_pos (by omega), if_pos c2]
        rfl
      · rw [if_neg (by omega), if_neg c2]

end

/-! ### Where the code differs from Python -/

/-- `a[:] = a` empties the list (Python keeps it). -/
theorem c23_violation_full_slice_self_assign :
    Rel ⟨[some 1, some 2], 2⟩ [1, 2] ∧
    (setSliceSelf (⟨[some 1, some 2], 2⟩ : L Nat) ⟨none, none, none⟩ = .ok ⟨[some 1, some 2], 0⟩) ∧
    assign [1, 2] none none [1, 2] = [1, 2] := by
  refine ⟨⟨[], rfl⟩, by decide, by decide⟩

/-- `[1, 2].remove(7)` shows `False` where Python raises `ValueError`. -/
theorem c23_violation_remove_missing :
    step (⟨[some 1, some 2], 2⟩ : L Nat) (.remove 7) = .ok (.bool false, ⟨[some 1, some 2], 2⟩) ∧
    Py [1, 2] (.remove 7) (.error .valueError) [1, 2] :=
  ⟨by decide, by simp [Py]⟩

/-! ### Cases -/

def sample : L Nat := ⟨[some 10, some 11, some 12, some 13, some 14, none], 5⟩

example : Rel sample [10, 11, 12, 13, 14] := ⟨[none], rfl⟩

example : Prod.fst <$> (run sample [.append 15, .append 16, .delSlice ⟨none, none, some (-3)⟩, .iter, .pop (-1), .len,
    .setSlice ⟨some 1, some 2, none⟩ [7, 8, 9], .iter, .setSlice ⟨none, none, some 2⟩ [1], .getItem 9,
    .remove 8, .insert (-100) 0, .getSlice ⟨some (-1), none, some (-2)⟩, 
    .index 9]) =
    .ok [.unit, .unit, .unit, .seq [11, 12, 14, 15], .val 15, .int 3,
      .unit, .seq [11, 7, 8, 9, 14], .error .valueError, .error .indexError, .unit, .unit,
      .seq [14, 7, 0], .int 3] := by
  decide +kernel

example : PyRun [1, 2] [.append 3, .remove 2] [.unit, .unit] [1, 3] :=
  .cons ⟨rfl, rfl⟩ (.cons (by simp [Py]) (.nil _))

example : cmp (fun a b : Nat => decide (a < b)) ⟨[some 1, some 2], 2⟩ ⟨[some 1, some 3, none], 2⟩ = .ok (-1) := by
  decide

end Codon.ListM
