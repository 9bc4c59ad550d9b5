import Verif.Bounds.Main
import Verif.Bounds.Witness
/-!
# C70: an access whose bounds check is removed is in range
-/
namespace Codon.Bounds

/-! ### The claim -/

/-- The index of an access whose check is removed is in range, for any execution that comes to it.

The full claim has no other hypotheses than `elides`, `Ok`, `hi` and `hn`.  It is false: see the violations below, one for
each of the other hypotheses. -/
theorem c70_in_range_partial {r : Run} {L : Loop} {ix : Index} {rd : RD} {defs : List Nat}
    (h : elides L ix rd = true) (ok : r.Ok L ix rd defs)
    -- the bounds are computed without overflow, and the counter does not overflow
    (hs : L.start.exact r.pre = some r.s) (he : L.stop.exact r.pre = some r.e)
    (hup : 0 < L.step → r.e + L.step ≤ 2 ^ 63) (hdown : L.step < 0 → -2 ^ 63 ≤ r.e + L.step + 1)
    -- `size` is only used of arrays with one axis
    (hsz : ∀ x ∈ ix.idx.sizes ++ (L.start.sizes ++ L.stop.sizes), ∀ ev ∈ r.trace L ix, ∀ d sh, ev = .write d x (.arr sh) →
      sh.length = 1)
    -- the index rises with the loop variable
    (hpos : 0 < ix.idx.varCoef (isLoopVar L rd))
    -- at the lowest index no length is subtracted; at the highest at most the length of the array itself is added, once
    (hlenUp : 0 < L.step → ∀ y, 0 ≤ ix.idx.lenCoef y + ix.idx.varCoef (isLoopVar L rd) * L.start.lenCoef y ∧
      ix.idx.lenCoef y + ix.idx.varCoef (isLoopVar L rd) * L.stop.lenCoef y ≤ if y = ix.arr then 1 else 0)
    (hlenDown : L.step < 0 → ∀ y, 0 ≤ ix.idx.lenCoef y + ix.idx.varCoef (isLoopVar L rd) * L.stop.lenCoef y ∧
      ix.idx.lenCoef y + ix.idx.varCoef (isLoopVar L rd) * L.start.lenCoef y ≤ if y = ix.arr then 1 else 0)
    -- copies of the loop variable are made in the same round
    (hal : ∀ q ∈ ix.idx.vars, isAliasOfLoopVar L rd q.1 q.2 = true → q.2 ≠ L.var → q.2 ∈ wrote r.m1)
    {i n : Int} (hi : ix.idx.eval (r.trace L ix) = some i) {d : RDef} (hn : last ix.arr (r.trace L ix) = some (d, .arr [n])) :
    0 ≤ i ∧ i < n :=
  in_range ok h hs he hup hdown hsz hpos hlenUp hlenDown hal hi hn

/-- The accesses with and without check do the same. -/
theorem c70_same_access_partial {r : Run} {L : Loop} {ix : Index} {rd : RD} {defs : List Nat}
    (h : elides L ix rd = true) (ok : r.Ok L ix rd defs)
    (hs : L.start.exact r.pre = some r.s) (he : L.stop.exact r.pre = some r.e)
    (hup : 0 < L.step → r.e + L.step ≤ 2 ^ 63) (hdown : L.step < 0 → -2 ^ 63 ≤ r.e + L.step + 1)
    (hsz : ∀ x ∈ ix.idx.sizes ++ (L.start.sizes ++ L.stop.sizes), ∀ ev ∈ r.trace L ix, ∀ d sh, ev = .write d x (.arr sh) →
      sh.length = 1)
    (hpos : 0 < ix.idx.varCoef (isLoopVar L rd))
    (hlenUp : 0 < L.step → ∀ y, 0 ≤ ix.idx.lenCoef y + ix.idx.varCoef (isLoopVar L rd) * L.start.lenCoef y ∧
      ix.idx.lenCoef y + ix.idx.varCoef (isLoopVar L rd) * L.stop.lenCoef y ≤ if y = ix.arr then 1 else 0)
    (hlenDown : L.step < 0 → ∀ y, 0 ≤ ix.idx.lenCoef y + ix.idx.varCoef (isLoopVar L rd) * L.stop.lenCoef y ∧
      ix.idx.lenCoef y + ix.idx.varCoef (isLoopVar L rd) * L.start.lenCoef y ≤ if y = ix.arr then 1 else 0)
    (hal : ∀ q ∈ ix.idx.vars, isAliasOfLoopVar L rd q.1 q.2 = true → q.2 ≠ L.var → q.2 ∈ wrote r.m1)
    {i n : Int} (hi : ix.idx.eval (r.trace L ix) = some i) {d : RDef} (hn : last ix.arr (r.trace L ix) = some (d, .arr [n]))
    (stride : Int) : checked n stride i = unchecked stride i := by
  have := c70_in_range_partial h ok hs he hup hdown hsz hpos hlenUp hlenDown hal hi hn
  unfold checked unchecked
  rw [if_neg (show ¬ i < 0 by omega), if_neg (show ¬ (i < 0 ∨ i ≥ n) by omega)]

/-! ### Executions

The variables: 0 is the loop variable, 1 the array, 2 another array, 3 another integer.  The assignments: 10 and 11 are
those the loop makes to its variable. -/

namespace Ex

def known : RDef := ⟨10, some (.known, 100), none⟩
def next : RDef := ⟨11, some (.add, 100), none⟩
/-- the assignment of the array -/
def dA : RDef := ⟨1, none, none⟩
/-- the assignment of the other array or integer -/
def dB : RDef := ⟨2, none, none⟩

/-- What the analysis says when the loop variable is only assigned by the loop and the others once, before it. -/
def rd : RD := fun x _ => if x = 0 then [known, next] else if x = 1 then [dA] else [dB]

/-- `for i in range(len(a)): a[i]` -/
def up : Loop := { id := 100, var := 0, start := .const 0, stop := .len 1 1, step := 1 }
def ixUp : Index := ⟨2, 1, .var 3 0⟩
/-- the second round, with an array of 5 elements -/
def runUp : Run :=
  { pre := [.write dA 1 (.arr [5])], m0 := [.write known 0 (.int 0), .read 2 1, .read 3 0], m1 := [],
    d := next, c := 1, s := 0, e := 5 }

theorem runUp_ok : runUp.Ok up ixUp rd [10, 11] where
  start := by decide
  stop := by decide
  counter := Counter.next (c := 0) (.first (by simp [goesOn, up, runUp])) (by simp [goesOn, up, runUp]; decide)
  own := by decide
  round := by simp [runUp]
  inside := by simp +contextual [runUp, Run.mid, known, next]
  entry := by decide
  assigned := by decide
  copies := by decide
  sound := by decide
  bounds := by decide
  values := by
    simp +contextual [runUp, Run.trace, Run.entry, Run.mid, E.reads, up, ixUp, Val.Ok, Fits]

-- the hypotheses of the theorem are met
example : elides up ixUp rd = true := by decide
example : 0 ≤ (1 : Int) ∧ (1 : Int) < 5 :=
  c70_in_range_partial (r := runUp) (L := up) (ix := ixUp) (rd := rd) (d := dA) (by decide) runUp_ok (by decide) (by decide)
    (by decide) (by decide) (by simp [ixUp, up, E.sizes]) (by decide)
    (by intro _ y; simp [ixUp, up, E.lenCoef, E.varCoef, isLoopVar]; grind) (by intro h; simp [up] at h)
    (by simp [ixUp, E.vars, isAliasOfLoopVar, rd]) (by decide) (by decide)

/-- `for i in range(len(a) - 1, -1, -1): j = i; a[j]` -/
def down : Loop := { id := 100, var := 0, start := .sub (.len 1 1) (.const 1), stop := .const (-1), step := -1 }
def ixDown : Index := ⟨2, 1, .var 3 3⟩
def copy : RDef := ⟨12, none, some (some 0)⟩
def rdDown : RD := fun x _ => if x = 0 then [known, next] else if x = 1 then [dA] else [copy]
def runDown : Run :=
  { pre := [.write dA 1 (.arr [2])],
    m0 := [.write known 0 (.int 1), .read 4 0, .write copy 3 (.int 1), .read 2 1, .read 3 3],
    m1 := [.read 4 0, .write copy 3 (.int 0)], d := next, c := 0, s := 1, e := -1 }

theorem runDown_ok : runDown.Ok down ixDown rdDown [10, 11, 12] where
  start := by decide
  stop := by decide
  counter := Counter.next (c := 1) (.first (by simp [goesOn, down, runDown])) (by simp [goesOn, down, runDown]; decide)
  own := by decide
  round := by simp [runDown, down]
  inside := by simp +contextual [runDown, Run.mid, known, next, copy]
  entry := by decide
  assigned := by decide
  copies := by decide
  sound := by decide
  bounds := by decide
  values := by
    simp +contextual [runDown, Run.trace, Run.entry, Run.mid, E.reads, down, ixDown, Val.Ok, Fits]

example : elides down ixDown rdDown = true := by decide
example : 0 ≤ (0 : Int) ∧ (0 : Int) < 2 :=
  c70_in_range_partial (r := runDown) (L := down) (ix := ixDown) (rd := rdDown) (d := dA) (by decide) runDown_ok (by decide)
    (by decide) (by decide) (by decide) (by simp [ixDown, down, E.sizes]) (by decide) (by intro h; simp [down] at h)
    (by
      intro _ y
      have : isAliasOfLoopVar down rdDown 3 3 = true := by decide
      simp [ixDown, down, E.lenCoef, E.varCoef, isLoopVar]
      grind)
    (by intro q hq _ _; simp [ixDown, E.vars] at hq; subst hq; decide) (by decide) (by decide)

/-- `for i in range(n, len(a) + n, 5): a[i - n]` -/
def far : Loop := { id := 100, var := 0, start := .var 1 3, stop := .add (.len 4 1) (.var 5 3), step := 5 }
def ixFar : Index := ⟨2, 1, .sub (.var 3 0) (.var 6 3)⟩
/-- the second round, with `n = 2 ^ 63 - 5` and four elements; there should be only one -/
def runFar : Run :=
  { pre := [.write dA 1 (.arr [4]), .write dB 3 (.int (2 ^ 63 - 5))],
    m0 := [.write known 0 (.int (2 ^ 63 - 5)), .read 2 1, .read 3 0, .read 6 3], m1 := [],
    d := next, c := -2 ^ 63, s := 2 ^ 63 - 5, e := 2 ^ 63 - 1 }

theorem runFar_ok : runFar.Ok far ixFar rd [10, 11] where
  start := by decide
  stop := by decide
  counter := Counter.next (c := 2 ^ 63 - 5) (.first (show goesOn 5 (2 ^ 63 - 1) (2 ^ 63 - 5) by simp [goesOn]))
    (show goesOn 5 (2 ^ 63 - 1) (wrap (2 ^ 63 - 5 + 5)) by simp [goesOn]; decide)
  own := by decide
  round := by simp [runFar]
  inside := by simp +contextual [runFar, Run.mid, known, next]
  entry := by decide
  assigned := by decide
  copies := by decide
  sound := by decide
  bounds := by decide
  values := by
    simp +contextual [runFar, Run.trace, Run.entry, Run.mid, E.reads, far, ixFar, Val.Ok, Fits]

end Ex

/-! ### Violations -/

/-- The length of another array bounds nothing, but the pass takes it so: `for i in range(len(b)): a[i]`, with `a` empty. -/
theorem c70_other_array_violation :
    Bad { id := 100, var := 0, start := .const 0, stop := .len 1 2, step := 1 } ⟨2, 1, .var 3 0⟩ Ex.rd [10, 11]
      { pre := [.write Ex.dA 1 (.arr [0]), .write Ex.dB 2 (.arr [3])], m0 := [], m1 := [], d := Ex.known, c := 0, s := 0, e := 3 } :=
  bad_of (i := 0) (n := 0) (d := Ex.dA) (by decide)

/-- An index without the loop variable may be equal to the length: `for i in range(0, 1): a[len(a)]`. -/
theorem c70_constant_index_violation :
    Bad { id := 100, var := 0, start := .const 0, stop := .const 1, step := 1 } ⟨2, 1, .len 3 1⟩ Ex.rd [10, 11]
      { pre := [.write Ex.dA 1 (.arr [4])], m0 := [], m1 := [], d := Ex.known, c := 0, s := 0, e := 1 } :=
  bad_of (i := 4) (n := 4) (d := Ex.dA) (by decide)

/-- The same with `a[0]` and an empty array. -/
theorem c70_empty_array_violation :
    Bad { id := 100, var := 0, start := .const 0, stop := .const 1, step := 1 } ⟨2, 1, .const 0⟩ Ex.rd [10, 11]
      { pre := [.write Ex.dA 1 (.arr [0])], m0 := [], m1 := [], d := Ex.known, c := 0, s := 0, e := 1 } :=
  bad_of (i := 0) (n := 0) (d := Ex.dA) (by decide)

/-- When the index falls while the loop variable rises the ends are confused: `for i in range(0, 6): a[5 - i]`, with three
elements. -/
theorem c70_falling_index_violation :
    Bad { id := 100, var := 0, start := .const 0, stop := .const 6, step := 1 } ⟨2, 1, .sub (.const 5) (.var 3 0)⟩ Ex.rd [10, 11]
      { pre := [.write Ex.dA 1 (.arr [3])], m0 := [], m1 := [], d := Ex.known, c := 0, s := 0, e := 6 } :=
  bad_of (i := 5) (n := 3) (d := Ex.dA) (by decide)

/-- With a negative step the index `-1` is accepted, but it does not get the last element then:
`for i in range(3, 0, -1): a[-1]`. -/
theorem c70_last_element_violation :
    Bad { id := 100, var := 0, start := .const 3, stop := .const 0, step := -1 } ⟨2, 1, .const (-1)⟩ Ex.rd [10, 11]
      { pre := [.write Ex.dA 1 (.arr [4])], m0 := [], m1 := [], d := Ex.known, c := 3, s := 3, e := 0 } ∧
    checked 4 8 (-1) = .at 24 ∧ unchecked 8 (-1) = .at (-8) :=
  ⟨bad_of (i := -1) (n := 4) (d := Ex.dA) (by decide), by decide, by decide⟩

/-- Twice the length is taken to be at most the length: `for i in range(len(a), len(a) + len(a)): a[i]`. -/
theorem c70_double_length_violation :
    Bad { id := 100, var := 0, start := .len 4 1, stop := .add (.len 1 1) (.len 5 1), step := 1 } ⟨2, 1, .var 3 0⟩ Ex.rd [10, 11]
      { pre := [.write Ex.dA 1 (.arr [3])], m0 := [], m1 := [], d := Ex.known, c := 3, s := 3, e := 6 } :=
  bad_of (i := 3) (n := 3) (d := Ex.dA) (by decide)

/-- Overflow of the bounds: `for i in range(n + 5, n): a[i - n - 5]`, with `n` near the greatest integer and `a` empty. -/
theorem c70_overflow_violation :
    Bad { id := 100, var := 0, start := .add (.var 1 3) (.const 5), stop := .var 4 3, step := 1 }
      ⟨2, 1, .sub (.sub (.var 3 0) (.var 5 3)) (.const 5)⟩ Ex.rd [10, 11]
      { pre := [.write Ex.dA 1 (.arr [0]), .write Ex.dB 3 (.int (2 ^ 63 - 3))], m0 := [], m1 := [], d := Ex.known,
        c := -2 ^ 63 + 2, s := -2 ^ 63 + 2, e := 2 ^ 63 - 3 } :=
  bad_of (i := 0) (n := 0) (d := Ex.dA) (by decide)

/-- Overflow of the counter: `for i in range(n, len(a) + n, 5): a[i - n]`, with `n` near the greatest integer. -/
theorem c70_counter_overflow_violation : Bad Ex.far Ex.ixFar Ex.rd [10, 11] Ex.runFar :=
  ⟨by decide, Ex.runFar_ok, 5, 4, Ex.dA, by decide, by decide, by decide⟩

/-- The size of an array with two axes is taken to be its length: `for i in range(b.size - len(b)): a[i]`, with `a` empty. -/
theorem c70_size_violation :
    Bad { id := 100, var := 0, start := .const 0, stop := .sub (.size 1 2) (.len 4 2), step := 1 } ⟨2, 1, .var 3 0⟩ Ex.rd [10, 11]
      { pre := [.write Ex.dA 1 (.arr [0]), .write Ex.dB 2 (.arr [2, 3])], m0 := [], m1 := [], d := Ex.known,
        c := 0, s := 0, e := 4 } :=
  bad_of (i := 0) (n := 0) (d := Ex.dA) (by decide)

/-- A copy of the loop variable may be left from an earlier run of the loop:
```
for m in (5, 2):
    a = zeros(m)
    for i in range(len(a)):
        if m == 5: j = i
        a[j]
``` -/
theorem c70_stale_copy_violation :
    Bad { id := 100, var := 0, start := .const 0, stop := .len 1 1, step := 1 } ⟨2, 1, .var 3 3⟩ Ex.rdDown [10, 11, 12]
      { pre := [.write Ex.dA 1 (.arr [5]), .read 1 1, .write Ex.known 0 (.int 0), .read 4 0, .write Ex.copy 3 (.int 0),
          .write Ex.next 0 (.int 1), .read 4 0, .write Ex.copy 3 (.int 1), .write Ex.next 0 (.int 2), .read 4 0,
          .write Ex.copy 3 (.int 2), .write Ex.next 0 (.int 3), .read 4 0, .write Ex.copy 3 (.int 3),
          .write Ex.next 0 (.int 4), .read 4 0, .write Ex.copy 3 (.int 4), .write Ex.dA 1 (.arr [2])],
        m0 := [], m1 := [], d := Ex.known, c := 0, s := 0, e := 2 } :=
  bad_of (i := 4) (n := 2) (d := Ex.dA) (by decide)

end Codon.Bounds
