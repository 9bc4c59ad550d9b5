import Verif.NpFuse.Plain
/-!
# C71: optimised array expressions

`Right h M r` says: if the expression has a meaning, `r` is a new array of that shape with those elements and all that existed is unchanged; if it has none (shapes that do not
broadcast), `r` is `ValueError`.  `M` is the expression with leaves replaced by what they stand for; `Means` gives the meaning.

The theorems hold for every choice of nodes to fuse (`ch`), for expressions whose leaves have no effects and are numbers or arrays with at least one element, and without vectorised
functions of two operands.  They fail otherwise: leaves are evaluated before all operations (`c71_violation_order`), arrays without elements are broadcast to one element that is not
set (`c71_violation_empty`), and vectorised functions read an operand with one element beyond its end (`c71_violation_vectorized`).
-/
namespace Codon.NpFuse
open Codon.Numpy
variable {V : Type}

/-- What the optimised expression does. -/
theorem c71_optimised_partial (L : Nat) (junk : Int → V) (ch : Tree V (Leaf V) → Choice) (t : Tree V (Act V)) (h : Heap V) (μ : Act V → Sem V) (τ : Ty)
    (hp : ∀ a ∈ t.leaves, a.Pure h (μ a)) (ht : t.tyOf Act.ty = some τ) (hz : t.Sized) (hv : t.NoVec2) (hn : ∀ x, t ≠ .leaf x) :
    Right h (t.map μ) (optimised L junk ch t h) := by
  unfold optimised
  split
  · exact plain_right L junk t h μ τ hp ht hz hv hn
  · exact evaluated_right L junk ch t h μ τ hp ht hz hv hn

/-- The pass changes nothing that can be observed: the result is an array of the same shape with the same elements, or both raise `ValueError`. -/
theorem c71_same_partial (L : Nat) (junk : Int → V) (ch : Tree V (Leaf V) → Choice) (t : Tree V (Act V)) (h : Heap V) (μ : Act V → Sem V) (τ : Ty)
    (hp : ∀ a ∈ t.leaves, a.Pure h (μ a)) (ht : t.tyOf Act.ty = some τ) (hz : t.Sized) (hv : t.NoVec2) (hn : ∀ x, t ≠ .leaf x) :
    (∃ m h1 v1 h2 v2, plain L junk t h = some (.ok (h1, v1)) ∧ optimised L junk ch t h = some (.ok (h2, v2)) ∧ Gives h m h1 v1 ∧ Gives h m h2 v2) ∨
    (plain L junk t h = some (.error .value) ∧ optimised L junk ch t h = some (.error .value)) := by
  rcases plain_right L junk t h μ τ hp ht hz hv hn with ⟨m, h1, v1, a1, a2, a3⟩ | ⟨a1, a2⟩
  · rcases c71_optimised_partial L junk ch t h μ τ hp ht hz hv hn with ⟨m', h2, v2, b1, b2, b3⟩ | ⟨b1, b2⟩
    · have := means_unique a1 _ b1
      subst this
      exact Or.inl ⟨m', h1, v1, h2, v2, a2, b2, a3, b3⟩
    · exact absurd a1 (b1 m)
  · rcases c71_optimised_partial L junk ch t h μ τ hp ht hz hv hn with ⟨m', h2, v2, b1, b2, b3⟩ | ⟨b1, b2⟩
    · exact absurd b1 (a1 m')
    · exact Or.inr ⟨a2, b2⟩

/-- The loop of the pass ends: after as many rounds as there are nodes nothing is changed any more. -/
theorem c71_ends (L : Nat) (junk : Int → V) (ch : Tree V (Leaf V) → Choice) (t : Tree V (Leaf V)) (h : Heap V) (n : Nat) : rounds L junk ch (t.nodes + n) t h = rounds L junk ch t.nodes t h := by
  induction n with
  | zero => rfl
  | succ n ih => rw [← Nat.add_assoc, rounds_enough L junk ch _ t h (by omega), ih]

/-! ### Examples and violations -/

/-- A variable that holds an array. -/
def var (n : Nat) (a : Arr) (dt : DT) : Act V := ⟨fun h => some (.ok (h, .arr a dt)), .arr dt a.shape.length, some n⟩

/-- A number. -/
def lit (v : V) : Act V := ⟨fun h => some (.ok (h, .num v)), .num, none⟩

/-- Variables that hold arrays with elements have no effects. -/
theorem var_pure (h : Heap V) (n : Nat) (a : Arr) (dt : DT) (ha : (Val.arr a dt : Val V).Ok h) : (var n a dt).Pure h ((Val.arr a dt).sem h) := fun h1 hg =>
  ⟨h1, .arr a dt, rfl, Grows.refl h1, ok_same ha (same_grows ha hg), rfl, sem_same (same_grows ha hg)⟩

theorem lit_pure (h : Heap V) (v : V) : (lit v).Pure h (.num v) := fun h1 _ => ⟨h1, .num v, rfl, Grows.refl h1, trivial, rfl, rfl⟩

def i64 : DT := ⟨0, 8⟩
def i32 : DT := ⟨1, 4⟩

/-- Arrays in blocks of `rampHeap`. -/
def colArr : Arr := ⟨[2, 1], [16, 8], 0, 0⟩
def rowArr : Arr := ⟨[3], [8], 1, 0⟩

theorem col_ok : (Val.arr colArr i64 : Val Int).Ok rampHeap := by
  refine ⟨⟨rfl, by decide, fun c hc => ?_, by decide⟩, by decide, by decide⟩
  match c, hc with
  | [i, j], hc =>
    obtain ⟨h1, h2, _⟩ : (0 ≤ i ∧ i < 2) ∧ (0 ≤ j ∧ j < 1) ∧ _ := hc
    refine ⟨_, if_pos ?_⟩
    simp only [colArr, ptrOff]; omega

theorem row_ok : (Val.arr rowArr i64 : Val Int).Ok rampHeap := by
  refine ⟨⟨rfl, by decide, fun c hc => ?_, by decide⟩, by decide, by decide⟩
  match c, hc with
  | [i], hc =>
    obtain ⟨h1, _⟩ : (0 ≤ i ∧ i < 3) ∧ _ := hc
    refine ⟨_, if_pos ?_⟩
    simp only [rowArr, ptrOff]; omega

/-- `(x * 2 + y) - y` with `x` of shape (2, 1) and `y` of shape (3,); the last operation has another element type. -/
def exprEx (c : Int) : Tree Int (Act Int) :=
  .bin (· - ·) i32 .oper c (.bin (· + ·) i64 .oper c (.bin (· * ·) i64 .oper c (.leaf (var 0 colArr i64)) (.leaf (lit 2))) (.leaf (var 1 rowArr i64))) (.leaf (var 1 rowArr i64))

/-- What a leaf of the example stands for. -/
def exMeaning (a : Act Int) : Sem Int := if a.name = some 0 then (Val.arr colArr i64).sem rampHeap else if a.name = some 1 then (Val.arr rowArr i64).sem rampHeap else .num 2

/-- The hypotheses hold for the example. -/
example (c : Int) : (∀ a ∈ (exprEx c).leaves, a.Pure rampHeap (exMeaning a)) ∧ (exprEx c).tyOf Act.ty = some (.arr i32 2) ∧ (exprEx c).Sized ∧ (exprEx c).NoVec2 ∧ ∀ x, exprEx c ≠ .leaf x := by
  refine ⟨fun a ha => ?_, rfl, ⟨by decide, ⟨by decide, ⟨by decide, trivial, trivial⟩, trivial⟩, trivial⟩, ⟨by decide, ⟨by decide, ⟨by decide, trivial, trivial⟩, trivial⟩, trivial⟩, fun x hx => by cases hx⟩
  simp only [exprEx, Tree.leaves, List.cons_append, List.nil_append, List.mem_cons, List.not_mem_nil, or_false] at ha
  rcases ha with rfl | rfl | rfl | rfl
  · exact var_pure _ _ _ _ col_ok
  · exact lit_pure _ _
  · exact var_pure _ _ _ _ row_ok
  · exact var_pure _ _ _ _ row_ok

/-- Shape and elements of a result, at the places given. -/
def look (r : Out (Heap Int × Val Int)) (cs : List (List Int)) : Option (List Int × List (Option Int)) :=
  match r with
  | some (.ok (h, .arr a _)) => some (a.shape, cs.map (a.read h))
  | _ => none

/-- The example is fused (cost 3), and evaluated step by step (cost 180). -/
example : look (optimised 4 (fun _ => 77) (choose 10 50) (exprEx 1) rampHeap) [[0, 0], [0, 2], [1, 1]] = some ([2, 3], [some 0, some 0, some 32]) := by decide +kernel
example : look (optimised 4 (fun _ => 77) (choose 10 50) (exprEx 60) rampHeap) [[0, 0], [0, 2], [1, 1]] = some ([2, 3], [some 0, some 0, some 32]) := by decide +kernel
/-- Partly fused: the inner part has a cost of 40 and broadcasting is certain to occur in it only at run time. -/
example : look (optimised 4 (fun _ => 77) (choose 10 50) (exprEx 20) rampHeap) [[0, 0], [0, 2], [1, 1]] = some ([2, 3], [some 0, some 0, some 32]) := by decide +kernel

/-- Shapes that do not broadcast. -/
def badEx : Tree Int (Act Int) :=
  .bin (· + ·) i64 .oper 1 (.bin (· + ·) i64 .oper 1 (.leaf (var 0 ⟨[2], [8], 0, 0⟩ i64)) (.leaf (lit 2))) (.leaf (var 1 rowArr i64))

example : optimised 4 (fun _ => 77) (choose 10 50) badEx rampHeap = some (.error .value) := rfl

/-- A call that stores 100 in the first element of block 0 and returns 1. -/
def setFirst : Act Int := ⟨fun h => some (.ok (⟨fun b o => if b = 0 ∧ o = 0 then some 100 else h.get b o, h.next⟩, .num 1)), .num, none⟩

/-- `x * 2 + f()`. -/
def orderEx : Tree Int (Act Int) :=
  .bin (· + ·) i64 .oper 1 (.bin (· * ·) i64 .oper 1 (.leaf (var 0 ⟨[2], [8], 0, 0⟩ i64)) (.leaf (lit 2))) (.leaf setFirst)

/-- `x * 2 + f()` where `f` changes `x`: the call comes before the product. -/
theorem c71_violation_order :
    look (plain 4 (fun _ => 77) orderEx rampHeap) [[0], [1]] = some ([2], [some 1, some 17]) ∧
    look (optimised 4 (fun _ => 77) (choose 10 50) orderEx rampHeap) [[0], [1]] = some ([2], [some 201, some 17]) := by decide +kernel

/-- `(x + y) + x` with shapes (1,) and (0,), each operation of cost 30. -/
def emptyEx : Tree Int (Act Int) :=
  .bin (· + ·) i64 .oper 30 (.bin (· + ·) i64 .oper 30 (.leaf (var 0 ⟨[1], [8], 0, 0⟩ i64)) (.leaf (var 1 ⟨[0], [8], 1, 0⟩ i64))) (.leaf (var 0 ⟨[1], [8], 0, 0⟩ i64))

/-- The expression is an array without elements; evaluated step by step it has one, which is made from what was in the memory. -/
theorem c71_violation_empty :
    (look (plain 4 (fun _ => 77) emptyEx rampHeap) []).map (·.1) = some [0] ∧
    look (optimised 4 (fun _ => 77) (choose 10 50) emptyEx rampHeap) [[0]] = some ([1], [some 77]) := by decide +kernel

/-- `arctan2(x, y) + y * 2` with shapes (1,) and (3,). -/
def vecEx : Tree Int (Act Int) :=
  .bin (· + ·) i64 .oper 30 (.bin (· + ·) i64 .vloop 30 (.leaf (var 0 ⟨[1], [8], 0, 24⟩ i64)) (.leaf (var 1 rowArr i64))) (.bin (· * ·) i64 .oper 1 (.leaf (var 1 rowArr i64)) (.leaf (lit 2)))

/-- The vectorised function reads the operand with one element beyond its end. -/
theorem c71_violation_vectorized : Broadcasts [[1], [3]] [3] ∧ (optimised 4 (fun _ => 77) (choose 10 50) vecEx rampHeap).isNone = true :=
  ⟨aligned_fits [1] [3] ⟨by simp, by simp⟩, by decide +kernel⟩

end Codon.NpFuse
