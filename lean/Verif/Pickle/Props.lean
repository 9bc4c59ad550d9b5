import Verif.Pickle.Sets
import Verif.Pickle.NdLemmas
/-!
# C72: what is pickled can be unpickled

`Works P ok R` says, for every value with `ok`, every file and every position: `pickle` appends some bytes, or raises `IOError` if there is no room for them; `unpickle` reads exactly these bytes and gives a value
that is equal in the sense of `R`; from a file that ends before, it raises `IOError`.
-/
namespace Codon.Pickle
open Codon.KHash
variable (pad : Nat → Nat)

/-- Integers of any width, floats, `bool` and `byte`. -/
theorem c72_number (n w : Nat) (h : n ≤ 8 * w) (hw : 0 < w) : Works (pCell pad n w) (fun _ => True) (fun x y => y = x) := cell_works pad n w h hw

example : Works (pInt pad) (fun _ => True) (fun x y => y = x) := c72_number pad 64 8 (by decide) (by decide)
-- `Int[12]` in two bytes; the upper bits of the second are whatever they are
example : (pCell (fun _ => 9) 12 2).pickle (-1) ⟨[], 10⟩ = some (.ok ⟨[0xff, 0x9f], 8⟩) ∧ (pCell (fun _ => 9) 12 2).unpickle [0xff, 0x9f] = some (.ok (-1, [])) := by decide +kernel

/-- Strings, with any bytes. -/
theorem c72_str : Works (pStr pad) (fun x => x.length < 2 ^ 63) (fun x y => y = x) := str_works pad

example : (pStr fun _ => 0).pickle [104, 0, 105] ⟨[], 20⟩ = some (.ok ⟨[3, 0, 0, 0, 0, 0, 0, 0, 104, 0, 105], 9⟩) := by decide +kernel
example : (pStr fun _ => 0).pickle [104, 0, 105] ⟨[], 10⟩ = some (.error .io) := by decide +kernel
example : (pStr pad).unpickle [3, 0, 0, 0, 0, 0, 0, 0, 104, 0, 105, 7] = some (.ok ([104, 0, 105], [7])) := rfl

/-- Lists, if their elements can be pickled: element by element, or as memory. -/
theorem c72_list {α : Type} {P : Pick α} {ok : α → Prop} {R : α → α → Prop} (hP : Works P ok R) : Works (pList pad P) (listOk ok) (List.Forall₂ R) := list_works pad hP

example : Works (pList pad (pList pad (pStr pad))) (listOk (listOk fun x => x.length < 2 ^ 63)) (List.Forall₂ (List.Forall₂ fun x y => y = x)) := c72_list pad (c72_list pad (c72_str pad))
example : listOk (fun _ : BitVec 64 => True) [1, 2, 3] := ⟨by decide, fun _ _ => trivial⟩

/-- Tuples: from the last field on, with the layout of the fields in memory. -/
theorem c72_tuple {α β : Type} {P : Pick α} {F : Flds β} {ok : α → Prop} {R : α → α → Prop} {ok' : β → Prop} {R' : β → β → Prop} (hP : Works P ok R) (hF : FWorks F ok' R') :
    FWorks (fCons P F) (fun x => ok x.1 ∧ ok' x.2) (fun x y => R x.1 y.1 ∧ R' x.2 y.2) ∧ Works (pTuple F) ok' R' ∧ Works (pClass F) ok' R' :=
  ⟨fCons_works hP hF, tuple_works hF, class_works hF⟩

/-- `Tuple[byte, int]`: 16 bytes in memory, 7 of them padding, but 9 in a file. -/
abbrev pByteInt : Pick (BitVec 8 × BitVec 64 × Unit) := pTuple (fCons (pCell pad 8 1) (fCons (pInt pad) fNil))

theorem byteInt_works : Works (pByteInt pad) (fun _ => True ∧ True ∧ True) (fun x y => y.1 = x.1 ∧ y.2.1 = x.2.1 ∧ True) :=
  tuple_works (fCons_works (cell_works pad 8 1 (by decide) (by decide)) (fCons_works (cell_works pad 64 8 (by decide) (by decide)) fNil_works))

example : (pByteInt pad).image.map Img.size = some 16 := rfl
example : (pByteInt fun _ => 0).pickle (1, 2, ()) ⟨[], 100⟩ = some (.ok ⟨[1, 2, 0, 0, 0, 0, 0, 0, 0], 91⟩) := by decide +kernel
-- a list of them is written as memory
example : (pList (fun _ => 0xeeeeeeeeeeeeee) (pByteInt fun _ => 0)).pickle [(1, 2, ())] ⟨[], 100⟩ =
    some (.ok ⟨[1, 0, 0, 0, 0, 0, 0, 0, 1, 0x77, 0x77, 0x77, 0x77, 0x77, 0x77, 0x77, 2, 0, 0, 0, 0, 0, 0, 0], 76⟩) := by decide +kernel

/-- Dictionaries, item by item or as memory: the new one has the same keys, and equal values for them. -/
theorem c72_dict {K V : Type} [DecidableEq K] (h : K → BitVec 64) {P : Pick K} {Q : Pick V} {okK : K → Prop} {okV : V → Prop} {R : V → V → Prop} (hP : Works P okK (fun x y => y = x))
    (hQ : Works Q okV R) : Works (pDict pad h P Q) (DictOk h okK okV) (DictEq h R) := dict_works pad hP hQ

-- `Dict[str, List[int]]`
example (h : List Byte → BitVec 64) : Works (pDict pad h (pStr pad) (pList pad (pInt pad))) (DictOk h (fun x => x.length < 2 ^ 63) (listOk fun _ => True)) (DictEq h (List.Forall₂ fun x y => y = x)) :=
  c72_dict pad h (c72_str pad) (c72_list pad (c72_number pad 64 8 (by decide) (by decide)))
-- every dictionary that arises from another by storing can be pickled again
example {K V : Type} [DecidableEq K] (h : K → BitVec 64) (k : K) (v : V) : ∃ t, setitem h Tbl.empty k v = some t ∧ DictOk h (fun _ => True) (fun _ => True) t := by
  obtain ⟨t, h1, h2, h3⟩ := setitem_rel (h := h) (V := V) rel_empty (by simp [Tbl.empty]) k v
  exact ⟨t, h1, _, h2, Nat.le_trans h3 (by simp [Tbl.empty]), by simp [Spec.store, Spec.erase], fun _ _ => ⟨trivial, trivial⟩⟩

/-- Sets: the new one has the same elements. -/
theorem c72_set {K : Type} [DecidableEq K] (h : K → BitVec 64) {P : Pick K} {ok : K → Prop} (hP : Works P ok (fun x y => y = x)) : Works (pSet pad h P) (SetOk h ok) (SetEq h) := set_works pad hP

example (h : BitVec 64 → BitVec 64) : Works (pSet pad h (pInt pad)) (SetOk h fun _ => True) (SetEq h) := c72_set pad h (c72_number pad 64 8 (by decide) (by decide))
example (h : BitVec 64 → BitVec 64) : SetOk h (fun _ : BitVec 64 => True) Tbl.empty := ⟨[], SetM.relS_empty, by decide, by decide, fun _ _ => trivial⟩

/-- For the user: a value is dumped into an empty file and loaded again, and nothing is left. -/
theorem c72_dump_load {α : Type} {P : Pick α} {ok : α → Prop} {R : α → α → Prop} (hP : Works P ok R) (x : α) (hx : ok x) (room : Nat) :
    P.pickle x ⟨[], room⟩ = some (.error .io) ∨
      ∃ j y, P.pickle x ⟨[], room⟩ = some (.ok j) ∧ P.unpickle j.data = some (.ok (y, [])) ∧ R x y ∧ ∀ n < j.data.length, P.unpickle (j.data.take n) = some (.error .io) := by
  obtain ⟨bs, hw, hr⟩ := hP.trip x hx 0
  have h := hw ⟨[], room⟩ rfl
  by_cases hb : bs.length ≤ room
  · rw [if_pos hb] at h
    obtain ⟨y, h1, h2⟩ := hr.1 []
    rw [List.append_nil] at h1
    exact Or.inr ⟨_, y, h, h1, h2, hr.2⟩
  · rw [if_neg hb] at h
    exact Or.inl h

example : (pStr fun _ => 0).pickle [] ⟨[], 8⟩ = some (.ok ⟨[0, 0, 0, 0, 0, 0, 0, 0], 0⟩) := by decide +kernel

/-- And several values one after the other, of any types. -/
theorem c72_two {α β : Type} {P : Pick α} {Q : Pick β} {ok : α → Prop} {R : α → α → Prop} {ok' : β → Prop} {R' : β → β → Prop} (hP : Works P ok R) (hQ : Works Q ok' R') (x : α) (y : β) (hx : ok x)
    (hy : ok' y) (j j' j'' : Jar) (h1 : P.pickle x j = some (.ok j')) (h2 : Q.pickle y j' = some (.ok j'')) :
    ∃ bs, j''.data = j.data ++ bs ∧ ∀ rest, ∃ x' y' s, P.unpickle (bs ++ rest) = some (.ok (x', s)) ∧ Q.unpickle s = some (.ok (y', rest)) ∧ R x x' ∧ R' y y' := by
  obtain ⟨a, aw, ar⟩ := hP.trip x hx j.data.length
  have e1 := aw j rfl
  rw [h1] at e1
  split at e1 <;> cases e1
  obtain ⟨b, bw, br⟩ := hQ.trip y hy (j.data ++ a).length
  have e2 := bw ⟨j.data ++ a, j.room - a.length⟩ rfl
  rw [h2] at e2
  split at e2 <;> cases e2
  refine ⟨a ++ b, by simp, fun rest => ?_⟩
  obtain ⟨x', hx1, hx2⟩ := ar.1 (b ++ rest)
  obtain ⟨y', hy1, hy2⟩ := br.1 rest
  exact ⟨x', y', b ++ rest, by rw [List.append_assoc]; exact hx1, hy1, hx2, hy2⟩

example : (pStr fun _ => 0).pickle [5] ⟨[], 30⟩ = some (.ok ⟨[1, 0, 0, 0, 0, 0, 0, 0, 5], 21⟩) ∧
    (pInt fun _ => 0).pickle 7 ⟨[1, 0, 0, 0, 0, 0, 0, 0, 5], 21⟩ = some (.ok ⟨[1, 0, 0, 0, 0, 0, 0, 0, 5, 7, 0, 0, 0, 0, 0, 0, 0], 13⟩) := by decide +kernel

/-! ### Arrays -/
open Codon.Numpy

/-- Arrays: the new one has the same shape and equal elements.  `_partial`: elements without pointers must lie one after the other, or be written as they lie in memory; elements with pointers must not lie in
column-major order. -/
theorem c72_array_partial {V : Type} {P : Pick V} {ok : V → Prop} {R : V → V → Prop} (hP : Works P ok R) (w : Nat) (hw : 0 < w) (h h' : Heap V) (a : Arr) (hwf : a.WF h)
    (hd : ∀ n ∈ a.shape, n < 2 ^ 63) (hok : ∀ c, Valid c a.shape → ∀ v, a.read h c = some v → ok v)
    (hc : match P.image with
      | some I => w = I.size ∧ ((a.contig w).1 = true ∨ (a.contig w).2 = true ∨ Raw pad P I)
      | none => (a.contig w).1 = true ∨ (a.contig w).2 = false)
    (pos : Nat) : ∃ bs, Writes (pickleArr pad w P h a) pos bs ∧ Reads (unpickleArr pad w P a.shape.length h') bs (Reloaded R h a h') := arr_works pad hP w hw h h' a hwf hd hok hc pos

/-- A heap of four strings. -/
def strHeap : Heap (List Byte) := ⟨fun b o => if b = 0 then (if o = 0 then some [1] else if o = 16 then some [2] else if o = 32 then some [3] else if o = 48 then some [4] else none) else none, 1⟩

/-- `np.array([["\x01", "\x02"], ["\x03", "\x04"]])` and its transpose. -/
def strArr : Arr := ⟨[2, 2], [32, 16], 0, 0⟩
def strArrT : Arr := ⟨[2, 2], [16, 32], 0, 0⟩

theorem strArr_wf : strArr.WF strHeap := by
  refine ⟨rfl, by decide, fun c hc => ?_, by decide⟩
  match c, hc with
  | [i, j], ⟨⟨h1, h2⟩, ⟨h3, h4⟩, _⟩ =>
    have hi : i = 0 ∨ i = 1 := by omega
    have hj : j = 0 ∨ j = 1 := by omega
    rcases hi with rfl | rfl <;> rcases hj with rfl | rfl <;> exact ⟨_, rfl⟩

-- it can be pickled
example : ∃ bs, Writes (pickleArr pad 16 (pStr pad) strHeap strArr) 0 bs ∧ Reads (unpickleArr pad 16 (pStr pad) 2 strHeap) bs (Reloaded (fun x y => y = x) strHeap strArr strHeap) := by
  refine c72_array_partial pad (c72_str pad) 16 (by decide) strHeap strHeap strArr strArr_wf (by decide) (fun c hc v hv => ?_) (Or.inl (by decide)) 0
  match c, hc with
  | [i, j], ⟨⟨h1, h2⟩, ⟨h3, h4⟩, _⟩ =>
    have hi : i = 0 ∨ i = 1 := by omega
    have hj : j = 0 ∨ j = 1 := by omega
    rcases hi with rfl | rfl <;> rcases hj with rfl | rfl <;> cases hv <;> decide

/-- What element `c` of the array is after pickling and unpickling. -/
def after {V : Type} (w : Nat) (P : Pick V) (h : Heap V) (a : Arr) (c : List Int) : Option V :=
  match pickleArr pad w P h a ⟨[], 1000⟩ with
  | some (.ok j) => match unpickleArr pad w P a.shape.length h j.data with
    | some (.ok (r, _)) => r.2.read r.1 c
    | _ => none
  | _ => none

example : after (fun _ => 0) 16 (pStr fun _ => 0) strHeap strArr [0, 1] = some [2] := by decide +kernel

/-- Violation: the elements of a transposed array of strings are written in row-major order, but the new array is in column-major order. -/
theorem c72_violation_fortran : strArrT.read strHeap [0, 1] = some [3] ∧ after (fun _ => 0) 16 (pStr fun _ => 0) strHeap strArrT [0, 1] = some [2] := by decide +kernel

/-- Two tuples with a gap between them: `a[::2]`. -/
def gapHeap : Heap (BitVec 8 × BitVec 64 × Unit) := ⟨fun b o => if b = 0 then (if o = 0 then some (1, 2, ()) else if o = 32 then some (3, 4, ()) else none) else none, 1⟩
def gapArr : Arr := ⟨[2], [32], 0, 0⟩

/-- Violation: elements without pointers that do not lie one after the other are written field by field, but read as memory with padding. -/
theorem c72_violation_padding : ∃ j, pickleArr (fun _ => 0) 16 (pByteInt fun _ => 0) gapHeap gapArr ⟨[], 1000⟩ = some (.ok j) ∧
    (unpickleArr (fun _ => 0) 16 (pByteInt fun _ => 0) 1 gapHeap j.data).map (fun r => r.isOk) = some false ∧ after (fun _ => 0) 16 (pByteInt fun _ => 0) gapHeap ⟨[1], [16], 0, 0⟩ [0] = some (1, 2, ()) :=
  ⟨⟨[0, 0, 0, 0, 0, 0, 0, 0, 2, 0, 0, 0, 0, 0, 0, 0, 1, 2, 0, 0, 0, 0, 0, 0, 0, 3, 4, 0, 0, 0, 0, 0, 0, 0], 966⟩, by decide +kernel⟩

end Codon.Pickle
