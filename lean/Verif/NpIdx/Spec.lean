import Verif.NpIdx.Model
import Verif.Numpy.ViewSpec
import Verif.Numpy.LoopSpec
import Verif.Numpy.UfuncSpec
/-! # Specification: what indexing with assignment, masks and index arrays means -/
namespace Codon.NpIdx
open Codon.Numpy Codon.SliceSpec
variable {U V : Type}

/-- The array on the right side is a proper array. -/
def Src.WF (s : Src U V) (h : Heap V) : Prop :=
  match s with
  | .same b => b.WF h
  | .other g _ _ b => b.WF g

/-- Its element with coordinates `c`, converted. -/
def Src.elem (s : Src U V) (h : Heap V) (c : List Int) : Option V :=
  match s with
  | .same b => b.read h c
  | .other g _ cast b => (b.read g c).map cast

/-- What a right side gives at position `c` of a place of some shape: a number everywhere the same, an array its elements, repeated along axes that are missing or of length one. -/
def Item.elem (it : Item U V) (h : Heap V) (c : List Int) : Option V :=
  match it with
  | .num v => some v
  | .arr s => s.elem h (proj s.arr.shape c)

/-- `h'` is `h` with new values at the elements of `a` that the index selects, position `c` of the selection getting `val c`; nothing else is changed. -/
def Assigned (h : Heap V) (a : Arr) (idx : List Idx) (val : List Int → Option V) (h' : Heap V) : Prop :=
  h'.next = h.next ∧ (∀ c i, Sel idx a.shape c i → a.read h' i = val c) ∧
  ∀ p : Nat × Int, (∀ c i, Sel idx a.shape c i → a.addr i ≠ p) → h'.get p.1 p.2 = h.get p.1 p.2

/-- The right side does not lie in the selected part, or only at the same positions. -/
def Src.Apart (s : Src U V) (a : Arr) (idx : List Idx) : Prop :=
  ∀ b, s = .same b → ∀ c i c' i', Sel idx a.shape c i → Sel idx a.shape c' i' → a.addr i = b.addr (proj b.shape c') → c = c'

/-- The coordinates where the mask is true, in row-major order. -/
def Chosen (g : Heap Bool) (m : Arr) (cs : List (List Int)) : Prop := cs.Pairwise cLess ∧ ∀ c, c ∈ cs ↔ Valid c m.shape ∧ m.read g c = some true

/-- `h'` is `h` with `val k` at the `k`-th of the coordinates `cs` of `a`; nothing else is changed. -/
def AssignedAt (h : Heap V) (a : Arr) (cs : List (List Int)) (val : Nat → Option V) (h' : Heap V) : Prop :=
  h'.next = h.next ∧ (∀ k c, cs[k]? = some c → a.read h' c = val k) ∧
  ∀ p : Nat × Int, (∀ c ∈ cs, a.addr c ≠ p) → h'.get p.1 p.2 = h.get p.1 p.2

/-! ### Index arrays, as in NumPy -/

/-- Element `i` of an array of shape `sh` is selected by position `bc` in the (broadcast) index arrays and positions `sc` in the slices: an integer fixes the coordinate, an index array
gives it, a slice selects Python's positions, `None` is an axis of length one. -/
def ASel (g : Heap Int) : List AIdx → List Int → List Int → List Int → List Int → Prop
  | [], sh, _, sc, i => Valid sc sh ∧ sc = i
  | .int k :: r, n :: sh, bc, sc, j :: i => (j = rel n k ∧ 0 ≤ j ∧ j < n) ∧ ASel g r sh bc sc i
  | .arr m :: r, n :: sh, bc, sc, j :: i => (∃ k, m.read g (proj m.shape bc) = some k ∧ j = rel n k ∧ 0 ≤ j ∧ j < n) ∧ ASel g r sh bc sc i
  | .slice b e k :: r, n :: sh, bc, t :: sc, j :: i => (0 ≤ t ∧ 0 ≤ j ∧ (positions n.toNat b e (k.getD 1))[t.toNat]? = some j.toNat) ∧ ASel g r sh bc sc i
  | .newaxis :: r, sh, bc, t :: sc, i => t = 0 ∧ ASel g r sh bc sc i
  | _, _, _, _, _ => False

/-- Whether an index is an integer or an array of integers. -/
def AIdx.adv : AIdx → Bool
  | .int _ | .arr _ => true
  | _ => false

/-- The part of an index from the first to the last integer or array. -/
def core (idx : List AIdx) : List AIdx := ((idx.dropWhile (!·.adv)).reverse.dropWhile (!·.adv)).reverse

/-- The integers and arrays stand next to each other. -/
def Together (idx : List AIdx) : Prop := ∀ x ∈ core idx, x.adv = true

instance (idx : List AIdx) : Decidable (Together idx) := by unfold Together; infer_instance

/-- Where position `(bc, sc)` stands in the result: the axes of the index arrays take the place of the integers and arrays if these stand together, else they come first. -/
def join (idx : List AIdx) (bc sc : List Int) : List Int :=
  if Together idx then sc.take (idx.takeWhile (!·.adv)).length ++ bc ++ sc.drop (idx.takeWhile (!·.adv)).length else bc ++ sc

/-- The lengths of the slices, of `None`, and of the axes not mentioned. -/
def sliceDims : List AIdx → List Int → List Int
  | [], sh => sh
  | .int _ :: r, sh => sliceDims r sh.tail
  | .arr _ :: r, sh => sliceDims r sh.tail
  | .slice b e k :: r, sh => ((positions (sh.headD 0).toNat b e (k.getD 1)).length : Int) :: sliceDims r sh.tail
  | .newaxis :: r, sh => 1 :: sliceDims r sh
  | .ellipsis :: r, sh => sliceDims r sh

/-- The index arrays. -/
def AIdx.arrays : List AIdx → List Arr
  | [] => []
  | .arr m :: r => m :: AIdx.arrays r
  | _ :: r => AIdx.arrays r

/-- Number of axes used. -/
def AIdx.used : List AIdx → Nat
  | [] => 0
  | .newaxis :: r => AIdx.used r
  | .ellipsis :: r => AIdx.used r
  | _ :: r => AIdx.used r + 1

/-- Every integer and every value of an index array is in range and no step is zero; `bs` is the shape the index arrays broadcast to. -/
def AProper (g : Heap Int) (bs : List Int) : List AIdx → List Int → Prop
  | [], _ => True
  | .int k :: r, n :: sh => (-n ≤ k ∧ k < n) ∧ AProper g bs r sh
  | .arr m :: r, n :: sh => (∀ bc, Valid bc bs → ∃ k, m.read g (proj m.shape bc) = some k ∧ -n ≤ k ∧ k < n) ∧ AProper g bs r sh
  | .slice _ _ k :: r, _ :: sh => k ≠ some 0 ∧ AProper g bs r sh
  | .newaxis :: r, sh => AProper g bs r sh
  | _, _ => False

/-- Two index arrays have a slice or `None` between them. -/
def Separated (idx : List AIdx) : Prop := ∃ x p y q z, idx = x ++ .arr p :: y ++ .arr q :: z ∧ ∃ s ∈ y, s.adv = false

/-- `r` in heap `h'` is a new array with the selected elements of `a` in their places; all that was there before is unchanged. -/
def Taken (h : Heap V) (a : Arr) (g : Heap Int) (idx : List AIdx) (bs : List Int) (h' : Heap V) (r : Arr) : Prop :=
  r.shape = join idx bs (sliceDims idx a.shape) ∧ r.WF h' ∧ r.blk = h.next ∧ Kept h h' ∧ r.NoRepeat ∧
  (∀ bc sc i, Valid bc bs → ASel g idx a.shape bc sc i → Valid (join idx bc sc) r.shape ∧ Valid i a.shape ∧ r.read h' (join idx bc sc) = a.read h i) ∧
  ∀ c, Valid c r.shape → ∃ bc sc i, Valid bc bs ∧ ASel g idx a.shape bc sc i ∧ c = join idx bc sc

/-- `h'` is `h` with new values at the selected elements of `a`: an element selected more than once has got the value that stands last; nothing else is changed. -/
def PutAt (h : Heap V) (a : Arr) (g : Heap Int) (idx : List AIdx) (bs : List Int) (val : List Int → Option V) (h' : Heap V) : Prop :=
  h'.next = h.next ∧
  (∀ bc sc i, Valid bc bs → ASel g idx a.shape bc sc i → (∀ bc' sc', Valid bc' bs → cLess (bc ++ sc) (bc' ++ sc') → ¬ ASel g idx a.shape bc' sc' i) → a.read h' i = val (join idx bc sc)) ∧
  ∀ p : Nat × Int, (∀ bc sc i, Valid bc bs → ASel g idx a.shape bc sc i → a.addr i ≠ p) → h'.get p.1 p.2 = h.get p.1 p.2

/-- The right side does not lie in the selected part, or only at the same positions. -/
def Src.ApartAt (s : Src U V) (a : Arr) (g : Heap Int) (idx : List AIdx) (bs : List Int) : Prop :=
  ∀ b, s = .same b → ∀ bc sc i bc' sc' i', Valid bc bs → ASel g idx a.shape bc sc i → Valid bc' bs → ASel g idx a.shape bc' sc' i' → a.addr i = b.addr (proj b.shape (join idx bc' sc')) →
    bc = bc' ∧ sc = sc'

end Codon.NpIdx
