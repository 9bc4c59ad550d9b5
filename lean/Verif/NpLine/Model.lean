import Verif.Numpy.ReshapeModel
import Verif.Numpy.ViewModel
import Verif.Numpy.UfuncModel
/-!
# Model of sorting and partitioning along an axis: stdlib/numpy/sorting.codon:1756-1845, 2028-2157

The functions that sort one line are parameters: what they do to the elements `p[0]`, …, `p[n - 1]` is a function on lists (`none`: undefined behaviour), see `Verif/NpSort` and `Verif/NpSel`, where
it is shown that they access nothing else.  The buffer is a list; allocating and freeing it is not modelled.  The memory is that of `Verif/Numpy`.
-/
namespace Codon.NpLine
open Codon.Numpy
variable {V : Type}

/-- `for i in range(n): buf[i] = (Ptr[a.dtype](p))[0]; p += st` (sorting.codon:2046-2048); with `st` the size of an element also the elements `p[0]`, …, `p[n - 1]`. -/
def readLine (h : Heap V) (b : Nat) (st : Int) : Nat → Int → Option (List V)
  | 0, _ => some []
  | n + 1, o => do
    let v ← h.get b o
    let r ← readLine h b st n (o + st)
    return v :: r

/-- `for i in range(n): Ptr[a.dtype](p)[0] = buf[i]; p += st` (sorting.codon:2053-2055). -/
def writeLine (b : Nat) (st : Int) : List V → Int → Heap V → Option (Heap V)
  | [], _, h => some h
  | v :: vs, o, h => do
    let h ← h.write b o v
    writeLine b st vs (o + st) h

/-- The loops of `_sort_compact` and `_sort_buffered` (sorting.codon:2031-2034, 2041-2055) over the coordinates on the other axes; also those of `_partition_compact` and `_partition_buffered`
(sorting.codon:1760-1766, 1774-1790).  `tuple_insert(idx, axis, 0)` (util.codon:83-98) is `insertIdx`.  `st` is the distance of the elements of a line. -/
def lines (sorter : List V → Option (List V)) (a : Arr) (k : Nat) (st : Int) : List (List Int) → Heap V → Option (Heap V)
  | [], h => some h
  | idx :: r, h => do
    let p := a.ptr (idx.insertIdx k 0)
    let buf ← readLine h p.1 st (a.shape.getD k 0).toNat p.2
    let buf ← sorter buf
    let h ← writeLine p.1 st buf p.2 h
    lines sorter a k st r h

/-- `_sort_compact` (sorting.codon:2028-2034); `tuple_delete` (util.codon:68-81) is `eraseIdx`. -/
def sortCompact (sorter : List V → Option (List V)) (a : Arr) (k : Nat) (w : Int) (h : Heap V) : Option (Heap V) :=
  lines sorter a k w (multirange (a.shape.eraseIdx k)) h

/-- `_sort_buffered` (sorting.codon:2036-2057). -/
def sortBuffered (sorter : List V → Option (List V)) (a : Arr) (k : Nat) (h : Heap V) : Option (Heap V) :=
  lines sorter a k (a.strides.getD k 0) (multirange (a.shape.eraseIdx k)) h

/-- `_sort_dispatch` (sorting.codon:2059-2068), and the end of `_partition_helper` (sorting.codon:1826-1836) with the sorter that selects. -/
def dispatch (sorter : List V → Option (List V)) (a : Arr) (axis : Int) (force : Bool) (w : Int) (h : Heap V) : Option (Except Err (Heap V)) :=
  match normAxis axis a.shape.length with
  | .error e => some (.error e)
  | .ok k =>
    if force then (sortCompact sorter a k.toNat w h).map .ok
    else if a.strides.getD k.toNat 0 = w then (sortCompact sorter a k.toNat w h).map .ok
    else (sortBuffered sorter a k.toNat h).map .ok

/-- The choice of the function by `kind` (sorting.codon:2071-2078, 2150-2157); `none` is `ValueError`. -/
def ofKind {S : Type} (quick stable heap : S) : Option String → Option S
  | none => some quick
  | some s =>
    if s = "quicksort" ∨ s = "quick" then some quick
    else if s = "mergesort" ∨ s = "merge" ∨ s = "stable" then some stable
    else if s = "heapsort" ∨ s = "heap" then some heap
    else none

/-- `_sort` (sorting.codon:2070-2078); `ndarray.sort` (sorting.codon:2172-2173) is this with `force = false`. -/
def sortIn (quick stable heap : List V → Option (List V)) (a : Arr) (axis : Int) (kind : Option String) (force : Bool) (w : Int) (h : Heap V) : Option (Except Err (Heap V)) :=
  match ofKind quick stable heap kind with
  | none => some (.error .value)
  | some s => dispatch s a axis force w h

/-- `sort` of an array with an integer axis (sorting.codon:2084-2089). -/
def sort (quick stable heap : List V → Option (List V)) (a : Arr) (axis : Int) (kind : Option String) (w : Int) (junk : Int → V) (h : Heap V) : Option (Except Err (Heap V × Arr)) := do
  let (h, b) ← a.copy h w junk .C
  match ← sortIn quick stable heap b axis kind (b.shape.length == 1) w h with
  | .error e => return .error e
  | .ok h => return .ok (h, b)

/-- `sort` with `axis=None` (sorting.codon:2081-2082). -/
def sortFlat (quick stable heap : List V → Option (List V)) (a : Arr) (kind : Option String) (w : Int) (junk : Int → V) (h : Heap V) : Option (Except Err (Heap V × Arr)) := do
  let (h, b) ← a.flatten h w .C
  sort quick stable heap b (-1) kind w junk h

/-- `partition` of an array with an integer axis (sorting.codon:1823-1845); `fix` is `_fix_kth` for lines of that length (`none`: `ValueError`), `select` the selection on a line. -/
def partition {K : Type} (fix : Nat → Option K) (select : K → List V → Option (List V)) (a : Arr) (axis : Int) (w : Int) (junk : Int → V) (h : Heap V) : Option (Except Err (Heap V × Arr)) := do
  let (h, b) ← a.copy h w junk .C
  match normAxis axis b.shape.length with
  | .error e => return .error e
  | .ok k =>
    match fix (b.shape.getD k.toNat 0).toNat with
    | none => return .error .value
    | some ks =>
      match ← dispatch (select ks) b axis (b.shape.length == 1) w h with
      | .error e => return .error e
      | .ok h => return .ok (h, b)

/-- The loop of `_asort` (sorting.codon:2102-2136).  The indices are in a heap of their own; `sorter vs is` sorts the indices `is` into `vs`. -/
def asortLines (sorter : List V → List Nat → Option (List Nat)) (a b : Arr) (k : Nat) (w wi : Int) : List (List Int) → Heap V → Heap Nat → Option (Heap V × Heap Nat)
  | [], h, g => some (h, g)
  | idx :: r, h, g => do
    let n := (a.shape.getD k 0).toNat
    let sa := a.strides.getD k 0
    let sb := b.strides.getD k 0
    let pa := a.ptr (idx.insertIdx k 0)
    let pb := b.ptr (idx.insertIdx k 0)
    let start ← readLine h pa.1 (if sa = w then w else sa) n pa.2
    let g ← (if sb = wi then writeLine pb.1 wi (List.range n) pb.2 g else some g)
    let tosort ← (if sb = wi then readLine g pb.1 wi n pb.2 else some (List.range n))
    let tosort ← sorter start tosort
    let h ← (if sa = w then some h else writeLine pa.1 sa start pa.2 h)
    let g ← (if sb = wi then writeLine pb.1 wi tosort pb.2 g else writeLine pb.1 sb tosort pb.2 g)
    asortLines sorter a b k w wi r h g

/-- `argsort` with an integer axis (sorting.codon:2091-2143, 2149-2157). -/
def argsort (quick stable heap : List V → List Nat → Option (List Nat)) (a : Arr) (axis : Int) (kind : Option String) (w wi : Int) (junk : Int → Nat) (h : Heap V) (g : Heap Nat) :
    Option (Except Err (Heap V × Heap Nat × Arr)) :=
  match ofKind quick stable heap kind with
  | none => some (.error .value)
  | some s =>
    match normAxis axis a.shape.length with
    | .error e => some (.error e)
    | .ok k =>
      let b : Arr := ⟨a.shape, stridesOf a.shape false wi, g.next, 0⟩
      (asortLines s a b k.toNat w wi (multirange (a.shape.eraseIdx k.toNat)) h (g.new wi (count a.shape) junk)).map fun (h, g) => .ok (h, g, b)

end Codon.NpLine
