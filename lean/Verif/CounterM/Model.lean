import Verif.KHash.Model
import Verif.Heapq.Model
import Verif.Sort.Model

/-!
# `collections.Counter`

`/repo/stdlib/collections.codon:172-345`.  A counter is a dict with `int` values, so the hash table
is that of `Verif.KHash.Model`.  Counts are mathematical integers (no 64-bit overflow).  In the
two-argument operations the other counter is a different object; iteration over it is iteration over
an unchanging table.
-/

namespace Codon.CounterM

open Codon.KHash

section
variable {K : Type} [DecidableEq K] (h : K → BitVec 64)

abbrev Ctr (K : Type) := Tbl K Int

/-- The loops of collections.codon:228-250 (`subtract`, `update`) and 284-285, 290-291:
`for k, v in l: self.increment(k, f(v))`. -/
def incrAll (f : Int → Int) (t : Ctr K) : List (K × Int) → Option (Ctr K)
  | [] => some t
  | (k, v) :: l => do incrAll f (← increment h t k (· + ·) (f v)) l

/-- collections.codon:241-243: `update` from an iterable of elements. -/
def updateElements (t : Ctr K) (xs : List K) : Option (Ctr K) :=
  incrAll h id t (xs.map fun x => (x, 1))

/-- collections.codon:228-230: `subtract` with an iterable of elements. -/
def subtractElements (t : Ctr K) (xs : List K) : Option (Ctr K) :=
  incrAll h id t (xs.map fun x => (x, -1))

/-- collections.codon:175-177: `Counter(elements)`. -/
def fromElements (xs : List K) : Option (Ctr K) := updateElements h Tbl.empty xs

/-- collections.codon:245-251: `update` from a counter or dict. -/
def updateFrom (t o : Ctr K) : Option (Ctr K) := do incrAll h id t (← items o)

/-- collections.codon:232-239: `subtract` with a counter or dict. -/
def subtractFrom (t o : Ctr K) : Option (Ctr K) := do incrAll h (- ·) t (← items o)

/-- collections.codon:185-188: `elements()` read to the end. -/
def elements (t : Ctr K) : Option (List K) := do
  return (← items t).flatMap fun p => List.replicate p.2.toNat p.1

/-- collections.codon:256-260 -/
def total (t : Ctr K) : Option Int := do
  return (← items t).foldl (fun m p => m + p.2) 0

/-- collections.codon:262-263 -/
def getitem (t : Ctr K) (k : K) : Option Int := getD h t k 0

/-- collections.codon:265-268 `__delitem__`: no error for a missing key. -/
def delitem (t : Ctr K) (k : K) : Option (Ctr K) := do
  let x ← kget h t k
  if x ≠ t.nb then kdel t x else return t

/-- collections.codon:270-276 (`__eq__`). -/
def eqLoop (b : Ctr K) : List (K × Int) → Option Bool
  | [] => some true
  | (k, v) :: ps => do
    if ← contains h b k then
      if (← getitem h b k) = v then eqLoop b ps else return false
    else return false

/-- collections.codon:270-276 -/
def eq (a b : Ctr K) : Option Bool := do
  if a.size ≠ b.size then return false
  eqLoop h b (← items a)

/-- collections.codon:348-351 `_del_non_positives`: deletes from the table it iterates over, from
bucket `i` with `n` buckets left (deletion moves no bucket). -/
def delNonPosFrom (t : Ctr K) : Nat → Nat → Option (Ctr K)
  | 0, _ => some t
  | n + 1, i => do
    if ← iseither t.flags i then delNonPosFrom t n (i + 1)
    else
      let k ← rd t.keys i
      let v ← rd t.vals i
      if v ≤ 0 then
        let t ← delitem h t k
        delNonPosFrom t n (i + 1)
      else delNonPosFrom t n (i + 1)

/-- collections.codon:348-351 -/
def delNonPositives (t : Ctr K) : Option (Ctr K) := delNonPosFrom h t t.nb 0

/-- collections.codon:284-288 `__iadd__` -/
def iadd (t o : Ctr K) : Option (Ctr K) := do
  let t ← incrAll h id t (← items o)
  delNonPositives h t

/-- collections.codon:290-294 `__isub__` -/
def isub (t o : Ctr K) : Option (Ctr K) := do
  let t ← incrAll h (- ·) t (← items o)
  delNonPositives h t

/-- `for k, v in l: self[k] = f(self.get(k, 0), v)` (lines 297-298, 304-305). -/
def combineAll (f : Int → Int → Int) (t : Ctr K) : List (K × Int) → Option (Ctr K)
  | [] => some t
  | (k, v) :: l => do
    let c ← getD h t k 0
    combineAll f (← setitem h t k (f c v)) l

/-- collections.codon:296-300 `__iand__` -/
def iand (t o : Ctr K) : Option (Ctr K) := do
  let t ← combineAll h min t (← items o)
  delNonPositives h t

/-- collections.codon:302-307 `__ior__` -/
def ior (t o : Ctr K) : Option (Ctr K) := do
  let t ← delNonPositives h t
  let t ← combineAll h max t (← items o)
  delNonPositives h t

/-- The loops of `__pos__` and `__neg__`: keep the items whose value `f` maps to something. -/
def keepLoop (f : Int → Option Int) (s : Ctr K) : List (K × Int) → Option (Ctr K)
  | [] => some s
  | (k, v) :: l => do
    match f v with
    | some w => keepLoop f (← setitem h s k w) l
    | none => keepLoop f s l

/-- collections.codon:309-315 `__pos__` -/
def pos (t : Ctr K) : Option (Ctr K) := do
  let s ← kresize h (Tbl.empty : Ctr K) (BitVec.ofNat 64 t.nb)
  keepLoop h (fun v => if v > 0 then some v else none) s (← items t)

/-- collections.codon:317-323 `__neg__` -/
def neg (t : Ctr K) : Option (Ctr K) := do
  let s ← kresize h (Tbl.empty : Ctr K) (BitVec.ofNat 64 t.nb)
  keepLoop h (fun v => if v < 0 then some (-v) else none) s (← items t)

/-- collections.codon:278-279, 180-181: `__copy__` is `Counter(self)`, i.e. `_init_from`. -/
def copy (t : Ctr K) : Ctr K := initFrom t

/-- collections.codon:325-328 -/
def add (t o : Ctr K) : Option (Ctr K) := iadd h (copy t) o
/-- collections.codon:330-333 -/
def sub (t o : Ctr K) : Option (Ctr K) := isub h (copy t) o
/-- collections.codon:335-338 -/
def and (t o : Ctr K) : Option (Ctr K) := iand h (copy t) o
/-- collections.codon:340-343 -/
def or (t o : Ctr K) : Option (Ctr K) := ior h (copy t) o

/-- collections.codon:147-169 `_CounterItem`: compared by count. -/
def itemLt (a b : K × Int) : Bool := decide (a.2 < b.2)

/-- collections.codon:205-207: the scan for the first item with the largest count. -/
def topScan (top : Option (K × Int)) : List (K × Int) → Option (K × Int)
  | [] => top
  | t :: l =>
    match top with
    | none => topScan (some t) l
    | some p => if t.2 > p.2 then topScan (some t) l else topScan top l

/-- collections.codon:213-221: keep the `n` largest in a heap. -/
def nLargest (n : Int) (result : List (K × Int)) : List (K × Int) → Option (List (K × Int))
  | [] => some result
  | ct :: l => do
    if (result.length : Int) < n then
      let result := result ++ [ct]
      if (result.length : Int) = n then nLargest n (← Heapq.heapify itemLt result) l
      else nLargest n result l
    else
      if itemLt (← result[0]?) ct then
        let (_, result) ← Heapq.heapreplace itemLt result ct
        nLargest n result l
      else nLargest n result l

/-- collections.codon:190-224 `most_common`.  `pdqCompat`: whether `_CounterItem` counts as a type for
which `sort` picks pdqsort (a property of the compiler's `isinstance(x, Tuple)`; both are covered). -/
def mostCommon (pdqCompat : Bool) (t : Ctr K) (n : Option Int) : Option (List (K × Int)) := do
  if t.size = 0 then return []
  let its ← items t
  match n with
  | none => Sort.listSort itemLt none true false true its
  | some n =>
    if n = 1 then return [← topScan none its]
    else if n ≤ 0 then return []
    else Sort.listSort itemLt none false pdqCompat true (← nLargest n [] its)

end

end Codon.CounterM
