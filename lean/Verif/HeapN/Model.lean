import Verif.Heapq.Model
import Verif.Sort.Model

/-!
# Model of `heapq.nsmallest`, `heapq.nlargest` and `heapq.merge`

`stdlib/heapq.codon:131-324`.  An iterable is the list of the values it yields (`it.done()` resumes the
generator and `it.__next__()` reads the value it has yielded, `internal/types/generator.codon:17-25`), so a
generator that has already finished, whose resumption is undefined, is outside.  `lt`, `gt` and `eq` are `<`, `>` and `==`
of the compared values; key functions are pure.  `none` is an `IndexError` or a loop that runs longer than its
bound.  Not modelled: `List(n)`, which reserves room for `n` entries, and the release of the
generators (`it.destroy()`).
-/

namespace Codon.HeapN
open Heapq

/-- `internal/internal.codon:109-116` `__magic__.lt` for the tuples `(k, order)`. -/
def tupLt2 {K : Type} (lt eq : K → K → Bool) (a b : K × Int) : Bool :=
  if lt a.1 b.1 then true
  else if !eq a.1 b.1 then false
  else if a.2 < b.2 then true
  else if !decide (a.2 = b.2) then false
  else false

/-- The same for the tuples `(k, order, elem)`; `tlt` is `<` of the elements. -/
def tupLt3 {K T : Type} (lt eq : K → K → Bool) (tlt : T → T → Bool) (a b : K × Int × T) : Bool :=
  if lt a.1 b.1 then true
  else if !eq a.1 b.1 then false
  else if a.2.1 < b.2.1 then true
  else if !decide (a.2.1 = b.2.1) then false
  else tlt a.2.2 b.2.2

/-- How an element is decorated: `heapq.codon:146-172` (no key) and `173-200` (key) are the same code
but for the tuples that go into the heap. `key` is what is compared with `top`, `deco` makes the tuple, `fst`
is its first component (`top`), `less` is `<` of the tuples and `out` is the component that is returned. -/
structure Deco (T K E : Type) where
  key : T → K
  deco : T → Int → E
  fst : E → K
  less : E → E → Bool
  out : E → T

/-- No key: `(elem, order)` (`heapq.codon:156`, `166`, `172`). -/
def plain {T : Type} (lt eq : T → T → Bool) : Deco T T (T × Int) where
  key := id
  deco x i := (x, i)
  fst := Prod.fst
  less := tupLt2 lt eq
  out := Prod.fst

/-- With a key: `(key(elem), order, elem)` (`heapq.codon:183`, `194`, `200`). -/
def keyed {T K : Type} (lt eq : K → K → Bool) (tlt : T → T → Bool) (key : T → K) : Deco T K (K × Int × T) where
  key := key
  deco x i := (key x, i, x)
  fst := Prod.fst
  less := tupLt3 lt eq tlt
  out e := e.2.2

section
variable {T K E : Type} (d : Deco T K E)

/-- `heapq.codon:152-156`, `178-183`, `221-225`, `247-252`: the first entries.  `orders` is the range. Returns
the entries, the rest of the iterable, and `done`. -/
def fill : List Int → List T → List E × List T × Bool
  | [], xs => ([], xs, false)
  | _ :: _, [] => ([], [], true)
  | i :: is, x :: xs =>
    let (r, rest, done) := fill is xs
    (d.deco x i :: r, rest, done)

/-- The range `range(n)` (`heapq.codon:152`, `178`). -/
def upTo (n : Int) : List Int := (List.range n.toNat).map fun (i : Nat) => (i : Int)

/-- The range `range(0, -n, -1)` (`heapq.codon:221`, `247`). -/
def downTo (n : Int) : List Int := (List.range n.toNat).map fun (i : Nat) => -(i : Int)

/-- The case `n == 1` (`heapq.codon:132-143`, `203-214`); `better` is `<` or `>` of the keys. -/
def best (better : K → K → Bool) : List T → List T → List T
  | v, [] => v
  | [], a :: xs => best better [a] xs
  | v0 :: v, a :: xs => best better (if better (d.key a) (d.key v0) then a :: v else v0 :: v) xs

/-- `heapq.codon:164-168`, `191-196`: the remaining elements in `nsmallest`. -/
def nsLoop (lt : K → K → Bool) : List T → List E → K → Int → Option (List E)
  | [], h, _, _ => some h
  | e :: es, h, top, order =>
    if lt (d.key e) top then do
      let (_, h) ← heapreplaceMax d.less h (d.deco e order)
      nsLoop lt es h (d.fst (← h[0]?)) (order + 1)
    else nsLoop lt es h top order

/-- `heapq.codon:131-200` `nsmallest`.  `pdq` says whether the tuples are compatible with `_pdq_sort`, which
chooses the algorithm of `result.sort()`. -/
def nsmallest (pdq : Bool) (lt : K → K → Bool) (n : Int) (xs : List T) : Option (List T) :=
  if n = 1 then some (best d lt [] xs)
  else
    let (r, rest, done) := fill d (upTo n) xs
    if r.isEmpty then some []
    else do
      let h ← heapifyMax d.less r
      let top := d.fst (← h[0]?)
      let h ← (if !done then nsLoop d lt rest h top n else some h)
      let s ← Sort.listSort d.less none false pdq false h
      return s.map d.out

/-- `heapq.codon:233-237`, `259-264`: the remaining elements in `nlargest`. -/
def nlLoop (lt : K → K → Bool) : List T → List E → K → Int → Option (List E)
  | [], h, _, _ => some h
  | e :: es, h, top, order =>
    if lt top (d.key e) then do
      let (_, h) ← heapreplace d.less h (d.deco e order)
      nlLoop lt es h (d.fst (← h[0]?)) (order - 1)
    else nlLoop lt es h top order

/-- `heapq.codon:202-268` `nlargest`. -/
def nlargest (pdq : Bool) (lt gt : K → K → Bool) (n : Int) (xs : List T) : Option (List T) :=
  if n = 1 then some (best d gt [] xs)
  else
    let (r, rest, done) := fill d (downTo n) xs
    if r.isEmpty then some []
    else do
      let h ← heapify d.less r
      let top := d.fst (← h[0]?)
      let h ← (if !done then nlLoop d lt rest h top (-n) else some h)
      let s ← Sort.listSort d.less none false pdq false h
      return s.reverse.map d.out

end

/-- `heapq.codon:270-277` `_MergeItem` (without the key, which is the same in all of them); `rest` is what
`gen` has still to yield. -/
structure Item (T : Type) where
  value : T
  order : Int
  rest : List T
  deriving DecidableEq

/-- `heapq.codon:279-281` `_MergeItem.__lt__` without a key. -/
def itemLt {T : Type} (lt eq : T → T → Bool) (a b : Item T) : Bool :=
  tupLt2 lt eq (a.value, a.order) (b.value, b.order)

/-- `heapq.codon:282-287` `_MergeItem.__lt__` with a key. -/
def itemLtKey {T K : Type} (lt eq : K → K → Bool) (tlt : T → T → Bool) (key : T → K) (a b : Item T) : Bool :=
  tupLt3 lt eq tlt (key a.value, a.order, a.value) (key b.value, b.order, b.value)

section
variable {T : Type} (less : Item T → Item T → Bool) (reverse : Bool)

/-- `heapq.codon:304-309`: the first items. -/
def firstItems : Int → List (List T) → List (Item T)
  | _, [] => []
  | order, [] :: its => firstItems (order + 1) its
  | order, (v :: rest) :: its =>
    ⟨v, order * (if reverse then -1 else 1), rest⟩ :: firstItems (order + 1) its

/-- `heapq.codon:312-319`: the inner loop; returns what it yields and the heap it leaves. -/
def mergeInner : Nat → List (Item T) → Option (List T × List (Item T))
  | 0, _ => none
  | n + 1, items => do
    let it ← items[0]?
    match it.rest with
    | [] => do
      let (_, items) ← (if reverse then heappopMax less items else heappop less items)
      return ([it.value], items)
    | v :: rest => do
      let new : Item T := ⟨v, it.order, rest⟩
      let (_, items) ← (if reverse then heapreplaceMax less items new else heapreplace less items new)
      let (ys, items) ← mergeInner n items
      return (it.value :: ys, items)

/-- `heapq.codon:311-324`: the outer loop and what follows it.  `total` bounds the inner loop. -/
def mergeOuter (total : Nat) : Nat → List (Item T) → Option (List T)
  | 0, _ => none
  | n + 1, items =>
    if items.length > 1 then do
      let (ys, items) ← mergeInner less reverse total items
      return ys ++ (← mergeOuter total n items)
    else
      match items[0]? with
      | some it => some (it.value :: it.rest)
      | none => some []

/-- `heapq.codon:289-324` `merge`. -/
def merge (its : List (List T)) : Option (List T) := do
  let items := firstItems reverse 0 its
  let items ← (if reverse then heapifyMax less items else heapify less items)
  mergeOuter less reverse (its.flatten.length + 1) (items.length + 1) items

end

end Codon.HeapN
