import Verif.Base.Order

/-!
# Sorting

Models of `/repo/stdlib/algorithms/{insertionsort,heapsort,qsort,pdqsort,timsort}.codon` and
`/repo/stdlib/internal/sort.codon`.  An `Array[T]` is the list of its cells; every read and write is
bounds checked, `none` being an access outside the array (or a loop running longer than its `fuel`,
which the theorems exclude).  Indices are mathematical integers.  `lt x y` stands for
`keyf(x) < keyf(y)`; keys are totally ordered up to equivalence, i.e. `keyf(x) >= keyf(y)` is
`not keyf(x) < keyf(y)` and `keyf(x) == keyf(y)` is neither-less.  The key function has no effects.
-/

namespace Codon.Sort

section
variable {α : Type} (lt : α → α → Bool)

/-- `arr[i]` -/
def rd (a : List α) (i : Int) : Option α := if 0 ≤ i then a[i.toNat]? else none

/-- `arr[i] = x` -/
def wr (a : List α) (i : Int) (x : α) : Option (List α) :=
  if 0 ≤ i ∧ i.toNat < a.length then some (a.set i.toNat x) else none

/-- `arr[i], arr[j] = arr[j], arr[i]` (the right side is evaluated first, then the stores left to
right). -/
def swap (a : List α) (i j : Int) : Option (List α) := do
  let x ← rd a j
  let y ← rd a i
  let a ← wr a i x
  wr a j y

/-- `keyf(x) == keyf(y)` -/
def keq (x y : α) : Bool := !lt x y && !lt y x

/-! ### insertionsort.codon -/

/-- The inner loop of `_insertion_sort`, insertionsort.codon:10-12. -/
def insInner (x : α) (begin_ : Int) : Nat → List α → Int → Option (List α × Int)
  | 0, _, _ => none
  | n + 1, a, j =>
    if j ≥ begin_ then do
      let y ← rd a j
      if lt x y then
        insInner x begin_ n (← wr a (j + 1) y) (j - 1)
      else some (a, j)
    else some (a, j)

/-- The outer loop of `_insertion_sort`, insertionsort.codon:7-14. -/
def insOuter (begin_ end_ : Int) : Nat → List α → Int → Option (List α)
  | 0, _, _ => none
  | n + 1, a, i =>
    if i < end_ then do
      let x ← rd a i
      let (a, j) ← insInner lt x begin_ (a.length + 1) a (i - 1)
      insOuter begin_ end_ n (← wr a (j + 1) x) (i + 1)
    else some a

/-- insertionsort.codon:3-14 `_insertion_sort` -/
def insertionSort (a : List α) (begin_ end_ : Int) : Option (List α) :=
  insOuter lt begin_ end_ (a.length + 1) a (begin_ + 1)

/-! ### heapsort.codon -/

/-- heapsort.codon:13-17: the index of the larger of the node and its children. -/
def heapRoot (a : List α) (begin_ end_ : Int) : Option Int := do
  let left := 2 * begin_ + 1
  let right := 2 * begin_ + 2
  let root ← (if left < end_ then do
    return if lt (← rd a begin_) (← rd a left) then left else begin_
    else some begin_)
  if right < end_ then do
    return if lt (← rd a root) (← rd a right) then right else root
  else some root

/-- heapsort.codon:3-21 `_heapify` -/
def heapify (end_ : Int) : Nat → List α → Int → Option (List α)
  | 0, _, _ => none
  | n + 1, a, begin_ => do
    let root ← heapRoot lt a begin_ end_
    if root ≠ begin_ then
      heapify end_ n (← swap a begin_ root) root
    else some a

/-- heapsort.codon:33-36 -/
def heapBuild (end_ : Int) : Nat → List α → Int → Option (List α)
  | 0, _, _ => none
  | n + 1, a, i =>
    if i ≥ 0 then do heapBuild end_ n (← heapify lt end_ (a.length + 1) a i) (i - 1)
    else some a

/-- heapsort.codon:38-42 -/
def heapExtract : Nat → List α → Int → Option (List α)
  | 0, _, _ => none
  | n + 1, a, i =>
    if i ≥ 0 then do
      let a ← swap a i 0
      let a ← heapify lt i (a.length + 1) a 0
      heapExtract n a (i - 1)
    else some a

/-- heapsort.codon:33-42 on the sliced array. -/
def heapSortSlice (a : List α) : Option (List α) := do
  let end_ : Int := a.length
  let a ← heapBuild lt end_ (a.length + 1) a (Int.tdiv end_ 2 - 1)
  heapExtract lt (a.length + 1) a (end_ - 1)

/-- heapsort.codon:23-42 `_heap_sort`.  `arr.slice(begin, end)` is a view of the cells from `begin` to
`end`; accesses are checked against the view. -/
def heapSort (a : List α) (begin_ end_ : Int) : Option (List α) :=
  if end_ - begin_ < 2 then some a
  else if 0 ≤ begin_ ∧ end_ ≤ a.length then do
    let s ← heapSortSlice lt ((a.drop begin_.toNat).take (end_ - begin_).toNat)
    return a.take begin_.toNat ++ s ++ a.drop end_.toNat
  else none

/-! ### qsort.codon -/

/-- qsort.codon:21-31 `_med3` -/
def med3 (a b c : Int) (d : List α) : Option Int := do
  let x ← rd d a
  let y ← rd d b
  let z ← rd d c
  if lt x y then
    return if lt y z then b else if lt x z then c else a
  else
    return if !(lt y z || keq lt y z) then b
      else if !(lt x z || keq lt x z) then c else a

/-- qsort.codon:36-41 `_vecswap` -/
def vecswap : Nat → Int → Int → List α → Option (List α)
  | 0, _, _, a => some a
  | n + 1, i, j, a => do vecswap n (i + 1) (j + 1) (← swap a i j)

/-- qsort.codon:49-54, the inner loop of the small case. -/
def qInner (frm : Int) : Nat → List α → Int → Option (List α)
  | 0, _, _ => none
  | n + 1, a, j =>
    if j > frm then do
      let x ← rd a (j - 1)
      let y ← rd a j
      if !(lt x y || keq lt x y) then qInner frm n (← swap a j (j - 1)) (j - 1)
      else some a
    else some a

/-- qsort.codon:46-56, the small case. -/
def qSmall (frm cnt : Int) : Nat → List α → Int → Option (List α)
  | 0, _, _ => none
  | n + 1, a, i =>
    if i < frm + cnt then do qSmall frm cnt n (← qInner lt frm (a.length + 1) a i) (i + 1)
    else some a

/-- qsort.codon:58-67, the index of the pivot.  (`mid` starts as `cnt // 2`, not `frm + cnt // 2`.) -/
def qPivot (a : List α) (frm cnt : Int) : Option Int := do
  let mid := Int.tdiv cnt 2
  let lo := frm
  let hi := frm + cnt - 1
  if cnt > 40 then
    let s := Int.tdiv cnt 8
    let lo ← med3 lt lo (lo + s) (lo + 2 * s) a
    let mid ← med3 lt (mid - s) mid (mid + s) a
    let hi ← med3 lt (hi - 2 * s) (hi - s) hi a
    med3 lt lo mid hi a
  else med3 lt lo mid hi a

/-- qsort.codon:76-82: move `b` up; elements equal to the pivot go to the left end. -/
def qUp (frm : Int) : Nat → List α → Int → Int → Int → Option (List α × Int × Int)
  | 0, _, _, _, _ => none
  | n + 1, a, ia, b, c =>
    if b ≤ c then do
      let x ← rd a b
      let p ← rd a frm
      if lt x p || keq lt x p then
        if keq lt x p then qUp frm n (← swap a ia b) (ia + 1) (b + 1) c
        else qUp frm n a ia (b + 1) c
      else some (a, ia, b)
    else some (a, ia, b)

/-- qsort.codon:84-88: move `c` down; elements equal to the pivot go to the right end. -/
def qDown (frm : Int) : Nat → List α → Int → Int → Int → Option (List α × Int × Int)
  | 0, _, _, _, _ => none
  | n + 1, a, b, c, d =>
    if c ≥ b then do
      let x ← rd a c
      let p ← rd a frm
      if !lt x p then
        if keq lt x p then qDown frm n (← swap a c d) b (c - 1) (d - 1)
        else qDown frm n a b (c - 1) d
      else some (a, c, d)
    else some (a, c, d)

/-- qsort.codon:75-94, the partition loop; returns `(arr, a, b, c, d)`. -/
def qPart (frm : Int) : Nat → List α → Int → Int → Int → Int → Option (List α × Int × Int × Int × Int)
  | 0, _, _, _, _, _ => none
  | n + 1, a, ia, b, c, d => do
    let (a, ia, b) ← qUp lt frm (a.length + 1) a ia b c
    let (a, c, d) ← qDown lt frm (a.length + 1) a b c d
    if b > c then some (a, ia, b, c, d)
    else qPart frm n (← swap a b c) ia (b + 1) (c - 1) d

/-- qsort.codon:43-109 `_qsort` -/
def qsort : Nat → List α → Int → Int → Option (List α)
  | 0, _, _, _ => none
  | n + 1, arr, frm, cnt =>
    if cnt ≤ 7 then qSmall lt frm cnt (arr.length + 1) arr (frm + 1)
    else do
      let mid ← qPivot lt arr frm cnt
      let arr ← swap arr frm mid
      let (arr, a, b, c, d) ← qPart lt frm (arr.length + 1) arr frm frm (frm + cnt - 1) (frm + cnt - 1)
      let hi := frm + cnt
      let span := min (a - frm) (b - a)
      let arr ← vecswap span.toNat frm (b - span) arr
      let span := min (d - c) (hi - d - 1)
      let arr ← vecswap span.toNat b (hi - span) arr
      let span := b - a
      let arr ← (if span > 1 then qsort n arr frm span else some arr)
      let span := d - c
      if span > 1 then qsort n arr (hi - span) span else some arr

/-- qsort.codon:111-114 `qsort_array` -/
def qsortArray (a : List α) : Option (List α) := qsort lt (a.length + 1) a 0 a.length

/-! ### pdqsort.codon -/

/-- pdqsort.codon:28-35 `_floor_log2` -/
def floorLog2 : Nat → Nat → Nat → Nat
  | 0, _, log => log
  | f + 1, n, log => if n / 2 = 0 then log else floorLog2 f (n / 2) (log + 1)

/-- pdqsort.codon:55-60: sift left. -/
def sift (tmp : α) (begin_ : Int) : Nat → List α → Int → Option (List α × Int)
  | 0, _, _ => none
  | n + 1, a, s => do
    let a ← wr a s (← rd a (s - 1))
    let s := s - 1
    if s = begin_ then some (a, s)
    else
      if !lt tmp (← rd a (s - 1)) then some (a, s) else sift tmp begin_ n a s

/-- pdqsort.codon:45-67 -/
def pisLoop (begin_ end_ : Int) : Nat → List α → Int → Int → Option (List α × Bool)
  | 0, _, _, _ => none
  | n + 1, a, limit, cur =>
    if cur ≠ end_ then
      if limit > 8 then some (a, false)
      else do
        let x ← rd a cur
        let y ← rd a (cur - 1)
        if lt x y then
          let (a, s) ← sift lt x begin_ (a.length + 1) a cur
          pisLoop begin_ end_ n (← wr a s x) (limit + (cur - s)) (cur + 1)
        else pisLoop begin_ end_ n a limit (cur + 1)
    else some (a, true)

/-- pdqsort.codon:37-67 `_partial_insertion_sort` -/
def partialInsertionSort (a : List α) (begin_ end_ : Int) : Option (List α × Bool) :=
  if begin_ = end_ then some (a, true)
  else pisLoop lt begin_ end_ (a.length + 1) a 0 (begin_ + 1)

/-- `while True: last -= 1; if stop(arr[last]): break` (pdqsort.codon:76-79, 95-98, 129-132,
146-149). -/
def goDown (stop : α → Bool) : Nat → List α → Int → Option Int
  | 0, _, _ => none
  | n + 1, a, last => do
    if stop (← rd a (last - 1)) then some (last - 1) else goDown stop n a (last - 1)

/-- `while True: first += 1; if stop(arr[first]): break` (pdqsort.codon:88-91, 99-102, 117-120,
141-144). -/
def goUp (stop : α → Bool) : Nat → List α → Int → Option Int
  | 0, _, _ => none
  | n + 1, a, first => do
    if stop (← rd a (first + 1)) then some (first + 1) else goUp stop n a (first + 1)

/-- `while first < last: first += 1; if stop(arr[first]): break` (pdqsort.codon:82-85). -/
def goUpTo (stop : α → Bool) (last : Int) : Nat → List α → Int → Option Int
  | 0, _, _ => none
  | n + 1, a, first =>
    if first < last then do
      if stop (← rd a (first + 1)) then some (first + 1) else goUpTo stop last n a (first + 1)
    else some first

/-- `while first < last: last -= 1; if stop(arr[last]): break` (pdqsort.codon:123-126). -/
def goDownTo (stop : α → Bool) (first : Int) : Nat → List α → Int → Option Int
  | 0, _, _ => none
  | n + 1, a, last =>
    if first < last then do
      if stop (← rd a (last - 1)) then some (last - 1) else goDownTo stop first n a (last - 1)
    else some last

/-- pdqsort.codon:93-102 -/
def plLoop (pivot : α) : Nat → List α → Int → Int → Option (List α × Int)
  | 0, _, _, _ => none
  | n + 1, a, first, last =>
    if first < last then do
      let a ← swap a first last
      let last ← goDown (fun x => !lt pivot x) (a.length + 1) a last
      let first ← goUp (fun x => lt pivot x) (a.length + 1) a first
      plLoop pivot n a first last
    else some (a, last)

/-- pdqsort.codon:69-108 `_partition_left` -/
def partitionLeft (a : List α) (begin_ end_ : Int) : Option (List α × Int) := do
  let pivot ← rd a begin_
  let last ← goDown (fun x => !lt pivot x) (a.length + 1) a end_
  let first ← (if last + 1 = end_ then goUpTo (fun x => lt pivot x) last (a.length + 1) a begin_
    else goUp (fun x => lt pivot x) (a.length + 1) a begin_)
  let (a, last) ← plLoop lt pivot (a.length + 1) a first last
  let a ← wr a begin_ (← rd a last)
  let a ← wr a last pivot
  return (a, last)

/-- pdqsort.codon:138-149 -/
def prLoop (pivot : α) : Nat → List α → Int → Int → Option (List α × Int)
  | 0, _, _, _ => none
  | n + 1, a, first, last =>
    if first < last then do
      let a ← swap a first last
      let first ← goUp (fun x => !lt x pivot) (a.length + 1) a first
      let last ← goDown (fun x => lt x pivot) (a.length + 1) a last
      prLoop pivot n a first last
    else some (a, first)

/-- pdqsort.codon:110-155 `_partition_right` -/
def partitionRight (a : List α) (begin_ end_ : Int) : Option (List α × Int × Bool) := do
  let pivot ← rd a begin_
  let first ← goUp (fun x => !lt x pivot) (a.length + 1) a begin_
  let last ← (if first - 1 = begin_ then goDownTo (fun x => lt x pivot) first (a.length + 1) a end_
    else goDown (fun x => lt x pivot) (a.length + 1) a end_)
  let already := decide (first ≥ last)
  let (a, first) ← prLoop lt pivot (a.length + 1) a first last
  let pos := first - 1
  let a ← wr a begin_ (← rd a pos)
  let a ← wr a pos pivot
  return (a, pos, already)

/-- pdqsort.codon:157-161 `_sort2` -/
def sort2 (a : List α) (i j : Int) : Option (List α) := do
  if lt (← rd a j) (← rd a i) then swap a i j else some a

/-- pdqsort.codon:163-168 `_sort3` -/
def sort3 (a : List α) (i j k : Int) : Option (List α) := do
  let a ← sort2 lt a i j
  let a ← sort2 lt a j k
  sort2 lt a i j

/-- pdqsort.codon:186-196: choose the pivot and put it at `begin`. -/
def choosePivot (a : List α) (begin_ end_ : Int) : Option (List α) := do
  let size := end_ - begin_
  let size2 := Int.tdiv size 2
  if size > 128 then
    let a ← sort3 lt a begin_ (begin_ + size2) (end_ - 1)
    let a ← sort3 lt a (begin_ + 1) (begin_ + (size2 - 1)) (end_ - 2)
    let a ← sort3 lt a (begin_ + 2) (begin_ + (size2 + 1)) (end_ - 3)
    let a ← sort3 lt a (begin_ + (size2 - 1)) (begin_ + size2) (begin_ + (size2 + 1))
    swap a begin_ (begin_ + size2)
  else sort3 lt a (begin_ + size2) begin_ (end_ - 1)

/-- pdqsort.codon:216-242: break patterns in the left part. -/
def shuffleLeft (a : List α) (begin_ pos lsize : Int) : Option (List α) :=
  if lsize ≥ 24 then do
    let q := Int.tdiv lsize 4
    let a ← swap a begin_ (begin_ + q)
    let a ← swap a (pos - 1) (pos - q)
    if lsize > 128 then
      let a ← swap a (begin_ + 1) (begin_ + (q + 1))
      let a ← swap a (begin_ + 2) (begin_ + (q + 2))
      let a ← swap a (pos - 2) (pos - (q + 1))
      swap a (pos - 3) (pos - (q + 2))
    else some a
  else some a

/-- pdqsort.codon:244-270: break patterns in the right part. -/
def shuffleRight (a : List α) (pos end_ rsize : Int) : Option (List α) :=
  if rsize ≥ 24 then do
    let q := Int.tdiv rsize 4
    let a ← swap a (pos + 1) (pos + (1 + q))
    let a ← swap a (end_ - 1) (end_ - q)
    if rsize > 128 then
      let a ← swap a (pos + 2) (pos + (2 + q))
      let a ← swap a (pos + 3) (pos + (3 + q))
      let a ← swap a (end_ - 2) (end_ - (1 + q))
      swap a (end_ - 3) (end_ - (2 + q))
    else some a
  else some a

/-- pdqsort.codon:273-278: both sides already (nearly) sorted? -/
def tryPartial (a : List α) (begin_ pos end_ : Int) (already : Bool) : Option (List α × Bool) :=
  if already then do
    let (a, ok) ← partialInsertionSort lt a begin_ pos
    if ok then partialInsertionSort lt a (pos + 1) end_ else some (a, false)
  else some (a, false)

/-- pdqsort.codon:198: is the element before the segment equal to the pivot? -/
def pdqAgain (a : List α) (begin_ : Int) (leftmost : Bool) : Option Bool :=
  if !leftmost then do
    return !lt (← rd a (begin_ - 1)) (← rd a begin_)
  else some false

/-- pdqsort.codon:170-282 `_pdq_sort`.  One turn of the `while True` loop; going round again
(`continue`, or line 281-282) is the tail call. -/
def pdqSort : Nat → List α → Int → Int → Int → Bool → Option (List α)
  | 0, _, _, _, _, _ => none
  | n + 1, a, begin_, end_, bad, leftmost => do
    let size := end_ - begin_
    if size < 24 then insertionSort lt a begin_ end_
    else
      let a ← choosePivot lt a begin_ end_
      let again ← pdqAgain lt a begin_ leftmost
      if again then
        let (a, pos) ← partitionLeft lt a begin_ end_
        pdqSort n a (pos + 1) end_ bad leftmost
      else
        let (a, pos, already) ← partitionRight lt a begin_ end_
        let lsize := pos - begin_
        let rsize := end_ - (pos + 1)
        if lsize < Int.tdiv size 8 ∨ rsize < Int.tdiv size 8 then
          if bad - 1 = 0 then heapSort lt a begin_ end_
          else
            let a ← shuffleLeft a begin_ pos lsize
            let a ← shuffleRight a pos end_ rsize
            let a ← pdqSort n a begin_ pos (bad - 1) leftmost
            pdqSort n a (pos + 1) end_ (bad - 1) false
        else
          let (a, done) ← tryPartial lt a begin_ pos end_ already
          if done then some a
          else
            let a ← pdqSort n a begin_ pos bad leftmost
            pdqSort n a (pos + 1) end_ bad false

/-- pdqsort.codon:284-287 `pdq_sort_array` -/
def pdqSortArray (a : List α) : Option (List α) :=
  pdqSort lt (a.length + 1) a 0 a.length (floorLog2 a.length a.length 0) true

/-! ### timsort.codon -/

/-- timsort.codon:69-74, 77-82: extend the run while `go` holds for neighbours; returns `n`. -/
def runLoop (go : α → α → Bool) (end_ : Int) : Nat → List α → Int → Int → Option Int
  | 0, _, _, _ => none
  | f + 1, a, i, n =>
    if i < end_ then do
      if go (← rd a (i - 1)) (← rd a i) then runLoop go end_ f a (i + 1) (n + 1) else some n
    else some n

/-- timsort.codon:54-84 `_count_run`: length of the run and whether it is in order. -/
def countRun (a : List α) (begin_ end_ : Int) : Option (Int × Bool) :=
  if end_ - begin_ = 1 then some (1, true)
  else do
    if !lt (← rd a begin_) (← rd a (begin_ + 1)) then
      return (← runLoop (fun x y => !lt x y) end_ (a.length + 1) a (begin_ + 2) 2, false)
    else
      return (← runLoop (fun x y => lt x y) end_ (a.length + 1) a (begin_ + 2) 2, true)

/-- timsort.codon:86-94 `_merge_compute_minrun` -/
def minrun : Nat → Nat → Nat → Nat
  | 0, n, r => n + r
  | f + 1, n, r => if n ≥ 64 then minrun f (n / 2) (r ||| (n % 2)) else n + r

/-- timsort.codon:96-100 `_reverse_sortslice` -/
def reverseSlice : Nat → List α → Int → Int → Option (List α)
  | 0, _, _, _ => none
  | n + 1, a, begin_, end_ =>
    if end_ - begin_ < 2 then some a
    else do reverseSlice n (← swap a begin_ (end_ - 1)) (begin_ + 1) (end_ - 1)

/-- timsort.codon:102-111 `_modified_comp` -/
def modComp (left : Bool) (a b : α) : Bool := if left then !lt b a else lt a b

/-- timsort.codon:140-145: gallop to the left; returns `(ofs, lastofs)`. -/
def gallopLeft (c : α → Bool) (a : List α) (curr maxofs : Int) : Nat → Int → Int → Option (Int × Int)
  | 0, _, _ => none
  | n + 1, ofs, lastofs =>
    if ofs < maxofs then do
      if c (← rd a (curr - ofs)) then gallopLeft c a curr maxofs n (2 * ofs + 1) ofs
      else some (ofs, lastofs)
    else some (ofs, lastofs)

/-- timsort.codon:156-160: gallop to the right; returns `(ofs, lastofs)`. -/
def gallopRight (c : α → Bool) (a : List α) (curr maxofs : Int) : Nat → Int → Int → Option (Int × Int)
  | 0, _, _ => none
  | n + 1, ofs, lastofs =>
    if ofs < maxofs then do
      if c (← rd a (curr + ofs)) then some (ofs, lastofs)
      else gallopRight c a curr maxofs n (2 * ofs + 1) ofs
    else some (ofs, lastofs)

/-- timsort.codon:168-174: binary search between `lastofs` and `ofs`. -/
def gallopSearch (c : α → Bool) (a : List α) (base : Int) : Nat → Int → Int → Option Int
  | 0, _, _ => none
  | n + 1, lastofs, ofs =>
    if lastofs < ofs then do
      let m := lastofs + Int.tdiv (ofs - lastofs) 2
      if c (← rd a (base + m)) then gallopSearch c a base n lastofs m
      else gallopSearch c a base n (m + 1) ofs
    else some ofs

/-- timsort.codon:113-176 `_gallop`.  (`arr[0]`, line 127, is read only to give `key` a type.) -/
def gallop (arr : List α) (a b : Int × Int) (hint : Int) (left : Bool) : Option Int := do
  let _ ← rd arr 0
  let key ← (if left then rd arr (b.1 + b.2 - 1) else rd arr b.1)
  let curr := a.1 + hint
  let c := modComp lt left key
  if c (← rd arr curr) then
    let maxofs := hint + 1
    let (ofs, lastofs) ← gallopLeft c arr curr maxofs (arr.length + 1) 1 0
    let ofs := if ofs > maxofs then maxofs else ofs
    gallopSearch c arr a.1 (arr.length + 1) (hint - ofs + 1) (hint - lastofs)
  else
    let maxofs := a.2 - hint
    let (ofs, lastofs) ← gallopRight c arr curr maxofs (arr.length + 1) 1 0
    let ofs := if ofs > maxofs then maxofs else ofs
    gallopSearch c arr a.1 (arr.length + 1) (lastofs + hint + 1) (ofs + hint)

/-- The state of the merge: array, `i`, `j`, `k`. -/
structure MState (α : Type) where
  arr : List α
  i : Int
  j : Int
  k : Int

/-- `while i < upto: arr[k] = src[i]; i += 1; k += 1` (timsort.codon:236-239, 252-255, 265-273);
returns the array and the new `k`. -/
def copyRun (src : List α) (base : Int) : Nat → List α → Int → Int → Int → Option (List α × Int × Int)
  | 0, _, _, _, _ => none
  | n + 1, arr, i, upto, k =>
    if i < upto then do
      copyRun src base n (← wr arr k (← rd src (base + i))) (i + 1) upto (k + 1)
    else some (arr, i, k)

/-- timsort.codon:203-221: one-at-a-time merging; `comb` holds `a_copy` (the first `la` cells) and
`b_copy` (the rest). -/
def mergeOne (comb : List α) (la lb mg : Int) : Nat → MState α → Int → Int → Option (MState α)
  | 0, _, _, _ => none
  | n + 1, s, acount, bcount =>
    if s.i < la ∧ s.j < lb then do
      let y ← rd comb (la + s.j)
      let x ← rd comb s.i
      if lt y x then
        let s : MState α := ⟨← wr s.arr s.k y, s.i, s.j + 1, s.k + 1⟩
        if bcount + 1 ≥ mg then some s else mergeOne comb la lb mg n s 0 (bcount + 1)
      else
        let s : MState α := ⟨← wr s.arr s.k x, s.i + 1, s.j, s.k + 1⟩
        if acount + 1 ≥ mg then some s else mergeOne comb la lb mg n s (acount + 1) 0
    else some s

/-- timsort.codon:235-242: after galloping in `a`. -/
def takeA (comb : List α) (la acount : Int) (s : MState α) : Option (MState α) :=
  if acount ≠ 0 then do
    let (arr, i, k) ← copyRun comb 0 (comb.length + 1) s.arr s.i acount s.k
    let arr ← wr arr k (← rd comb (la + s.j))
    return ⟨arr, i, s.j + 1, k + 1⟩
  else some s

/-- timsort.codon:251-258: after galloping in `b`. -/
def takeB (comb : List α) (la bcount bEnd : Int) (s : MState α) : Option (MState α) :=
  if bcount ≠ 0 then do
    let (arr, j, k) ← copyRun comb la (comb.length + 1) s.arr s.j bEnd s.k
    let arr ← wr arr k (← rd comb s.i)
    return ⟨arr, s.i + 1, j, k + 1⟩
  else some s

/-- timsort.codon:228-261: the galloping loop; returns the state and `min_gallop`. -/
def mergeGallop (comb : List α) (la lb : Int) : Nat → MState α → Int → Option (MState α × Int)
  | 0, _, _ => none
  | n + 1, s, mg =>
    if s.i < la ∧ s.j < lb then do
      let mg := if mg > 1 then mg - 1 else mg
      let acount ← gallop lt comb (0, la) (la, lb) s.i false
      let s ← takeA comb la acount s
      if s.i = la ∨ s.j = lb then some (s, mg)
      else
        let bEnd ← gallop lt comb (la, lb) (0, la) s.j true
        let bcount := lb - bEnd
        let s ← takeB comb la bcount bEnd s
        if acount < 7 ∧ bcount < 7 then some (s, mg)
        else mergeGallop comb la lb n s mg
    else some (s, mg)

/-- timsort.codon:202-263: the main loop. -/
def mergeMain (comb : List α) (la lb : Int) : Nat → MState α → Int → Option (MState α)
  | 0, _, _ => none
  | n + 1, s, mg =>
    if s.i < la ∧ s.j < lb then do
      let s ← mergeOne lt comb la lb mg (comb.length + 1) s 0 0
      if s.i = la ∨ s.j = lb then some s
      else
        let (s, mg) ← mergeGallop lt comb la lb (comb.length + 1) s (mg + 1)
        mergeMain comb la lb n s (mg + 1)
    else some s

/-- timsort.codon:178-273 `_merge_with_gallop`.  The copying loops (192-198) read `a[1]` cells from
`a[0]` and `b[1]` cells from `b[0]`. -/
def mergeWithGallop (arr : List α) (a b : Int × Int) : Option (List α) := do
  let ca ← (List.range a.2.toNat).mapM fun t : Nat => rd arr (a.1 + t)
  let cb ← (List.range b.2.toNat).mapM fun t : Nat => rd arr (b.1 + t)
  let comb := ca ++ cb
  let s ← mergeMain lt comb a.2 b.2 (comb.length + 1) ⟨arr, 0, 0, a.1⟩ 7
  let (arr, _, k) ← copyRun comb 0 (comb.length + 1) s.arr s.i a.2 s.k
  let (arr, _, _) ← copyRun comb a.2 (comb.length + 1) arr s.j b.2 k
  return arr

/-- timsort.codon:275-297 `_merge_at` -/
def mergeAt (arr : List α) (a b : Int × Int) : Option (List α) := do
  let k ← gallop lt arr a b 0 false
  let lenA := a.2 - k
  if lenA = 0 then some arr
  else
    -- line 293 passes the untrimmed `a` again
    let lenB ← gallop lt arr b a (b.2 - 1) true
    if lenB = 0 then some arr
    else mergeWithGallop lt arr (a.1 + k, lenA) (b.1, lenB)

/-- timsort.codon:309-334, the loop of `_merge_collapse`.  The stack is kept top first. -/
def collapseLoop : Nat → List α → List (Int × Int) → Option (List α × List (Int × Int))
  | 0, _, _ => none
  | n + 1, arr, stack =>
    match stack with
    | c :: b :: a :: rest =>
      if a.2 > b.2 + c.2 ∧ b.2 > c.2 then some (arr, stack)
      else if a.2 ≤ b.2 + c.2 ∧ a.2 < c.2 then do
        let arr ← mergeAt lt arr a b
        collapseLoop n arr (c :: (a.1, a.2 + b.2) :: rest)
      else do
        let arr ← mergeAt lt arr b c
        collapseLoop n arr ((b.1, b.2 + c.2) :: a :: rest)
    | _ => some (arr, stack)

/-- timsort.codon:299-345 `_merge_collapse` -/
def mergeCollapse (arr : List α) (stack : List (Int × Int)) :
    Option (List α × List (Int × Int)) := do
  let (arr, stack) ← collapseLoop lt (stack.length + 1) arr stack
  match stack with
  | [y, x] =>
    if x.2 ≤ y.2 then do
      let arr ← mergeAt lt arr x y
      return (arr, [(x.1, x.2 + y.2)])
    else return (arr, stack)
  | _ => return (arr, stack)

/-- timsort.codon:347-358 `_final_merge` -/
def finalMerge : Nat → List α → List (Int × Int) → Option (List α)
  | 0, _, _ => none
  | n + 1, arr, stack =>
    match stack with
    | c :: b :: rest => do finalMerge n (← mergeAt lt arr b c) ((b.1, b.2 + c.2) :: rest)
    | _ => some arr

/-- timsort.codon:370-377: find and extend the next run; returns the array and the length. -/
def nextRun (arr : List α) (i end_ mr : Int) : Option (List α × Int) := do
  let (n, inorder) ← countRun lt arr i end_
  let arr ← (if !inorder then reverseSlice (arr.length + 1) arr i (i + n) else some arr)
  if n < mr then
    let force := min mr (end_ - i)
    let arr ← insertionSort lt arr i (i + force)
    return (arr, force)
  else return (arr, n)

/-- timsort.codon:369-381 -/
def timLoop (end_ mr : Int) : Nat → List α → Int → List (Int × Int) →
    Option (List α × List (Int × Int))
  | 0, _, _, _ => none
  | f + 1, arr, i, stack =>
    if i < end_ then do
      let (arr, n) ← nextRun lt arr i end_ mr
      let (arr, stack) ← mergeCollapse lt arr ((i, n) :: stack)
      timLoop end_ mr f arr (i + n) stack
    else some (arr, stack)

/-- timsort.codon:360-383 `_tim_sort` -/
def timSort (arr : List α) (begin_ end_ : Int) : Option (List α) :=
  if end_ - begin_ < 2 then some arr
  else do
    let mr : Int := minrun (end_ - begin_).toNat (end_ - begin_).toNat 0
    let (arr, stack) ← timLoop lt end_ mr (arr.length + 1) arr begin_ []
    finalMerge lt (stack.length + 1) arr stack

/-- The `algorithm` argument of `sort`. -/
inductive Algo where
  | insertion | heap | quick | pdq | tim
deriving DecidableEq

/-- internal/sort.codon:44-58 `_sort_list` (with the array functions of the algorithms). -/
def sortList (algo : Algo) (a : List α) : Option (List α) :=
  match algo with
  | .insertion => insertionSort lt a 0 a.length
  | .heap => heapSort lt a 0 a.length
  | .quick => qsortArray lt a
  | .pdq => pdqSortArray lt a
  | .tim => timSort lt a 0 a.length

/-- internal/sort.codon:62-85: `list.sort` with the chosen algorithm, then `self.reverse()`. -/
def sort (algo : Algo) (reverse : Bool) (a : List α) : Option (List α) := do
  let a ← sortList lt algo a
  return if reverse then a.reverse else a

/-- internal/sort.codon:62-87 `list.sort` and, on the copy it makes, internal/sort.codon:9-22 `sorted`.
`algorithm = none` is `"auto"`; `hasKey` says whether a key function was passed (the comparison `lt` is
that of the keys); `pdqCompat` is `_is_pdq_compatible(self[0])` (lines 24-42), a property of the type. -/
def listSort (algorithm : Option Algo) (hasKey pdqCompat reverse : Bool) (a : List α) : Option (List α) := do
  let a ← (if !hasKey then
      match algorithm with
      | none =>
        if !a.isEmpty then
          if pdqCompat then sortList lt .pdq a else sortList lt .tim a
        else some a
      | some algo => sortList lt algo a
    else
      match algorithm with
      | none => sortList lt .tim a
      | some algo => sortList lt algo a)
  return if reverse then a.reverse else a

end

/-- A few runs of the models. -/
def t7 : List Nat := [5, 3, 8, 1, 9, 2, 7, 3, 3, 0, 6]
example : sort (fun a b => decide (a < b)) .insertion false t7 = some [0, 1, 2, 3, 3, 3, 5, 6, 7, 8, 9] := by
  decide +kernel
example : sort (fun a b => decide (a < b)) .heap false t7 = some [0, 1, 2, 3, 3, 3, 5, 6, 7, 8, 9] := by
  decide +kernel
example : sort (fun a b => decide (a < b)) .quick false t7 = some [0, 1, 2, 3, 3, 3, 5, 6, 7, 8, 9] := by
  decide +kernel
example : sort (fun a b => decide (a < b)) .pdq false t7 = some [0, 1, 2, 3, 3, 3, 5, 6, 7, 8, 9] := by
  decide +kernel
example : sort (fun a b => decide (a < b)) .tim true t7 = some [9, 8, 7, 6, 5, 3, 3, 3, 2, 1, 0] := by
  decide +kernel

end Codon.Sort
