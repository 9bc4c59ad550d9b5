import Verif.Sort.Model
/-!
# Model of the stable sorts of `numpy`: stdlib/numpy/sorting.codon:762-1497, 1916-1994

Arrays are lists with checked accesses (`Codon.Sort.rd`, `wr`, `swap`): `none` is an access outside the array, the buffer or the stack (or a loop running longer than its fuel, which the theorems
exclude).  `lt x y` is `_less(x, y)`.  Positions are absolute where the code passes pointers into the array.  The functions with an `a` in front (`atimsort`, …) are the same code on an array of
indices, with `lt i j = _less(v[i], v[j])`.
-/
namespace Codon.NpSort
open Codon.Sort

section Tim
variable {α : Type} (lt : α → α → Bool)

/-- `TIMSORT_STACK_SIZE` (sorting.codon:937). -/
def stackSize : Nat := 128

/-- `_compute_min_run` (sorting.codon:939-946). -/
def minRun : Nat → Nat → Nat → Nat
  | 0, n, r => n + r
  | f + 1, n, r => if 64 < n then minRun f (n / 2) (r ||| (n % 2)) else n + r

/-- `_count_run` (sorting.codon:977-1021): the array and the length of the run from `l` on.  The loops are those of `Codon.Sort`: the search for the end of the run (985-986, 989-990), the reversal
(992-997) and the insertions (1010-1019). -/
def countRun (a : List α) (l num minrun : Int) : Option (List α × Int) :=
  if num - l = 1 then some (a, 1)
  else do
    let y ← rd a (l + 1)
    let x ← rd a l
    let (a, sz) ← (if !lt y x then do
        let n ← runLoop (fun x y => !lt y x) num (a.length + 1) a (l + 2) 2
        some (a, n)
      else do
        let n ← runLoop (fun x y => lt y x) num (a.length + 1) a (l + 2) 2
        let a ← reverseSlice (a.length + 1) a l (l + n)
        some (a, n))
    if sz < minrun then
      let sz' := if l + minrun < num then minrun else num - l
      let a ← insOuter lt l (l + sz') (a.length + 1) a (l + sz)
      some (a, sz')
    else some (a, sz)

/-- The loop of `_merge_left` (sorting.codon:1030-1038); `buf` is the copy of the first run. -/
def mlLoop (buf : List α) (end_ : Int) : Nat → List α → Int → Int → Int → Option (List α × Int × Int × Int)
  | 0, _, _, _, _ => none
  | n + 1, a, p1, p2, p3 =>
    if p1 < p2 ∧ p2 < end_ then do
      let y ← rd a p2
      let x ← rd buf p3
      if lt y x then mlLoop buf end_ n (← wr a p1 y) (p1 + 1) (p2 + 1) p3
      else mlLoop buf end_ n (← wr a p1 x) (p1 + 1) p2 (p3 + 1)
    else some (a, p1, p2, p3)

/-- `_merge_left` (sorting.codon:1023-1041).  The buffer holds the `l1` elements copied to it; a copy of a negative number of bytes is `none`. -/
def mergeLeft (a : List α) (p1 l1 p2 l2 : Int) : Option (List α) := do
  let buf ← (List.range l1.toNat).mapM fun t : Nat => rd a (p1 + t)
  let a ← wr a p1 (← rd a p2)
  let (a, q1, q2, q3) ← mlLoop lt buf (p2 + l2) (a.length + 1) a (p1 + 1) (p2 + 1) 0
  if q1 ≠ q2 then
    if q2 < q1 then none
    else (copyRun buf 0 (buf.length + 1) a q3 (q3 + (q2 - q1)) q1).map Prod.fst
  else some a

/-- The loop of `_merge_right` (sorting.codon:1053-1061); `buf` is the copy of the second run. -/
def mrLoop (buf : List α) (start : Int) : Nat → List α → Int → Int → Int → Option (List α × Int × Int × Int)
  | 0, _, _, _, _ => none
  | n + 1, a, p1, p2, p3 =>
    if p1 < p2 ∧ start < p1 then do
      let y ← rd buf p3
      let x ← rd a p1
      if lt y x then mrLoop buf start n (← wr a p2 x) (p1 - 1) (p2 - 1) p3
      else mrLoop buf start n (← wr a p2 y) p1 (p2 - 1) (p3 - 1)
    else some (a, p1, p2, p3)

/-- `_merge_right` (sorting.codon:1043-1065). -/
def mergeRight (a : List α) (p1 l1 p2 l2 : Int) : Option (List α) := do
  let start := p1 - 1
  let buf ← (List.range l2.toNat).mapM fun t : Nat => rd a (p2 + t)
  let a ← wr a (p2 + l2 - 1) (← rd a (p1 + l1 - 1))
  let (a, q1, q2, q3) ← mrLoop lt buf start (a.length + 1) a (p1 + l1 - 2) (p2 + l2 - 2) (l2 - 1)
  if q1 ≠ q2 then
    let ofs := q2 - start
    if ofs < 0 then none
    else (copyRun buf 0 (buf.length + 1) a (q3 - ofs + 1) (q3 + 1) (start + 1)).map Prod.fst
  else some a

/-- The first loop of `_gallop_right` (sorting.codon:1074-1083); `ofs` does not overflow here. -/
def grLoop (a : List α) (base size : Int) (key : α) : Nat → Int → Int → Option (Int × Int)
  | 0, _, _ => none
  | n + 1, last, ofs =>
    if size ≤ ofs then some (last, size)
    else do
      if lt key (← rd a (base + ofs)) then some (last, ofs) else grLoop a base size key n ofs (2 * ofs + 1)

/-- The second loop of `_gallop_right` (sorting.codon:1085-1091). -/
def grSearch (a : List α) (base : Int) (key : α) : Nat → Int → Int → Option Int
  | 0, _, _ => none
  | n + 1, last, ofs =>
    if last + 1 < ofs then do
      let m := last + (ofs - last) / 2
      if lt key (← rd a (base + m)) then grSearch a base key n last m else grSearch a base key n m ofs
    else some ofs

/-- `_gallop_right` (sorting.codon:1067-1093). -/
def gallopR (a : List α) (base size : Int) (key : α) : Option Int := do
  if lt key (← rd a base) then some 0
  else
    let (last, ofs) ← grLoop lt a base size key (a.length + 1) 0 1
    grSearch lt a base key (a.length + 1) last ofs

/-- The first loop of `_gallop_left` (sorting.codon:1102-1111). -/
def glLoop (a : List α) (base size : Int) (key : α) : Nat → Int → Int → Option (Int × Int)
  | 0, _, _ => none
  | n + 1, last, ofs =>
    if size ≤ ofs then some (last, size)
    else do
      if lt (← rd a (base + (size - ofs - 1))) key then some (last, ofs) else glLoop a base size key n ofs (2 * ofs + 1)

/-- The second loop of `_gallop_left` (sorting.codon:1116-1122). -/
def glSearch (a : List α) (base : Int) (key : α) : Nat → Int → Int → Option Int
  | 0, _, _ => none
  | n + 1, l, r =>
    if l + 1 < r then do
      let m := l + (r - l) / 2
      if lt (← rd a (base + m)) key then glSearch a base key n m r else glSearch a base key n l m
    else some r

/-- `_gallop_left` (sorting.codon:1095-1124). -/
def gallopL (a : List α) (base size : Int) (key : α) : Option Int := do
  if lt (← rd a (base + (size - 1))) key then some size
  else
    let (last, ofs) ← glLoop lt a base size key (a.length + 1) 0 1
    glSearch lt a base key (a.length + 1) (size - ofs - 1) (size - last - 1)

/-- `_merge_at` (sorting.codon:1126-1148) of the runs `x` and `y`, pairs of start and length. -/
def mergeAt (a : List α) (x y : Int × Int) : Option (List α) := do
  let k ← gallopR lt a x.1 x.2 (← rd a y.1)
  if x.2 = k then some a
  else
    let l1 := x.2 - k
    let l2 ← gallopL lt a y.1 y.2 (← rd a (y.1 - 1))
    if l2 < l1 then mergeRight lt a (x.1 + k) l1 y.1 l2
    else mergeLeft lt a (x.1 + k) l1 y.1 l2

/-- The condition sorting.codon:1161-1162: `rest` is the stack below `b` and `c`. -/
def tooShort (b c : Int) (rest : List (Int × Int)) : Bool :=
  match rest with
  | [] => false
  | [a] => decide (a.2 ≤ b + c)
  | a :: d :: _ => decide (a.2 ≤ b + c) || decide (d.2 ≤ a.2 + b)

/-- `_try_collapse` (sorting.codon:1150-1184).  The stack is kept top first. -/
def tryCollapse : Nat → List α → List (Int × Int) → Option (List α × List (Int × Int))
  | 0, _, _ => none
  | n + 1, arr, stack =>
    match stack with
    | c :: b :: rest =>
      if tooShort b.2 c.2 rest then
        match rest with
        | [] => none
        | a :: rest =>
          if a.2 ≤ c.2 then do
            let arr ← mergeAt lt arr a b
            tryCollapse n arr (c :: (a.1, a.2 + b.2) :: rest)
          else do
            let arr ← mergeAt lt arr b c
            tryCollapse n arr ((b.1, b.2 + c.2) :: a :: rest)
      else if b.2 ≤ c.2 then do
        let arr ← mergeAt lt arr b c
        tryCollapse n arr ((b.1, b.2 + c.2) :: rest)
      else some (arr, stack)
    | _ => some (arr, stack)

/-- `_force_collapse` (sorting.codon:1186-1209). -/
def forceCollapse : Nat → List α → List (Int × Int) → Option (List α)
  | 0, _, _ => none
  | n + 1, arr, stack =>
    match stack with
    | c :: b :: a :: rest =>
      if a.2 ≤ c.2 then do
        let arr ← mergeAt lt arr a b
        forceCollapse n arr (c :: (a.1, a.2 + b.2) :: rest)
      else do
        let arr ← mergeAt lt arr b c
        forceCollapse n arr ((b.1, b.2 + c.2) :: a :: rest)
    | [c, b] => mergeAt lt arr b c
    | _ => some arr

/-- The loop of `timsort` (sorting.codon:1218-1223). -/
def timLoop (num minrun : Int) : Nat → List α → Int → List (Int × Int) → Option (List α × List (Int × Int))
  | 0, _, _, _ => none
  | f + 1, a, l, stack =>
    if l < num then do
      let (a, n) ← countRun lt a l num minrun
      if stack.length < stackSize then
        let (a, stack) ← tryCollapse lt (stack.length + 2) a ((l, n) :: stack)
        timLoop num minrun f a (l + n) stack
      else none
    else some (a, stack)

/-- `timsort` (sorting.codon:1211-1226). -/
def timsort (a : List α) : Option (List α) := do
  let (a, stack) ← timLoop lt a.length (minRun a.length a.length 0) (a.length + 1) a 0 []
  forceCollapse lt (stack.length + 1) a stack
end Tim

section Heap
variable {α : Type} (lt : α → α → Bool)

/-- The inner loop of `heapsort` (sorting.codon:65-73, 82-90).  Positions count from 1, as those of `a = start - 1`. -/
def siftLoop (n : Int) (tmp : α) : Nat → List α → Int → Int → Option (List α × Int)
  | 0, _, _, _ => none
  | f + 1, a, i, j =>
    if j ≤ n then do
      let j ← (if j < n then do
          let x ← rd a (j - 1)
          let y ← rd a j
          some (if lt x y then j + 1 else j)
        else some j)
      let x ← rd a (j - 1)
      if lt tmp x then siftLoop n tmp f (← wr a (i - 1) x) j (j + j) else some (a, i)
    else some (a, i)

/-- One round of the first loop (sorting.codon:61-74). -/
def heapBuild (n : Int) : Nat → List α → Int → Option (List α)
  | 0, _, _ => none
  | f + 1, a, l =>
    if 0 < l then do
      let tmp ← rd a (l - 1)
      let (a, i) ← siftLoop lt n tmp (a.length + 1) a l (2 * l)
      heapBuild n f (← wr a (i - 1) tmp) (l - 1)
    else some a

/-- The second loop (sorting.codon:76-91). -/
def heapTake : Nat → List α → Int → Option (List α)
  | 0, _, _ => none
  | f + 1, a, n =>
    if 1 < n then do
      let tmp ← rd a (n - 1)
      let a ← wr a (n - 1) (← rd a 0)
      let (a, i) ← siftLoop lt (n - 1) tmp (a.length + 1) a 1 2
      heapTake f (← wr a (i - 1) tmp) (n - 1)
    else some a

/-- `heapsort` (sorting.codon:58-91). -/
def heapsort (a : List α) : Option (List α) := do
  let a ← heapBuild lt a.length (a.length + 1) a (a.length / 2)
  heapTake lt (a.length + 1) a a.length

/-- `heapsort(arr + begin, end - begin)` (sorting.codon:420): the part of the array is sorted in place; a part that is not within the array is an undefined access. -/
def heapsortPart (a : List α) (b e : Int) : Option (List α) :=
  if 0 ≤ b ∧ b ≤ e ∧ e ≤ a.length then do
    let s ← heapsort lt ((a.take e.toNat).drop b.toNat)
    return a.take b.toNat ++ s ++ a.drop e.toNat
  else none

/-- `_pdq_sort` (sorting.codon:379-482).  `_partial_insertion_sort`, `_partition_left`, `_partition_right`, `_sort2`, `_sort3` (sorting.codon:258-377), the choice of the pivot (sorting.codon:393-403), the swaps against patterns (sorting.codon:423-469) and `insertionsort` (sorting.codon:32-41, on `arr + begin`) are line for line the functions of `algorithms/pdqsort.codon` and `algorithms/insertionsort.codon` with `_less` as the order, whose models are used here.  One turn of the `while True` loop; going round again is the tail call. -/
def pdqSort : Nat → List α → Int → Int → Int → Bool → Option (List α)
  | 0, _, _, _, _, _ => none
  | n + 1, a, begin_, end_, bad, leftmost => do
    let size := end_ - begin_
    if size < 24 then insertionSort lt a begin_ end_
    else
      let a ← choosePivot lt a begin_ end_
      let again ← pdqAgain lt a begin_ leftmost
      if again then
        let (a, pos) ← partitionLeft lt a begin_ end_
        pdqSort n a (pos + 1) end_ bad leftmost
      else
        let (a, pos, already) ← partitionRight lt a begin_ end_
        let lsize := pos - begin_
        let rsize := end_ - (pos + 1)
        if lsize < Int.tdiv size 8 ∨ rsize < Int.tdiv size 8 then
          if bad - 1 = 0 then heapsortPart lt a begin_ end_
          else
            let a ← shuffleLeft a begin_ pos lsize
            let a ← shuffleRight a pos end_ rsize
            let a ← pdqSort n a begin_ pos (bad - 1) leftmost
            pdqSort n a (pos + 1) end_ (bad - 1) false
        else
          let (a, done) ← tryPartial lt a begin_ pos end_ already
          if done then some a
          else
            let a ← pdqSort n a begin_ pos bad leftmost
            pdqSort n a (pos + 1) end_ bad false

/-- `quicksort` (sorting.codon:501-521) of elements that are none of the numbers sorted by the compiled library. -/
def quicksort (a : List α) : Option (List α) := pdqSort lt (a.length + 1) a 0 a.length (floorLog2 a.length a.length 0) true
end Heap

section Radix
variable {α : Type} (key : α → Nat)

/-- `nth_byte` (sorting.codon:772-773). -/
def nthByte (k l : Nat) : Nat := k / 256 ^ l % 256

/-- `key_of` (sorting.codon:766-770) of a `w`-bit number, given by its bits: the sign bit of a signed number is turned over. -/
def keyOf (signed : Bool) (w x : Nat) : Nat := if signed then x ^^^ 2 ^ (w - 1) else x

/-- `cnt[l*n + b]` after the first loop (sorting.codon:784-787): the number of elements whose byte `l` is `b`. -/
def cntOf (a : List α) (l b : Nat) : Nat := a.countP fun x => nthByte (key x) l == b

/-- `cnt[l*n + b]` after the running sums (sorting.codon:796-801): the number of elements whose byte `l` is less than `b`. -/
def sumOf (a : List α) (l : Nat) : Nat → Nat
  | 0 => 0
  | b + 1 => sumOf a l b + cntOf key a l b

/-- One pass (sorting.codon:803-809): the elements are written to `aux`, each at the counter of its byte, which goes up. -/
def passLoop (l : Nat) : List α → (Nat → Nat) → List (Option α) → Option (List (Option α))
  | [], _, aux => some aux
  | x :: xs, cnt, aux =>
    let d := nthByte (key x) l
    if cnt d < aux.length then passLoop l xs (fun b => if b = d then cnt b + 1 else cnt b) (aux.set (cnt d) (some x))
    else none

/-- A pass over the array; the counters are those of the array as it was given (`a0`; the values `start` in `_aradixsort0`, 881-887).  `none` also if a cell of `aux` is left unset. -/
def pass (a0 : List α) (l : Nat) (a : List α) : Option (List α) := do
  let aux ← passLoop key l a (sumOf key a0 l) (List.replicate a.length none)
  aux.mapM id

/-- The columns in which not all elements have the byte of the first one (sorting.codon:789-794). -/
def columns (a : List α) (k0 m : Nat) : List Nat := (List.range m).filter fun l => cntOf key a l (nthByte k0 l) != a.length

/-- `_radixsort0` (sorting.codon:775-814) and `_aradixsort0` (854-893): `a0` is the array that is counted, `a` the one that is sorted. -/
def radix0 (m : Nat) (a0 a : List α) : Option (List α) :=
  match a0 with
  | [] => none
  | x :: _ => (columns key a0 (key x) m).foldlM (fun b l => pass key a0 l b) a

/-- `all_sorted` (sorting.codon:820-827). -/
def allSorted : List α → Bool
  | x :: y :: r => if key x > key y then false else allSorted (y :: r)
  | _ => true

/-- `_radixsort` (sorting.codon:816-837) of numbers of `m` bytes. -/
def radixsort (m : Nat) (a : List α) : Option (List α) :=
  if a.length < 2 then some a else if allSorted key a then some a else radix0 key m a a

/-- `_aradixsort` (sorting.codon:895-916): the indices `tosort` of an array of `num` elements; `key i` is the key of `start[i]`. -/
def aradixsort (key : Nat → Nat) (m num : Nat) (tosort : List Nat) : Option (List Nat) :=
  if num < 2 then some tosort else if allSorted key tosort then some tosort else radix0 key m (List.range num) tosort
end Radix

/-- `_lexsort` of one line (sorting.codon:1957-1970, 1981-1986): the indices are sorted by each key in turn; `sorter` is `astablesort` with the key. -/
def lexsort {κ ι : Type} (sorter : κ → List ι → Option (List ι)) (keys : List κ) (idx : List ι) : Option (List ι) := keys.foldlM (fun r k => sorter k r) idx

end Codon.NpSort
