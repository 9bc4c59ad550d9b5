import Verif.Base.Order

/-!
# Model of `heapq`

`stdlib/heapq.codon:3-131`.  The heap is the sequence of the list's elements (C23 relates the `list`
class to sequences); `none` is an `IndexError` (or a loop that runs longer than its bound, which the
theorems exclude).  `lt` is `<` of the elements.
-/

namespace Codon.Heapq

section
variable {T : Type} (lt : T → T → Bool)

/-- `heap[i] = v`. -/
def put (h : List T) (i : Nat) (v : T) : Option (List T) := if i < h.length then some (h.set i v) else none

/-- The loop and last line of `_siftdown` (`heapq.codon:10-18`). -/
def siftdownLoop (start : Nat) (newitem : T) : Nat → List T → Nat → Option (List T)
  | 0, _, _ => none
  | n + 1, h, pos =>
    if pos > start then do
      let parentpos := (pos - 1) / 2
      let parent ← h[parentpos]?
      if lt newitem parent then
        siftdownLoop start newitem n (← put h pos parent) parentpos
      else put h pos newitem
    else put h pos newitem

/-- `heapq.codon:6-18` `_siftdown`. -/
def siftdown (h : List T) (start pos : Nat) : Option (List T) := do
  siftdownLoop lt start (← h[pos]?) (pos + 1) h pos

/-- The loop of `_siftup` (`heapq.codon:25-33`); returns the list and the position of the hole. -/
def siftupLoop (endpos : Nat) : Nat → List T → Nat → Option (List T × Nat)
  | 0, _, _ => none
  | n + 1, h, pos =>
    let child := 2 * pos + 1
    if child < endpos then do
      let right := child + 1
      let child ← (if right < endpos then do
        return if !lt (← h[child]?) (← h[right]?) then right else child
        else some child)
      siftupLoop endpos n (← put h pos (← h[child]?)) child
    else some (h, pos)

/-- `heapq.codon:20-37` `_siftup`. -/
def siftup (h : List T) (pos : Nat) : Option (List T) := do
  let newitem ← h[pos]?
  let (h, p) ← siftupLoop lt h.length (h.length + 1) h pos
  siftdown lt (← put h p newitem) pos p

/-- `heapq.codon:76-78` `heappush`. -/
def heappush (h : List T) (x : T) : Option (List T) := siftdown lt (h ++ [x]) 0 h.length

/-- `heapq.codon:80-87` `heappop`: the item and the remaining heap. -/
def heappop (h : List T) : Option (T × List T) := do
  let lastelt ← h.getLast?
  let h := h.dropLast
  if h ≠ [] then do
    let ret ← h[0]?
    return (ret, ← siftup lt (← put h 0 lastelt) 0)
  else return (lastelt, h)

/-- `heapq.codon:89-93` `heapreplace`. -/
def heapreplace (h : List T) (x : T) : Option (T × List T) := do
  let ret ← h[0]?
  return (ret, ← siftup lt (← put h 0 x) 0)

/-- `heapq.codon:95-99` `heappushpop`. -/
def heappushpop (h : List T) (x : T) : Option (T × List T) :=
  match h[0]? with
  | some top => if lt top x then do return (top, ← siftup lt (← put h 0 x) 0) else some (x, h)
  | none => some (x, h)

/-- The loop of `heapify` (`heapq.codon:108-109`), `i = n-1, …, 0`. -/
def heapifyFrom : Nat → List T → Option (List T)
  | 0, h => some h
  | n + 1, h => do heapifyFrom n (← siftup lt h n)

/-- `heapq.codon:101-109` `heapify`. -/
def heapify (h : List T) : Option (List T) := heapifyFrom lt (h.length / 2) h

/-- The loop and last line of `_siftdown_max` (`heapq.codon:44-52`). -/
def siftdownMaxLoop (start : Nat) (newitem : T) : Nat → List T → Nat → Option (List T)
  | 0, _, _ => none
  | n + 1, h, pos =>
    if pos > start then do
      let parentpos := (pos - 1) / 2
      let parent ← h[parentpos]?
      if lt parent newitem then
        siftdownMaxLoop start newitem n (← put h pos parent) parentpos
      else put h pos newitem
    else put h pos newitem

/-- `heapq.codon:39-52` `_siftdown_max`. -/
def siftdownMax (h : List T) (start pos : Nat) : Option (List T) := do
  siftdownMaxLoop lt start (← h[pos]?) (pos + 1) h pos

/-- The loop of `_siftup_max` (`heapq.codon:60-69`). -/
def siftupMaxLoop (endpos : Nat) : Nat → List T → Nat → Option (List T × Nat)
  | 0, _, _ => none
  | n + 1, h, pos =>
    let child := 2 * pos + 1
    if child < endpos then do
      let right := child + 1
      let child ← (if right < endpos then do
        return if !lt (← h[right]?) (← h[child]?) then right else child
        else some child)
      siftupMaxLoop endpos n (← put h pos (← h[child]?)) child
    else some (h, pos)

/-- `heapq.codon:54-74` `_siftup_max`. -/
def siftupMax (h : List T) (pos : Nat) : Option (List T) := do
  let newitem ← h[pos]?
  let (h, p) ← siftupMaxLoop lt h.length (h.length + 1) h pos
  siftdownMax lt (← put h p newitem) pos p

/-- `heapq.codon:111-118` `_heappop_max`. -/
def heappopMax (h : List T) : Option (T × List T) := do
  let lastelt ← h.getLast?
  let h := h.dropLast
  if h ≠ [] then do
    let ret ← h[0]?
    return (ret, ← siftupMax lt (← put h 0 lastelt) 0)
  else return (lastelt, h)

/-- `heapq.codon:120-124` `_heapreplace_max`. -/
def heapreplaceMax (h : List T) (x : T) : Option (T × List T) := do
  let ret ← h[0]?
  return (ret, ← siftupMax lt (← put h 0 x) 0)

/-- The loop of `_heapify_max` (`heapq.codon:128-129`). -/
def heapifyMaxFrom : Nat → List T → Option (List T)
  | 0, h => some h
  | n + 1, h => do heapifyMaxFrom n (← siftupMax lt h n)

/-- `heapq.codon:126-129` `_heapify_max`. -/
def heapifyMax (h : List T) : Option (List T) := heapifyMaxFrom lt (h.length / 2) h

end

end Codon.Heapq
