/-!
# Searching in sorted arrays

Source: `/repo/stdlib/numpy/routines.codon:3240-3377` (`_bisect_left`, `_bisect_right`, the two with a
permutation, `searchsorted`), `/repo/stdlib/numpy/interp.codon:9-63` (`_linear_search`,
`_binary_search_with_guess`), `/repo/stdlib/numpy/statistics.codon:444-528` (`bincount` without weights,
`_monotonicity`, `digitize`).

Simplifications: a one-dimensional array is the list of its elements (the reads go through its stride,
C61 to C63); the array `v` of keys is the list of its elements in the order of `multirange`, and the
result the list of the results in the same order.  Keys and elements have the same type, with `lt` for
`<`.
-/

namespace Codon.NpSrch

/-- How a function ends: `bad` is a read outside an array, or that the bound on the number of rounds
is used up. -/
inductive Out (α : Type) where
  | ok (a : α)
  | valueError
  | bad
  deriving DecidableEq, Repr

variable {α : Type} (lt : α → α → Bool)

/-- `_bisect_left` and `_bisect_right` (`routines.codon:3240-3260`); with a `get` that goes through a
permutation, `_bisect_left_perm` and `_bisect_right_perm` (`:3262-3286`). -/
def bisect (left : Bool) (get : Nat → Option α) (x : α) : Nat → Nat → Nat → Out (Nat × Nat)
  | 0, _, _ => .bad
  | f + 1, lo, hi =>
    if lo < hi then
      let mid := (lo + hi) / 2
      match get mid with
      | none => .bad
      | some elem =>
        if left then
          if lt elem x then bisect left get x f (mid + 1) hi else bisect left get x f lo mid
        else
          if lt x elem then bisect left get x f lo mid else bisect left get x f (mid + 1) hi
    else .ok (lo, hi)

/-- The loop over the keys (`routines.codon:3354-3376`): the bounds of one search are used for the
next. -/
def searchLoop (left : Bool) (get : Nat → Option α) (n : Nat) :
    List α → α → Nat → Nat → Out (List Nat)
  | [], _, _, _ => .ok []
  | x :: r, last, lo, hi =>
    let lo' := if lt last x then lo else 0
    let hi' := if lt last x then n else if hi < n then hi + 1 else n
    match bisect lt left get x (n + 1) lo' hi' with
    | .ok (lo, hi) =>
      match searchLoop left get n r x lo hi with
      | .ok l => .ok (lo :: l)
      | o => o
    | .valueError => .valueError
    | .bad => .bad

/-- `perm[mid]` and then `a[perm[mid]]`. -/
def through (a : List α) (perm : List Int) (k : Nat) : Option α :=
  match perm[k]? with
  | some i => if 0 ≤ i then a[i.toNat]? else none
  | none => none

/-- `searchsorted` (`routines.codon:3288-3377`) with an array of keys. -/
def searchsorted (a xs : List α) (side : String) (sorter : Option (List Int)) : Out (List Nat) :=
  if side ≠ "left" ∧ side ≠ "right" then .valueError
  else
    let left : Bool := side = "left"
    let n := a.length
    match sorter with
    | none =>
      match xs with
      | [] => .ok []
      | x :: r => searchLoop lt left (fun k => a[k]?) n (x :: r) x 0 n
    | some perm =>
      if perm.length ≠ n then .valueError
      else if perm.any fun i => decide (i < 0 ∨ i ≥ n) then .valueError
      else
        match xs with
        | [] => .ok []
        | x :: r => searchLoop lt left (through a perm) n (x :: r) x 0 n

/-- `searchsorted` with one key (`routines.codon:3332-3343`). -/
def searchsortedOne (a : List α) (x : α) (left : Bool) : Out Nat :=
  match bisect lt left (fun k => a[k]?) x (a.length + 1) 0 a.length with
  | .ok (lo, _) => .ok lo
  | .valueError => .valueError
  | .bad => .bad

/-- `_monotonicity` (`statistics.codon:484-508`), from an index on. -/
def monoLoop : List α → Bool → Bool → Bool × Bool
  | a :: b :: r, inc, dec =>
    let dec := if lt a b then false else dec
    let inc := if lt b a then false else inc
    if !(inc || dec) then (inc, dec) else monoLoop (b :: r) inc dec
  | _, inc, dec => (inc, dec)

/-- The result of `_monotonicity`. -/
def monotonicity (bins : List α) : Int :=
  let p := monoLoop lt bins true true
  if p.1 then 1 else if p.2 then -1 else 0

/-- `digitize` (`statistics.codon:510-528`). -/
def digitize (xs bins : List α) (right : Bool) : Out (List Int) :=
  let mono := monotonicity lt bins
  if mono = 0 then .valueError
  else
    let side := if right then "left" else "right"
    if mono = -1 then
      match searchsorted lt bins.reverse xs side none with
      | .ok l => .ok (l.map fun (i : Nat) => (bins.length : Int) - (i : Int))
      | .valueError => .valueError
      | .bad => .bad
    else
      match searchsorted lt bins xs side none with
      | .ok l => .ok (l.map fun (i : Nat) => (i : Int))
      | .valueError => .valueError
      | .bad => .bad

/-- `_linear_search` (`interp.codon:9-13`), from index `i` on. -/
def linear (key : α) : List α → Nat → Int
  | [], i => (i : Int) - 1
  | e :: r, i => if lt key e then (i : Int) - 1 else linear key r (i + 1)

/-- The bisection at the end of `_binary_search_with_guess` (`interp.codon:55-61`). -/
def guessLoop (arr : List α) (key : α) : Nat → Nat → Nat → Out Int
  | 0, _, _ => .bad
  | f + 1, imin, imax =>
    if imin < imax then
      let imid := imin + (imax - imin) / 2
      match arr[imid]? with
      | none => .bad
      | some e =>
        if !lt key e then guessLoop arr key f (imid + 1) imax else guessLoop arr key f imin imid
    else .ok ((imin : Int) - 1)

/-- A read. -/
def rd {β : Type} (arr : List α) (i : Nat) (k : α → Out β) : Out β :=
  match arr[i]? with
  | some e => k e
  | none => .bad

/-- `_binary_search_with_guess` (`interp.codon:15-63`). -/
def guessSearch (arr : List α) (key : α) (guess : Int) : Out Int :=
  let n := arr.length
  if n = 0 then .bad
  else
  rd arr (n - 1) fun last =>
  if lt last key then .ok n
  else
  rd arr 0 fun first =>
  if lt key first then .ok (-1)
  else if n ≤ 4 then .ok (linear lt key arr 0)
  else
    let g := if guess > (n : Int) - 3 then (n : Int) - 3 else guess
    let g := (if g < 1 then 1 else g).toNat
    rd arr g fun eg =>
    if lt key eg then
      rd arr (g - 1) fun e1 =>
      if lt key e1 then
        if g > 8 then
          rd arr (g - 8) fun e8 =>
          guessLoop lt arr key (n + 1) (if !lt key e8 then g - 8 else 0) (g - 1)
        else guessLoop lt arr key (n + 1) 0 (g - 1)
      else .ok ((g : Int) - 1)
    else
      rd arr (g + 1) fun e1 =>
      if lt key e1 then .ok g
      else
        rd arr (g + 2) fun e2 =>
        if lt key e2 then .ok ((g : Int) + 1)
        else if (g : Int) < (n : Int) - 8 - 1 then
          rd arr (g + 8) fun e8 =>
          guessLoop lt arr key (n + 1) (g + 2) (if lt key e8 then g + 8 else n)
        else guessLoop lt arr key (n + 1) (g + 2) n

/-- Adding one at an index. -/
def bump : List Nat → Nat → Option (List Nat)
  | [], _ => none
  | c :: r, 0 => some ((c + 1) :: r)
  | c :: r, i + 1 => (bump r i).map (c :: ·)

/-- The loop of `bincount` (`statistics.codon:463-465`). -/
def countLoop : List Int → List Nat → Out (List Nat)
  | [], res => .ok res
  | x :: r, res =>
    if 0 ≤ x then
      match bump res x.toNat with
      | some res => countLoop r res
      | none => .bad
    else .bad

/-- `ndarray._minmax` (`/repo/stdlib/numpy/ndarray.codon:1274-1300`). -/
def minmax : List Int → Int × Int
  | [] => (0, 0)
  | a :: r => (r.foldl (fun m e => if e < m then e else m) a, r.foldl (fun m e => if e > m then e else m) a)

/-- `bincount` without weights (`statistics.codon:444-465`). -/
def bincount (xs : List Int) (minlength : Int) : Out (List Nat) :=
  if minlength < 0 then .valueError
  else
    let mm := minmax xs
    if mm.1 < 0 then .valueError
    else
      let maxVal := mm.2 + 1
      let maxVal := if minlength > maxVal then minlength else maxVal
      countLoop xs (List.replicate maxVal.toNat 0)

end Codon.NpSrch
