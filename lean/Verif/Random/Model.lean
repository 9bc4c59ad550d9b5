import Verif.Base.Out
import Verif.Date.Model
import Verif.ListM.Spec
/-!
# Model of random selection

`stdlib/random.codon:163-250, 426-452`.  The generator is a source of 32-bit words (`genrand_int32`, C46): a program takes
words from a list.  When the list is used up the outcome is `more`: the program has not returned yet.  Machine integers
are `Int`s wrapped to 64 bits where a user may cause an overflow.
-/
namespace Codon.Random

abbrev Word := BitVec 32

inductive Err where
  | valueError | indexError
  /-- All words given are used up. -/
  | more
  deriving DecidableEq, Repr

/-- A program drawing words. -/
abbrev M (α : Type) := StateT (List Word) (Out Err) α

/-- `genrand_int32`. -/
def draw : M Word := fun ws =>
  match ws with
  | [] => .exc .more
  | w :: ws => .ok (w, ws)

def raise {α : Type} (e : Err) : M α := fun _ => .exc e

def ub {α : Type} : M α := fun _ => .ub

/-- The 64-bit integer with the same last 64 bits. -/
def wrap (x : Int) : Int := x.bmod (2 ^ 64)

/-- random.codon:163-183 `getrandbits`. -/
def getrandbits (k : Int) : M Int :=
  if k = 0 then pure 0
  else if k < 0 then raise .valueError
  else if k > 64 then raise .valueError
  else if k ≤ 32 then do
    let r ← draw
    return ((r.toNat >>> (32 - k).toNat : Nat) : Int)
  else do
    let lo ← draw
    let hi ← draw
    let mask : BitVec 64 := ~~~ ((1#64 <<< (64 - k).toNat) - 1#64)
    let hi := ((hi.setWidth 64) &&& mask) >>> (64 - k).toNat
    return ((hi <<< 32) ||| lo.setWidth 64).toInt

/-- The loop of random.codon:187-189 for the unsigned value, with a bound on the iterations. -/
def bitLoop (n : Nat) : Nat → Nat
  | 0 => 0
  | fuel + 1 => if n = 0 then 0 else bitLoop (n / 2) fuel + 1

/-- random.codon:185-190 `bit_length`; a 64-bit value becomes 0 after 64 iterations. -/
def bitLength (n : Nat) : Nat := bitLoop n 64

/-- The loop of random.codon:196-197, with a bound on the number of iterations. -/
def belowLoop (n : Int) (k : Nat) (r : Int) : Nat → M Int
  | 0 => raise .more
  | fuel + 1 =>
    if r ≥ n then do
      let r ← getrandbits k
      belowLoop n k r fuel
    else pure r

/-- random.codon:192-198 `_randbelow_with_getrandbits`.  An iteration draws a word unless `n` is 0. -/
def randbelow (n : Int) : M Int := do
  let k := bitLength (BitVec.ofInt 64 n).toNat
  let r ← getrandbits k
  fun ws => belowLoop n k r (ws.length + 1) ws

/-- `//` on `int` (int.codon:151-153): `sdiv`. -/
def sdiv (a b : Int) : M Int :=
  if b = 0 ∨ a = -2 ^ 63 ∧ b = -1 then ub else pure (a.tdiv b)

/-- random.codon:222-225: drawing from `n` values, `n` being converted to a `float` and back
(`fptosi` of a number out of range is undefined). -/
def steps (start step n : Int) : M Int :=
  if Date.toDouble n ≤ 0 then raise .valueError
  else if Date.toDouble n ≥ 2 ^ 63 then ub
  else do
    let r ← randbelow (Date.toDouble n)
    return wrap (start + wrap (step * r))

/-- random.codon:200-225 `randrange`. -/
def randrange (start stop step : Int) : M Int :=
  if stop = 0 then
    if start > 0 then randbelow start else raise .valueError
  else
    let width := wrap (stop - start)
    if step = 1 ∧ width > 0 then do
      let r ← randbelow width
      return wrap (start + r)
    else if step = 1 then raise .valueError
    else if step > 0 then do
      let n ← sdiv (wrap (wrap (width + step) - 1)) step
      steps start step n
    else if step < 0 then do
      let n ← sdiv (wrap (wrap (width + step) + 1)) step
      steps start step n
    else raise .valueError

/-- random.codon:227-228 `randint`. -/
def randint (a b : Int) : M Int := randrange a (wrap (b + 1)) 1

/-- random.codon:236-241 `choice`; `_get` does not check the index. -/
def choice {T : Type} (x : List T) : M T :=
  if x.length = 0 then raise .indexError
  else do
    let i ← randbelow x.length
    if 0 ≤ i then
      match x[i.toNat]? with
      | some v => pure v
      | none => ub
    else ub

/-- `x[i]` (list.codon:54-58). -/
def item {T : Type} (x : List T) (i : Int) : M T :=
  match ListM.Spec.pos x.length i with
  | some p => match x[p]? with | some v => pure v | none => ub
  | none => raise .indexError

/-- `x[i] = v` (list.codon:60-64). -/
def setItem {T : Type} (x : List T) (i : Int) (v : T) : M (List T) :=
  match ListM.Spec.pos x.length i with
  | some p => pure (x.set p v)
  | none => raise .indexError

/-- The loop of random.codon:247-250 from `i` down to 1. -/
def shuffleLoop {T : Type} (x : List T) : Nat → M (List T)
  | 0 => pure x
  | i + 1 => do
    let j ← randbelow ((i + 1 : Nat) + 1)
    let a ← item x j
    let b ← item x (i + 1 : Nat)
    let x ← setItem x (i + 1 : Nat) a
    let x ← setItem x j b
    shuffleLoop x i

/-- random.codon:243-250 `shuffle` (`random` is 0); the result is the list afterwards. -/
def shuffle {T : Type} (x : List T) : M (List T) := shuffleLoop x (x.length - 1)

/-- The loop of random.codon:439-442, `todo` iterations from `i`. -/
def poolLoop {T : Type} (n : Int) (result pool : List T) (i : Nat) : Nat → M (List T)
  | 0 => pure result
  | todo + 1 => do
    let j ← randbelow (n - i)
    let v ← item pool j
    let result ← setItem result i v
    let w ← item pool (n - i - 1)
    let pool ← setItem pool j w
    poolLoop n result pool (i + 1) todo

/-- The loop of random.codon:448-449, with a bound on the number of iterations. -/
def freshLoop (n : Int) (selected : List Int) (j : Int) : Nat → M Int
  | 0 => raise .more
  | fuel + 1 =>
    if j ∈ selected then do
      let j ← randbelow n
      freshLoop n selected j fuel
    else pure j

/-- The loop of random.codon:446-451.  The set of positions (C21) is a list. -/
def selectLoop {T : Type} (n : Int) (population result : List T) (selected : List Int) (i : Nat) : Nat → M (List T)
  | 0 => pure result
  | todo + 1 => do
    let j ← randbelow n
    let j ← fun ws => freshLoop n selected j (ws.length + 1) ws
    let v ← item population j
    let result ← setItem result i v
    selectLoop n population result (j :: selected) (i + 1) todo

/-- random.codon:426-452 `sample`.  Which of the two methods is used depends on a computation with floats (432-436);
`small` is its outcome. -/
def sample {T : Type} (small : Bool) (population : List T) (k : Int) : M (List T) :=
  if 0 ≤ k ∧ k ≤ population.length then
    if k = 0 then pure []
    else do
      let v ← item population 0
      let result := List.replicate k.toNat v
      if small then poolLoop population.length result population 0 k.toNat
      else selectLoop population.length population result [] 0 k.toNat
  else raise .valueError

end Codon.Random
