import Verif.Base.Out
/-!
# Model of the Mersenne Twister

`stdlib/random.codon:9-161`.  `RandomGenerator` is a pointer to a block of `N + 1` words: the index and the state.
Reading a cell that was not written, or outside the block, is undefined.
-/
namespace Codon.Twister

abbrev Word := BitVec 32
abbrev R (α : Type) := Out Empty α

/-- random.codon:9. -/
def N : Int := 624
/-- random.codon:10. -/
def M : Int := 397
/-- random.codon:16-18. -/
def matrixA : Word := 0x9908b0df
def upperMask : Word := 0x80000000
def lowerMask : Word := 0x7fffffff

/-- `self.state[i]` (random.codon:31-33: `state` is `data + 1`). -/
def mtGet (d : Block Word) (i : Int) : R Word := ld d (i + 1)
def mtSet (d : Block Word) (i : Int) (v : Word) : R (Block Word) := st d (i + 1) v

/-- random.codon:53-54, 58-59, 62-63: the new value from `mt[k]`, `mt[k1]` and `mt[km]`. -/
def stepWord (d : Block Word) (k k1 km : Int) : R (Block Word) := do
  let a ← mtGet d k
  let b ← mtGet d k1
  let y := (a &&& upperMask) ||| (b &&& lowerMask)
  let c ← mtGet d km
  mtSet d k (c ^^^ (y >>> 1) ^^^ (if y &&& 1 = 1 then matrixA else 0))

/-- The loop of random.codon:52-55 from `kk`, `n` iterations. -/
def loop1 (d : Block Word) (kk : Int) : Nat → R (Block Word)
  | 0 => .ok d
  | n + 1 => do loop1 (← stepWord d kk (kk + 1) (kk + M)) (kk + 1) n

/-- The loop of random.codon:57-60 from `kk`, `n` iterations. -/
def loop2 (d : Block Word) (kk : Int) : Nat → R (Block Word)
  | 0 => .ok d
  | n + 1 => do loop2 (← stepWord d kk (kk + 1) (kk + (M - N))) (kk + 1) n

/-- random.codon:49-64: a new state when all words are used. -/
def renew (d : Block Word) : R (Block Word) := do
  let idx ← ld d 0
  if (idx.toNat : Int) ≥ N then
    let d ← loop1 d 0 (N - M).toNat
    let d ← loop2 d (N - M) (M - 1).toNat
    let d ← stepWord d (N - 1) 0 (M - 1)
    st d 0 0
  else return d

/-- random.codon:69-72. -/
def temper (y : Word) : Word :=
  let y := y ^^^ (y >>> 11)
  let y := y ^^^ ((y <<< 7) &&& 0x9d2c5680)
  let y := y ^^^ ((y <<< 15) &&& 0xefc60000)
  y ^^^ (y >>> 18)

/-- random.codon:45-73 `genrand_int32`. -/
def genrand (d : Block Word) : R (Word × Block Word) := do
  let d ← renew d
  let i ← ld d 0
  let y ← mtGet d i.toNat
  let d ← st d 0 (i + 1)
  return (temper y, d)

/-- The loop of random.codon:86-87 from `mti`, `n` iterations. -/
def u32Loop (d : Block Word) (mti : Int) : Nat → R (Block Word)
  | 0 => .ok d
  | n + 1 => do
    let a ← mtGet d (mti - 1)
    let d ← mtSet d mti (1812433253 * (a ^^^ (a >>> 30)) + BitVec.ofInt 32 mti)
    u32Loop d (mti + 1) n

/-- random.codon:83-88 `init_u32`. -/
def initU32 (d : Block Word) (s : Word) : R (Block Word) := do
  let d ← mtSet d 0 s
  let d ← u32Loop d 1 (N - 1).toNat
  st d 0 (BitVec.ofInt 32 N)

/-- random.codon:101-103, 112-114: at the end of the state `i` starts again. -/
def around (d : Block Word) (i : Int) : R (Block Word × Int) :=
  if i ≥ N then do
    let d ← mtSet d 0 (← mtGet d (N - 1))
    return (d, 1)
  else return (d, i)

/-- The loop of random.codon:97-106, `k` iterations. -/
def keyLoop (key : List Word) (d : Block Word) (i j : Int) : Nat → R (Block Word × Int)
  | 0 => .ok (d, i)
  | k + 1 => do
    let a ← mtGet d i
    let b ← mtGet d (i - 1)
    let c ← ld (key.map some) j
    let d ← mtSet d i ((a ^^^ ((b ^^^ (b >>> 30)) * 1664525)) + c + BitVec.ofInt 32 j)
    let r ← around d (i + 1)
    keyLoop key r.1 r.2 (if j + 1 ≥ key.length then 0 else j + 1) k

/-- The loop of random.codon:109-115, `k` iterations. -/
def mixLoop (d : Block Word) (i : Int) : Nat → R (Block Word)
  | 0 => .ok d
  | k + 1 => do
    let a ← mtGet d i
    let b ← mtGet d (i - 1)
    let d ← mtSet d i ((a ^^^ ((b ^^^ (b >>> 30)) * 1566083941)) - BitVec.ofInt 32 i)
    let r ← around d (i + 1)
    mixLoop r.1 r.2 k

/-- random.codon:90-117 `init_array`. -/
def initArray (d : Block Word) (key : List Word) : R (Block Word) := do
  let d ← initU32 d 19650218
  let r ← keyLoop key d 1 0 (if N > key.length then N.toNat else key.length)
  let d ← mixLoop r.1 r.2 (N - 1).toNat
  mtSet d 0 0x80000000

/-- random.codon:119-121 `init_int`: the key.  `s >> 32` is an arithmetic shift, cut to 32 bits. -/
def intKey (s : BitVec 64) : List Word :=
  let hi := (s.sshiftRight 32).setWidth 32
  if hi ≠ 0 then [s.setWidth 32, hi] else [s.setWidth 32]

/-- random.codon:148-150: the key of `seed(a)`; `abs` is `llvm.abs` (int.codon). -/
def seedKey (a : BitVec 64) : List Word := intKey a.abs

/-! ### Several generators -/

variable {F : Type}

/-- What the code does with floats (random.codon:75-78, 342-350), left open. -/
structure Floats (F : Type) where
  res53 : Word → Word → F
  gauss1 : F → F → F
  gauss2 : F → F → F
  scale : F → F → F → F

/-- `Random` (random.codon:140-142): the pointer to the block and the saved value of `gauss`. -/
structure Gen (F : Type) where
  data : Nat
  gaussNext : Option F

/-- The blocks on the heap, all `Random` objects, all states returned by `getstate`. -/
structure World (F : Type) where
  heap : List (Block Word)
  gens : List (Gen F)
  saved : List (Nat × Option F)

inductive Op (F : Type) where
  /-- `Random()` seeded with this key. -/
  | new (key : List Word)
  | seed (g : Nat) (key : List Word)
  /-- `getrandbits(32)`: one word. -/
  | word (g : Nat)
  | random (g : Nat)
  | gauss (g : Nat) (mu sigma : F)
  | getstate (g : Nat)
  | setstate (g : Nat) (s : Nat)

/-- What the caller sees. -/
inductive Obs (F : Type) where
  | none
  | word (w : Word)
  | float (x : F)

/-- random.codon:75-78 `genrand_res53` on a block. -/
def res53 (fl : Floats F) (d : Block Word) : R (F × Block Word) := do
  let r ← genrand d
  let q ← genrand r.2
  return (fl.res53 (r.1 >>> 5) (q.1 >>> 6), q.2)

/-- random.codon:342-350 `gauss`. -/
def gauss (fl : Floats F) (d : Block Word) (next : Option F) (mu sigma : F) : R (F × Block Word × Option F) :=
  match next with
  | some z => .ok (fl.scale mu z sigma, d, none)
  | none => do
    let x ← res53 fl d
    let y ← res53 fl x.2
    return (fl.scale mu (fl.gauss1 x.1 y.1) sigma, y.2, some (fl.gauss2 x.1 y.1))

/-- A generator of the world: undefined if there is none. -/
def genAt (w : World F) (g : Nat) : R (Gen F) :=
  match w.gens[g]? with | some x => .ok x | none => .ub

def blockAt (w : World F) (p : Nat) : R (Block Word) :=
  match w.heap[p]? with | some x => .ok x | none => .ub

/-- Writes a generator back. -/
def World.put (w : World F) (g : Nat) (x : Gen F) (d : Block Word) : World F :=
  { w with heap := w.heap.set x.data d, gens := w.gens.set g x }

/-- Operations on all generators. -/
def step (fl : Floats F) (w : World F) : Op F → R (Obs F × World F)
  | .new key => do
    -- random.codon:24-25, 144-146, 153
    let d ← alloc (N + 1)
    let d ← initArray d key
    return (.none, { w with heap := w.heap ++ [d], gens := w.gens ++ [⟨w.heap.length, none⟩] })
  | .seed g key => do
    -- random.codon:134-138, 148-153
    let x ← genAt w g
    let d ← initArray (← blockAt w x.data) key
    return (.none, w.put g ⟨x.data, none⟩ d)
  | .word g => do
    let x ← genAt w g
    let r ← genrand (← blockAt w x.data)
    return (.word r.1, w.put g x r.2)
  | .random g => do
    let x ← genAt w g
    let r ← res53 fl (← blockAt w x.data)
    return (.float r.1, w.put g x r.2)
  | .gauss g mu sigma => do
    let x ← genAt w g
    let r ← gauss fl (← blockAt w x.data) x.gaussNext mu sigma
    return (.float r.1, w.put g ⟨x.data, r.2.2⟩ r.2.1)
  | .getstate g => do
    -- random.codon:35-39, 155-156
    let x ← genAt w g
    let p ← alloc (N + 1)
    let p ← memcpyB p 0 (← blockAt w x.data) 0 (N + 1)
    return (.none, { w with heap := w.heap ++ [p], saved := w.saved ++ [(w.heap.length, x.gaussNext)] })
  | .setstate g s => do
    -- random.codon:41-43, 158-161
    let x ← genAt w g
    match w.saved[s]? with
    | some (q, next) => do
      let d ← memcpyB (← blockAt w x.data) 0 (← blockAt w q) 0 (N + 1)
      return (.none, w.put g ⟨x.data, next⟩ d)
    | none => .ub

/-- A sequence of operations. -/
def run (fl : Floats F) (w : World F) : List (Op F) → R (List (Obs F) × World F)
  | [] => .ok ([], w)
  | op :: ops => do
    let r ← step fl w op
    let q ← run fl r.2 ops
    return (r.1 :: q.1, q.2)

end Codon.Twister
