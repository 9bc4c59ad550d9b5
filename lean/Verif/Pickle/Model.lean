import Verif.KHash.SetModel
/-!
# Model of `pickle`

File: stdlib/pickle.codon, with the methods of tuples and classes from stdlib/internal/internal.codon.  `__pickle__` and `__unpickle__` are chosen by the static type, so the methods of
a type are a record (`Pick`) built from the records of its parts.

Values are trees: that two parts of a value are the same object is not represented (the code pickles the object twice and makes two objects).  Memory is represented where it is
written as it is: numbers, lists of types without pointers, hash tables.  The contents of padding and of cells that were never written are arbitrary (`pad`, by position in the file).
-/
namespace Codon.Pickle
open Codon.KHash

abbrev Byte := BitVec 8

inductive Err where
  | io
  deriving DecidableEq, Repr

/-- Outcomes: `none` is undefined behaviour. -/
abbrev Out (α : Type) := Option (Except Err α)

/-- One step after the other. -/
def Out.bind {α β : Type} (x : Out α) (f : α → Out β) : Out β :=
  match x with
  | none => none
  | some (.error e) => some (.error e)
  | some (.ok a) => f a

/-! ### The file -/

/-- A file open for writing, with the number of bytes that can still be written. -/
structure Jar where
  data : List Byte
  room : Nat
  deriving DecidableEq

/-- zlib's `gzwrite`: all or nothing; the number of bytes written. -/
def gzwrite (j : Jar) (bs : List Byte) : Jar × Nat :=
  if bs.length ≤ j.room then (⟨j.data ++ bs, j.room - bs.length⟩, bs.length) else (j, 0)

/-- zlib's `gzread`: the bytes read, of which there are fewer than asked for at the end of the file, and the rest. -/
def gzread (s : List Byte) (n : Nat) : List Byte × List Byte := (s.take n, s.drop n)

/-- pickle.codon:19, 30 -/
def LIMIT : Nat := 0x7FFFFFFF

/-- The loop of `_write_raw` (pickle.codon:20-27), `fuel` rounds at most. -/
def writeLoop : Nat → List Byte → Jar → Except Err Jar
  | 0, _, j => .ok j
  | fuel + 1, bs, j =>
    if bs.length = 0 then .ok j
    else
      let b := if bs.length < LIMIT then bs.length else LIMIT
      let r := gzwrite j (bs.take b)
      if r.2 ≠ b then .error .io else writeLoop fuel (bs.drop b) r.1

/-- `_write_raw` (pickle.codon:18-27); `bs` are the `n` bytes from `p`. -/
def writeRaw (bs : List Byte) (j : Jar) : Out Jar := some (writeLoop bs.length bs j)

/-- The loop of `_read_raw` (pickle.codon:31-38). -/
def readLoop : Nat → Nat → List Byte → Except Err (List Byte × List Byte)
  | 0, _, s => .ok ([], s)
  | fuel + 1, n, s =>
    if n = 0 then .ok ([], s)
    else
      let b := if n < LIMIT then n else LIMIT
      let r := gzread s b
      if r.1.length ≠ b then .error .io
      else match readLoop fuel (n - b) r.2 with
        | .error e => .error e
        | .ok (m, s') => .ok (r.1 ++ m, s')

/-- `_read_raw` (pickle.codon:29-38): the bytes and the rest of the file. -/
def readRaw (n : Nat) (s : List Byte) : Out (List Byte × List Byte) := some (readLoop n n s)

/-! ### Memory -/

/-- `w` bytes of a number, the lowest first. -/
def leBytes (w n : Nat) : List Byte := (List.range w).map fun i => BitVec.ofNat 8 (n / 256 ^ i)

/-- The number. -/
def ofBytes (bs : List Byte) : Nat := bs.foldr (fun b n => b.toNat + 256 * n) 0

/-- How values of a type lie in memory: size, alignment, storing (the argument is what padding contains) and loading. -/
structure Img (α : Type) where
  size : Nat
  align : Nat
  put : Nat → α → List Byte
  get : List Byte → α

/-- A type that can be pickled.  `image` is given if `atomic(T)`: the value contains no pointers. -/
structure Pick (α : Type) where
  pickle : α → Jar → Out Jar
  unpickle : List Byte → Out (α × List Byte)
  image : Option (Img α)

section
variable (pad : Nat → Nat)

/-- `_write` (pickle.codon:40-42). -/
def write {α : Type} (I : Img α) (x : α) (j : Jar) : Out Jar := writeRaw (I.put (pad j.data.length) x) j

/-- `_read` (pickle.codon:44-48). -/
def read {α : Type} (I : Img α) (s : List Byte) : Out (α × List Byte) :=
  Out.bind (readRaw I.size s) fun (m, s') => some (.ok (I.get m, s'))

/-- Numbers of `n` bits in `w` bytes; higher bits are padding. -/
def cellImg (n w : Nat) : Img (BitVec n) := ⟨w, w, fun p x => leBytes w (x.toNat + 2 ^ n * p), fun bs => BitVec.ofNat n (ofBytes bs)⟩

/-- `int`, `Int[N]`, `UInt[N]`, `float`, `float32`, `bool`, `byte` (pickle.codon:52-106): numbers of `n` bits in `w` bytes, floats as their bits. -/
def pCell (n w : Nat) : Pick (BitVec n) := ⟨write pad (cellImg n w), read (cellImg n w), some (cellImg n w)⟩

/-- `pickle` of an `int`. -/
def pInt : Pick (BitVec 64) := pCell pad 64 8

/-- Writing a length or another number that is not negative. -/
def writeNat (n : Nat) (j : Jar) : Out Jar := (pInt pad).pickle (BitVec.ofNat 64 n) j

/-- Reading a number for which storage is allocated; a negative one is undefined. -/
def readNat (s : List Byte) : Out (Nat × List Byte) :=
  Out.bind ((pInt pad).unpickle s) fun (x, s') => if 0 ≤ x.toInt then some (.ok (x.toNat, s')) else none

/-- `str` (pickle.codon:108-118). -/
def pStr : Pick (List Byte) where
  pickle x j := Out.bind (writeNat pad x.length j) fun j => writeRaw x j
  unpickle s := Out.bind (readNat pad s) fun (n, s) => readRaw n s
  image := none

/-- Items one after the other (pickle.codon:128-129, 149-150). -/
def pickleAll {α : Type} (P : Pick α) : List α → Jar → Out Jar
  | [], j => some (.ok j)
  | x :: xs, j => Out.bind (P.pickle x j) fun j => pickleAll P xs j

/-- `n` items (pickle.codon:137-138, 158-159). -/
def unpickleAll {α : Type} (P : Pick α) : Nat → List Byte → Out (List α × List Byte)
  | 0, s => some (.ok ([], s))
  | n + 1, s => Out.bind (P.unpickle s) fun (x, s) => Out.bind (unpickleAll P n s) fun (xs, s) => some (.ok (x :: xs, s))

/-- Cells of memory; those never written have arbitrary contents.  `o` is the position in the file. -/
def cells {α : Type} (I : Img α) : Nat → List (Option α) → List Byte
  | _, [] => []
  | o, c :: cs =>
    (match c with
      | some x => I.put (pad o) x
      | none => leBytes I.size (pad o)) ++ cells I (o + I.size) cs

/-- `n` cells. -/
def ofCells {α : Type} (I : Img α) : Nat → List Byte → List α
  | 0, _ => []
  | n + 1, m => I.get (m.take I.size) :: ofCells I n (m.drop I.size)

/-- `List` and `DynamicTuple` (pickle.codon:120-160). -/
def pList {α : Type} (P : Pick α) : Pick (List α) where
  pickle x j := Out.bind (writeNat pad x.length j) fun j =>
    match P.image with
    | some I => writeRaw (cells pad I j.data.length (x.map some)) j
    | none => pickleAll P x j
  unpickle s := Out.bind (readNat pad s) fun (n, s) =>
    match P.image with
    | some I => Out.bind (readRaw (n * I.size) s) fun (m, s) => some (.ok (ofCells I n m, s))
    | none => unpickleAll P n s
  image := none

/-! ### Tuples and classes -/

/-- How the fields lie in memory after `o` bytes: the end, the largest alignment, storing and loading. -/
structure FImg (β : Type) where
  fin : Nat → Nat
  align : Nat
  put : Nat → Nat → β → List Byte
  get : Nat → List Byte → β

/-- The fields of a tuple or class, from some field on. -/
structure Flds (β : Type) where
  pickle : β → Jar → Out Jar
  unpickle : List Byte → Out (β × List Byte)
  image : Option (FImg β)

/-- The next multiple. -/
def alignUp (o a : Nat) : Nat := (o + a - 1) / a * a

/-- No more fields. -/
def fNil : Flds Unit := ⟨fun _ j => some (.ok j), fun s => some (.ok ((), s)), some ⟨id, 1, fun _ _ _ => [], fun _ _ => ()⟩⟩

/-- A field after `o` bytes, at the next multiple of its alignment. -/
def consImg {α β : Type} (I : Img α) (F : FImg β) : FImg (α × β) where
  fin o := F.fin (alignUp o I.align + I.size)
  align := max I.align F.align
  put o p x := leBytes (alignUp o I.align - o) p ++ I.put (p / 256 ^ (alignUp o I.align - o)) x.1 ++ F.put (alignUp o I.align + I.size) (p / 2) x.2
  get o m := (I.get ((m.drop (alignUp o I.align - o)).take I.size), F.get (alignUp o I.align + I.size) (m.drop (alignUp o I.align - o + I.size)))

/-- One more field, pickled before the others (internal.codon:156-158, 161-168). -/
def fCons {α β : Type} (P : Pick α) (F : Flds β) : Flds (α × β) where
  pickle x j := Out.bind (P.pickle x.1 j) fun j => F.pickle x.2 j
  unpickle s := Out.bind (P.unpickle s) fun (x, s) => Out.bind (F.unpickle s) fun (y, s) => some (.ok ((x, y), s))
  image := match P.image, F.image with
    | some I, some G => some (consImg I G)
    | _, _ => none

/-- The memory of a tuple. -/
def tupleImg {β : Type} (F : FImg β) : Img β where
  size := alignUp (F.fin 0) F.align
  align := F.align
  put p x := F.put 0 p x ++ leBytes (alignUp (F.fin 0) F.align - F.fin 0) p
  get m := F.get 0 m

/-- A tuple type. -/
def pTuple {β : Type} (F : Flds β) : Pick β := ⟨F.pickle, F.unpickle, F.image.map tupleImg⟩

/-- A class; values are references. -/
def pClass {β : Type} (F : Flds β) : Pick β := ⟨F.pickle, F.unpickle, none⟩

/-! ### Dictionaries and sets -/

/-- The memory of a `u32`. -/
def u32Img : Img (BitVec 32) := cellImg 32 4

/-- The four numbers of a table (pickle.codon:168-171, 227-230). -/
def writeHead {K V : Type} (t : Tbl K V) (j : Jar) : Out Jar :=
  Out.bind (writeNat pad t.nb j) fun j => Out.bind (writeNat pad t.size j) fun j => Out.bind (writeNat pad t.nocc j) fun j => writeNat pad t.ub j

/-- `fsize` (pickle.codon:172, 194, 231, 251). -/
def flagWords (nb : Nat) : Nat := if nb > 0 then fsize nb else 0

/-- Keys and values of a table in memory, one after the other. -/
def pairs {K V : Type} (P : Pick K) (Q : Pick V) : List (K × V) → Jar → Out Jar
  | [], j => some (.ok j)
  | x :: xs, j => Out.bind (P.pickle x.1 j) fun j => Out.bind (Q.pickle x.2 j) fun j => pairs P Q xs j

/-- A file operation on what may be undefined. -/
def ofOpt {α : Type} (x : Option α) : Out α := x.map .ok

/-- The loop of `Dict.__unpickle__` (pickle.codon:213-218). -/
def readPairs {K V : Type} [DecidableEq K] (h : K → BitVec 64) (P : Pick K) (Q : Pick V) : Nat → Tbl K V → List Byte → Out (Tbl K V × List Byte)
  | 0, t, s => some (.ok (t, s))
  | n + 1, t, s =>
    Out.bind (P.unpickle s) fun (k, s) => Out.bind (Q.unpickle s) fun (v, s) => Out.bind (ofOpt (setitem h t k v)) fun t => readPairs h P Q n t s

/-- `Dict` (pickle.codon:162-219). -/
def pDict {K V : Type} [DecidableEq K] (h : K → BitVec 64) (P : Pick K) (Q : Pick V) : Pick (Tbl K V) where
  pickle t j :=
    match P.image, Q.image with
    | some I, some J =>
      Out.bind (writeHead pad t j) fun j =>
      Out.bind (writeRaw (cells pad u32Img j.data.length (t.flags.map some)) j) fun j =>
      Out.bind (writeRaw (cells pad I j.data.length t.keys) j) fun j => writeRaw (cells pad J j.data.length t.vals) j
    | _, _ =>
      Out.bind (writeNat pad t.nb j) fun j => Out.bind (writeNat pad t.size j) fun j =>
      Out.bind (ofOpt (items t)) fun ps => pairs P Q ps j
  unpickle s :=
    match P.image, Q.image with
    | some I, some J =>
      Out.bind (readNat pad s) fun (nb, s) => Out.bind (readNat pad s) fun (size, s) => Out.bind (readNat pad s) fun (nocc, s) => Out.bind (readNat pad s) fun (ub, s) =>
      Out.bind (readRaw (flagWords nb * u32Img.size) s) fun (fl, s) => Out.bind (readRaw (nb * I.size) s) fun (ks, s) => Out.bind (readRaw (nb * J.size) s) fun (vs, s) =>
      some (.ok (⟨nb, size, nocc, ub, ofCells u32Img (flagWords nb) fl, (ofCells I nb ks).map some, (ofCells J nb vs).map some⟩, s))
    | _, _ =>
      Out.bind (readNat pad s) fun (nb, s) => Out.bind (readNat pad s) fun (size, s) =>
      Out.bind (ofOpt (kresize h Tbl.empty (BitVec.ofNat 64 nb))) fun t => readPairs h P Q size t s
  image := none

/-- The loop of `Set.__unpickle__` (pickle.codon:267-271). -/
def readKeys {K : Type} [DecidableEq K] (h : K → BitVec 64) (P : Pick K) : Nat → SetM.CSet K → List Byte → Out (SetM.CSet K × List Byte)
  | 0, t, s => some (.ok (t, s))
  | n + 1, t, s => Out.bind (P.unpickle s) fun (k, s) => Out.bind (ofOpt (SetM.add h t k)) fun t => readKeys h P n t s

/-- `Set` (pickle.codon:221-272); the cells for values do not exist. -/
def pSet {K : Type} [DecidableEq K] (h : K → BitVec 64) (P : Pick K) : Pick (SetM.CSet K) where
  pickle t j :=
    match P.image with
    | some I =>
      Out.bind (writeHead pad t j) fun j =>
      Out.bind (writeRaw (cells pad u32Img j.data.length (t.flags.map some)) j) fun j => writeRaw (cells pad I j.data.length t.keys) j
    | none =>
      Out.bind (writeNat pad t.nb j) fun j => Out.bind (writeNat pad t.size j) fun j => Out.bind (ofOpt (keysList t)) fun ks => pickleAll P ks j
  unpickle s :=
    match P.image with
    | some I =>
      Out.bind (readNat pad s) fun (nb, s) => Out.bind (readNat pad s) fun (size, s) => Out.bind (readNat pad s) fun (nocc, s) => Out.bind (readNat pad s) fun (ub, s) =>
      Out.bind (readRaw (flagWords nb * u32Img.size) s) fun (fl, s) => Out.bind (readRaw (nb * I.size) s) fun (ks, s) =>
      some (.ok (⟨nb, size, nocc, ub, ofCells u32Img (flagWords nb) fl, (ofCells I nb ks).map some, List.replicate nb none⟩, s))
    | none =>
      Out.bind (readNat pad s) fun (nb, s) => Out.bind (readNat pad s) fun (size, s) =>
      Out.bind (ofOpt (kresize h Tbl.empty (BitVec.ofNat 64 nb))) fun t => readKeys h P size t s
  image := none

end
end Codon.Pickle
