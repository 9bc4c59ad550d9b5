import Verif.Pickle.Model
import Verif.Numpy.Model
/-!
# Model of pickling arrays: stdlib/numpy/npio.codon:2459-2492
-/
namespace Codon.Pickle
open Codon.Numpy
variable (pad : Nat → Nat) {V : Type}

/-- The lengths of the dimensions (npio.codon:2468-2469). -/
def writeShape : List Int → Jar → Out Jar
  | [], j => some (.ok j)
  | s :: ss, j => Out.bind ((pInt pad).pickle (BitVec.ofInt 64 s) j) fun j => writeShape ss j

/-- Their lengths again (npio.codon:2482). -/
def readShape : Nat → List Byte → Out (List Int × List Byte)
  | 0, s => some (.ok ([], s))
  | n + 1, s => Out.bind ((pInt pad).unpickle s) fun (x, s) => Out.bind (readShape n s) fun (xs, s) => some (.ok (x.toInt :: xs, s))

/-- Element after element (npio.codon:2474-2476).  All elements are read before the first is written; writing does not change the array. -/
def writeElems (P : Pick V) (h : Heap V) (a : Arr) (j : Jar) : Out Jar :=
  Out.bind (ofOpt ((multirange a.shape).mapM (a.read h))) fun vs => pickleAll P vs j

/-- `ndarray.__pickle__` (npio.codon:2461-2476); `w` is the size of an element. -/
def pickleArr (w : Nat) (P : Pick V) (h : Heap V) (a : Arr) (j : Jar) : Out Jar :=
  let cc := (a.contig w).1
  let fc := (a.contig w).2
  Out.bind (writeNat pad (if fc && !cc then 1 else 0) j) fun j =>
  Out.bind (writeShape pad a.shape j) fun j =>
  match P.image with
  | some I => if fc || cc then Out.bind (ofOpt (a.memcpy h w (count a.shape))) fun vs => writeRaw (cells pad I j.data.length (vs.map some)) j else writeElems P h a j
  | none => writeElems P h a j

/-- The data of the array (npio.codon:2486-2490). -/
def readData (P : Pick V) (n : Nat) (s : List Byte) : Out (List V × List Byte) :=
  match P.image with
  | some I => Out.bind (readRaw (n * I.size) s) fun (m, s) => some (.ok (ofCells I n m, s))
  | none => unpickleAll P n s

/-- `ndarray.__unpickle__` (npio.codon:2478-2492); a negative number of elements is undefined.  The product of the dimensions is taken without overflow. -/
def unpickleArr (w : Nat) (P : Pick V) (ndim : Nat) (h : Heap V) (s : List Byte) : Out ((Heap V × Arr) × List Byte) :=
  Out.bind ((pInt pad).unpickle s) fun (f, s) =>
  Out.bind (readShape pad ndim s) fun (shape, s) =>
  if count shape < 0 then none
  else Out.bind (readData P (count shape).toNat s) fun (vs, s) => some (.ok ((h.alloc w vs, ⟨shape, stridesOf shape (f ≠ 0#64) w, h.next, 0⟩), s))

end Codon.Pickle
