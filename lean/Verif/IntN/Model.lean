/-!
# Model of integers of any width: stdlib/internal/types/intn.codon

`Int[N]` and `UInt[N]` are both an LLVM `iN`, a `BitVec N`.  `none` is undefined behaviour (division by zero or overflow, shifts by `N` or more) or a loop that does not end.
`Except` is used where an exception can be raised.
-/
namespace Codon.IntN

/-! ### Conversions -/

/-- `_trunc` (intn.codon:24-28), with `N < M`. -/
def trunc {M : Nat} (N : Nat) (x : BitVec M) : BitVec N := x.setWidth N

/-- `_sext` (intn.codon:12-16), with `M < N`. -/
def sext {M : Nat} (N : Nat) (x : BitVec M) : BitVec N := x.signExtend N

/-- `_zext` (intn.codon:18-22), with `M < N`. -/
def zext {M : Nat} (N : Nat) (x : BitVec M) : BitVec N := x.setWidth N

/-- `Int[N](what: Int[M])` (intn.codon:46-54) and `Int[N](what: int)` (intn.codon:76-84); the same bits if `N == M`. -/
def intOfInt {M : Nat} (N : Nat) (x : BitVec M) : BitVec N := if N < M then trunc N x else if N = M then x.setWidth N else sext N x

/-- `Int[N](what: UInt[M])` (intn.codon:56-74). -/
def intOfUInt {M : Nat} (N : Nat) (x : BitVec M) : BitVec N := if N < M then trunc N x else if N = M then x.setWidth N else sext N x

/-- `UInt[N](what: UInt[M])` (intn.codon:350-373). -/
def uintOfUInt {M : Nat} (N : Nat) (x : BitVec M) : BitVec N := if N < M then trunc N x else if N = M then x.setWidth N else zext N x

/-- `UInt[N](what: Int[M])` (intn.codon:375-398) and `UInt[N](what: int)` (intn.codon:400-412). -/
def uintOfInt {M : Nat} (N : Nat) (x : BitVec M) : BitVec N := if N < M then trunc N x else if N = M then x.setWidth N else sext N x

/-- `Int.__int__` (intn.codon:101-107). -/
def intInt {N : Nat} (x : BitVec N) : BitVec 64 := if N > 64 then trunc 64 x else if N = 64 then x.setWidth 64 else sext 64 x

/-- `UInt.__int__` (intn.codon:418-424). -/
def uintInt {N : Nat} (x : BitVec N) : BitVec 64 := if N > 64 then trunc 64 x else if N = 64 then x.setWidth 64 else zext 64 x

/-- The literal `Int[N](k)` or `UInt[N](k)`. -/
def lit (N : Nat) (k : Int) : BitVec N := intOfInt N (BitVec.ofInt 64 k)

/-! ### Strings -/

/-- `ValueError("Invalid integer string")`. -/
inductive Err where
  | value
  deriving DecidableEq, Repr

/-- The loop of `Int[N](what: str)` (intn.codon:95-99). -/
def parseLoop (N : Nat) : List (BitVec 8) → BitVec N → Except Err (BitVec N)
  | [], ret => .ok ret
  | b :: bs, ret => if b.toNat < 48 ∨ b.toNat ≥ 58 then .error .value else parseLoop N bs (ret * lit N 10 + lit N ((b.toNat : Int) - 48))

/-- `Int[N](what: str)` (intn.codon:86-100). -/
def parse (N : Nat) (s : List (BitVec 8)) : Except Err (BitVec N) :=
  match s with
  | 45#8 :: bs => (parseLoop N bs (lit N 0)).map fun r => lit N (-1) * r
  | bs => (parseLoop N bs (lit N 0)).map fun r => lit N 1 * r

/-! ### Division, shifts and powers -/

/-- `sdiv`. -/
def sdiv {N : Nat} (x y : BitVec N) : Option (BitVec N) := if y = 0#N then none else if x = BitVec.intMin N ∧ y = -1#N then none else some (BitVec.sdiv x y)

/-- `Int.__divmod__` (intn.codon:208-214); `d` and `m` are as wide as the operands, at most 128 bits. -/
def sdivmod {N : Nat} (x y : BitVec N) : Option (BitVec N × BitVec N) :=
  match sdiv x y with
  | none => none
  | some d =>
    let m := x - d * y
    if m ≠ 0#N ∧ BitVec.slt (y ^^^ m) (lit N 0) then some (d - lit N 1, m + y) else some (d, m)

/-- `UInt.__divmod__` (intn.codon:520-521). -/
def udivmod {N : Nat} (x y : BitVec N) : Option (BitVec N × BitVec N) := if y = 0#N then none else some (x / y, x % y)

/-- `__lshift__` (intn.codon:216-220, 523-527): `shl`. -/
def shl {N : Nat} (x y : BitVec N) : Option (BitVec N) := if y.toNat < N then some (x <<< y.toNat) else none

/-- `Int.__rshift__` (intn.codon:222-226): `ashr`. -/
def ashr {N : Nat} (x y : BitVec N) : Option (BitVec N) := if y.toNat < N then some (x.sshiftRight y.toNat) else none

/-- `UInt.__rshift__` (intn.codon:529-533): `lshr`. -/
def lshr {N : Nat} (x y : BitVec N) : Option (BitVec N) := if y.toNat < N then some (x >>> y.toNat) else none

/-- The loop of `__pow__` (intn.codon:301-308, 608-615); `sh` is the shift of the type. -/
def powLoop {N : Nat} (sh : BitVec N → BitVec N → Option (BitVec N)) : Nat → BitVec N → BitVec N → BitVec N → Option (BitVec N)
  | 0, _, _, _ => none
  | fuel + 1, self, exp, result =>
    let result := if exp &&& lit N 1 ≠ 0#N then result * self else result
    match sh exp (lit N 1) with
    | none => none
    | some exp => if exp = 0#N then some result else powLoop sh fuel (self * self) exp result

/-- `Int.__pow__` (intn.codon:294-308). -/
def spow {N : Nat} (x e : BitVec N) : Option (BitVec N) := if BitVec.slt e (lit N 0) then some (lit N 0) else powLoop ashr (N + 1) x e (lit N 1)

/-- `UInt.__pow__` (intn.codon:601-615). -/
def upow {N : Nat} (x e : BitVec N) : Option (BitVec N) := powLoop lshr (N + 1) x e (lit N 1)

/-! ### Counting bits -/

/-- `llvm.ctpop`. -/
def ctpop {N : Nat} (x : BitVec N) : BitVec N := BitVec.ofNat N ((List.range N).countP fun i => x.getLsbD i)

/-- `popcnt` (intn.codon:320-321, 620-621). -/
def popcnt {N : Nat} (x : BitVec N) : BitVec 64 := intInt (ctpop x)

/-- `llvm.ctlz` with `i1 true`: zero gives a poison value. -/
def ctlz {N : Nat} (x : BitVec N) : Option (BitVec N) := if x = 0#N then none else some (BitVec.ofNat N (N - 1 - Nat.log2 x.toNat))

/-- `llvm.abs` with `i1 false`. -/
def sabs {N : Nat} (x : BitVec N) : BitVec N := if x.slt 0#N then -x else x

/-- `Int.bit_length` (intn.codon:330-334). -/
def bitLength {N : Nat} (x : BitVec N) : Option (BitVec 64) :=
  if x = 0#N then some 0#64
  else match ctlz (sabs x) with
    | none => none
    | some c => some (BitVec.ofNat 64 N - intInt c)

/-- `UInt.bit_length` (intn.codon:630-634). -/
def ubitLength {N : Nat} (x : BitVec N) : Option (BitVec 64) :=
  if x = 0#N then some 0#64
  else match ctlz x with
    | none => none
    | some c => some (BitVec.ofNat 64 N - uintInt c)

end Codon.IntN
