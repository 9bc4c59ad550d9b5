import Verif.Base.Out

/-!
# The exception personality function

Model of the table readers and of the handler search in /repo/codon/runtime/exc.cpp:127-134, 328-640.

* Memory is a partial map from addresses to bytes; reading an unmapped address is undefined behaviour (`none`).
* Addresses are integers, `uintptr_t` values are `BitVec 64`, `int` values are `BitVec 32`.
* `abort()` and a failing `assert` also give `none`.
* The exception object is represented by the run-time type information that the code reads: its type id and the array
  `parent_ids`.
-/

namespace Codon.Exc

abbrev Mem := Int → Option UInt8

/-- `result |= (byte & 0x7f) << shift` (exc.cpp:336, 354).  The shifted value has type `int`: shifting by 32 or more is
undefined, and the result is sign-extended to 64 bits (C++20, CMakeLists.txt:17). -/
def orShift (result : BitVec 64) (byte : UInt8) (shift : Nat) : Option (BitVec 64) :=
  if shift < 32 then some (result ||| ((BitVec.ofNat 32 (byte.toNat % 128)) <<< shift).signExtend 64) else none

/-- The loop of `readULEB128` and `readSLEB128` (exc.cpp:334-338, 352-356): result, last byte, shift, next address.  The
fuel only bounds the recursion: a sixth byte already is undefined behaviour. -/
def lebLoop (mem : Mem) : Nat → Int → BitVec 64 → Nat → Option (BitVec 64 × UInt8 × Nat × Int)
  | 0, _, _, _ => none
  | f + 1, p, result, shift => do
    let byte ← mem p
    let result ← orShift result byte shift
    if byte.toNat ≥ 128 then lebLoop mem f (p + 1) result (shift + 7) else return (result, byte, shift + 7, p + 1)

/-- `readULEB128` (exc.cpp:328-343): the number and the advanced pointer. -/
def readULEB128 (mem : Mem) (p : Int) : Option (BitVec 64 × Int) := do
  let (result, _, _, p) ← lebLoop mem 6 p 0 0
  return (result, p)

/-- `readSLEB128` (exc.cpp:345-365).  `~0 << shift` has type `int`. -/
def readSLEB128 (mem : Mem) (p : Int) : Option (BitVec 64 × Int) := do
  let (result, byte, shift, p) ← lebLoop mem 6 p 0 0
  if byte.toNat / 64 % 2 = 1 ∧ shift < 64 then
    if shift < 32 then return (result ||| ((BitVec.allOnes 32) <<< shift).signExtend 64, p) else none
  else return (result, p)

/-- `n` bytes, little-endian. -/
def readLE (mem : Mem) (p : Int) : Nat → Option Nat
  | 0 => some 0
  | n + 1 => do
    let b ← mem p
    let r ← readLE mem (p + 1) n
    return b.toNat + 256 * r

/-- `getEncodingSize` (exc.cpp:367-391). -/
def getEncodingSize (enc : Nat) : Option Nat :=
  if enc = 0xff then some 0
  else match enc % 16 with
    | 0 => some 8
    | 2 => some 2
    | 3 => some 4
    | 4 => some 8
    | 10 => some 2
    | 11 => some 4
    | 12 => some 8
    | _ => none

/-- The value part of `readEncodedPointer` (exc.cpp:398-433). -/
def readValue (mem : Mem) (p : Int) (enc : Nat) : Option (BitVec 64 × Int) :=
  match enc % 16 with
  | 0 => do return (BitVec.ofNat 64 (← readLE mem p 8), p + 8)
  | 1 => readULEB128 mem p
  | 9 => readSLEB128 mem p
  | 2 => do return (BitVec.ofNat 64 (← readLE mem p 2), p + 2)
  | 3 => do return (BitVec.ofNat 64 (← readLE mem p 4), p + 4)
  | 4 => do return (BitVec.ofNat 64 (← readLE mem p 8), p + 8)
  | 10 => do return ((BitVec.ofNat 16 (← readLE mem p 2)).signExtend 64, p + 2)
  | 11 => do return ((BitVec.ofNat 32 (← readLE mem p 4)).signExtend 64, p + 4)
  | 12 => do return (BitVec.ofNat 64 (← readLE mem p 8), p + 8)
  | _ => none

/-- `readEncodedPointer` (exc.cpp:393-461). -/
def readEncodedPointer (mem : Mem) (p : Int) (enc : Nat) : Option (BitVec 64 × Int) := do
  if enc = 0xff then return (0, p)
  let (v, q) ← readValue mem p enc
  let v ← if enc / 16 % 8 = 0 then some v else if enc / 16 % 8 = 1 then some (v + BitVec.ofInt 64 p) else none
  if enc / 128 % 2 = 1 then return (BitVec.ofNat 64 (← readLE mem v.toNat 8), q) else return (v, q)

/-- The run-time type information of the exception object (exc.cpp:136-148). -/
structure Rtti where
  id : Int
  parents : Option (List Int)

/-- The loop of `isinstance` over the zero-terminated array (exc.cpp:468-473). -/
def parentLoop (type : Int) : List Int → Option Bool
  | [] => none
  | x :: xs => if x = 0 then some false else if x = type then some true else parentLoop type xs

/-- `isinstance` (exc.cpp:463-476). -/
def isinstance (obj : Rtti) (type : Int) : Option Bool :=
  if obj.id = type then some true
  else match obj.parents with
    | none => some false
    | some ps => parentLoop type ps

/-- `ThisClassInfo->type`, a 32-bit `int` (exc.cpp:512). -/
def readInt32 (mem : Mem) (p : Int) : Option Int := do return (BitVec.ofNat 32 (← readLE mem p 4)).toInt

/-- The type id of entry `typeOffset` of the type table (exc.cpp:508-512). -/
def typeEntry (mem : Mem) (enc : Nat) (classInfo typeOffset : Int) : Option Int := do
  let size ← getEncodingSize enc
  let (v, _) ← readEncodedPointer mem (classInfo - typeOffset * size) enc
  readInt32 mem v.toNat

/-- `ThisClassType == 0 || isinstance(excp->obj, ThisClassType)` (exc.cpp:514). -/
def catches (obj : Rtti) (type : Int) : Option Bool := if type = 0 then some true else isinstance obj type

/-- The check of one action record (exc.cpp:507-519): the matched type. -/
def recordHit (mem : Mem) (enc : Nat) (classInfo : Int) (obj : Rtti) (typeOffset : Int) : Option (Option Int) :=
  if typeOffset > 0 then do
    let type ← typeEntry mem enc classInfo typeOffset
    let m ← catches obj type
    return if m then some type else none
  else some none

/-- `handleActionValue` for a Codon exception (exc.cpp:478-532): `some r` is the matched type.  `f` is the fuel (the code
follows the chain without a bound). -/
def handleActionValue (mem : Mem) (enc : Nat) (classInfo : Int) (obj : Rtti) : Nat → Int → Option (Option Int)
  | 0, _ => none
  | f + 1, actionPos => do
    let (typeOffset, actionPos) ← readSLEB128 mem actionPos
    let (actionOffset, _) ← readSLEB128 mem actionPos
    if typeOffset.toInt < 0 then none
    else do
      match ← recordHit mem enc classInfo obj typeOffset.toInt with
      | some type => return some type
      | none => if actionOffset = 0 then return none else handleActionValue mem enc classInfo obj f (actionPos + actionOffset.toInt)

/-- The outcomes of the personality function: `install` sets the instruction pointer and the selector register. -/
inductive Reason where
  | continueUnwind
  | handlerFound
  | install (ip : BitVec 64) (selector : Int)
deriving DecidableEq, Repr

/-- What the scan of the call-site table needs (exc.cpp:544-578). -/
structure Frame where
  mem : Mem
  obj : Rtti
  /-- the exception class is Codon's -/
  own : Bool
  /-- `actions & _UA_SEARCH_PHASE` -/
  search : Bool
  funcStart : BitVec 64
  pcOffset : BitVec 64
  ttypeEnc : Nat
  classInfo : Int
  callSiteEnc : Nat
  tableEnd : Int
  actionFuel : Nat

/-- The call of `handleActionValue` (exc.cpp:600-606). -/
def siteHit (c : Frame) (entry : BitVec 64) : Option (Option Int) :=
  if entry ≠ 0 then handleActionValue c.mem c.ttypeEnc c.classInfo c.obj c.actionFuel (c.tableEnd - 1 + entry.toNat) else some none

/-- The loop over the call-site table (exc.cpp:574-636). -/
def scanSites (c : Frame) : Nat → Int → Option Reason
  | 0, _ => none
  | f + 1, p =>
    if p < c.tableEnd then do
      let (start, p) ← readEncodedPointer c.mem p c.callSiteEnc
      let (length, p) ← readEncodedPointer c.mem p c.callSiteEnc
      let (landingPad, p) ← readEncodedPointer c.mem p c.callSiteEnc
      let (entry, p) ← readULEB128 c.mem p
      let entry := if c.own then entry else 0
      if landingPad = 0 then scanSites c f p
      else if start ≤ c.pcOffset ∧ c.pcOffset < start + length then do
        let hit ← siteHit c entry
        if !c.search then return .install (c.funcStart + landingPad) (hit.getD 0)
        else if hit.isSome then return .handlerFound
        else return .continueUnwind
      else scanSites c f p
    else return .continueUnwind

/-- Skipping the landing-pad base (exc.cpp:556-558). -/
def skipLpStart (mem : Mem) (p : Int) (lpEnc : UInt8) : Option Int :=
  if lpEnc ≠ 0xff then do
    let (_, q) ← readEncodedPointer mem p lpEnc.toNat
    return q
  else some p

/-- The position of the type table and the next address (exc.cpp:563-569). -/
def readClassInfo (mem : Mem) (p : Int) (ttEnc : UInt8) : Option (Int × Int) :=
  if ttEnc ≠ 0xff then do
    let (off, q) ← readULEB128 mem p
    return (q + off.toNat, q)
  else some (0, p)

/-- `handleLsda` (exc.cpp:534-640); `lsda = none` is the null pointer.  `pc` is already `_Unwind_GetIP - 1`. -/
def handleLsda (mem : Mem) (obj : Rtti) (own search : Bool) (funcStart pc : BitVec 64) (fuel : Nat) (lsda : Option Int) :
    Option Reason :=
  match lsda with
  | none => some .continueUnwind
  | some p => do
    let lpEnc ← mem p
    let p ← skipLpStart mem (p + 1) lpEnc
    let ttEnc ← mem p
    let (classInfo, p) ← readClassInfo mem (p + 1) ttEnc
    let csEnc ← mem p
    let (len, p) ← readULEB128 mem (p + 1)
    scanSites ⟨mem, obj, own, search, funcStart, pc - funcStart, ttEnc.toNat, classInfo, csEnc.toNat, p + (len.toNat % 2 ^ 32 : Nat), fuel⟩
      fuel p

end Codon.Exc
