import Verif.Str.FindModel
import Verif.Slice.Spec

/-!
# What Python's manual says of these methods (for strings of one-byte characters)
-/

namespace Codon.StrMSpec

open Codon.Str (Str)

def Upper (c : UInt8) : Prop := 'A'.toNat ≤ c.toNat ∧ c.toNat ≤ 'Z'.toNat
def Lower (c : UInt8) : Prop := 'a'.toNat ≤ c.toNat ∧ c.toNat ≤ 'z'.toNat
def Letter (c : UInt8) : Prop := Upper c ∨ Lower c
def Digit (c : UInt8) : Prop := '0'.toNat ≤ c.toNat ∧ c.toNat ≤ '9'.toNat
/-- The ASCII characters that are white space for Python. -/
def Space (c : UInt8) : Prop :=
  c.toNat ∈ [9, 10, 11, 12, 13, 28, 29, 30, 31, 32]
/-- The ASCII characters that are printable for Python. -/
def Printable (c : UInt8) : Prop := ' '.toNat ≤ c.toNat ∧ c.toNat ≤ '~'.toNat

instance (c) : Decidable (Upper c) := by unfold Upper; infer_instance
instance (c) : Decidable (Lower c) := by unfold Lower; infer_instance
instance (c) : Decidable (Letter c) := by unfold Letter; infer_instance
instance (c) : Decidable (Digit c) := by unfold Digit; infer_instance
instance (c) : Decidable (Space c) := by unfold Space; infer_instance
instance (c) : Decidable (Printable c) := by unfold Printable; infer_instance

/-- `d` is `c` with its case changed so that it is not a lower-case letter: the same letter of the alphabet. -/
def UpperOf (c d : UInt8) : Prop :=
  (Lower c → Upper d ∧ d.toNat - 'A'.toNat = c.toNat - 'a'.toNat) ∧ (¬ Lower c → d = c)

def LowerOf (c d : UInt8) : Prop :=
  (Upper c → Lower d ∧ d.toNat - 'a'.toNat = c.toNat - 'A'.toNat) ∧ (¬ Upper c → d = c)

/-- `t` is `s` changed byte by byte, each in the way `R` says for its position. -/
def Bytewise (R : Nat → UInt8 → UInt8 → Prop) (s t : Str) : Prop :=
  t.length = s.length ∧ ∀ i c d, s[i]? = some c → t[i]? = some d → R i c d

/-- The byte before position `i` is a letter. -/
def AfterLetter (s : Str) (i : Nat) : Prop := ∃ j c, i = j + 1 ∧ s[j]? = some c ∧ Letter c

/-- "uppercase characters may only follow uncased characters and lowercase characters only cased ones", and
there is at least one cased character. -/
def Titlecased (s : Str) : Prop :=
  (∃ c ∈ s, Letter c) ∧
  ∀ i c, s[i]? = some c → (Upper c → ¬ AfterLetter s i) ∧ (Lower c → AfterLetter s i)

/-- The number of bytes since the last line break. -/
def column (o : Str) : Nat := (o.reverse.takeWhile fun c => c ≠ 10 ∧ c ≠ 13).length

/-- `o` is `s` with its tabs expanded: each tab becomes the spaces up to the next multiple of `ts` (at least one
space), or nothing if `ts` is not positive. -/
inductive Expanded (ts : Int) : Str → Str → Prop
  | nil : Expanded ts [] []
  | char {s o c} : Expanded ts s o → c ≠ 9 → Expanded ts (s ++ [c]) (o ++ [c])
  | drop {s o} : Expanded ts s o → ts ≤ 0 → Expanded ts (s ++ [9]) o
  | tab {s o} {k : Nat} : Expanded ts s o → 0 < ts → 0 < k → ts ∣ (column o + k : Nat) →
      (∀ k' : Nat, 0 < k' → k' < k → ¬ ts ∣ (column o + k' : Nat)) →
      Expanded ts (s ++ [9]) (o ++ List.replicate k 32)

/-- How many of the `pad` fill characters Python's `center` puts to the left. -/
def pyLeft (pad width : Nat) : Nat := pad / 2 + (if pad % 2 = 1 ∧ width % 2 = 1 then 1 else 0)

/-- What becomes of one character under `translate`. -/
def image (map : Int → Option (Option Str)) (c : UInt8) : Str :=
  match map c.toNat with
  | none => [c]
  | some none => []
  | some (some v) => v

/-- What `zfill` gives for a text with an optional sign. -/
def zfilled (s : Str) (width : Nat) : Str :=
  match s with
  | [] => List.replicate width 48
  | c :: r =>
    if c = 43 ∨ c = 45 then c :: (List.replicate (width - s.length) 48 ++ r)
    else List.replicate (width - s.length) 48 ++ s

end Codon.StrMSpec
