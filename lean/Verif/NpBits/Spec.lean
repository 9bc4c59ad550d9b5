import Verif.NpBits.Model
import Mathlib.Data.List.Forall2

/-!
# Positions and bits
-/

namespace Codon.NpBits

/-- A position inside an array of this shape. -/
def Inside (cs ds : List Int) : Prop := List.Forall₂ (fun c d => 0 ≤ c ∧ c < d) cs ds

/-- The number of elements. -/
def size : List Int → Int
  | [] => 1
  | d :: ds => d * size ds

/-- The number of elements before a position if the last axis runs fastest. -/
def rankC : List Int → List Int → Int
  | c :: cs, _ :: ds => c * size ds + rankC cs ds
  | _, _ => 0

/-- The number of elements before a position if the first axis runs fastest. -/
def rankF : List Int → List Int → Int
  | c :: cs, d :: ds => c + d * rankF cs ds
  | _, _ => 0

/-- The order of the axes. -/
def rank (order : String) (cs ds : List Int) : Int := if order = "C" then rankC cs ds else rankF cs ds

/-- The modes of an index, for a positive limit: in range, the rest of the division, the nearest. -/
def Fixed (mode : String) (i d j : Int) : Prop :=
  (mode = "raise" ∧ j = i ∧ 0 ≤ i ∧ i < d) ∨ (mode = "wrap" ∧ j = i % d) ∨
    (mode = "clip" ∧ j = max 0 (min i (d - 1)))

/-- How many bits are asked for: all, the first, or all but the last. -/
def bitCount (bytes : Nat) : Option Int → Int
  | none => (bytes : Int) * 8
  | some c => if c < 0 then (bytes : Int) * 8 + c else c

/-- The place value of the bit with number `j` in a byte. -/
def weight (little : Bool) (j : Nat) : Nat := if little then 2 ^ j else 2 ^ (7 - j)

/-- The byte with these bits. -/
def byteOf (little : Bool) (f : Nat → Bool) : Nat :=
  ((List.range 8).map fun j => if f j then weight little j else 0).sum

end Codon.NpBits
