import Verif.NpBus.Model
import Verif.NpCal.Spec
import Mathlib.Data.Nat.Count

/-!
# What is claimed of business days

Independent of the searches and of the jumps over whole weeks.
-/

namespace Codon.NpBus

/-- The mask is open on this day; day 4 (1970-01-05) is a Monday. -/
def Masked (wm : Nat) (d : Int) : Prop := wm.testBit ((d - 4) % 7).toNat = true

/-- A business day: open by the mask and not a holiday. -/
def Business (wm : Nat) (hs : List Int) (d : Int) : Prop := Masked wm d ∧ d ∉ hs

instance (wm : Nat) (d : Int) : Decidable (Masked wm d) :=
  inferInstanceAs (Decidable (wm.testBit ((d - 4) % 7).toNat = true))

instance (wm : Nat) (hs : List Int) (d : Int) : Decidable (Business wm hs d) :=
  inferInstanceAs (Decidable (_ ∧ _))

/-- A mask of seven days with at least one open. -/
def MaskOk (wm : Nat) : Prop := wm ≠ 0 ∧ wm < 128

/-- The holidays as a calendar keeps them. -/
def Kept (wm : Nat) (hs : List Int) : Prop := hs.Pairwise (· < ·) ∧ ∀ d ∈ hs, Masked wm d

/-- One day on, or one day back. -/
def sgn (fwd : Bool) : Int := if fwd then 1 else -1

/-- `r` is the `k`-th day with `B` after (before) `d`: between `d`, not included, and `r`, included,
there are `k` of them and the last is `r`.  The day `0` is `d`. -/
def Nth (B : Int → Prop) [DecidablePred B] (fwd : Bool) (d : Int) (k : Nat) (r : Int) : Prop :=
  ∃ j : Nat, r = d + sgn fwd * j ∧ Nat.count (fun i => B (d + sgn fwd * (i + 1))) j = k ∧
    (k = 0 → j = 0) ∧ (k ≠ 0 → B r)

/-- The number of days with `B` from `a` on, before `b`. -/
def Between (B : Int → Prop) [DecidablePred B] (a b : Int) : Nat :=
  Nat.count (fun i => B (a + i)) (b - a).toNat

/-- Where a day that is not a business day is moved to; `month` gives the month of a day. -/
def Rolled (month : Int → Int) (B : Int → Prop) [DecidablePred B] (d : Int) : Roll → Int → Prop
  | .following, r => Nth B true d 1 r
  | .preceding, r => Nth B false d 1 r
  | .modifiedFollowing, r =>
    ∃ a b, Nth B true d 1 a ∧ Nth B false d 1 b ∧ r = if month a = month d then a else b
  | .modifiedPreceding, r =>
    ∃ a b, Nth B false d 1 a ∧ Nth B true d 1 b ∧ r = if month a = month d then a else b
  | .nat, _ => False
  | .raise, _ => False

/-- The names of the days, from Monday on. -/
def names : List (List Char) :=
  [['M', 'o', 'n'], ['T', 'u', 'e'], ['W', 'e', 'd'], ['T', 'h', 'u'], ['F', 'r', 'i'],
    ['S', 'a', 't'], ['S', 'u', 'n']]

/-- A string made of names of days, with blanks before, between and after as wanted. -/
inductive Names : List Char → List Nat → Prop
  | done : Names [] []
  | blank {c : Char} {s : List Char} {ds : List Nat} : isSpace c = true → Names s ds →
      Names (c :: s) ds
  | day {w s : List Char} {j : Nat} {ds : List Nat} : names[j]? = some w → Names s ds →
      Names (w ++ s) (j :: ds)

/-- The mask `wm` is open on the days with `P`, and on no other. -/
def Opens (wm : Nat) (P : Nat → Prop) : Prop := ∀ j, wm.testBit j = true ↔ P j

end Codon.NpBus
