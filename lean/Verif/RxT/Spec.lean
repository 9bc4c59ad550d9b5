import Verif.RxT.Model

/-!
# What a template says
-/

namespace Codon.RxT

/-- The parts of a template. -/
inductive Tok where
  /-- a character -/
  | lit (c : Char)
  /-- backslash and a letter for a control character, or another backslash -/
  | esc (c v : Char)
  /-- backslash and octal digits -/
  | oct (ds : List Char)
  /-- backslash and a character without meaning: both stay -/
  | keep (c : Char)
  /-- backslash and one or two digits: a group -/
  | num (ds : List Char)
  /-- `\g<…>` with digits -/
  | refNum (ds : List Char)
  /-- `\g<…>` with a name -/
  | ref (w : List Char)

/-- How a part is written. -/
def Tok.show : Tok → List Char
  | .lit c => [c]
  | .esc c _ => ['\\', c]
  | .oct ds => '\\' :: ds
  | .keep c => ['\\', c]
  | .num ds => '\\' :: ds
  | .refNum ds => '\\' :: 'g' :: '<' :: ds ++ ['>']
  | .ref w => '\\' :: 'g' :: '<' :: w ++ ['>']

/-- How a template is written. -/
def render : List Tok → List Char
  | [] => []
  | t :: r => t.show ++ render r

/-- A digit between two characters. -/
def Between (a b c : Char) : Prop := a ≤ c ∧ c ≤ b

/-- Letters, digits and the underscore. -/
def Word (c : Char) : Prop :=
  Between '0' '9' c ∨ (Between 'a' 'z' c ∨ Between 'A' 'Z' c) ∨ c = '_'

/-- The value of digits. -/
def numOf (base : Nat) : List Char → Nat
  | [] => 0
  | d :: r => (d.toNat - '0'.toNat) * base ^ r.length + numOf base r

/-- The escapes of control characters in templates, and of the backslash. -/
def escapes : List (Char × Char) :=
  [('a', '\x07'), ('b', '\x08'), ('f', '\x0c'), ('n', '\n'), ('r', '\r'), ('t', '\t'), ('v', '\x0b'),
    ('\\', '\\')]

/-- Whether a part is one that Python's documentation knows.  (The two quotes are left out, see
`c96_violation_quote`.) -/
def Tok.Ok : Tok → Prop
  | .lit c => c ≠ '\\'
  | .esc c v => (c, v) ∈ escapes
  | .oct ds => (∀ d ∈ ds, Between '0' '7' d) ∧
      (ds.length = 3 ∨ (ds.head? = some '0' ∧ ds.length ≤ 3)) ∧ numOf 8 ds < 256
  | .keep c => ¬ Word c ∧ c ≠ '\\' ∧ c ≠ '"' ∧ c ≠ '\''  ∨ c = '_'
  | .num ds => (∀ d ∈ ds, Between '0' '9' d) ∧ ds.head? ≠ some '0' ∧ (ds.length = 1 ∨ ds.length = 2)
  | .refNum ds => ds ≠ [] ∧ ∀ d ∈ ds, Between '0' '9' d
  | .ref w => (∀ c ∈ w, Word c) ∧ ∃ c ∈ w, ¬ Between '0' '9' c

/-- What may follow a part so that it ends there.  (For Python three octal digits end always, see
`c96_violation_octal`.) -/
def Tok.Ends (t : Tok) (next : List Char) : Prop :=
  match t with
  | .oct _ => ∀ c, next.head? = some c → ¬ Between '0' '7' c
  | .num [_] => ∀ c, next.head? = some c → ¬ Between '0' '9' c
  | .num ds => (∀ d ∈ ds, Between '0' '7' d) → ∀ c, next.head? = some c → ¬ Between '0' '7' c
  | _ => True

/-- A template made of such parts. -/
def Good : List Tok → Prop
  | [] => True
  | t :: r => t.Ok ∧ t.Ends (render r) ∧ Good r

/-- The text of a group, nothing if it took no part; `none` if there is no such group. -/
def groupText (m : M) (g : Nat) : Option (List Char) := (m.spans[g]?).map fun o => o.getD []

/-- What a part stands for. -/
def Tok.value (m : M) : Tok → Option (List Char)
  | .lit c => some [c]
  | .esc _ v => some [v]
  | .oct ds => some [Char.ofNat (numOf 8 ds)]
  | .keep c => some ['\\', c]
  | .num ds => groupText m (numOf 10 ds)
  | .refNum ds => groupText m (numOf 10 ds)
  | .ref w => (m.name w).bind (groupText m)

/-- What a template stands for. -/
def valueOf (m : M) : List Tok → Option (List Char)
  | [] => some []
  | t :: r => (t.value m).bind fun a => (valueOf m r).map (a ++ ·)

end Codon.RxT
