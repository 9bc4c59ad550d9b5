import Verif.Getopt.Model

/-!
# Command lines

What a command line means, given the declarations of the options.  This is Python's
`getopt.gnu_getopt` and, with `first`, Python's `getopt.getopt`.
-/

namespace Codon.Getopt

/-- The declared options, each with whether it has an argument. -/
structure Decls where
  shorts : List (Char × Bool)
  longs : List (Str × Bool)

/-- The string of short options: a colon after each one that has an argument. -/
def Decls.shortopts (D : Decls) : Str :=
  D.shorts.flatMap fun d => if d.2 then [d.1, ':'] else [d.1]

/-- A long option as it is passed: with `=` at the end if it has an argument. -/
def render (d : Str × Bool) : Str := if d.2 then d.1 ++ ['='] else d.1

/-- The list of long options. -/
def Decls.longopts (D : Decls) : List Str := D.longs.map render

/-- No short option is a colon, no long one contains `=`. -/
def Decls.Ok (D : Decls) : Prop := (∀ d ∈ D.shorts, d.1 ≠ ':') ∧ ∀ d ∈ D.longs, '=' ∉ d.1

/-- The first declaration of a short option. -/
def Decls.short (D : Decls) (c : Char) : Option Bool := (D.shorts.find? fun d => d.1 = c).map (·.2)

/-- What a long option as written stands for: the option of this name, and if there is none the one
option whose name starts so. -/
def Resolves (L : List (Str × Bool)) (w : Str) (d : Str × Bool) : Prop :=
  (d.1 = w ∧ d ∈ L ∧ (d.2 = true → (w, false) ∉ L)) ∨
  ((w, false) ∉ L ∧ (w, true) ∉ L ∧ L.filter (fun d => w.isPrefixOf d.1) = [d])

/-- The short options of one argument: what they mean, and what is left of the arguments after it. -/
inductive Cluster (D : Decls) : Str → List Str → List (Str × Str) → List Str → Prop
  | nil {rest} : Cluster D [] rest [] rest
  | flag {c cs rest os rest'} : D.short c = some false → Cluster D cs rest os rest' →
      Cluster D (c :: cs) rest ((['-', c], []) :: os) rest'
  | attached {c v rest} : D.short c = some true → v ≠ [] →
      Cluster D (c :: v) rest [(['-', c], v)] rest
  | separate {c v rest} : D.short c = some true →
      Cluster D [c] (v :: rest) [(['-', c], v)] rest

/-- An argument that is no option: `-`, or one that does not start with `-`. -/
def Operand (a : Str) : Prop := a = ['-'] ∨ a.head? ≠ some '-'

/-- The meaning of a command line: the options in order and the operands.  `first`: the options end
at the first operand. -/
inductive Line (D : Decls) (first : Bool) : List Str → List (Str × Str) → List Str → Prop
  | done : Line D first [] [] []
  | stop {rest} : Line D first (['-', '-'] :: rest) [] rest
  | longFlag {w n rest os ops} : w ≠ [] → '=' ∉ w → Resolves D.longs w (n, false) →
      Line D first rest os ops →
      Line D first (('-' :: '-' :: w) :: rest) (('-' :: '-' :: n, []) :: os) ops
  | longEq {w n v rest os ops} : '=' ∉ w → Resolves D.longs w (n, true) →
      Line D first rest os ops →
      Line D first (('-' :: '-' :: (w ++ '=' :: v)) :: rest) (('-' :: '-' :: n, v) :: os) ops
  | longSep {w n v rest os ops} : w ≠ [] → '=' ∉ w → Resolves D.longs w (n, true) →
      Line D first rest os ops →
      Line D first (('-' :: '-' :: w) :: v :: rest) (('-' :: '-' :: n, v) :: os) ops
  | short {cs rest os rest' os' ops} : cs ≠ [] → cs.head? ≠ some '-' →
      Cluster D cs rest os rest' → Line D first rest' os' ops →
      Line D first (('-' :: cs) :: rest) (os ++ os') ops
  | operand {a rest os ops} : Operand a → first = false → Line D first rest os ops →
      Line D first (a :: rest) os (a :: ops)
  | operands {a rest} : Operand a → first = true → Line D first (a :: rest) [] (a :: rest)

/-- No argument gives a long option an empty value with `=`. -/
def NoEmpty (args : List Str) : Prop := ∀ w, '=' ∉ w → '-' :: '-' :: (w ++ ['=']) ∉ args

end Codon.Getopt
