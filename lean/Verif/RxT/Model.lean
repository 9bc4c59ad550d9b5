/-!
# Templates of replacements

Source: `/repo/stdlib/re.codon:199-303`: `Match._split`, `Match._unescape`, `Match.expand`.

Simplifications: strings are lists of characters (bytes); what the compiled expressions `OCTAL`, `GROUP`
and `INT` match (`:204-205`, `:289`) is written out; the characters before the next backslash are added
to the last piece one by one, where the code cuts at `find`.  A match is the list of its groups, the
whole match first, and the index of each name.
-/

namespace Codon.RxT

/-- How `expand` ends: with a string, with `re.error` or with `IndexError`. -/
inductive Out where
  | ok (s : List Char)
  | error
  | indexError
  deriving DecidableEq, Repr

/-- Text before the rest of a result. -/
def Out.pre (s : List Char) : Out → Out
  | .ok t => .ok (s ++ t)
  | o => o

/-- The groups of a match, with `none` for those that took no part, and the names. -/
structure M where
  spans : List (Option (List Char))
  name : List Char → Option Nat

/-- `[0-7]` -/
def isOct (c : Char) : Bool := decide ('0' ≤ c ∧ c ≤ '7')

/-- `[0-9]` -/
def isDig (c : Char) : Bool := decide ('0' ≤ c ∧ c ≤ '9')

/-- `isalpha` of one character. -/
def isAlpha (c : Char) : Bool := decide (('a' ≤ c ∧ c ≤ 'z') ∨ ('A' ≤ c ∧ c ≤ 'Z'))

/-- `\w` -/
def isWord (c : Char) : Bool := isDig c || isAlpha c || c == '_'

/-- Whether `OCTAL` (`re.codon:204`) matches after the backslash. -/
def octalMatch : List Char → Bool
  | a :: b :: c :: _ => isOct a && isOct b && isOct c
  | _ => false

/-- What `GROUP` (`re.codon:205`) matches, given what follows the backslash. -/
def groupMatch (r : List Char) : Option (List Char) :=
  match r with
  | [] => none
  | d :: r =>
    if isDig d && d != '0' then
      match r with
      | e :: _ => if isDig e then some ['\\', d, e] else some ['\\', d]
      | [] => some ['\\', d]
    else if d = 'g' then
      match r with
      | '<' :: r =>
        let w := r.takeWhile isWord
        if w ≠ [] ∧ (r.dropWhile isWord).head? = some '>' then some ('\\' :: 'g' :: '<' :: w ++ ['>'])
        else none
      | _ => none
    else none

/-- `Match._split` (`re.codon:199-226`); the number says how many characters are taken already, the
last argument is the last piece so far. -/
def split : List Char → Nat → List Char → List (List Char)
  | [], _, cur => [cur]
  | _ :: r, k + 1, cur => split r k cur
  | x :: r, 0, cur =>
    if x = '\\' then
      match octalMatch r, groupMatch r with
      | false, some p => cur :: p :: split r (p.length - 1) []
      | _, _ => split r 1 (cur ++ (x :: r).take 2)
    else split r 0 (cur ++ [x])

/-- The characters with an escape of their own (`re.codon:235-264`). -/
def escVal (c : Char) : Option Char :=
  if c = 'a' then some (Char.ofNat 7)
  else if c = 'b' then some (Char.ofNat 8)
  else if c = 'f' then some (Char.ofNat 12)
  else if c = 'n' then some '\n'
  else if c = 'r' then some '\r'
  else if c = 't' then some '\t'
  else if c = 'v' then some (Char.ofNat 11)
  else if c = '"' then some '"'
  else if c = '\'' then some '\''
  else if c = '\\' then some '\\'
  else none

/-- `int(s, base)` of digits. -/
def toInt (base : Nat) (ds : List Char) : Nat := ds.foldl (fun n c => n * base + (c.toNat - 48)) 0

/-- `Match._unescape` (`re.codon:228-282`); the number says how many characters are taken already. -/
def unesc : List Char → Nat → Out
  | [], _ => .ok []
  | _ :: r, k + 1 => unesc r k
  | x :: r, 0 =>
    if x = '\\' then
      match r with
      | [] => .ok [x]
      | c :: _ =>
        match escVal c with
        | some v => (unesc r 1).pre [v]
        | none =>
          if isOct c then
            let ds := (r.take 4).takeWhile isOct
            (unesc r ds.length).pre [Char.ofNat (toInt 8 ds % 256)]
          else if isAlpha c then .error
          else (unesc r 0).pre [x]
    else (unesc r 0).pre [x]

/-- `self[g]`, or the empty string (`re.codon:147-170, 285-286`). -/
def lookup (m : M) (g : Nat) : Out :=
  match m.spans[g]? with
  | some (some s) => .ok s
  | some none => .ok []
  | none => .indexError

/-- A reference (`re.codon:295-302`). -/
def reference (m : M) (piece : List Char) : Out :=
  if piece.length ≤ 3 then lookup m (toInt 10 (piece.drop 1))
  else
    let group := (piece.drop 3).dropLast
    if group ≠ [] ∧ group.all isDig then lookup m (toInt 10 group)
    else
      match m.name group with
      | some i => lookup m i
      | none => .indexError

/-- The loop over the pieces (`re.codon:291-303`). -/
def pieces (m : M) : Bool → List (List Char) → Out
  | _, [] => .ok []
  | odd, p :: r =>
    match (if odd then reference m p else unesc p 0) with
    | .ok s => (pieces m (!odd) r).pre s
    | o => o

/-- `Match.expand` (`re.codon:284-303`). -/
def expand (m : M) (template : List Char) : Out := pieces m false (split template 0 [])

end Codon.RxT
