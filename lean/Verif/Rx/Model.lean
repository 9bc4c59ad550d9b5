/-!
# Going through the matches of a regular expression

Source: `/repo/stdlib/re.codon:375-454`: `Pattern._match` (the generator behind `finditer`, `findall`,
`split`, `sub` and `subn`), `_split`, `subn`.

The matching itself is that of the RE2 library and is not modelled: a pattern and a string give, for
each position, the ends of the possible matches that start there, the preferred one first (`Rx`).
`seq_re_match` without anchor finds the first position with a match and takes the preferred one
there (leftmost-first); the assertions `^`, `$`, `\b` look at the whole string, so that the ends do
not depend on where the search began (`/repo/codon/runtime/re.cpp:133-159`).
-/

namespace Codon.Rx

/-- The ends of the matches that start at a position, by preference. -/
abbrev Rx := Nat → List Nat

/-- `seq_re_match(re, _ANCHOR_NONE, string, pos, n)`, the span of the group 0; `k` positions are
left. -/
def search (M : Rx) : Nat → Nat → Option (Nat × Nat)
  | 0, _ => none
  | k + 1, pos =>
    match M pos with
    | e :: _ => some (pos, e)
    | [] => search M k (pos + 1)

/-- `Pattern._match` (`re.codon:375-398`), from the loop on; `n` is `endposx`.  The first number
bounds the rounds: `none` is that it did not suffice. -/
def iter (M : Rx) (n : Nat) : Nat → Nat → Option (List (Nat × Nat))
  | 0, _ => none
  | f + 1, posx =>
    match search M (n + 1 - posx) posx with
    | none => some []
    | some (s, e) =>
      if posx = n then some [(s, e)]
      else if posx = e then (iter M n f (posx + 1)).map ((s, e) :: ·)
      else (iter M n f e).map ((s, e) :: ·)

/-- `Pattern._match` with its arguments (`re.codon:375-398`); the length of the string is `len`, and
the pattern gives the ends of matches for each `endpos`. -/
def finditer (M : Nat → Rx) (len : Nat) (pos endpos : Option Int) (f : Nat) :
    Option (List (Nat × Nat)) :=
  let posx : Int := match pos with | none => 0 | some p => max 0 (min p len)
  let endposx : Int := match endpos with | none => len | some p => max 0 (min p len)
  if posx > endposx then some []
  else iter (M endposx.toNat) endposx.toNat f posx.toNat

/-- The loop of `Pattern._split` (`re.codon:419-429`): the pieces and how many matches were used. -/
def splitLoop {α β : Type} (cb : Nat × Nat → List β) (piece : List α → β) (str : List α)
    (maxsplit : Int) : List (Nat × Nat) → Nat → Nat → List β → List β × Nat
  | [], end_, num, pieces => (pieces ++ [piece (str.drop end_)], num)
  | (s, e) :: r, end_, num, pieces =>
    if maxsplit > 0 ∧ (num : Int) ≥ maxsplit then (pieces ++ [piece (str.drop end_)], num)
    else splitLoop cb piece str maxsplit r e (num + 1)
      (pieces ++ piece ((str.take s).drop end_) :: cb (s, e))

/-- `Pattern._split` (`re.codon:415-430`), on the matches of `finditer`. -/
def split {α β : Type} (cb : Nat × Nat → List β) (piece : List α → β) (str : List α)
    (maxsplit : Int) (ms : List (Nat × Nat)) : List β × Nat :=
  if maxsplit < 0 then ([piece str], 0)
  else splitLoop cb piece str maxsplit ms 0 0 []

/-- `Pattern.subn` (`re.codon:443-447`): the pieces are put together. -/
def subn {α : Type} (repl : Nat × Nat → List α) (str : List α) (count : Int)
    (ms : List (Nat × Nat)) : List α × Nat :=
  let p := split (fun m => [repl m]) id str count ms
  (p.1.flatten, p.2)

end Codon.Rx
