/-!
# `getopt`

Source: `/repo/stdlib/getopt.codon:52-146`.  Strings are lists of characters; `none` is a
`GetoptError` (its message is not modelled).  The environment is a Boolean: whether
`POSIXLY_CORRECT` is set.
-/

namespace Codon.Getopt

abbrev Str := List Char

/-- `long_has_args` (`getopt.codon:52-71`). -/
def longHasArgs (opt : Str) (longopts : List Str) : Option (Bool × Str) :=
  let poss := longopts.filter fun o => opt.isPrefixOf o
  if poss = [] then none
  else if opt ∈ poss then some (false, opt)
  else if opt ++ ['='] ∈ poss then some (true, opt)
  else
    match poss with
    | [u] =>
      let hasArg := u.getLast? = some '='
      some (hasArg, if hasArg then u.dropLast else u)
    | _ => none

/-- `opt.index("=")` and the two slices (`getopt.codon:76-81`). -/
def splitEq : Str → Str × Str
  | [] => ([], [])
  | c :: r => if c = '=' then ([], r) else (c :: (splitEq r).1, (splitEq r).2)

/-- `do_longs` (`getopt.codon:73-92`). -/
def doLongs (opts : List (Str × Str)) (opt : Str) (longopts : List Str) (args : List Str) :
    Option (List (Str × Str) × List Str) :=
  let s := splitEq opt
  match longHasArgs s.1 longopts with
  | none => none
  | some (hasArg, opt) =>
    if hasArg then
      if s.2 = [] then
        match args with
        | [] => none
        | a :: r => some (opts ++ [('-' :: '-' :: opt, a)], r)
      else some (opts ++ [('-' :: '-' :: opt, s.2)], args)
    else if s.2 ≠ [] then none
    else some (opts ++ [('-' :: '-' :: opt, s.2)], args)

/-- `short_has_arg` (`getopt.codon:94-98`), from an index of the string of short options on. -/
def shortHasArg (opt : Char) : Str → Option Bool
  | [] => none
  | c :: r => if opt = c ∧ c ≠ ':' then some (r.head? = some ':') else shortHasArg opt r

/-- `do_shorts` (`getopt.codon:100-113`). -/
def doShorts (shortopts : Str) : List (Str × Str) → Str → List Str →
    Option (List (Str × Str) × List Str)
  | opts, [], args => some (opts, args)
  | opts, opt :: optstring, args =>
    match shortHasArg opt shortopts with
    | none => none
    | some true =>
      if optstring = [] then
        match args with
        | [] => none
        | a :: r => some (opts ++ [(['-', opt], a)], r)
      else some (opts ++ [(['-', opt], optstring)], args)
    | some false => doShorts shortopts (opts ++ [(['-', opt], [])]) optstring args

/-- The loop of `getopt` (`getopt.codon:128-146`); the number bounds the rounds, and each round
takes at least one argument. -/
def loop (first : Bool) (shortopts : Str) (longopts : List Str) :
    Nat → List (Str × Str) → List Str → List Str → Option (List (Str × Str) × List Str)
  | _, opts, prog, [] => some (opts, prog)
  | 0, _, _, _ :: _ => none
  | n + 1, opts, prog, a :: r =>
    if a = ['-', '-'] then some (opts, prog ++ r)
    else if a.take 2 = ['-', '-'] then
      match doLongs opts (a.drop 2) longopts r with
      | none => none
      | some (opts, args) => loop first shortopts longopts n opts prog args
    else if a.take 1 = ['-'] ∧ a ≠ ['-'] then
      match doShorts shortopts opts (a.drop 1) r with
      | none => none
      | some (opts, args) => loop first shortopts longopts n opts prog args
    else if first then some (opts, prog ++ a :: r)
    else loop first shortopts longopts n opts (prog ++ [a]) r

/-- `getopt` (`getopt.codon:115-146`). -/
def getopt (env : Bool) (args : List Str) (shortopts : Str) (longopts : List Str) :
    Option (List (Str × Str) × List Str) :=
  if shortopts.head? = some '+' then loop true shortopts.tail longopts args.length [] [] args
  else loop env shortopts longopts args.length [] [] args

end Codon.Getopt
