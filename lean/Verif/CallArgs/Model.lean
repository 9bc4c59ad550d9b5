/-!
# Model of the matching of call arguments with parameters

`TypecheckVisitor::reorderNamedArgs` (codon/parser/visitors/typecheck/typecheck.cpp:1482-1593).
The expressions of the arguments play no role; an argument is represented by its position in the
call.  The overload score is not modelled.
-/
namespace Codon.CallArgs

/-- A parameter of a function (codon/parser/ast/expr.h `Param`). -/
structure Param where
  /-- unmangled name without stars -/
  name : String
  /-- number of leading stars: 0, 1 (`*args`) or 2 (`**kwargs`) -/
  stars : Nat
  /-- `Param::isValue()`: not a generic parameter -/
  isValue : Bool := true
  /-- has a default value -/
  hasDefault : Bool := false
  deriving DecidableEq, Repr

/-- `startswith(getName(), "$")`: a captured local name, supplied by the compiler. -/
def Param.captured (p : Param) : Bool := p.stars == 0 && p.name.startsWith "$"

/-- An argument of a call: `none` for a positional one, else the keyword. -/
abbrev Arg := Option String

/-- The errors reported through `onError`. -/
inductive Err where
  | repeatedName
  | tooMany
  | invalidName
  | missing
  deriving DecidableEq, Repr

/-- Insertion into `std::map<std::string, int>` (sorted by key). -/
def mapSet (k : String) (v : Nat) : List (String × Nat) → List (String × Nat)
  | [] => [(k, v)]
  | (k', v') :: l =>
    if k = k' then (k, v) :: l
    else if k < k' then (k, v) :: (k', v') :: l
    else (k', v') :: mapSet k v l

/-- typecheck.cpp:1500-1506: index of the last parameter with the given number of stars. -/
def starIndex (stars : Nat) (ps : List Param) : Option Nat :=
  let rec go (i : Nat) (r : Option Nat) : List Param → Option Nat
    | [] => r
    | p :: ps => go (i + 1) (if p.stars = stars then some i else r) ps
  go 0 none ps

/-- State of the loop over the arguments. -/
structure St1 where
  si : Nat
  slots : List (List Nat)
  extra : List Nat
  named : List (String × Nat)
  deriving DecidableEq

/-- typecheck.cpp:1518-1519: skip the slots already supplied by a partial call. -/
def skipKnown (known : List Bool) (n : Nat) : Nat → Nat → Nat
  | 0, si => si
  | fuel + 1, si => if si < n ∧ known[si]? = some true then skipKnown known n fuel (si + 1) else si

/-- typecheck.cpp:1520: `starArgIndex == -1 || si < starArgIndex`. -/
def beforeStar (star : Option Nat) (si : Nat) : Bool :=
  match star with
  | none => true
  | some s => decide (si < s)

/-- typecheck.cpp:1515-1527: one argument. -/
def assign1 (known : List Bool) (star : Option Nat) (st : St1) (ai : Nat) (a : Arg) : St1 :=
  match a with
  | none =>
    let si := skipKnown known st.slots.length st.slots.length st.si
    if si < st.slots.length ∧ beforeStar star si = true then
      { st with si := si + 1, slots := st.slots.set si [ai] }
    else { st with si := si, extra := st.extra ++ [ai] }
  | some n => { st with named := mapSet n ai st.named }

/-- typecheck.cpp:1515-1527: the loop over the arguments (without the trailing ellipsis). -/
def assignLoop (known : List Bool) (star : Option Nat) : St1 → Nat → List Arg → St1
  | st, _, [] => st
  | st, ai, a :: as => assignLoop known star (assign1 known star st ai a) (ai + 1) as

/-- typecheck.cpp:1530-1535: empty the slot of a starred parameter.  (The source puts the index of
the slot, not that of the argument, in front of `extra`.) -/
def clearSlot (i : Option Nat) (p : List (List Nat) × List Nat) : List (List Nat) × List Nat :=
  match i with
  | none => p
  | some i =>
    match p.1[i]? with
    | some (_ :: _) => (p.1.set i [], i :: p.2)
    | _ => p

/-- typecheck.cpp:1539-1544: `slotNames`; the last parameter of a name wins. -/
def slotOf (known : List Bool) (ps : List Param) (n : String) : Option Nat :=
  let rec go (i : Nat) (r : Option Nat) : List Param → Option Nat
    | [] => r
    | p :: ps => go (i + 1) (if p.name = n ∧ known[i]? ≠ some true then some i else r) ps
  go 0 none ps

/-- typecheck.cpp:1545-1553: the loop over the named arguments. -/
def namedLoop (known : List Bool) (ps : List Param) :
    List (List Nat) → List (String × Nat) → List (String × Nat) →
      Except Err (List (List Nat) × List (String × Nat))
  | slots, extraNamed, [] => .ok (slots, extraNamed)
  | slots, extraNamed, (n, ai) :: rest =>
    match slotOf known ps n with
    | none => namedLoop known ps slots (mapSet n ai extraNamed) rest
    | some i =>
      match slots[i]? with
      | some [] => namedLoop known ps (slots.set i [ai]) extraNamed rest
      | _ => .error .repeatedName

/-- typecheck.cpp:1576-1590: is there a parameter without argument and default? -/
def missingLoop (known : List Bool) (star kwstar : Option Nat) (isPartial : Bool)
    (slots : List (List Nat)) : Nat → List Param → Bool
  | _, [] => false
  | i, p :: ps =>
    if slots[i]? = some [] ∧ some i ≠ star ∧ some i ≠ kwstar then
      if (p.isValue && (p.hasDefault || known[i]? = some true)) || p.captured then
        missingLoop known star kwstar isPartial slots (i + 1) ps
      else if !isPartial && p.isValue then true
      else missingLoop known star kwstar isPartial slots (i + 1) ps
    else missingLoop known star kwstar isPartial slots (i + 1) ps

/-- typecheck.cpp:1530-1531: the two starred slots, the larger index first. -/
def clearBoth (star kwstar : Option Nat) (p : List (List Nat) × List Nat) :
    List (List Nat) × List Nat :=
  match star, kwstar with
  | some a, some b => clearSlot (some (min a b)) (clearSlot (some (max a b)) p)
  | some a, none => clearSlot (some a) p
  | none, b => clearSlot b p

/-- typecheck.cpp:1558-1561: `slots[starArgIndex] = extra`. -/
def setStar (star : Option Nat) (extra : List Nat) (slots : List (List Nat)) : List (List Nat) :=
  match star with
  | some s => slots.set s extra
  | none => slots

/-- typecheck.cpp:1566-1573: append the surplus keywords to the slot of `**kwargs`. -/
def setKwstar (kwstar : Option Nat) (extraNamed : List (String × Nat)) (slots : List (List Nat)) :
    List (List Nat) :=
  match kwstar with
  | some k => slots.modify k (· ++ extraNamed.map (·.2))
  | none => slots

/-- typecheck.cpp:1482-1593 `reorderNamedArgs`.  `known` is empty or has one entry per parameter
(`true`: included in the partial call).  The result is the vector `slots` handed to `onDone`. -/
def reorderNamedArgs (known : List Bool) (isPartial : Bool) (ps : List Param) (args : List Arg) :
    Except Err (List (List Nat)) :=
  let star := starIndex 1 ps
  let kwstar := starIndex 2 ps
  let st := assignLoop known star ⟨0, List.replicate ps.length [], [], []⟩ 0 args
  match clearBoth star kwstar (st.slots, st.extra) with
  | (slots, extra) =>
    match namedLoop known ps slots [] st.named with
    | .error e => .error e
    | .ok (slots, extraNamed) =>
      if extra ≠ [] ∧ star = none then .error .tooMany
      else if extraNamed ≠ [] ∧ kwstar = none then .error .invalidName
      else
        let slots := setKwstar kwstar extraNamed (setStar star extra slots)
        if missingLoop known star kwstar isPartial slots 0 ps then .error .missing
        else .ok slots

/-- codon/parser/visitors/typecheck/call.cpp:336-342 (end of `transformCallArgs`): keywords must be
distinct; this is checked before the arguments are matched. -/
def namesDistinct (args : List Arg) : Bool := decide (args.filterMap id).Nodup

/-- codon/parser/visitors/scoping/scoping.cpp:494-517: conditions on parameter lists. -/
structure WellFormed (ps : List Param) : Prop where
  names : (ps.map (·.name)).Nodup
  stars : ∀ p ∈ ps, p.stars ≤ 2
  oneStar : (ps.filter (fun p => p.stars == 1)).length ≤ 1
  lastKw : ∀ i : Nat, (∃ p, ps[i]? = some p ∧ p.stars = 2) → i + 1 = ps.length

end Codon.CallArgs
