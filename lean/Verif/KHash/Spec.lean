/-! Specification of dictionaries and sets, independent of the hash table. -/

namespace Codon.KHash.Spec

section
variable {K V : Type} [DecidableEq K]

/-- A finite map as a list of key/value pairs (no key occurs twice). -/
abbrev Map (K V : Type) := List (K × V)

def find (m : Map K V) (k : K) : Option V := (m.find? fun p => decide (p.1 = k)).map Prod.snd
def erase (m : Map K V) (k : K) : Map K V := m.filter fun p => decide (p.1 ≠ k)
def store (m : Map K V) (k : K) (v : V) : Map K V := (k, v) :: erase m k

/-- Operations on a dict (with observable results). -/
inductive Op (K V : Type) where
  | set (k : K) (v : V)
  | del (k : K)
  | pop (k : K)
  | clear
  | resize (m : BitVec 64)
  | get (k : K)
  | getD (k : K) (d : V)
  | setdefault (k : K) (v : V)
  | contains (k : K)
  | len
  | copy

inductive Obs (V : Type) where
  | none
  | keyError
  | val (v : V)
  | bool (b : Bool)
  | nat (n : Nat)
deriving DecidableEq

/-- What Python's dict does. -/
def step (m : Map K V) : Op K V → Map K V × Obs V
  | .set k v => (store m k v, .none)
  | .del k => match find m k with
    | some _ => (erase m k, .none)
    | none => (m, .keyError)
  | .pop k => match find m k with
    | some v => (erase m k, .val v)
    | none => (m, .keyError)
  | .clear => ([], .none)
  | .resize _ => (m, .none)
  | .get k => match find m k with
    | some v => (m, .val v)
    | none => (m, .keyError)
  | .getD k d => match find m k with
    | some v => (m, .val v)
    | none => (m, .val d)
  | .setdefault k v => match find m k with
    | some w => (m, .val w)
    | none => (store m k v, .val v)
  | .contains k => (m, .bool (find m k).isSome)
  | .len => (m, .nat m.length)
  | .copy => (m, .none)

def run (m : Map K V) : List (Op K V) → Map K V × List (Obs V)
  | [] => (m, [])
  | op :: ops =>
    let (m, o) := step m op
    let (m, os) := run m ops
    (m, o :: os)

end

end Codon.KHash.Spec
