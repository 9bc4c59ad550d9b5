import Verif.Twister.Model
import Mathlib.Data.Nat.Digits.Defs
/-!
# Specification of the Mersenne Twister

The generator as a sequence (Matsumoto and Nishimura 1998): no array, no index.  Several generators: each is a sequence,
a position, and the spare value of `gauss`; a saved state is the same three things.
-/
namespace Codon.Twister.Spec

open Codon.Twister (Word Floats Op Obs)

/-- The table after `n` values of a sequence whose next value depends on the ones before. -/
def tbl (f : Nat → (Nat → Word) → Word) : Nat → Nat → Word
  | 0 => fun _ => 0
  | n + 1 => fun i => if i = n then f n (tbl f n) else tbl f n i

/-- The sequence `a n = f n a`. -/
def seq (f : Nat → (Nat → Word) → Word) (n : Nat) : Word := tbl f (n + 1) n

/-- Highest bit of `a`, other bits of `b`, times the matrix. -/
def twist (a b : Word) : Word :=
  let y : Word := a.extractLsb' 31 1 ++ b.extractLsb' 0 31
  (y >>> 1) ^^^ (if b.getLsbD 0 then 2567483615 else 0)

def temper (y : Word) : Word :=
  let a := y ^^^ (y >>> 11)
  let b := a ^^^ ((a <<< 7) &&& 2636928640)
  let c := b ^^^ ((b <<< 15) &&& 4022730752)
  c ^^^ (c >>> 18)

/-- Knuth's generator, started from 19650218. -/
def knuth : Nat → Word
  | 0 => 19650218
  | n + 1 => 1812433253 * (knuth n ^^^ (knuth n >>> 30)) + BitVec.ofNat 32 (n + 1)

def stir (a p m : Word) : Word := a ^^^ ((p ^^^ (p >>> 30)) * m)

/-- How often the key is stirred in. -/
def rounds (key : List Word) : Nat := max 624 key.length

/-- The values written while seeding, in order: the first 623 are `knuth 1 … knuth 623`, then each comes from the one 623
    before and the last one. -/
def seeding (key : List Word) : Nat → Word := seq fun n a =>
  if n < 623 then knuth (n + 1)
  else
    let t := n - 623
    let p := if t = 0 then knuth 0 else a (n - 1)
    if t < rounds key then
      stir (a t) p 1664525 + key.getD (t % key.length) 0 + BitVec.ofNat 32 (t % key.length)
    else stir (a t) p 1566083941 - BitVec.ofNat 32 (t % 623 + 1)

/-- Which of them ends at place `j`. -/
def lastAt (key : List Word) (j : Nat) : Nat :=
  let t := rounds key + 623
  t + (j - 1 + 623 - t % 623) % 623

/-- The words of a generator seeded with `key`; the numbers returned are the tempered ones from 624 on. -/
def words (key : List Word) : Nat → Word := seq fun n a =>
  if n = 0 then 2147483648
  else if n < 624 then seeding key (lastAt key n)
  else a (n - 227) ^^^ twist (a (n - 624)) (a (n - 623))

/-- The numbers of a generator seeded with `key`. -/
def stream (key : List Word) (n : Nat) : Word := temper (words key (624 + n))

/-! ### Several generators -/

variable {F : Type}

/-- A generator: its key, how many numbers were taken, and the spare value of `gauss`. -/
structure G (F : Type) where
  key : List Word
  pos : Nat
  spare : Option F

structure W (F : Type) where
  gens : List (G F) := []
  saved : List (G F) := []

/-- The 53-bit float from the next two numbers. -/
def float (fl : Floats F) (x : G F) (k : Nat) : F :=
  fl.res53 (stream x.key (x.pos + k) >>> 5) (stream x.key (x.pos + k + 1) >>> 6)

def step (fl : Floats F) (w : W F) : Op F → Option (Obs F × W F)
  | .new key => if key = [] then none else some (.none, { w with gens := w.gens ++ [⟨key, 0, none⟩] })
  | .seed g key =>
    if key = [] then none else
    (w.gens[g]?).map fun _ => (.none, { w with gens := w.gens.set g ⟨key, 0, none⟩ })
  | .word g =>
    (w.gens[g]?).map fun x =>
      (.word (stream x.key x.pos), { w with gens := w.gens.set g { x with pos := x.pos + 1 } })
  | .random g =>
    (w.gens[g]?).map fun x =>
      (.float (float fl x 0), { w with gens := w.gens.set g { x with pos := x.pos + 2 } })
  | .gauss g mu sigma =>
    (w.gens[g]?).map fun x =>
      match x.spare with
      | some z => (.float (fl.scale mu z sigma), { w with gens := w.gens.set g { x with spare := none } })
      | none =>
        (.float (fl.scale mu (fl.gauss1 (float fl x 0) (float fl x 2)) sigma),
          { w with gens := w.gens.set g ⟨x.key, x.pos + 4, some (fl.gauss2 (float fl x 0) (float fl x 2))⟩ })
  | .getstate g => (w.gens[g]?).map fun x => (.none, { w with saved := w.saved ++ [x] })
  | .setstate g s =>
    (w.gens[g]?).bind fun _ => (w.saved[s]?).map fun x => (.none, { w with gens := w.gens.set g x })

def run (fl : Floats F) (w : W F) : List (Op F) → Option (List (Obs F) × W F)
  | [] => some ([], w)
  | op :: ops => (step fl w op).bind fun r => (run fl r.2 ops).map fun q => (r.1 :: q.1, q.2)

/-- Taking numbers from a generator. -/
inductive Draw (F : Type) where
  | word
  | random
  | gauss (mu sigma : F)

def Draw.on (g : Nat) : Draw F → Op F
  | .word => .word g
  | .random => .random g
  | .gauss mu sigma => .gauss g mu sigma

end Codon.Twister.Spec
