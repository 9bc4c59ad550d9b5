import Verif.Pickle.Model
import Verif.KHash.SetLemmas
/-!
# Specification of `pickle`
-/
namespace Codon.Pickle
open Codon.KHash

/-- Writing appends `bs` to a file with `pos` bytes, or fails for want of room. -/
def Writes (f : Jar → Out Jar) (pos : Nat) (bs : List Byte) : Prop :=
  ∀ j : Jar, j.data.length = pos → f j = some (if bs.length ≤ j.room then .ok ⟨j.data ++ bs, j.room - bs.length⟩ else .error .io)

/-- Reading `bs` gives a value with `R` and consumes exactly `bs`; if the end of `bs` is missing, it raises `IOError`. -/
def Reads {α : Type} (f : List Byte → Out (α × List Byte)) (bs : List Byte) (R : α → Prop) : Prop :=
  (∀ rest, ∃ y, f (bs ++ rest) = some (.ok (y, rest)) ∧ R y) ∧ ∀ n < bs.length, f (bs.take n) = some (.error .io)

/-- What is stored can be loaded. -/
structure Img.Good {α : Type} (I : Img α) : Prop where
  size : ∀ p x, (I.put p x).length = I.size
  get : ∀ p x, I.get (I.put p x) = x
  align : 0 < I.align

/-- Pickling a value and unpickling it again gives an equal value, for values with `ok`; `R` is equality for values of the type. -/
structure Works {α : Type} (P : Pick α) (ok : α → Prop) (R : α → α → Prop) : Prop where
  trip : ∀ x, ok x → ∀ pos, ∃ bs, Writes (P.pickle x) pos bs ∧ Reads P.unpickle bs (R x)
  img : ∀ I, P.image = some I → I.Good ∧ ∀ x, R x x

/-- The same for the fields of a tuple. -/
structure FWorks {β : Type} (F : Flds β) (ok : β → Prop) (R : β → β → Prop) : Prop where
  trip : ∀ x, ok x → ∀ pos, ∃ bs, Writes (F.pickle x) pos bs ∧ Reads F.unpickle bs (R x)
  img : ∀ I, F.image = some I → (∀ o, o ≤ I.fin o) ∧ (∀ o p x, (I.put o p x).length = I.fin o - o) ∧ (∀ o p x r, I.get o (I.put o p x ++ r) = x) ∧ 0 < I.align ∧ ∀ x, R x x

/-- Lists short enough for their length to be a number. -/
def listOk {α : Type} (ok : α → Prop) (xs : List α) : Prop := xs.length < 2 ^ 63 ∧ ∀ x ∈ xs, ok x

/-- The table is a dictionary with the items `m`, of values with `ok`. -/
def DictOk {K V : Type} [DecidableEq K] (h : K → BitVec 64) (okK : K → Prop) (okV : V → Prop) (t : Tbl K V) : Prop :=
  ∃ m : Spec.Map K V, Rel h t m ∧ t.nb ≤ 2 ^ 41 ∧ m.length ≤ 2 ^ 38 ∧ ∀ p ∈ m, okK p.1 ∧ okV p.2

/-- The tables are dictionaries with the same keys and values that are equal in the sense of `R`. -/
def DictEq {K V : Type} [DecidableEq K] (h : K → BitVec 64) (R : V → V → Prop) (t t' : Tbl K V) : Prop :=
  ∃ m m' : Spec.Map K V, Rel h t m ∧ Rel h t' m' ∧ List.Forall₂ (fun p q => p.1 = q.1 ∧ R p.2 q.2) m m'

/-- The table is a set of elements with `ok`. -/
def SetOk {K : Type} [DecidableEq K] (h : K → BitVec 64) (ok : K → Prop) (t : SetM.CSet K) : Prop :=
  ∃ S, SetM.RelS h t S ∧ t.nb ≤ 2 ^ 41 ∧ S.length ≤ 2 ^ 38 ∧ ∀ k ∈ S, ok k

/-- The tables are sets with the same elements. -/
def SetEq {K : Type} [DecidableEq K] (h : K → BitVec 64) (t t' : SetM.CSet K) : Prop := ∃ S, SetM.RelS h t S ∧ SetM.RelS h t' S

end Codon.Pickle
