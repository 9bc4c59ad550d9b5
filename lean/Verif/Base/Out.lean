/-!
# Outcomes and memory blocks

Shared by the models of library code.  `Out.ub` is undefined behaviour (access outside an allocated
block, use of an uninitialised cell, copying a negative number of cells), `Out.exc` a raised
exception.
-/

namespace Codon

inductive Out (ε α : Type) where
  | ub
  | exc (e : ε)
  | ok (a : α)
deriving DecidableEq, Repr

namespace Out

variable {ε α β : Type}

protected def bind (x : Out ε α) (f : α → Out ε β) : Out ε β :=
  match x with
  | .ub => .ub
  | .exc e => .exc e
  | .ok a => f a

instance : Monad (Out ε) where
  pure := .ok
  bind := Out.bind

@[simp] theorem bind_ok (a : α) (f : α → Out ε β) : (Out.ok a >>= f) = f a := rfl
@[simp] theorem bind_exc (e : ε) (f : α → Out ε β) : (Out.exc e >>= f) = .exc e := rfl
@[simp] theorem bind_ub (f : α → Out ε β) : ((Out.ub : Out ε α) >>= f) = .ub := rfl
@[simp] theorem pure_eq (a : α) : (pure a : Out ε α) = .ok a := rfl
@[simp] theorem map_ok (a : α) (f : α → β) : (f <$> (Out.ok a : Out ε α)) = .ok (f a) := rfl
@[simp] theorem map_exc (e : ε) (f : α → β) : (f <$> (Out.exc e : Out ε α)) = .exc e := rfl
@[simp] theorem map_ub (f : α → β) : (f <$> (Out.ub : Out ε α)) = .ub := rfl

theorem bind_assoc' {γ : Type} (x : Out ε α) (f : α → Out ε β) (g : β → Out ε γ) :
    (x >>= f) >>= g = x >>= fun a => f a >>= g := by cases x <;> rfl

instance : LawfulMonad (Out ε) := LawfulMonad.mk'
  (id_map := fun x => by cases x <;> rfl)
  (pure_bind := fun _ _ => rfl)
  (bind_assoc := fun x f g => bind_assoc' x f g)

end Out

/-- An allocated block; an uninitialised cell is `none`. -/
abbrev Block (α : Type) := List (Option α)

section
variable {ε α : Type}

/-- Read an initialised cell. -/
def ld (m : Block α) (i : Int) : Out ε α :=
  if 0 ≤ i then
    match m[i.toNat]? with
    | some (some a) => .ok a
    | _ => .ub
  else .ub

/-- Write a cell. -/
def st (m : Block α) (i : Int) (a : α) : Out ε (Block α) :=
  if 0 ≤ i ∧ i.toNat < m.length then .ok (m.set i.toNat (some a)) else .ub

/-- `gc.realloc`: keep the old contents up to the new size; new cells are uninitialised. -/
def reallocB (m : Block α) (n : Int) : Out ε (Block α) :=
  if 0 ≤ n then .ok (m.take n.toNat ++ List.replicate (n.toNat - m.length) none) else .ub

/-- A fresh block of `n` cells. -/
def alloc (n : Int) : Out ε (Block α) :=
  if 0 ≤ n then .ok (List.replicate n.toNat none) else .ub

/-- `memcpy` of `n` cells from `src[s..]` to `dst[d..]` (different blocks). -/
def memcpyB (dst : Block α) (d : Int) (src : Block α) (s n : Int) : Out ε (Block α) :=
  if n = 0 then .ok dst
  else if 0 < n ∧ 0 ≤ d ∧ 0 ≤ s ∧ d + n ≤ dst.length ∧ s + n ≤ src.length then
    .ok (dst.take d.toNat ++ (src.drop s.toNat).take n.toNat ++ dst.drop (d + n).toNat)
  else .ub

/-- `memmove` of `n` cells inside one block. -/
def memmoveB (m : Block α) (d s n : Int) : Out ε (Block α) := memcpyB m d m s n

theorem ld_append {a b : Block α} {x : α} {i : Int} (hi : i = a.length) :
    ld (ε := ε) (a ++ some x :: b) i = .ok x := by
  subst hi
  simp [ld]

theorem st_append {a b : Block α} {c : Option α} {x : α} {i : Int} (hi : i = a.length) :
    st (ε := ε) (a ++ c :: b) i x = .ok (a ++ some x :: b) := by
  subst hi
  simp [st]

theorem ld_map {xs : List α} {r : Block α} {i : Int} (h0 : 0 ≤ i) (h1 : i.toNat < xs.length) :
    ld (ε := ε) (xs.map some ++ r) i = .ok xs[i.toNat] := by
  unfold ld
  rw [if_pos h0, List.getElem?_append_left (by simpa using h1)]
  simp [h1]

theorem st_map {xs : List α} {r : Block α} {i : Int} {x : α} (h0 : 0 ≤ i)
    (h1 : i.toNat < xs.length) :
    st (ε := ε) (xs.map some ++ r) i x = .ok ((xs.set i.toNat x).map some ++ r) := by
  unfold st
  rw [if_pos ⟨h0, by simp; omega⟩, List.set_append_left _ _ (by simpa using h1), List.map_set]

/-- `memcpy` when the pieces of both blocks are known. -/
theorem memcpyB_eq {p q t a b c : Block α} {d s n : Int} (hd : d = p.length) (hs : s = a.length)
    (hn : n = b.length) (hq : q.length = b.length) :
    memcpyB (ε := ε) (p ++ (q ++ t)) d (a ++ (b ++ c)) s n = .ok (p ++ (b ++ t)) := by
  subst hd hs hn
  unfold memcpyB
  by_cases hb : b = []
  · subst hb
    have : q = [] := List.length_eq_zero_iff.mp (by simpa using hq)
    subst this
    simp
  · have hb' : 0 < b.length := List.length_pos_iff.mpr hb
    rw [if_neg (by omega), if_pos (by simp; omega)]
    have h1 : ((p.length : Int) + (b.length : Int)).toNat = p.length + q.length := by omega
    rw [h1]
    simp [List.drop_append, List.take_append]

end

end Codon
