import Verif.NpApp.Spec

/-!
# Lemmas on `append`
-/

namespace Codon.NpApp

variable {β : Type}

theorem write_at (pre rest : List (Option β)) (b : List β) (off : Nat) (ho : off = pre.length)
    (h : b.length ≤ rest.length) :
    write (pre ++ rest) off b = some (pre ++ b.map some ++ rest.drop b.length) := by
  subst ho
  rw [write, if_pos (by rw [List.length_append]; omega), List.take_left, List.drop_append,
    List.drop_eq_nil_of_le (by omega), show pre.length + b.length - pre.length = b.length by omega]
  rfl

theorem writeElems_at (s : Nat) : ∀ (l : List (List β)) (off : Nat) (pre rest : List (Option β)),
    (∀ e ∈ l, e.length = s) → off * s = pre.length → l.length * s ≤ rest.length →
    writeElems s l off (pre ++ rest) = some (pre ++ l.flatten.map some ++ rest.drop (l.length * s)) := by
  intro l
  induction l with
  | nil => intro off pre rest _ _ _; simp [writeElems]
  | cons e r ih =>
    intro off pre rest hl ho hr
    have he := hl e (List.mem_cons_self ..)
    rw [List.length_cons, Nat.succ_mul] at hr
    rw [writeElems, write_at pre rest e _ ho (by omega)]
    simp only
    rw [ih (off + 1) (pre ++ e.map some) (rest.drop e.length) (fun x h => hl x (List.mem_cons_of_mem _ h))
      (by rw [Nat.succ_mul, List.length_append, List.length_map]; omega)
      (by rw [List.length_drop]; omega)]
    rw [List.drop_drop, List.flatten_cons, List.map_append, List.length_cons, Nat.succ_mul,
      Nat.add_comm (r.length * s), he]
    simp only [List.append_assoc]

theorem flatten_length (s : Nat) : ∀ (l : List (List β)), (∀ e ∈ l, e.length = s) →
    l.flatten.length = l.length * s := by
  intro l
  induction l with
  | nil => intro _; simp
  | cons e r ih =>
    intro h
    rw [List.flatten_cons, List.length_append, ih fun x hx => h x (List.mem_cons_of_mem _ hx),
      h e (List.mem_cons_self ..), List.length_cons, Nat.succ_mul, Nat.add_comm]

theorem memcpy_at (s : Nat) (a : Arr β) (hv : a.Valid s) (h1 : a.same = true) (h2 : a.contig = true)
    (pre rest : List (Option β)) (off : Nat) (ho : off = pre.length) (h : a.elems.length * s ≤ rest.length) :
    memcpy (pre ++ rest) off a
      = some (pre ++ a.elems.flatten.map some ++ rest.drop (a.elems.length * s)) := by
  obtain ⟨v1, v2, v3⟩ := hv
  obtain ⟨v4, v5⟩ := v3 h1 h2
  have := flatten_length s a.elems v1
  rw [memcpy, if_pos v4, v5, write_at pre rest _ off ho (by omega), this]

theorem write_length (mem m : List (Option β)) (off : Nat) (b : List β) (h : write mem off b = some m) :
    m.length = mem.length := by
  unfold write at h
  split at h
  · rename_i hl
    cases h
    simp only [List.length_append, List.length_take, List.length_map, List.length_drop]
    omega
  · cases h

theorem memcpy_length (mem m : List (Option β)) (off : Nat) (a : Arr β) (h : memcpy mem off a = some m) :
    m.length = mem.length := by
  unfold memcpy at h
  split at h
  · exact write_length _ _ _ _ h
  · cases h

theorem writeElems_length (s : Nat) : ∀ (l : List (List β)) (off : Nat) (mem m : List (Option β)),
    writeElems s l off mem = some m → m.length = mem.length := by
  intro l
  induction l with
  | nil => intro off mem m h; cases h; rfl
  | cons e r ih =>
    intro off mem m h
    rw [writeElems] at h
    cases hw : write mem (off * s) e with
    | none => rw [hw] at h; cases h
    | some m' =>
      rw [hw] at h
      rw [ih _ _ _ h, write_length _ _ _ _ hw]

end Codon.NpApp
