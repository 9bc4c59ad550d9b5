import Verif.Exc.TryLemmas
/-!
An exception on its way through the `finally` parts of a function.
-/
namespace Codon.Exc.Try

/-- What should happen, from the innermost `try` outwards. -/
def expected (e : Exn) (ts : List Types) : List Ev :=
  match firstHandler e.id e.bases 0 ts with
  | some (j, i) => leave 0 j ++ [.handler j i]
  | none => leave 0 ts.length ++ [.resume (ts.length - 1)]

/-- The variables are such that it will. -/
def Transit (e : Exn) (sel : Nat) (atFin : Bool) (depth : Nat) (ts : List Types) : Prop := go sel atFin 0 depth ts = expected e ts

theorem transit_start (e : Exn) (own : Types) (parents : List Types) (h : Positive (own :: parents)) :
    Transit e (selector e own parents) false parents.length (own :: parents) := by
  have := c18_routing e.id e.bases (own :: parents) (by simp) h
  have hr : raise e.id e.bases (own :: parents) = go (selector e own parents) false 0 parents.length (own :: parents) := rfl
  unfold Transit
  rw [← hr, this]
  rfl

def shiftEv : Ev → Ev
  | .fin l => .fin (l + 1)
  | .handler l i => .handler (l + 1) i
  | .resume l => .resume (l + 1)

theorem go_shift (sel : Nat) : ∀ (ts : List Types) (b : Bool) (l d : Nat), go sel b (l + 1) d ts = (go sel b l d ts).map shiftEv
  | [], _, _, _ => by simp [go]
  | own :: parents, b, l, d => by
    unfold go
    generalize (if b = true then (Sum.inr d : Nat ⊕ Nat) else dispatch own parents sel d) = x
    cases x with
    | inl i => rfl
    | inr d' =>
      dsimp only
      by_cases hp : parents = []
      · simp [hp, shiftEv]
      · by_cases hd : d' > 0
        · simp only [if_neg hp, if_pos hd, List.map_cons, go_shift sel parents]
          rfl
        · simp [if_neg hp, if_neg hd, shiftEv]

theorem firstHandler_shift (id : Nat) (bases : List Nat) : ∀ (ts : List Types) (l : Nat),
    firstHandler id bases (l + 1) ts = (firstHandler id bases l ts).map fun x => (x.1 + 1, x.2)
  | [], _ => rfl
  | own :: parents, l => by
    unfold firstHandler
    cases own.findIdx? (accepts id bases) with
    | some i => rfl
    | none => exact firstHandler_shift id bases parents (l + 1)

theorem firstHandler_lt (id : Nat) (bases : List Nat) : ∀ (ts : List Types) (l : Nat) {j i}, firstHandler id bases l ts = some (j, i) → j < l + ts.length
  | own :: parents, l, j, i, h => by
    unfold firstHandler at h
    cases hx : own.findIdx? (accepts id bases) with
    | some i => rw [hx] at h; cases h; simp
    | none =>
      rw [hx] at h
      have := firstHandler_lt id bases parents (l + 1) h
      simp only [List.length_cons]
      omega

theorem leave_succ (n : Nat) : leave 0 (n + 1) = .fin 0 :: (leave 0 n).map shiftEv := by
  unfold leave
  rw [List.range'_succ, List.map_cons, List.map_map]
  have h := (List.map_add_range' (a := 1) 0 n 1).symm
  rw [Nat.add_zero] at h
  rw [show 0 + 1 = 1 from rfl, h, List.map_map]
  congr 1
  apply List.map_congr_left
  intro x _
  simp [shiftEv, Nat.add_comm]

theorem expected_own {e : Exn} {own : Types} {parents : List Types} {i : Nat} (h : own.findIdx? (accepts e.id e.bases) = some i) :
    expected e (own :: parents) = [.handler 0 i] := by
  simp [expected, firstHandler, h, leave]

theorem expected_pass {e : Exn} {own : Types} {parents : List Types} (h : own.findIdx? (accepts e.id e.bases) = none) :
    expected e (own :: parents) = .fin 0 :: (if parents = [] then [.resume 0] else (expected e parents).map shiftEv) := by
  by_cases hp : parents = []
  · subst hp
    simp [expected, firstHandler, h, leave]
  · rw [if_neg hp]
    unfold expected
    rw [firstHandler, h]
    dsimp only
    rw [firstHandler_shift]
    have hl : 0 < parents.length := List.length_pos_iff.mpr hp
    cases hx : firstHandler e.id e.bases 0 parents with
    | none =>
      simp only [Option.map_none, List.length_cons, leave_succ, List.map_append, List.map_cons, List.map_nil, List.cons_append, shiftEv]
      congr 4
      omega
    | some x =>
      obtain ⟨j, i⟩ := x
      simp only [Option.map_some, leave_succ, List.map_append, List.map_cons, List.map_nil, List.cons_append, shiftEv]

theorem shiftEv_inj : Function.Injective shiftEv := by
  intro a b h
  cases a <;> cases b <;> simp_all [shiftEv]

/-- At the switch. -/
theorem transit_route {e : Exn} {sel depth : Nat} {own : Types} {parents : List Types} (h : Transit e sel false depth (own :: parents)) :
    match dispatch own parents sel depth with
    | .inl i => own.findIdx? (accepts e.id e.bases) = some i
    | .inr d => own.findIdx? (accepts e.id e.bases) = none ∧ Transit e sel true d (own :: parents) := by
  cases hd : dispatch own parents sel depth with
  | inl i =>
    dsimp only
    have h1 : go sel false 0 depth (own :: parents) = [.handler 0 i] := go_handler sel 0 depth i own parents hd
    unfold Transit at h
    rw [h1] at h
    cases hx : own.findIdx? (accepts e.id e.bases) with
    | some j => rw [expected_own hx] at h; simp_all
    | none => rw [expected_pass hx] at h; simp_all
  | inr d =>
    dsimp only
    have h1 := go_fin (d := d) sel 0 depth own parents hd
    unfold Transit at h ⊢
    rw [h1] at h
    refine ⟨?_, h⟩
    cases hx : own.findIdx? (accepts e.id e.bases) with
    | none => rfl
    | some j =>
      rw [expected_own hx] at h
      simp [go] at h

/-- After a `finally` part. -/
theorem transit_fin {e : Exn} {sel depth : Nat} {own : Types} {parents : List Types} (h : Transit e sel true depth (own :: parents)) (hp : parents ≠ [])
    (hx : own.findIdx? (accepts e.id e.bases) = none) :
    0 < depth ∧ Transit e sel (decide (depth - 1 > 0)) (depth - 1) parents := by
  unfold Transit at h
  rw [expected_pass hx] at h
  simp only [go, if_neg hp, if_true, List.cons.injEq, true_and] at h
  by_cases hd : depth > 0
  · refine ⟨hd, ?_⟩
    rw [if_pos hd, go_shift] at h
    exact (List.map_inj_right (fun x y hxy => shiftEv_inj hxy)).mp h
  · rw [if_neg hd] at h
    exfalso
    cases he : expected e parents with
    | nil => rw [he] at h; cases h
    | cons a t =>
      rw [he] at h
      simp only [List.map_cons, List.cons.injEq] at h
      cases a <;> simp [shiftEv] at h

end Codon.Exc.Try
