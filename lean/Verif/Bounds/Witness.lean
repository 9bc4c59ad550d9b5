import Verif.Bounds.Spec
/-!
# A decision procedure for executions in the first round
-/
namespace Codon.Bounds

/-- The check is removed, but the access without check does something else than the access with check. -/
def Bad (L : Loop) (ix : Index) (rd : RD) (defs : List Nat) (r : Run) : Prop :=
  elides L ix rd = true ∧ r.Ok L ix rd defs ∧
    ∃ i n d, ix.idx.eval (r.trace L ix) = some i ∧ last ix.arr (r.trace L ix) = some (d, .arr [n]) ∧
      checked n 8 i ≠ unchecked 8 i

def Event.forWrite (p : RDef → Nat → Val → Bool) : Event → Bool
  | .write d x v => p d x v
  | .read _ _ => true

def Val.okB : Val → Bool
  | .int v => decide (Fits v)
  | .arr sh => sh.all fun n => decide (0 ≤ n ∧ n < 2 ^ 63)

theorem Val.okB_ok {v : Val} (h : v.okB = true) : v.Ok := by
  cases v <;> simp_all [Val.okB, Val.Ok]

def okB (L : Loop) (ix : Index) (rd : RD) (defs : List Nat) (r : Run) : Bool :=
  decide (L.start.eval r.pre = some r.s) && decide (L.stop.eval r.pre = some r.e) && decide (r.c = r.s) &&
  decide (if L.step > 0 then r.s < r.e else r.e < r.s) && r.d.own L &&
  r.m1.all (Event.forWrite fun d x _ => x != L.var || !d.own L) &&
  (r.mid L).all (Event.forWrite fun d _ _ => defs.contains d.id) &&
  decide (SingleEntry L defs [] (r.trace L ix)) && decide (Assigned [] (r.trace L ix)) && decide (Copies [] (r.trace L ix)) &&
  decide (Sound rd [] (r.trace L ix)) && decide (Fits r.s ∧ Fits r.e) &&
  (r.trace L ix).all (Event.forWrite fun _ _ v => v.okB)

theorem okB_ok {L : Loop} {ix : Index} {rd : RD} {defs : List Nat} {r : Run} (h : okB L ix rd defs r = true) :
    r.Ok L ix rd defs := by
  simp only [okB, Bool.and_eq_true, decide_eq_true_eq, List.all_eq_true] at h
  obtain ⟨⟨⟨⟨⟨⟨⟨⟨⟨⟨⟨⟨h1, h2⟩, h3⟩, h4⟩, h5⟩, h6⟩, h7⟩, h8⟩, h9⟩, h10⟩, h11⟩, h12⟩, h13⟩ := h
  exact {
    start := h1, stop := h2, own := h5
    counter := by rw [h3]; exact .first h4
    round := fun ev hev d v e => by have := h6 ev hev; subst e; simpa [Event.forWrite] using this
    inside := fun ev hev d x v e => by have := h7 ev hev; subst e; simpa [Event.forWrite] using this
    entry := h8, assigned := h9, copies := h10, sound := h11, bounds := h12,
    values := fun ev hev d x v e => by have := h13 ev hev; subst e; exact Val.okB_ok this }

theorem bad_of {L : Loop} {ix : Index} {rd : RD} {defs : List Nat} {r : Run} {i n : Int} {d : RDef}
    (h : elides L ix rd = true ∧ okB L ix rd defs r = true ∧ ix.idx.eval (r.trace L ix) = some i ∧
      last ix.arr (r.trace L ix) = some (d, .arr [n]) ∧ checked n 8 i ≠ unchecked 8 i) : Bad L ix rd defs r :=
  ⟨h.1, okB_ok h.2.1, i, n, d, h.2.2⟩

end Codon.Bounds
