import Verif.Dce.Spec
/-! # Programs are deterministic -/
namespace Codon.Dce

variable {M : Module}

theorem abrupt_val {v : Val} (h : (Res.val v).abrupt) : False := h
theorem abrupt_vals {v : List Val} (h : (Res.vals v).abrupt) : False := h
theorem not_next_leaves {r : Res} (h1 : r.next) (h2 : r.leaves) : False := by cases r <;> cases h1 <;> cases h2
theorem not_next_brk (h1 : Res.next .brk) : False := h1
theorem not_leaves_brk (h1 : Res.leaves .brk) : False := h1
theorem next_abrupt_val {v : Val} (h : (Res.val v).leaves) : False := h

theorem determ {G : Form} {s : St} {r : Res} {t : St} (h : Exec M G s r t) : ∀ {r' t'}, Exec M G s r' t' → r = r' ∧ t = t' := by
  induction h with
  | _ => intro r' t' h' <;> cases h' <;> grind [abrupt_val, abrupt_vals, not_next_leaves, not_next_brk, not_leaves_brk, next_abrupt_val]

end Codon.Dce
