import Verif.KHash.SetLemmas
import Verif.KHash.SetSpec

/-!
# Set properties (C21, C22)
-/

namespace Codon.KHash.SetM

section
set_option linter.unusedSectionVars false
set_option linter.unusedSimpArgs false
variable {K : Type} [DecidableEq K] {h : K → BitVec 64}

/-! ### Histories -/

variable (h) in
/-- One operation on the table. -/
def step (t : CSet K) : SetSpec.Op K → Option (CSet K × SetSpec.Obs)
  | .add k => (add h t k).map fun t => (t, .none)
  | .remove k => (remove h t k).map fun p => (p.1, if p.2 then .keyError else .none)
  | .discard k => (discard h t k).map fun t => (t, .none)
  | .clear => some (kclear t, .none)
  | .resize m => (kresize h t m).map fun t => (t, .none)
  | .contains k => (contains h t k).map fun b => (t, .bool b)
  | .len => some (t, .nat (len t))
  | .copy => some (copy t, .none)

variable (h) in
def run (t : CSet K) : List (SetSpec.Op K) → Option (CSet K × List SetSpec.Obs)
  | [] => some (t, [])
  | op :: ops => do
    let (t, o) ← step h t op
    let (t, os) ← run t ops
    return (t, o :: os)

/-- A `resize` request stays below 2^41 buckets. -/
def opOK : SetSpec.Op K → Prop
  | .resize m => m.toInt ≤ ((2 ^ 41 : Nat) : Int)
  | _ => True

theorem erase_eq_filter_ne {S : List K} (nd : S.Nodup) (k : K) :
    S.erase k = S.filter (· ≠ k) := by
  rw [nd.erase_eq_filter]
  congr 1
  funext a
  by_cases ha : a = k <;> simp [ha]

theorem step_relS {t : CSet K} {S : List K} (r : RelS h t S) (hnb : t.nb ≤ 2 ^ 41)
    (hsz : S.length ≤ 2 ^ 38) (op : SetSpec.Op K) (hop : opOK op) :
    ∃ t', step h t op = some (t', (SetSpec.step S op).2) ∧ RelS h t' (SetSpec.step S op).1 ∧
      t'.nb ≤ 2 ^ 41 := by
  have hb : Bd t S 0 := ⟨hnb, by omega⟩
  cases op with
  | add k =>
    obtain ⟨t', e1, e2, e3⟩ := add_relS r (by omega) k
    refine ⟨t', by simp [step, e1, SetSpec.step], ?_, hb.grow r e3⟩
    simp only [SetSpec.step]
    by_cases hk : k ∈ S
    · rw [if_pos hk]; rwa [List.insert_of_mem hk] at e2
    · rw [if_neg hk]; rwa [List.insert_of_not_mem hk] at e2
  | remove k =>
    rcases remove_relS r k with ⟨t', e1, e2, e3, e4⟩ | ⟨e1, e2⟩
    · refine ⟨t', by simp [step, e1, SetSpec.step, e2], ?_, by omega⟩
      simp only [SetSpec.step, e2, if_true]
      rwa [erase_eq_filter_ne r.nd] at e3
    · exact ⟨t, by simp [step, e1, SetSpec.step, e2], by simpa [SetSpec.step, e2] using r, hnb⟩
  | discard k =>
    obtain ⟨t', e1, e2, e3, -⟩ := discard_relS r k
    refine ⟨t', by simp [step, e1, SetSpec.step], ?_, by omega⟩
    rwa [erase_eq_filter_ne r.nd] at e2
  | clear =>
    obtain ⟨e1, e2, e3⟩ := kclear_inv r.inv
    refine ⟨_, rfl, ⟨e1, ?_⟩, ?_⟩
    · rw [e2]; exact List.Perm.refl _
    · omega
  | resize n =>
    obtain ⟨t', e1, e2, e3, e4⟩ := kresize_inv r.inv n
    refine ⟨t', by simp [step, e1, SetSpec.step], ⟨e2, (e3.map _).trans r.perm⟩, ?_⟩
    have := roundUp_le (m := n) (B := 41) (by omega) (by omega) hop
    rcases e4.2 with ⟨rfl, -⟩ | ⟨-, -, h3, -⟩
    · exact hnb
    · omega
  | contains k =>
    exact ⟨t, by simp [step, contains_relS r k, SetSpec.step], r, hnb⟩
  | len => exact ⟨t, by simp [step, len, SetSpec.step, r.size], r, hnb⟩
  | copy =>
    refine ⟨_, rfl, ?_, ?_⟩
    · unfold copy
      split
      · rename_i hz
        rw [r.size] at hz
        have : S = [] := List.length_eq_zero_iff.mp hz
        subst this
        exact relS_empty
      · exact r
    · unfold copy; split
      · exact Nat.zero_le _
      · exact hnb

theorem run_relS : ∀ (ops : List (SetSpec.Op K)) (t : CSet K) (S : List K), RelS h t S →
    t.nb ≤ 2 ^ 41 → (∀ p, p <+: ops → (SetSpec.run S p).1.length ≤ 2 ^ 38) →
    (∀ op ∈ ops, opOK op) →
    ∃ t', run h t ops = some (t', (SetSpec.run S ops).2) ∧ RelS h t' (SetSpec.run S ops).1 ∧
      t'.nb ≤ 2 ^ 41 := by
  intro ops
  induction ops with
  | nil => intro t S r hnb _ _; exact ⟨t, rfl, r, hnb⟩
  | cons op ops ih =>
    intro t S r hnb hlen hok
    obtain ⟨t1, e1, e2, e3⟩ := step_relS r hnb (hlen [] List.nil_prefix) op
      (hok op List.mem_cons_self)
    obtain ⟨t2, f1, f2, f3⟩ := ih t1 _ e2 e3
      (fun p hp => hlen (op :: p) (List.cons_prefix_cons.mpr ⟨rfl, hp⟩))
      fun o ho => hok o (List.mem_cons_of_mem _ ho)
    refine ⟨t2, ?_, f2, f3⟩
    simp only [run, e1, Option.bind_eq_bind, Option.bind_some, f1]
    rfl

/-- **C21.** Every history of adds, removes, discards, clears, resizes and copies terminates without
undefined behaviour and shows exactly the results of a mathematical set (never more than 2^38
elements). -/
theorem c21_history (h : K → BitVec 64) (ops : List (SetSpec.Op K))
    (hsize : ∀ p, p <+: ops → (SetSpec.run [] p).1.length ≤ 2 ^ 38)
    (hok : ∀ op ∈ ops, opOK op) :
    ∃ t, run h Tbl.empty ops = some (t, (SetSpec.run [] ops).2) := by
  obtain ⟨t, e, -⟩ := run_relS ops Tbl.empty [] (h := h) relS_empty (Nat.zero_le _) hsize hok
  exact ⟨t, e⟩

/-- **C21.** After any history, membership, `len` and iteration reflect exactly the elements. -/
theorem c21_iteration_after_history (h : K → BitVec 64) (ops : List (SetSpec.Op K))
    (hsize : ∀ p, p <+: ops → (SetSpec.run [] p).1.length ≤ 2 ^ 38)
    (hok : ∀ op ∈ ops, opOK op) {t : CSet K} {os : List SetSpec.Obs}
    (hr : run h Tbl.empty ops = some (t, os)) :
    ∃ l, keysList t = some l ∧ l.Nodup ∧ l.length = len t ∧
      (∀ k, k ∈ l ↔ k ∈ (SetSpec.run [] ops).1) ∧
      ∀ k, contains h t k = some (decide (k ∈ l)) := by
  obtain ⟨t', e, r, -⟩ := run_relS ops Tbl.empty [] (h := h) relS_empty (Nat.zero_le _) hsize hok
  rw [e] at hr
  cases hr
  obtain ⟨l, i1, i2⟩ := keys_relS r
  refine ⟨l, i1, i2.nodup_iff.mpr r.nd, ?_, fun k => i2.mem_iff, fun k => ?_⟩
  · rw [i2.length_eq]; exact r.size.symm
  · rw [contains_relS r, decide_eq_decide.mpr i2.mem_iff]

theorem popFrom_relS {t : CSet K} {S : List K} (r : RelS h t S) :
    ∀ n i, i + n = t.nb → (∀ j, j < i → live t.flags j = false) →
      (S = [] ∧ popFrom h t n i = some (t, none)) ∨
      ∃ t' a, popFrom h t n i = some (t', some a) ∧ a ∈ S ∧ RelS h t' (S.erase a) := by
  intro n
  induction n with
  | zero =>
    intro i hi hd
    left
    refine ⟨?_, rfl⟩
    rw [List.eq_nil_iff_forall_not_mem]
    intro k hk
    obtain ⟨v, hv⟩ := (r.mem k).mp hk
    obtain ⟨j, hj, hs⟩ := mem_contentOf.mp hv
    have := (slotOf_live hs).1
    rw [hd j (by omega)] at this
    cases this
  | succ n ih =>
    intro i hi hd
    have hf : Full h t := by
      rcases r.inv with rfl | hf
      · simp [Tbl.empty] at hi
      · exact hf
    unfold popFrom
    rw [iseither_eq (hf.flr (by omega))]
    simp only [Option.bind_eq_bind, Option.bind_some]
    by_cases hl : live t.flags i = true
    · right
      obtain ⟨k, hk⟩ := hf.ini i (by omega) hl
      have hl' := hl
      unfold live at hl'
      simp only [Bool.and_eq_true, Bool.not_eq_true'] at hl'
      rw [hl'.1, hl'.2, hk]
      simp only [Bool.or_self, Bool.false_eq_true, if_false, Option.bind_some]
      have hkS : k ∈ S := (r.mem k).mpr ⟨_, mem_contentOf.mpr ⟨i, by omega, slotOf_eq hl hk⟩⟩
      rcases remove_relS r k with ⟨t', e1, -, e3, -⟩ | ⟨-, e2⟩
      · rw [e1]
        exact ⟨t', k, rfl, hkS, e3⟩
      · exact absurd hkS e2
    · have : (E t.flags i || D t.flags i) = true := by
        unfold live at hl
        cases hE : E t.flags i <;> cases hD : D t.flags i <;> simp_all
      rw [if_pos this]
      exact ih (i + 1) (by omega) (by
        intro j hj
        by_cases hji : j = i
        · subst hji; simpa using hl
        · exact hd j (by omega))

/-- **C21.** `pop` removes and returns an element; it raises exactly on the empty set. -/
theorem c21_pop {t : CSet K} {S : List K} (r : RelS h t S) :
    (S = [] ∧ pop h t = some (t, none)) ∨
      ∃ t' a, pop h t = some (t', some a) ∧ a ∈ S ∧ RelS h t' (S.erase a) := by
  unfold pop
  by_cases hz : t.size = 0
  · left
    rw [if_pos hz]
    rw [r.size] at hz
    exact ⟨List.length_eq_zero_iff.mp hz, rfl⟩
  · rw [if_neg hz]
    exact popFrom_relS r t.nb 0 (by omega) (by omega)

/-! ### Algebra

`t` and `o` are arbitrary tables for the sets with elements `A` and `B`. -/

/-- The table holds a set whose elements are those satisfying `P`. -/
def Holds (h : K → BitVec 64) (t : CSet K) (P : K → Prop) : Prop :=
  ∃ S, RelS h t S ∧ ∀ k, k ∈ S ↔ P k

theorem bd_empty {n : Nat} (hn : n ≤ 2 ^ 38) : Bd (Tbl.empty : CSet K) [] n :=
  ⟨Nat.zero_le _, by simpa using hn⟩

theorem foldl_len_le {l S : List K} : (l.foldl (fun S k => S.insert k) S).length ≤ S.length + l.length := by
  induction l generalizing S with
  | nil => simp
  | cons a l ih =>
    rw [List.foldl_cons]
    have h1 := ih (S := S.insert a)
    have h2 := length_insert_le S a
    simp only [List.length_cons]; omega

theorem foldl_addIf_len_le {B : List K} {w : Bool} {l S : List K} :
    (l.foldl (fun S k => if decide (k ∈ B) = w then S.insert k else S) S).length
      ≤ S.length + l.length := by
  induction l generalizing S with
  | nil => simp
  | cons a l ih =>
    rw [List.foldl_cons]
    simp only [List.length_cons]
    by_cases ha : decide (a ∈ B) = w
    · rw [if_pos ha]
      have h1 := ih (S := S.insert a)
      have h2 := length_insert_le S a
      omega
    · rw [if_neg ha]
      have h1 := ih (S := S)
      omega

/-- **C22.** Union. -/
theorem c22_union {t o : CSet K} {A B : List K} (rt : RelS h t A) (ro : RelS h o B)
    (ht : t.nb ≤ 2 ^ 41) (hob : o.nb ≤ 2 ^ 41) (hsz : A.length + B.length ≤ 2 ^ 38) :
    ∃ s, union h t o = some s ∧ Holds h s fun k => k ∈ A ∨ k ∈ B := by
  obtain ⟨la, a1, a2⟩ := keys_relS rt
  obtain ⟨lb, b1, b2⟩ := keys_relS ro
  have hla := a2.length_eq
  have hlb := b2.length_eq
  unfold union
  generalize hn : (if t.nb ≥ o.nb then t.nb else o.nb) = n
  have hn' : n ≤ 2 ^ 41 := by subst hn; split <;> assumption
  obtain ⟨s0, e1, e2, e3, e4⟩ := kresize_inv (relS_empty (h := h)).inv (BitVec.ofNat 64 n)
  have hru := roundUp_le (m := BitVec.ofNat 64 n) (B := 41) (by omega) (by omega) (by
    rw [show (BitVec.ofNat 64 n).toInt = (n : Int).bmod (2 ^ 64) from BitVec.toInt_ofNat' n, Int.bmod_def]
    have h1 : ((n : Int) % ((2 ^ 64 : Nat) : Int)) = (n : Int) := by
      apply Int.emod_eq_of_lt <;> omega
    rw [h1, if_pos (by omega)]
    exact_mod_cast hn')
  have r0 : RelS h s0 [] := ⟨e2, (e3.map _)⟩
  have h0 : s0.nb ≤ 2 ^ 41 := by
    rcases e4.2 with ⟨rfl, -⟩ | ⟨-, -, h3, -⟩
    · exact Nat.zero_le _
    · omega
  obtain ⟨s1, f1, f2, f3⟩ := addAll_relS la s0 [] r0 ⟨by omega, by simp; omega⟩
  have := foldl_len_le (l := la) (S := ([] : List K))
  obtain ⟨s2, g1, g2, g3⟩ := addAll_relS lb s1 _ f2 ⟨f3, by simp at this; omega⟩
  refine ⟨s2, ?_, _, g2, ?_⟩
  · simp only [e1, a1, b1, f1, Option.bind_eq_bind, Option.bind_some]; exact g1
  · intro k
    rw [mem_foldl_insert, mem_foldl_insert, a2.mem_iff, b2.mem_iff]
    simp

/-- **C22.** Difference. -/
theorem c22_difference {t o : CSet K} {A B : List K} (rt : RelS h t A) (ro : RelS h o B)
    (hsz : A.length ≤ 2 ^ 38) :
    ∃ s, difference h t o = some s ∧ Holds h s fun k => k ∈ A ∧ k ∉ B := by
  obtain ⟨la, a1, a2⟩ := keys_relS rt
  have hla := a2.length_eq
  obtain ⟨s, e1, e2, -⟩ := addIf_relS ro false la Tbl.empty [] relS_empty (bd_empty (by omega))
  refine ⟨s, ?_, _, e2, ?_⟩
  · unfold difference; rw [a1]; exact e1
  · intro k
    rw [mem_foldl_addIf, a2.mem_iff]
    simp

/-- **C22.** Intersection. -/
theorem c22_intersection {t o : CSet K} {A B : List K} (rt : RelS h t A) (ro : RelS h o B)
    (hsz : min A.length B.length ≤ 2 ^ 38) :
    ∃ s, intersection h t o = some s ∧ Holds h s fun k => k ∈ A ∧ k ∈ B := by
  have key : ∀ {t o : CSet K} {A B : List K}, RelS h t A → RelS h o B → A.length ≤ 2 ^ 38 →
      ∃ s, (do addIf h o true Tbl.empty (← keysList t)) = some s ∧
        Holds h s fun k => k ∈ A ∧ k ∈ B := by
    intro t o A B rt ro hsz
    obtain ⟨la, a1, a2⟩ := keys_relS rt
    have hla := a2.length_eq
    obtain ⟨s, e1, e2, -⟩ := addIf_relS ro true la Tbl.empty [] relS_empty (bd_empty (by omega))
    refine ⟨s, ?_, _, e2, ?_⟩
    · rw [a1]; exact e1
    · intro k
      rw [mem_foldl_addIf, a2.mem_iff]
      simp
  have h1 := rt.size
  have h2 := ro.size
  unfold intersection
  by_cases hlt : o.size < t.size
  · simp only [hlt, if_true]
    obtain ⟨s, e1, S, e2, e3⟩ := key ro rt (by omega)
    exact ⟨s, e1, S, e2, fun k => by rw [e3]; exact And.comm⟩
  · simp only [hlt, if_false]
    exact key rt ro (by omega)

/-- **C22.** Symmetric difference. -/
theorem c22_symmetric_difference {t o : CSet K} {A B : List K} (rt : RelS h t A)
    (ro : RelS h o B) (hsz : A.length + B.length ≤ 2 ^ 38) :
    ∃ s, symmetricDifference h t o = some s ∧
      Holds h s fun k => (k ∈ A ∧ k ∉ B) ∨ (k ∈ B ∧ k ∉ A) := by
  obtain ⟨la, a1, a2⟩ := keys_relS rt
  obtain ⟨lb, b1, b2⟩ := keys_relS ro
  have hla := a2.length_eq
  have hlb := b2.length_eq
  obtain ⟨s, e1, e2, e3⟩ := addIf_relS ro false la Tbl.empty [] relS_empty (bd_empty (by omega))
  have := foldl_addIf_len_le (B := B) (w := false) (l := la) (S := ([] : List K))
  obtain ⟨s2, f1, f2, -⟩ := addIf_relS rt false lb s _ e2 ⟨e3, by simp at this ⊢; omega⟩
  refine ⟨s2, ?_, _, f2, ?_⟩
  · unfold symmetricDifference
    simp only [a1, b1, e1, Option.bind_eq_bind, Option.bind_some]; exact f1
  · intro k
    rw [mem_foldl_addIf, mem_foldl_addIf, a2.mem_iff, b2.mem_iff]
    simp

/-- **C22.** `difference_update` / `-=` with another set. -/
theorem c22_difference_update {t o : CSet K} {A B : List K} (rt : RelS h t A) (ro : RelS h o B) :
    ∃ s, differenceUpdate h t o = some s ∧ Holds h s fun k => k ∈ A ∧ k ∉ B := by
  obtain ⟨lb, b1, b2⟩ := keys_relS ro
  obtain ⟨s, e1, e2, -⟩ := discardAll_relS lb t A rt
  refine ⟨s, ?_, _, e2, ?_⟩
  · unfold differenceUpdate; rw [b1]; exact e1
  · intro k
    rw [List.mem_filter, decide_eq_true_eq, b2.mem_iff]

/-- **C22.** `s -= s` and `s.difference_update(s)`: discarding each element while iterating over the
same set empties it. -/
theorem c22_difference_update_self {t : CSet K} {A : List K} (rt : RelS h t A) :
    ∃ s, discardWhileIter h (fun _ => some true) t t.nb 0 = some s ∧ Holds h s fun _ => False := by
  obtain ⟨s, e1, e2, -⟩ := discardWhileIter_relS (fun _ => true) t.nb 0 t A rt (by omega)
    (by omega)
  exact ⟨s, e1, _, e2, fun k => by simp⟩

/-- **C22.** `update` / `|=` with any sequence of elements. -/
theorem c22_update {t : CSet K} {A : List K} (rt : RelS h t A) (l : List K)
    (ht : t.nb ≤ 2 ^ 41) (hsz : A.length + l.length ≤ 2 ^ 38) :
    ∃ s, addAll h t l = some s ∧ Holds h s fun k => k ∈ A ∨ k ∈ l := by
  obtain ⟨s, e1, e2, -⟩ := addAll_relS l t A rt ⟨ht, hsz⟩
  exact ⟨s, e1, _, e2, fun k => mem_foldl_insert l A k⟩

/-- **C22.** `intersection_update` / `&=`: discarding while iterating over the same set loses no
element and skips none. -/
theorem c22_intersection_update {t o : CSet K} {A B : List K} (rt : RelS h t A)
    (ro : RelS h o B) :
    ∃ s, intersectionUpdate h t o = some s ∧ Holds h s fun k => k ∈ A ∧ k ∈ B := by
  have hfun : (fun a => (contains h o a).map (!·)) = fun a => some (!decide (a ∈ B)) := by
    funext a; rw [contains_relS ro]; rfl
  unfold intersectionUpdate
  rw [hfun]
  obtain ⟨s, e1, e2, -⟩ := discardWhileIter_relS (fun a => !decide (a ∈ B)) t.nb 0 t A rt
    (by omega) (by omega)
  exact ⟨s, e1, _, e2, fun k => by simp [List.mem_filter]⟩

theorem discardIfIn_relS : ∀ (l : List K) (t : CSet K) (S : List K), RelS h t S →
    ∃ t', discardIfIn h t l = some t' ∧ RelS h t' (S.filter fun k => decide (k ∉ l)) := by
  intro l
  induction l with
  | nil =>
    intro t S r
    refine ⟨t, rfl, ?_⟩
    have : S.filter (fun k => decide (k ∉ ([] : List K))) = S := by
      rw [List.filter_eq_self]; intro a _; simp
    rw [this]; exact r
  | cons a l ih =>
    intro t S r
    unfold discardIfIn
    rw [contains_relS r]
    simp only [Option.bind_eq_bind, Option.bind_some]
    by_cases ha : a ∈ S
    · obtain ⟨t1, e1, e2, e3, -⟩ := discard_relS r a
      obtain ⟨t2, f1, f2⟩ := ih t1 _ e2
      refine ⟨t2, by simp [ha, e1, f1], ?_⟩
      apply relS_of_mem f2 (r.nd.filter _)
      intro k
      simp only [List.mem_filter, r.nd.mem_erase_iff, decide_eq_true_eq, List.mem_cons, not_or]
      tauto
    · obtain ⟨t2, f1, f2⟩ := ih t _ r
      refine ⟨t2, by simp [ha, f1], ?_⟩
      apply relS_of_mem f2 (r.nd.filter _)
      intro k
      simp only [List.mem_filter, decide_eq_true_eq, List.mem_cons, not_or]
      constructor
      · rintro ⟨h1, h2⟩
        exact ⟨h1, fun hh => ha (hh ▸ h1), h2⟩
      · rintro ⟨h1, -, h2⟩
        exact ⟨h1, h2⟩

/-- **C22 (partial).** What `symmetric_difference_update` / `^=` really computes: the *difference*.
The elements only in the other set are missing. -/
theorem c22_symmetric_difference_update_partial {t o : CSet K} {A B : List K} (rt : RelS h t A)
    (ro : RelS h o B) :
    ∃ s, symmetricDifferenceUpdate h t o = some s ∧ Holds h s fun k => k ∈ A ∧ k ∉ B := by
  obtain ⟨lb, b1, b2⟩ := keys_relS ro
  obtain ⟨s, e1, e2⟩ := discardIfIn_relS lb t A rt
  have hfun : (fun a => contains h o a) = fun a => some (decide (a ∈ B)) := by
    funext a; rw [contains_relS ro]
  obtain ⟨s2, f1, f2, -⟩ := discardWhileIter_relS (fun a => decide (a ∈ B)) s.nb 0 s _ e2
    (by omega) (by omega)
  refine ⟨s2, ?_, _, f2, ?_⟩
  · unfold symmetricDifferenceUpdate
    simp only [b1, e1, hfun, Option.bind_eq_bind, Option.bind_some]
    exact f1
  · intro k
    simp only [List.mem_filter, decide_eq_true_eq, b2.mem_iff]
    simp

/-- **C22, violation.** For every two sets where the other one has an element the first one lacks,
`s.symmetric_difference_update(o)` does not give the symmetric difference. -/
theorem c22_violation_symmetric_difference_update {t o : CSet K} {A B : List K}
    (rt : RelS h t A) (ro : RelS h o B) {k : K} (hb : k ∈ B) (ha : k ∉ A) :
    ¬ ∃ s, symmetricDifferenceUpdate h t o = some s ∧
      Holds h s fun k => (k ∈ A ∧ k ∉ B) ∨ (k ∈ B ∧ k ∉ A) := by
  rintro ⟨s, e, S, r, hS⟩
  obtain ⟨s', e', S', r', hS'⟩ := c22_symmetric_difference_update_partial rt ro
  rw [e] at e'
  cases e'
  have h1 : k ∈ S := (hS k).mpr (Or.inr ⟨hb, ha⟩)
  have h2 : k ∈ S' := r'.perm.mem_iff.mp (r.perm.mem_iff.mpr h1)
  exact ha ((hS' k).mp h2).1

/-- **C22.** `isdisjoint`. -/
theorem c22_isdisjoint {t o : CSet K} {A B : List K} (rt : RelS h t A) (ro : RelS h o B) :
    ∃ b, isdisjoint h t o = some b ∧ (b = true ↔ ∀ k, ¬ (k ∈ A ∧ k ∈ B)) := by
  have key : ∀ {t o : CSet K} {A B : List K}, RelS h t A → RelS h o B →
      ∃ b, (do noneIs h o true (← keysList t)) = some b ∧ (b = true ↔ ∀ k, ¬ (k ∈ A ∧ k ∈ B)) := by
    intro t o A B rt ro
    obtain ⟨la, a1, a2⟩ := keys_relS rt
    rw [a1]
    refine ⟨_, noneIs_relS ro true la, ?_⟩
    rw [decide_eq_true_eq]
    constructor
    · rintro hh k ⟨h1, h2⟩
      exact hh k (a2.mem_iff.mpr h1) (by simp [h2])
    · intro hh k hk
      have := hh k
      simp [a2.mem_iff.mp hk] at this
      simp [this]
  unfold isdisjoint
  by_cases hlt : o.size < t.size
  · simp only [hlt, if_true]
    obtain ⟨b, e1, e2⟩ := key ro rt
    exact ⟨b, e1, by rw [e2]; constructor <;> intro hh k hk <;> exact hh k ⟨hk.2, hk.1⟩⟩
  · simp only [hlt, if_false]
    exact key rt ro

/-- **C22.** `issubset` / `<=` (and `issuperset` / `>=` with the operands exchanged). -/
theorem c22_issubset {t o : CSet K} {A B : List K} (rt : RelS h t A) (ro : RelS h o B) :
    ∃ b, issubset h t o = some b ∧ (b = true ↔ ∀ k, k ∈ A → k ∈ B) := by
  unfold issubset
  have h1 := rt.size
  have h2 := ro.size
  by_cases hlt : o.size < t.size
  · refine ⟨false, by simp [hlt], ?_⟩
    constructor
    · intro hc; cases hc
    · intro hsub
      have := (rt.nd.subperm hsub).length_le
      omega
  · obtain ⟨la, a1, a2⟩ := keys_relS rt
    simp only [hlt, if_false, a1, Option.bind_eq_bind, Option.bind_some]
    refine ⟨_, noneIs_relS ro false la, ?_⟩
    rw [decide_eq_true_eq]
    constructor
    · intro hh k hk
      simpa using hh k (a2.mem_iff.mpr hk)
    · intro hh k hk
      simpa using hh k (a2.mem_iff.mp hk)

/-- **C22.** `==` (and `!=`). -/
theorem c22_eq {t o : CSet K} {A B : List K} (rt : RelS h t A) (ro : RelS h o B) :
    ∃ b, eq h t o = some b ∧ (b = true ↔ ∀ k, k ∈ A ↔ k ∈ B) := by
  unfold eq
  have h1 := rt.size
  have h2 := ro.size
  by_cases hne : t.size = o.size
  · obtain ⟨la, a1, a2⟩ := keys_relS rt
    simp only [hne, ne_eq, not_true_eq_false, if_false, a1, Option.bind_eq_bind, Option.bind_some]
    refine ⟨_, noneIs_relS ro false la, ?_⟩
    rw [decide_eq_true_eq]
    constructor
    · intro hh
      have hsub : A ⊆ B := fun k hk => by simpa using hh k (a2.mem_iff.mpr hk)
      have hp : A.Perm B := (rt.nd.subperm hsub).perm_of_length_le (by omega)
      exact fun k => hp.mem_iff
    · intro hh k hk
      have := (hh k).mp (a2.mem_iff.mp hk)
      simpa using this
  · refine ⟨false, by simp [hne], ?_⟩
    constructor
    · intro hc; cases hc
    · intro hh
      exfalso
      have hp : A.Perm B := (List.perm_ext_iff_of_nodup rt.nd ro.nd).mpr hh
      have := hp.length_eq
      omega

/-- **C22.** `<` (and `>`): proper subset. -/
theorem c22_lt {t o : CSet K} {A B : List K} (rt : RelS h t A) (ro : RelS h o B) :
    ∃ b, lt h t o = some b ∧ (b = true ↔ (∀ k, k ∈ A → k ∈ B) ∧ ∃ k, k ∈ B ∧ k ∉ A) := by
  obtain ⟨e, e1, e2⟩ := c22_eq rt ro
  obtain ⟨s, s1, s2⟩ := c22_issubset rt ro
  unfold lt
  rw [e1]
  simp only [Option.bind_eq_bind, Option.bind_some]
  cases e with
  | true =>
    refine ⟨false, rfl, ?_⟩
    have hAB := e2.mp rfl
    constructor
    · intro hc; cases hc
    · rintro ⟨-, k, h1, h2⟩
      exact absurd ((hAB k).mpr h1) h2
  | false =>
    simp only [Bool.false_eq_true, if_false]
    refine ⟨s, s1, ?_⟩
    rw [s2]
    constructor
    · intro hsub
      refine ⟨hsub, ?_⟩
      by_contra hno
      have : ∀ k, k ∈ A ↔ k ∈ B := fun k => ⟨hsub k, fun hb => by
        by_contra ha
        exact hno ⟨k, hb, ha⟩⟩
      exact absurd (e2.mpr this) (by simp)
    · exact fun hh => hh.1

end

/-! Concrete cases meeting the hypotheses. -/

/-- Every list without repetitions is the element list of some table (built by `add`). -/
theorem exists_table {K : Type} [DecidableEq K] (h : K → BitVec 64) (l : List K)
    (hl : l.length ≤ 2 ^ 38) :
    ∃ t, RelS h t (l.foldl (fun S k => S.insert k) []) ∧ t.nb ≤ 2 ^ 41 := by
  obtain ⟨t, -, e2, e3⟩ := addAll_relS l Tbl.empty [] (relS_empty (h := h)) (bd_empty hl)
  exact ⟨t, e2, e3⟩

example : ∃ t o : CSet Nat, RelS (fun _ => 0#64) t [2, 1] ∧ RelS (fun _ => 0#64) o [3, 2] ∧
    t.nb ≤ 2 ^ 41 ∧ o.nb ≤ 2 ^ 41 ∧ (3 ∈ [3, 2] ∧ 3 ∉ [2, 1]) := by
  obtain ⟨t, h1, h2⟩ := exists_table (fun _ : Nat => 0#64) [1, 2] (by decide)
  obtain ⟨o, h3, h4⟩ := exists_table (fun _ : Nat => 0#64) [2, 3] (by decide)
  exact ⟨t, o, h1, h3, h2, h4, by decide⟩

example : (run (fun _ => 0#64) Tbl.empty
    [.add 1, .add 2, .add 1, .len, .remove 1, .remove 1, .contains 2, .discard 7, .len]).map
      Prod.snd =
    some [.none, .none, .none, .nat 2, .none, .keyError, .bool true, .none, .nat 1] := by
  decide +kernel

example : ∀ p, p <+: [SetSpec.Op.add 1, .add 2, .remove 1] →
    (SetSpec.run [] p).1.length ≤ 2 ^ 38 := by
  intro p hp
  rw [← List.mem_inits] at hp
  revert hp p
  decide

end Codon.KHash.SetM
