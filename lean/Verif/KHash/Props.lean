import Verif.KHash.Rel
import Verif.KHash.FusionModel

/-!
# Dictionary properties (C19, C20, C50)
-/

namespace Codon.KHash

open Spec (find erase store)

section
set_option linter.unusedSectionVars false
variable {K V : Type} [DecidableEq K] {h : K → BitVec 64}

/-- **C19.** Every history of insertions, overwrites, deletions, pops, clears, resizes and copies,
starting from the empty dict and with an arbitrary hash function, terminates without undefined
behaviour and shows exactly the results a finite map shows, as long as the dict never holds more
than 2^38 keys (and no `resize` asks for more than 2^41 buckets). -/
theorem c19_history (h : K → BitVec 64) (ops : List (Spec.Op K V))
    (hsize : ∀ p, p <+: ops → (Spec.run [] p).1.length ≤ 2 ^ 38)
    (hok : ∀ op ∈ ops, opOK op) :
    ∃ t, run h Tbl.empty ops = some (t, (Spec.run [] ops).2) := by
  obtain ⟨t, e, -⟩ := run_rel ops Tbl.empty [] (h := h) rel_empty (Nat.zero_le _) hsize hok
  exact ⟨t, e⟩

/-- **C19.** After any history, looking up a key gives the value last stored for it, or `KeyError`
when there is none. -/
theorem c19_lookup_after_history (h : K → BitVec 64) (ops : List (Spec.Op K V))
    (hsize : ∀ p, p <+: ops → (Spec.run [] p).1.length ≤ 2 ^ 38)
    (hok : ∀ op ∈ ops, opOK op) {t : Tbl K V} {os : List (Spec.Obs V)}
    (hr : run h Tbl.empty ops = some (t, os)) (k : K) :
    getitem h t k = some (find (Spec.run [] ops).1 k) ∧
    contains h t k = some (find (Spec.run [] ops).1 k).isSome := by
  obtain ⟨t', e, r, -⟩ := run_rel ops Tbl.empty [] (h := h) rel_empty (Nat.zero_le _) hsize hok
  rw [e] at hr
  cases hr
  exact ⟨getitem_rel r k, contains_rel r k⟩

/-- **C20.** After any history, `len` is the number of stored keys, and iteration yields every
stored pair exactly once and nothing else. -/
theorem c20_iteration_after_history (h : K → BitVec 64) (ops : List (Spec.Op K V))
    (hsize : ∀ p, p <+: ops → (Spec.run [] p).1.length ≤ 2 ^ 38)
    (hok : ∀ op ∈ ops, opOK op) {t : Tbl K V} {os : List (Spec.Obs V)}
    (hr : run h Tbl.empty ops = some (t, os)) :
    ∃ l, items t = some l ∧ keysList t = some (l.map Prod.fst) ∧ (l.map Prod.fst).Nodup ∧
      l.length = len t ∧
      ∀ k v, (k, v) ∈ l ↔ find (Spec.run [] ops).1 k = some v := by
  obtain ⟨t', e, r, -⟩ := run_rel ops Tbl.empty [] (h := h) rel_empty (Nat.zero_le _) hsize hok
  rw [e] at hr
  cases hr
  obtain ⟨l, i1, i2⟩ := items_rel r
  refine ⟨l, i1, ?_, ?_, ?_, ?_⟩
  · unfold items at i1
    unfold keysList
    cases hraw : rawItems t with
    | none => rw [hraw] at i1; cases i1
    | some raw =>
      rw [hraw] at i1
      simp only [Option.bind_eq_bind, Option.bind_some] at i1 ⊢
      show some (raw.map Prod.fst) = some (l.map Prod.fst)
      congr 1
      clear hraw
      induction raw generalizing l with
      | nil => simp at i1; subst i1; rfl
      | cons p raw ih =>
        rw [List.mapM_cons] at i1
        cases hp : p.2 with
        | none => simp [hp] at i1
        | some v =>
          cases hrest : raw.mapM (fun p => p.2.map fun v => (p.1, v)) with
          | none => simp [hp, hrest] at i1
          | some rest =>
            simp [hp, hrest] at i1
            subst i1
            simp only [List.map_cons]
            congr 1
            have hgen : ∀ (raw : List (K × Option V)) (rest : List (K × V)),
                raw.mapM (fun p => p.2.map fun v => (p.1, v)) = some rest →
                raw.map Prod.fst = rest.map Prod.fst := by
              intro raw
              induction raw with
              | nil => intro rest hr; simp at hr; subst hr; rfl
              | cons q raw ih2 =>
                intro rest hr
                rw [List.mapM_cons] at hr
                cases hq : q.2 with
                | none => simp [hq] at hr
                | some w =>
                  cases hr2 : raw.mapM (fun p => p.2.map fun v => (p.1, v)) with
                  | none => simp [hq, hr2] at hr
                  | some rest2 =>
                    simp [hq, hr2] at hr
                    subst hr
                    simp only [List.map_cons]
                    rw [ih2 rest2 hr2]
            exact hgen raw rest hrest
  · exact (i2.map Prod.fst).nodup_iff.mpr r.nd
  · rw [i2.length_eq]; exact r.size.symm
  · intro k v
    rw [i2.mem_iff, find_some_iff r.nd]

/-- **C20.** `popitem` removes and returns one of the stored pairs, and raises exactly when the dict
is empty. -/
theorem c20_popitem {t : Tbl K V} {m : Spec.Map K V} (r : Rel h t m) :
    (m = [] ∧ popitem h t = some (t, none)) ∨
      ∃ t' k v, popitem h t = some (t', some (k, v)) ∧ find m k = some v ∧
        Rel h t' (erase m k) := by
  rcases popitem_rel r with h1 | ⟨t', k, v, h1, h2, h3, -⟩
  · exact Or.inl h1
  · exact Or.inr ⟨t', k, v, h1, (find_some_iff r.nd).mpr h2, h3⟩

theorem find_store (m : Spec.Map K V) (k : K) (v : V) (k' : K) :
    find (store m k v) k' = if k = k' then some v else find m k' := by
  unfold find store
  rw [List.find?_cons]
  by_cases hk : k = k'
  · simp [hk]
  · simp only [hk, decide_false, if_false]
    congr 1
    unfold erase
    rw [List.find?_filter]
    congr 1
    funext p
    by_cases hp : p.1 = k'
    · have : p.1 ≠ k := fun hh => hk (hh.symm.trans hp)
      simp [hp, Ne.symm hk]
    · simp [hp]

theorem find_foldl_store (ps : List (K × V)) (m : Spec.Map K V) (k : K) :
    find (ps.foldl (fun m p => store m p.1 p.2) m) k =
      ((ps.reverse.find? fun p => decide (p.1 = k)).map Prod.snd).or (find m k) := by
  induction ps generalizing m with
  | nil => simp
  | cons p ps ih =>
    rw [List.foldl_cons, ih, find_store, List.reverse_cons, List.find?_append]
    cases hf : ps.reverse.find? (fun p => decide (p.1 = k)) with
    | some q => simp
    | none =>
      by_cases hp : p.1 = k
      · simp [hp]
      · simp [hp]

/-- **C19.** `update` stores every pair in order: afterwards a key has the value of the last pair
with that key, or its old value. -/
theorem c19_update {t : Tbl K V} {m : Spec.Map K V} (r : Rel h t m) (hnb : t.nb ≤ 2 ^ 41)
    (ps : List (K × V)) (hl : m.length + ps.length ≤ 2 ^ 38) :
    ∃ t', update h t ps = some t' ∧ ∀ k, getitem h t' k =
      some (((ps.reverse.find? fun p => decide (p.1 = k)).map Prod.snd).or (find m k)) := by
  obtain ⟨t', e1, e2⟩ := update_rel ps t m r hnb hl
  refine ⟨t', e1, fun k => ?_⟩
  rw [getitem_rel e2, find_foldl_store]

/-- Two finite maps without repeated keys, the same size, where one is contained in the other. -/
theorem maps_eq_of_subset {m1 m2 : Spec.Map K V} (n1 : (m1.map Prod.fst).Nodup)
    (hlen : m1.length = m2.length)
    (hsub : ∀ k v, find m1 k = some v → find m2 k = some v) (n2 : (m2.map Prod.fst).Nodup) :
    ∀ k, find m1 k = find m2 k := by
  have nd1 : m1.Nodup := List.Nodup.of_map _ n1
  have hs : m1 ⊆ m2 := by
    rintro ⟨k, v⟩ hp
    exact (find_some_iff n2).mp (hsub k v ((find_some_iff n1).mpr hp))
  have hsp : List.Subperm m1 m2 := nd1.subperm hs
  have hperm : m1.Perm m2 := hsp.perm_of_length_le (by omega)
  intro k
  cases hf : find m1 k with
  | some v => exact (hsub k v hf).symm
  | none =>
    symm
    rw [find_none_iff] at hf ⊢
    exact fun v hv => hf v (hperm.mem_iff.mpr hv)

/-- **C19.** `==` on dicts decides whether the two dicts are the same finite map, whatever the two
internal layouts are. -/
theorem c19_eq [DecidableEq V] {a b : Tbl K V} {m1 m2 : Spec.Map K V} (ra : Rel h a m1)
    (rb : Rel h b m2) :
    ∃ r, dictEq h a b = some r ∧ (r = true ↔ ∀ k, find m1 k = find m2 k) := by
  obtain ⟨l, i1, i2⟩ := items_rel ra
  unfold dictEq
  rw [ra.size, rb.size]
  by_cases hl : m1.length = m2.length
  · simp only [hl, ne_eq, not_true_eq_false, if_false, i1, Option.bind_eq_bind, Option.bind_some]
    refine ⟨_, dictEqLoop_rel rb l, ?_⟩
    rw [decide_eq_true_eq]
    constructor
    · intro hall
      apply maps_eq_of_subset ra.nd hl _ rb.nd
      intro k v hk
      exact hall (k, v) (i2.mem_iff.mpr ((find_some_iff ra.nd).mp hk))
    · rintro heq ⟨k, v⟩ hp
      show find m2 k = some v
      rw [← heq]
      exact (find_some_iff ra.nd).mpr (i2.mem_iff.mp hp)
  · refine ⟨false, by simp [hl], ?_⟩
    constructor
    · intro hc; cases hc
    · intro heq
      exfalso
      apply hl
      have hperm : m1.Perm m2 := by
        apply (List.perm_ext_iff_of_nodup (List.Nodup.of_map _ ra.nd) (List.Nodup.of_map _ rb.nd)).mpr
        rintro ⟨k, v⟩
        rw [← find_some_iff ra.nd, ← find_some_iff rb.nd, heq]
      exact hperm.length_eq

end

/-! ### Fusion -/

namespace Fusion

section
set_option linter.unusedSectionVars false
variable {K V Z W X : Type} [DecidableEq K] {h : K → BitVec 64}

/-- Two outcomes agree: same result, same exception, same rest of the world, and dicts that are the
same finite map. -/
def Same (h : K → BitVec 64) : Option (Res (St K V W) X Unit) → Option (Res (St K V W) X Unit) → Prop
  | some (.ok s _), some (.ok s' _) =>
    s.2 = s'.2 ∧ ∃ m, Rel h s.1 m ∧ Rel h s'.1 m
  | some (.exc s e), some (.exc s' e') =>
    e = e' ∧ s.2 = s'.2 ∧ ∃ m, Rel h s.1 m ∧ Rel h s'.1 m
  | _, _ => False

/-- The fused operand reads nothing but the world, changes nothing and does not raise. -/
def Quiet (second : Expr K V W X Z) : Prop := ∃ f : W → Z, ∀ s, second s = some (.ok s (f s.2))

/-- **C50, full statement.** -/
def FusionCorrect (h : K → BitVec 64) (keyError : X) (key : K) (rd : Read K V W X)
    (second : Expr K V W X Z) (op : V → Z → Except X V) : Prop :=
  ∀ (t : Tbl K V) (m : Spec.Map K V) (w : W), Rel h t m → t.nb ≤ 2 ^ 60 →
    Same h (original h keyError key rd second op (t, w)) (fused h keyError key rd second op (t, w))

/-- **C50 (partial).** With a quiet second operand the rewrite of `d[k] = op(d[k], v)` is correct,
also when the operator raises. -/
theorem c50_getitem_partial (keyError : X) (key : K) (second : Expr K V W X Z)
    (hq : Quiet second) (op : V → Z → Except X V) :
    FusionCorrect h keyError key .getitem second op := by
  intro t m w r hnb
  obtain ⟨f, hf⟩ := hq
  unfold original fused Expr.bind
  simp only [hf, Read.eval, getitemE, getitem_rel r, Option.map_some]
  rcases kget_rel r key with ⟨x, v, g1, g2, hrd, g4, g3, g5⟩ | ⟨g1, g2⟩
  · rw [g3]
    have hx : ¬ x = t.nb := Nat.ne_of_lt g2
    simp only [hf, opE, doOpThrowsE, g1, Option.bind_eq_bind, Option.bind_some, hx, if_false, hrd]
    cases hop : op v (f w) with
    | error e => exact ⟨rfl, rfl, m, r, r⟩
    | ok z =>
      obtain ⟨t1, e1, e2, -⟩ := setitem_rel r hnb key z
      obtain ⟨l, q1, q2, q3, q4⟩ := setVal_full g5 g2 g4 z
      simp only [setitemE, e1, Option.map_some, q1, Option.bind_some]
      refine ⟨rfl, store m key z, e2, Or.inr q2, ?_⟩
      refine q4.trans ?_
      rw [emb_store, emb_erase]
      apply List.Perm.cons
      refine (filter_of_cons_perm (r.perm.symm.trans q3) ?_).symm
      rw [emb_keys]; exact r.nd
  · rw [g2]
    simp only [doOpThrowsE, g1, Option.bind_eq_bind, Option.bind_some, if_true]
    exact ⟨rfl, rfl, m, r, r⟩

/-- **C50 (partial).** With a quiet second operand and an operator that does not raise, the rewrite
of `d[k] = op(d.get(k, c), v)` with a constant `c` is correct. -/
theorem c50_get_const_partial (keyError : X) (key : K) (c : V) (second : Expr K V W X Z)
    (hq : Quiet second) (op : V → Z → V) :
    FusionCorrect h keyError key (.get (.const c)) second (fun v z => .ok (op v z)) := by
  intro t m w r hnb
  obtain ⟨f, hf⟩ := hq
  unfold original fused Expr.bind
  simp only [hf, Read.eval, getE, Dflt.eval, pureE, Expr.bind, getD_rel r, Option.map_some, opE,
    setitemE, doOpE]
  obtain ⟨t', ret, x, p1, p2, p3, p4, p5⟩ := put_write r hnb key
  obtain ⟨t1, e1, e2, -⟩ := setitem_rel r hnb key (op ((find m key).getD c) (f w))
  rw [p1]
  simp only [e1, Option.map_some, Option.bind_eq_bind, Option.bind_some]
  rcases p4 with ⟨a, v, b1, b2, b3⟩ | ⟨a, b⟩
  · simp only [a, ne_eq, not_true_eq_false, if_false, b1, Option.bind_some]
    obtain ⟨w1, w2⟩ := p5 (op v (f w))
    simp only [w1, Option.bind_some]
    rw [b2] at e2
    exact ⟨rfl, _, e2, w2⟩
  · simp only [a, ne_eq, not_false_eq_true, if_true, Option.bind_some]
    obtain ⟨w1, w2⟩ := p5 (op c (f w))
    simp only [w1, Option.bind_some]
    rw [b] at e2
    exact ⟨rfl, _, e2, w2⟩

/-- A constant second operand is quiet. -/
example : Quiet (pureE 3 : Expr Nat Nat Unit String Nat) := ⟨fun _ => 3, fun _ => rfl⟩

/-- **C50, violation.** `d[k] = d.get(k, n) + 1` where `n` is not a constant: the pass calls the
throwing version, so a missing key raises `KeyError` instead of storing `n + 1`. -/
theorem c50_violation_variable_default :
    ¬ FusionCorrect (W := Unit) (fun _ : Nat => 0#64) "KeyError" 7
      (.get (.expr (pureE 10))) (pureE 1) (fun v z : Nat => .ok (v + z)) := by
  intro hc
  have := hc Tbl.empty [] () rel_empty (by decide)
  have h2 : fused (fun _ : Nat => 0#64) "KeyError" 7
      (.get (.expr (pureE 10))) (pureE 1) (fun v z : Nat => .ok (v + z)) (Tbl.empty, ()) =
      some (.exc (Tbl.empty, ()) "KeyError") := rfl
  rw [h2] at this
  have h3 : ∃ t, setitem (fun _ : Nat => 0#64) Tbl.empty 7 11 = some t := by
    obtain ⟨t, ht, -⟩ := setitem_rel (h := fun _ : Nat => 0#64) rel_empty (by decide) 7 11
    exact ⟨t, ht⟩
  obtain ⟨t, ht⟩ := h3
  have h1 : original (fun _ : Nat => 0#64) "KeyError" 7
      (.get (.expr (pureE 10))) (pureE 1) (fun v z : Nat => .ok (v + z)) (Tbl.empty, ()) =
      some (.ok (t, ()) ()) := by
    unfold original Expr.bind
    show (setitem (fun _ : Nat => 0#64) Tbl.empty 7 11).map _ = _
    rw [ht]; rfl
  rw [h1] at this
  exact this

/-- **C50, violation.** An operator that raises leaves the key behind: `d[k] = op(d.get(k, c), v)`
with `op` raising changes the dict after the pass, but not before it. -/
theorem c50_violation_raising_operator (key : K) (c : V) (z : Z) (keyError e : X) (w : W)
    (h : K → BitVec 64) :
    original h keyError key (.get (.const c)) (pureE z) (fun _ _ => .error e) (Tbl.empty, w) =
        some (.exc (Tbl.empty, w) e) ∧
    ∃ t, fused h keyError key (.get (.const c)) (pureE z) (fun _ _ => .error e) (Tbl.empty, w) =
        some (.exc (t, w) e) ∧ len t = 1 := by
  obtain ⟨t', ret, x, v, p1, p2, p3, p4, p5, p6⟩ :=
    kput_spec (h := h) (t := (Tbl.empty : Tbl K V)) (Or.inl rfl) (Nat.zero_le _) key
  refine ⟨rfl, t', ?_, ?_⟩
  · unfold fused Expr.bind
    simp only [pureE, doOpE, p1, Option.bind_eq_bind, Option.bind_some]
    have hret : ret ≠ 0 := by
      rcases p6 with ⟨-, b, -⟩ | ⟨a, -, -⟩
      · simp [Tbl.content, contentOf, Tbl.empty] at b
      · exact a
    simp only [hret, ne_eq, not_false_eq_true, if_true, Option.bind_some]
    rfl
  · have hl : len t' = t'.content.length := (p2 : Full h t').sz
    rw [hl]
    rcases p6 with ⟨-, b, -⟩ | ⟨-, -, b⟩
    · simp [Tbl.content, contentOf, Tbl.empty] at b
    · rw [b.length_eq]
      simp [Tbl.content, contentOf, Tbl.empty]

/-- **C50, violation.** The second operand now runs before the lookup: if it deletes the key, the
original program succeeds and the rewritten one raises `KeyError`. -/
theorem c50_violation_second_operand_order :
    ¬ FusionCorrect (W := Unit) (fun _ : Nat => 0#64) "KeyError" 7 .getitem
      (fun s => some (.ok (kclear s.1, s.2) 1)) (fun v z : Nat => .ok (v + z)) := by
  intro hc
  obtain ⟨t, e1, e2, e3⟩ :=
    setitem_rel (h := fun _ : Nat => 0#64) (V := Nat) rel_empty (by decide) 7 11
  have hnb : t.nb ≤ 2 ^ 60 := by
    have h0 : (Tbl.empty : Tbl Nat Nat).nb = 0 := rfl
    have h1 : (Tbl.empty : Tbl Nat Nat).size = 0 := rfl
    omega
  have := hc t _ () e2 hnb
  obtain ⟨c1, c2⟩ := clear_rel e2
  have h2 : fused (fun _ : Nat => 0#64) "KeyError" 7 .getitem
      (fun s => some (.ok (kclear s.1, s.2) 1)) (fun v z : Nat => .ok (v + z)) (t, ()) =
      some (.exc (kclear t, ()) "KeyError") := by
    unfold fused Expr.bind doOpThrowsE
    rcases kget_rel c1 7 with ⟨x, v, g1, g2, -, g4, g3, g5⟩ | ⟨g1, g2⟩
    · cases g3
    · simp only [g1, Option.bind_eq_bind, Option.bind_some, if_true]; rfl
  obtain ⟨t2, f1, f2, f3⟩ := setitem_rel c1 (by rw [c2]; exact hnb) 7 12
  have h1 : original (fun _ : Nat => 0#64) "KeyError" 7 .getitem
      (fun s => some (.ok (kclear s.1, s.2) 1)) (fun v z : Nat => .ok (v + z)) (t, ()) =
      some (.ok (t2, ()) ()) := by
    unfold original Expr.bind
    simp only [Read.eval, getitemE, getitem_rel e2, Option.map_some]
    show (setitem (fun _ : Nat => 0#64) (kclear t) 7 12).map _ = _
    rw [f1]; rfl
  rw [h1, h2] at this
  exact this

end

end Fusion

/-! Concrete history meeting the hypotheses, with colliding keys (constant hash). -/

def exOps : List (Spec.Op Nat Nat) :=
  [.set 1 10, .set 2 20, .del 1, .set 3 30, .get 1, .get 3, .setdefault 2 99, .resize 64, .pop 2,
    .len, .contains 2, .clear, .len]

example : (∀ op ∈ exOps, opOK op) ∧ exOps.length = 13 := by
  refine ⟨?_, rfl⟩
  intro op hop
  simp only [exOps, List.mem_cons, List.not_mem_nil, or_false] at hop
  rcases hop with rfl | rfl | rfl | rfl | rfl | rfl | rfl | rfl | rfl | rfl | rfl | rfl | rfl <;>
    first | trivial | (unfold opOK; decide)

example : ∀ p, p <+: exOps → (Spec.run [] p).1.length ≤ 2 ^ 38 := by
  intro p hp
  rw [← List.mem_inits] at hp
  revert hp p
  decide

example : (run (fun _ => 0#64) Tbl.empty exOps).map Prod.snd =
    some [.none, .none, .none, .none, .keyError, .val 30, .val 20, .none, .val 20, .nat 1,
      .bool false, .none, .nat 0] := by decide +kernel

end Codon.KHash
