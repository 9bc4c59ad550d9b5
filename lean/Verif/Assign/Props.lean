import Verif.Assign.Lemmas
/-!
# C59: plain, chained and augmented assignments; C60: unpacking

**C59**, full statement: an assignment evaluates its right side first and then its targets from left to right, each part once; an augmented assignment evaluates its target
once and stores the result.  It fails (`c59_violation_…`): the target of `a[i] = e` and `a.x = e` is evaluated before `e`; `f()[i] += e`, `f().x += e`, and `a[f()] += x` for a
name `x` call `f` twice; `x += e` throws away the result of `__iadd__`; `s = t[f()] = e` calls `f` twice and assigns from right to left.
The partial theorems give the full statement where the parts of the target have no effects of that kind.

**C60**, full statement: `p₁, …, pₙ = e` evaluates `e` once, checks the number of its items, and stores them from left to right.  It fails (`c60_violation_…`): surplus items are
ignored, missing ones raise `IndexError` after some targets are assigned, `a, *x, b = [1]` succeeds, an identifier on the right is read again after each store, and a starred
target gets a tuple from a tuple.  The partial theorem gives the full statement for all (nested, starred) patterns whose lengths fit.
-/
namespace Codon.Assign
open Codon.Operator
variable {σ ε V : Type}

/-! ### C59 -/

/-- `x = e`. -/
theorem c59_assign_name_partial (m : Mem σ ε V) (x : Nat) (e : Ex σ ε V) (he : e.written) :
    exec m [emitAssign (.name x) e] = pyAssign m [.name x] e := by
  funext s
  simp only [exec, emitAssign, runSts, runSt, evalEx_written m e he, pyAssign, pyStores, pyStore, andThen_unit, andThen, lift]
  rcases pyEx m e s with _ | ⟨s1, _ | v⟩ <;> rfl

/-- `a[i] = e`, when evaluating the target early does not show. -/
theorem c59_assign_item_partial (m : Mem σ ε V) (o i e : Ex σ ε V) (ho : o.written) (hi : i.written) (he : e.written)
    (h : (Const m o ∧ Const m i) ∨ Const m e ∨ (Reads m o ∧ Reads m i ∧ Reads m e)) :
    exec m [emitAssign (.item o i) e] = pyAssign m [.item o i] e := by
  funext s
  simp only [exec, emitAssign, runSts, runSt, evalEx_written m e he, evalEx_written m o ho, evalEx_written m i hi, pyAssign, pyStores, pyStore, andThen_unit]
  rcases h with ⟨⟨a, ha⟩, ⟨b, hb⟩⟩ | ⟨v, hv⟩ | ⟨⟨f, hf⟩, ⟨g, hg⟩, ⟨k, hk⟩⟩
  · simp only [ha, hb, andThen, lift, ret]
    rcases pyEx m e s with _ | ⟨s1, _ | v⟩ <;> simp only
    rcases m.setItem a b v s1 with _ | ⟨s2, r⟩ <;> rfl
  · simp only [hv, andThen, lift, ret]
    rcases pyEx m o s with _ | ⟨s1, _ | a⟩ <;> simp only
    rcases pyEx m i s1 with _ | ⟨s2, _ | b⟩ <;> simp only
    rcases m.setItem a b v s2 with _ | ⟨s3, r⟩ <;> rfl
  · simp only [hf, hg, hk, andThen, lift]
    rcases m.setItem (f s) (g s) (k s) s with _ | ⟨s3, r⟩ <;> rfl

/-- `a.x = e`, when evaluating the target early does not show. -/
theorem c59_assign_attr_partial (m : Mem σ ε V) (o e : Ex σ ε V) (k : Nat) (ho : o.written) (he : e.written)
    (h : Const m o ∨ Const m e ∨ (Reads m o ∧ Reads m e)) :
    exec m [emitAssign (.attr o k) e] = pyAssign m [.attr o k] e := by
  funext s
  simp only [exec, emitAssign, runSts, runSt, evalEx_written m e he, evalEx_written m o ho, pyAssign, pyStores, pyStore, andThen_unit]
  rcases h with ⟨a, ha⟩ | ⟨v, hv⟩ | ⟨⟨f, hf⟩, ⟨g, hg⟩⟩
  · simp only [ha, andThen, lift, ret]
    rcases pyEx m e s with _ | ⟨s1, _ | v⟩ <;> simp only
    rcases m.setAttr a k v s1 with _ | ⟨s2, r⟩ <;> rfl
  · simp only [hv, andThen, lift, ret]
    rcases pyEx m o s with _ | ⟨s1, _ | a⟩ <;> simp only
    rcases m.setAttr a k v s1 with _ | ⟨s3, r⟩ <;> rfl
  · simp only [hf, hg, andThen, lift]
    rcases m.setAttr (f s) k (g s) s with _ | ⟨s3, r⟩ <;> rfl

/-- `x op= e` for a class without an in-place method. -/
theorem c59_aug_name_partial (m : Mem σ ε V) (n x op : Nat) (e : Ex σ ε V) (he : e.written) :
    exec m (emitAug n (.name x) op false e) = pyAug m (.name x) op false e := by
  funext s
  simp only [exec, emitAug, Bool.false_eq_true, if_false, runSts, runSt, evalEx, evalEx_written m e he, pyAug, pyStore, andThen_unit, pyEx, andThen, lift]
  rcases pyEx m e s with _ | ⟨s1, _ | y⟩ <;> simp only
  rcases m.bin op (m.var x s) y s1 with _ | ⟨s2, _ | z⟩ <;> rfl

/-- `x op= e` for a class with an in-place method that returns its object, when neither `e` nor the method assigns `x`. -/
theorem c59_aug_name_inplace_partial (m : Mem σ ε V) (hm : m.Lawful) (n x op : Nat) (e : Ex σ ε V) (he : e.written)
    (hself : ∀ a b s s' r, m.iop op a b s = some (s', .ok r) → r = a)
    (hkeep : ∀ a b s s' r, m.iop op a b s = some (s', .ok r) → m.var x s' = m.var x s)
    (hkeep' : ∀ s s' r, pyEx m e s = some (s', .ok r) → m.var x s' = m.var x s) :
    exec m (emitAug n (.name x) op true e) = pyAug m (.name x) op true e := by
  funext s
  simp only [exec, emitAug, if_true, runSts, runSt, evalEx, evalEx_written m e he, pyAug, pyStore, andThen_unit, pyEx, andThen, lift]
  cases h1 : pyEx m e s with
  | none => rfl
  | some p =>
    obtain ⟨s1, r⟩ := p
    cases r with
    | error e => rfl
    | ok y =>
      simp only
      cases h2 : m.iop op (m.var x s) y s1 with
      | none => rfl
      | some p =>
        obtain ⟨s2, r⟩ := p
        cases r with
        | error e => rfl
        | ok z =>
          have e1 := hself _ _ _ _ _ h2
          have e2 := hkeep _ _ _ _ _ h2
          have e3 := hkeep' _ _ _ h1
          have : m.setVar x z s2 = s2 := by rw [e1, ← e3, ← e2, hm.set_var]
          simp only [this, ret]

/-- `a[i] op= e`: the container is constant and `e` not a name, or the target only reads the state. -/
theorem c59_aug_item_partial (m : Mem σ ε V) (n op : Nat) (useI : Bool) (o i e : Ex σ ε V) (ho : o.written) (hi : i.written) (he : e.written)
    (h : (Const m o ∧ e.isId = false) ∨ (Reads m o ∧ Reads m i)) :
    exec m (emitAug n (.item o i) op useI e) = pyAug m (.item o i) op useI e := by
  funext s
  by_cases hid : e.isId = true
  · obtain ⟨⟨f, hf⟩, ⟨g, hg⟩⟩ := h.resolve_left (by simp [hid])
    simp only [emitAug, hid, if_true, pyAug, exec, runSts, runSt, evalEx, evalEx_written m e he, evalEx_written m o ho, evalEx_written m i hi, andThen_unit, andThen_assoc]
    simp only [hf, hg, andThen, lift]
    rcases m.getItem (f s) (g s) s with _ | ⟨s2, _ | x⟩ <;> simp only
    rcases pyEx m e s2 with _ | ⟨s3, _ | y⟩ <;> simp only
    rcases (if useI then m.iop op x y else m.bin op x y) s3 with _ | ⟨s4, _ | z⟩ <;> simp only
    rcases m.setItem (f s) (g s) z s4 with _ | ⟨s5, r⟩ <;> rfl
  · have hid' : e.isId = false := by simpa using hid
    simp only [emitAug, hid', Bool.false_eq_true, if_false, pyAug, exec, runSts, runSt, evalEx, evalEx_written m e he, evalEx_written m o ho, evalEx_written m i hi, andThen_unit, andThen_assoc]
    rcases h with ⟨⟨a, ha⟩, _⟩ | ⟨⟨f, hf⟩, ⟨g, hg⟩⟩
    · simp only [ha]
      have h0 : ∀ (b : V) (s1 : σ) (t : Tmps V), getTmp (σ := σ) (ε := ε) n (s1, fun k => if k = n then some b else t k) =
          some ((s1, fun k => if k = n then some b else t k), .ok b) := by intro b s1 t; simp [getTmp]
      cases h1 : pyEx m i s with
      | none => simp only [andThen, lift, ret, h1]
      | some p =>
        obtain ⟨s1, r⟩ := p
        cases r with
        | error e => simp only [andThen, lift, ret, h1]
        | ok b =>
          simp only [andThen, lift, ret, h1, setTmp, h0]
          rcases m.getItem a b s1 with _ | ⟨s2, _ | x⟩ <;> simp only
          rcases pyEx m e s2 with _ | ⟨s3, _ | y⟩ <;> simp only
          rcases (if useI then m.iop op x y else m.bin op x y) s3 with _ | ⟨s4, _ | z⟩ <;> simp only
          rcases m.setItem a b z s4 with _ | ⟨s5, r⟩ <;> rfl
    · simp only [hf, hg]
      simp only [andThen, lift, setTmp, getTmp, ret, if_true]
      rcases m.getItem (f s) (g s) s with _ | ⟨s2, _ | x⟩ <;> simp only
      rcases pyEx m e s2 with _ | ⟨s3, _ | y⟩ <;> simp only
      rcases (if useI then m.iop op x y else m.bin op x y) s3 with _ | ⟨s4, _ | z⟩ <;> simp only
      rcases m.setItem (f s) (g s) z s4 with _ | ⟨s5, r⟩ <;> rfl

/-- `a.x op= e` when the object only reads the state. -/
theorem c59_aug_attr_partial (m : Mem σ ε V) (n op k : Nat) (useI : Bool) (o e : Ex σ ε V) (ho : o.written) (he : e.written) (h : Reads m o) :
    exec m (emitAug n (.attr o k) op useI e) = pyAug m (.attr o k) op useI e := by
  funext s
  obtain ⟨f, hf⟩ := h
  simp only [emitAug, pyAug, exec, runSts, runSt, evalEx, evalEx_written m e he, evalEx_written m o ho, hf, andThen, lift]
  rcases m.getAttr (f s) k s with _ | ⟨s1, _ | x⟩ <;> simp only
  rcases pyEx m e s1 with _ | ⟨s2, _ | y⟩ <;> simp only
  rcases (if useI then m.iop op x y else m.bin op x y) s2 with _ | ⟨s3, _ | z⟩ <;> simp only
  rcases m.setAttr (f s) k z s3 with _ | ⟨s4, _ | r⟩ <;> rfl

/-- The state after storing `v` in the variables `xs`. -/
theorem pyStores_names (m : Mem σ ε V) (v : V) : ∀ (xs : List Nat) (s : σ),
    pyStores m v (xs.map .name) s = some (xs.foldl (fun s x => m.setVar x v s) s, .ok ())
  | [], s => rfl
  | x :: xs, s => by
    simp only [List.map_cons, pyStores, pyStore, andThen]
    rw [pyStores_names m v xs]; rfl

theorem foldl_set_comm (m : Mem σ ε V) (hm : m.Lawful) (v : V) (x : Nat) : ∀ (xs : List Nat) (s : σ),
    xs.foldl (fun s x => m.setVar x v s) (m.setVar x v s) = m.setVar x v (xs.foldl (fun s x => m.setVar x v s) s)
  | [], s => rfl
  | y :: xs, s => by
    simp only [List.foldl_cons]
    rw [← foldl_set_comm m hm v x xs]
    congr 1
    by_cases h : x = y
    · subst h; rfl
    · rw [hm.set_comm _ _ _ _ _ h]

theorem runSts_append (m : Mem σ ε V) : ∀ (a b : List (St σ ε V)), runSts m (a ++ b) = andThen (runSts m a) fun _ => runSts m b
  | [], b => by simp only [List.nil_append, runSts, ret_andThen]
  | x :: a, b => by simp only [List.cons_append, runSts, runSts_append m a b, andThen_assoc]

theorem var_foldl (m : Mem σ ε V) (hm : m.Lawful) (v : V) (x : Nat) (xs : List Nat) (s : σ) :
    m.var x ((x :: xs).foldl (fun s x => m.setVar x v s) s) = v := by
  simp only [List.foldl_cons]
  rw [foldl_set_comm m hm, hm.var_set]

/-- `x₁ = x₂ = … = e` for names, repeated or not. -/
theorem c59_chain_names_partial (m : Mem σ ε V) (hm : m.Lawful) (xs : List Nat) (hxs : xs ≠ []) (e : Ex σ ε V) (he : e.written) :
    exec m (emitChain (xs.map .name) e) = pyAssign m (xs.map .name) e := by
  have main : ∀ (xs : List Nat) (x : Nat), runSts m (emitChain ((x :: xs).map .name) e) =
      andThen (lift (pyEx m e)) fun v s => some (((x :: xs).foldl (fun s x => m.setVar x v s) s.1, s.2), .ok ()) := by
    intro xs
    induction xs with
    | nil =>
      intro x
      simp only [List.map_cons, List.map_nil, emitChain, emitAssign, runSts, runSt, evalEx_written m e he, andThen_unit]
      rfl
    | cons y ys ih =>
      intro x
      have := ih y
      simp only [List.map_cons] at this ⊢
      simp only [emitChain, runSts_append, this, andThen_assoc]
      congr 1
      funext v s
      have hv := var_foldl m hm v y ys s.1
      simp only [andThen, runSts, emitAssign, Target.expr, runSt, evalEx, hv, ret]
      rw [List.foldl_cons (l := y :: ys), foldl_set_comm m hm v x (y :: ys)]
  cases xs with
  | nil => exact absurd rfl hxs
  | cons x xs =>
    funext s
    simp only [exec, main xs x, pyAssign, andThen, lift]
    rcases pyEx m e s with _ | ⟨s1, _ | v⟩ <;> simp only
    rw [pyStores_names m v (x :: xs)]

/-! ### A concrete instance -/

/-- A log of what was evaluated and stored, and the variables. -/
abbrev Log := List Int × List Int

/-- Values are integers; reading item `i` of `o` gives `o + i`, storing logs the container, the index and the value; operator 0 adds; the in-place method gives a value of its
    own, `100`. -/
def logMem : Mem Log Unit Int where
  var x s := s.2.getD x 0
  setVar x v s := (s.1, s.2.set x v)
  getItem o i := ret (o + i)
  setItem o i v := fun s => some ((s.1 ++ [o, i, v], s.2), .ok ())
  getAttr o _ := ret (o + 1)
  setAttr o k v := fun s => some ((s.1 ++ [o, k, v], s.2), .ok ())
  bin _ x y := ret (x + y)
  iop _ _ _ := ret 100

/-- A call that logs and gives `v`. -/
def say (v : Int) : Ex Log Unit Int := .opnd fun s => some ((s.1 ++ [v], s.2), .ok v)

/-- A constant. -/
def lit (v : Int) : Ex Log Unit Int := .opnd (ret v)

-- `7[x] = x + 3`-like statements meet the hypotheses
example : exec logMem [emitAssign (.item (lit 7) (lit 2)) (say 3)] ([], []) = some (([3, 7, 2, 3], []), .ok ()) := rfl
example : Const logMem (lit 7) := ⟨7, rfl⟩
example : Reads logMem (.name 0) := ⟨fun s => s.2.getD 0 0, rfl⟩
example : exec logMem (emitAug 0 (.item (lit 7) (say 2)) 0 false (say 3)) ([], []) = some (([2, 3, 7, 2, 12], []), .ok ()) := rfl
example : exec logMem (emitChain [.name 0, .name 1, .name 0] (say 3)) ([], [0, 0]) = some (([3], [3, 3]), .ok ()) := rfl

/-- `say(1)[say(2)] = say(3)`: the target is evaluated before the value. -/
theorem c59_violation_order :
    pyAssign logMem [.item (say 1) (say 2)] (say 3) ([], []) = some (([3, 1, 2, 1, 2, 3], []), .ok ()) ∧
    exec logMem [emitAssign (.item (say 1) (say 2)) (say 3)] ([], []) = some (([1, 2, 3, 1, 2, 3], []), .ok ()) ∧
    pyAssign logMem [.attr (say 1) 0] (say 3) ([], []) = some (([3, 1, 1, 0, 3], []), .ok ()) ∧
    exec logMem [emitAssign (.attr (say 1) 0) (say 3)] ([], []) = some (([1, 3, 1, 0, 3], []), .ok ()) := ⟨rfl, rfl, rfl, rfl⟩

/-- `say(1)[2] += 3` evaluates `say(1)` twice. -/
theorem c59_violation_aug_container :
    pyAug logMem (.item (say 1) (lit 2)) 0 false (lit 3) ([], []) = some (([1, 1, 2, 6], []), .ok ()) ∧
    exec logMem (emitAug 0 (.item (say 1) (lit 2)) 0 false (lit 3)) ([], []) = some (([1, 1, 1, 2, 6], []), .ok ()) := ⟨rfl, rfl⟩

/-- `1[say(2)] += x` evaluates `say(2)` twice, because the right side is a name. -/
theorem c59_violation_aug_index :
    pyAug logMem (.item (lit 1) (say 2)) 0 false (.name 0) ([], [5]) = some (([2, 1, 2, 8], [5]), .ok ()) ∧
    exec logMem (emitAug 0 (.item (lit 1) (say 2)) 0 false (.name 0)) ([], [5]) = some (([2, 2, 1, 2, 8], [5]), .ok ()) := ⟨rfl, rfl⟩

/-- `say(1).a += 3` evaluates `say(1)` twice. -/
theorem c59_violation_aug_object :
    pyAug logMem (.attr (say 1) 0) 0 false (lit 3) ([], []) = some (([1, 1, 0, 5], []), .ok ()) ∧
    exec logMem (emitAug 0 (.attr (say 1) 0) 0 false (lit 3)) ([], []) = some (([1, 1, 1, 0, 5], []), .ok ()) := ⟨rfl, rfl⟩

/-- `x += 3` does not store what `__iadd__` returns. -/
theorem c59_violation_aug_result :
    pyAug logMem (.name 0) 0 true (lit 3) ([], [5]) = some (([], [100]), .ok ()) ∧
    exec logMem (emitAug 0 (.name 0) 0 true (lit 3)) ([], [5]) = some (([], [5]), .ok ()) := ⟨rfl, rfl⟩

/-- `x = 1[say(2)] = 3` calls `say(2)` twice and stores in `x` what is read back (here `1 + 2 + …` of the container), not the value. -/
theorem c59_violation_chain_item :
    pyAssign logMem [.name 0, .item (lit 1) (say 2)] (lit 30) ([], [0]) = some (([2, 1, 2, 30], [30]), .ok ()) ∧
    exec logMem (emitChain [.name 0, .item (lit 1) (say 2)] (lit 30)) ([], [0]) = some (([2, 1, 2, 30, 2], [3]), .ok ()) := ⟨rfl, rfl⟩

/-- `i = a[i] = 3`: Python assigns `i` first, so item 3 is stored; compiled, item `i` of before is. -/
theorem c59_violation_chain_order :
    pyAssign logMem [.name 0, .item (lit 1) (.name 0)] (lit 3) ([], [0]) = some (([1, 3, 3], [3]), .ok ()) ∧
    exec logMem (emitChain [.name 0, .item (lit 1) (.name 0)] (lit 3)) ([], [0]) = some (([1, 0, 3], [1]), .ok ()) := ⟨rfl, rfl⟩

/-! ### C60 -/

/-- Unpacking a value whose length fits (at every level) does what Python does, for any nesting and any starred targets; the right side is an identifier the targets do not
    assign, or any other expression. -/
theorem c60_unpack_partial (q : Seqs σ ε V) (ps : Pats σ ε V) (r : Rhs σ ε V) (n n' : Nat) (ss : List (USt σ ε V))
    (hu : unpack n r (.seq ps) = some (n', ss)) (s : σ)
    (hr : (∃ read, r = .id read ∧ ps.Keeps q read ∧ Fits q s (.seq ps) (read s)) ∨
          (∃ run, r = .expr run ∧ ∀ s1 v, run s = some (s1, .ok v) → ps.Keeps q (fun _ => v) ∧ Fits q s1 (.seq ps) v)) :
    execU q ss s = andThen (pyRhs r) (pyUnpack q (.seq ps)) s := by
  rcases hr with ⟨read, rfl, hk, hf⟩ | ⟨run, rfl, h⟩
  · have hd : StDen q read n (.id read : Rhs σ ε V) (read s) s (fun _ => none) := by
      intro s' t' h1 _
      simp only [evalRhs, h1.2]
    have := unpack_does q read (.seq ps) n _ n' ss (read s) s (fun _ => none) hu (by simpa only [Pat.Keeps] using hk) hf hd
    have e0 : andThen (pyRhs (.id read)) (pyUnpack q (.seq ps)) s = pyUnpack q (.seq ps) (read s) s := rfl
    rw [e0]
    simp only [execU]
    rcases this with ⟨h1, h2⟩ | ⟨s', e, t', h1, h2⟩ | ⟨s', t', h1, h2, _⟩
    · rw [h1, h2]
    · rw [h1, h2]
    · rw [h1, h2]
  · simp only [unpack, Rhs.isId, Bool.false_eq_true, if_false] at hu
    cases h1 : unpackPre (n + 1) (Rhs.tmp n : Rhs σ ε V) ps.size 0 ps with
    | none => rw [h1] at hu; simp at hu
    | some x =>
      rw [h1] at hu; simp only [Option.some.injEq, Prod.mk.injEq] at hu
      obtain ⟨_, rfl⟩ := hu
      simp only [execU, List.singleton_append, runU, evalRhs, pyRhs]
      cases hs : run s with
      | none => simp only [andThen, lift, hs]
      | some p =>
        obtain ⟨s1, p⟩ := p
        cases p with
        | error e => simp only [andThen, lift, hs]
        | ok v =>
          obtain ⟨hk, hf⟩ := h s1 v hs
          have hd : StDen q (fun _ => v) (n + 1) (.tmp n : Rhs σ ε V) v s1 (fun j => if j = n then some v else none) := by
            intro s' t' _ h2
            have := h2 n (by omega)
            simp only [if_true] at this
            simp only [evalRhs, getTmp, this]
          have hu' : unpack (n + 1) (.tmp n : Rhs σ ε V) (.seq ps) = some (x.1, x.2) := by
            simp only [unpack, Rhs.isId, if_true, h1, List.nil_append]
          have := unpack_does q (fun _ => v) (.seq ps) (n + 1) _ x.1 x.2 v s1 _ hu' (by simpa only [Pat.Keeps] using hk) hf hd
          simp only [andThen, lift, hs, setTmp]
          rcases this with ⟨h1, h2⟩ | ⟨s', e, t', h1, h2⟩ | ⟨s', t', h1, h2, _⟩
          · rw [h1, h2]
          · rw [h1, h2]
          · rw [h1, h2]

/-- A pattern is accepted exactly when no level has two starred targets. -/
theorem c60_accepts (p : Pat σ ε V) (n : Nat) (r : Rhs σ ε V) : (unpack n r p).isSome = true ↔ p.oneStar = true := by
  rw [unpack_isSome]

/-! ### A concrete instance -/

/-- Values: numbers, the one mutable list of the program, lists and tuples made on the way. -/
inductive Val where
  | num (i : Int)
  | theList
  | lst (l : List Val)
  | tup (l : List Val)

/-- The items of the mutable list, and the variables. -/
structure Heap where
  cells : List Val
  vars : List Val

/-- Exceptions. -/
inductive Exc where
  | index | value | type
  deriving DecidableEq

/-- Sequences of the instance. -/
def seqs : Seqs Heap Exc Val where
  items v s := match v with
    | .num _ => none
    | .theList => some s.cells
    | .lst l => some l
    | .tup l => some l
  isTuple v := match v with
    | .tup _ => true
    | _ => false
  ofList := .lst
  ofTuple := .tup
  indexError := .index
  valueError := .value
  typeError := .type

/-- The target `x` for a variable. -/
def nm (x : Nat) : Pat Heap Exc Val := .tgt fun v s => some ({ s with vars := s.vars.set x v }, .ok ())

/-- The target `d[i]` for the mutable list. -/
def cell (i : Nat) : Pat Heap Exc Val := .tgt fun v s => some ({ s with cells := s.cells.set i v }, .ok ())

/-- Reading a variable. -/
def rd (x : Nat) : Heap → Val := fun s => s.vars.getD x (.num 0)

/-- Compile and run `ps = r`. -/
def go (r : Rhs Heap Exc Val) (p : Pat Heap Exc Val) (s : Heap) : Option (Option (Heap × Except (Fail Exc) Unit)) :=
  (unpack 0 r p).map fun x => execU seqs x.2 s

-- `a, *b, (c, d) = v` meets the hypotheses
example : Fits seqs ⟨[], []⟩ (.seq (.cons false (nm 0) (.cons true (nm 1) (.cons false (.seq (.cons false (nm 2) (.cons false (nm 3) .nil))) .nil))))
    (.lst [.num 1, .num 2, .num 3, .tup [.num 4, .num 5]]) := by
  simp only [Fits, nm]
  refine ⟨_, [.num 1, .lst [.num 2, .num 3], .tup [.num 4, .num 5]], rfl, rfl, fun _ => rfl, ?_⟩
  simp only [FitsAll, Fits, and_true, true_and]
  exact ⟨_, [.num 4, .num 5], rfl, rfl, (by simp [Pats.hasStar]), by simp only [FitsAll, Fits, and_true]⟩
example : go (.expr (ret (.lst [.num 1, .num 2, .num 3, .tup [.num 4, .num 5]])))
    (.seq (.cons false (nm 0) (.cons true (nm 1) (.cons false (.seq (.cons false (nm 2) (.cons false (nm 3) .nil))) .nil)))) ⟨[], [.num 0, .num 0, .num 0, .num 0]⟩ =
    some (some (⟨[], [.num 1, .lst [.num 2, .num 3], .num 4, .num 5]⟩, .ok ())) := rfl
example : (nm 0).Keeps seqs (rd 1) := by
  simp only [nm, Pat.Keeps]
  intro v s s' r h
  simp only [Option.some.injEq, Prod.mk.injEq] at h
  obtain ⟨rfl, _⟩ := h
  refine ⟨fun w => by cases w <;> rfl, ?_⟩
  simp only [rd, List.getD_eq_getElem?_getD]
  rw [List.getElem?_set_ne (by omega)]

/-- `a, b = [1, 2, 3]` is accepted and ignores the third item; Python raises `ValueError`. -/
theorem c60_violation_surplus :
    pyUnpack seqs (.seq (.cons false (nm 0) (.cons false (nm 1) .nil))) (.lst [.num 1, .num 2, .num 3]) ⟨[], [.num 0, .num 0]⟩ =
      some (⟨[], [.num 0, .num 0]⟩, .error (.exc .value)) ∧
    go (.expr (ret (.lst [.num 1, .num 2, .num 3]))) (.seq (.cons false (nm 0) (.cons false (nm 1) .nil))) ⟨[], [.num 0, .num 0]⟩ =
      some (some (⟨[], [.num 1, .num 2]⟩, .ok ())) := ⟨rfl, rfl⟩

/-- `a, b = [1]` assigns `a` before it raises `IndexError`; Python raises `ValueError` and assigns nothing. -/
theorem c60_violation_missing :
    pyUnpack seqs (.seq (.cons false (nm 0) (.cons false (nm 1) .nil))) (.lst [.num 1]) ⟨[], [.num 0, .num 0]⟩ =
      some (⟨[], [.num 0, .num 0]⟩, .error (.exc .value)) ∧
    go (.expr (ret (.lst [.num 1]))) (.seq (.cons false (nm 0) (.cons false (nm 1) .nil))) ⟨[], [.num 0, .num 0]⟩ =
      some (some (⟨[], [.num 1, .num 0]⟩, .error (.exc .index))) := ⟨rfl, rfl⟩

/-- `a, *x, b = [1]` gives both `a` and `b` the only item. -/
theorem c60_violation_star_short :
    pyUnpack seqs (.seq (.cons false (nm 0) (.cons true (nm 1) (.cons false (nm 2) .nil)))) (.lst [.num 1]) ⟨[], [.num 0, .num 0, .num 0]⟩ =
      some (⟨[], [.num 0, .num 0, .num 0]⟩, .error (.exc .value)) ∧
    go (.expr (ret (.lst [.num 1]))) (.seq (.cons false (nm 0) (.cons true (nm 1) (.cons false (nm 2) .nil)))) ⟨[], [.num 0, .num 0, .num 0]⟩ =
      some (some (⟨[], [.num 1, .lst [], .num 1]⟩, .ok ())) := ⟨rfl, rfl⟩

/-- `c, d = c`: `c` is read again after it was assigned (here the first item is again a sequence). -/
theorem c60_violation_reread :
    pyUnpack seqs (.seq (.cons false (nm 0) (.cons false (nm 1) .nil))) (.lst [.lst [.num 7, .num 8], .num 2]) ⟨[], [.lst [.lst [.num 7, .num 8], .num 2], .num 0]⟩ =
      some (⟨[], [.lst [.num 7, .num 8], .num 2]⟩, .ok ()) ∧
    go (.id (rd 0)) (.seq (.cons false (nm 0) (.cons false (nm 1) .nil))) ⟨[], [.lst [.lst [.num 7, .num 8], .num 2], .num 0]⟩ =
      some (some (⟨[], [.lst [.num 7, .num 8], .num 8]⟩, .ok ())) := ⟨rfl, rfl⟩

/-- `d[1], d[0] = d` swaps in Python; compiled, both cells get the first item. -/
theorem c60_violation_alias :
    pyUnpack seqs (.seq (.cons false (cell 1) (.cons false (cell 0) .nil))) .theList ⟨[.num 1, .num 2], [.theList]⟩ =
      some (⟨[.num 2, .num 1], [.theList]⟩, .ok ()) ∧
    go (.id (rd 0)) (.seq (.cons false (cell 1) (.cons false (cell 0) .nil))) ⟨[.num 1, .num 2], [.theList]⟩ =
      some (some (⟨[.num 1, .num 1], [.theList]⟩, .ok ())) := ⟨rfl, rfl⟩

/-- `*a, b = (1, 2, 3)` gives a tuple instead of a list. -/
theorem c60_violation_star_tuple :
    pyUnpack seqs (.seq (.cons true (nm 0) (.cons false (nm 1) .nil))) (.tup [.num 1, .num 2, .num 3]) ⟨[], [.num 0, .num 0]⟩ =
      some (⟨[], [.lst [.num 1, .num 2], .num 3]⟩, .ok ()) ∧
    go (.expr (ret (.tup [.num 1, .num 2, .num 3]))) (.seq (.cons true (nm 0) (.cons false (nm 1) .nil))) ⟨[], [.num 0, .num 0]⟩ =
      some (some (⟨[], [.tup [.num 1, .num 2], .num 3]⟩, .ok ())) := ⟨rfl, rfl⟩

end Codon.Assign
