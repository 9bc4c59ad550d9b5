import Verif.Gen.Spec
import Mathlib.Logic.Function.Iterate

namespace Codon.Gen

variable {S E V R A : Type}

theorem repeat_eq {α : Type} (f : α → α) (n : Nat) (x : α) : Nat.repeat f n x = f^[n] x := by
  induction n with
  | zero => rfl
  | succ n ih => rw [Nat.repeat, ih, Function.iterate_succ_apply']

/-- What the replacement of a yield has to do. -/
structure Refines (q : Consumer S E V A R)
    (Y : (S → Eff S E V) → Stmt (S × A) E Empty R) : Prop where
  raise : ∀ (f : S → Eff S E V) k s s' a e, f s = .raise e s' →
    ∃ n, FState.step^[n + 1] (.go (.run (Y f) k (s, a))) = .go (.unwind (.exc e) k (s', a))
  more : ∀ (f : S → Eff S E V) k s s' s'' a a' v, f s = .ok v s' →
    q.item a v s' = .ok (.more a') s'' →
    ∃ n, FState.step^[n + 1] (.go (.run (Y f) k (s, a))) = .go (.unwind .normal k (s'', a'))
  stop : ∀ (f : S → Eff S E V) k s s' s'' a r v, f s = .ok v s' →
    q.item a v s' = .ok (.stop r) s'' →
    ∃ n, FState.step^[n + 1] (.go (.run (Y f) k (s, a))) = .go (.unwind (.ret r) k (s'', a))
  fail : ∀ (f : S → Eff S E V) k s s' s'' a e v, f s = .ok v s' →
    q.item a v s' = .raise e s'' →
    ∃ n, FState.step^[n + 1] (.go (.run (Y f) k (s, a))) = .go (.unwind (.exc e) k (s'', a))

/-- The flags say truly what the consumer does. -/
structure Flags (q : Consumer S E V A R) (raises stops varies : Bool) : Prop where
  raises : raises = false → ∀ a v s e s', q.item a v s ≠ .raise e s'
  stops : stops = false → ∀ a v s r s', q.item a v s ≠ .ok (.stop r) s'
  varies : varies = false → ∀ a a', q.finish a = q.finish a'

section
variable (Y : (S → Eff S E V) → Stmt (S × A) E Empty R) (q : Consumer S E V A R)

/-- The completion in the fused function when the accumulator is `a`. -/
def tc (a : A) : Cmpl E Unit → Cmpl E R
  | .normal => .normal
  | .brk => .brk
  | .cont => .cont
  | .ret _ => .ret (q.finish a)
  | .exc e => .exc e

/-- The frame in the fused function when the accumulator is `a`. -/
def tf (a : A) : Frame S E V Unit → Frame (S × A) E Empty R
  | .seq b => .seq (b.fuse Y q.finish)
  | .loop c b => .loop (keep c) (b.fuse Y q.finish)
  | .catch p bind h => .catch p (fun e (s, a) => (bind e s, a)) (h.fuse Y q.finish)
  | .fin f => .fin (f.fuse Y q.finish)
  | .after c => .after (tc q a c)

/-- The `return` at the end of the fused function. -/
def last : Stmt (S × A) E Empty R := .ret fun (s, a) => .ok (q.finish a) (s, a)

def tk (a : A) (k : List (Frame S E V Unit)) : List (Frame (S × A) E Empty R) :=
  k.map (tf Y q a) ++ [.seq (last q)]

end

/-- Code on top of the stack returns only if `r` and yields only if `y`. -/
def Ok (raises stops varies : Bool) : Bool → Bool → List (Frame S E V Unit) → Prop
  | _, _, [] => True
  | r, y, .seq b :: k => b.Fits raises stops varies ∧
      Ok raises stops varies (r || b.returns) (y || b.yields) k
  | r, y, .loop _ b :: k => b.Fits raises stops varies ∧
      Ok raises stops varies (r || b.returns) (y || b.yields) k
  | r, y, .catch _ _ h :: k => h.Fits raises stops varies ∧ (raises = true → y = false) ∧
      Ok raises stops varies (r || h.returns) (y || h.yields) k
  | r, y, .fin f :: k => f.Fits raises stops varies ∧ (raises = true ∨ stops = true → y = false) ∧
      (varies = true → r = true → f.yields = false) ∧
      Ok raises stops varies (r || f.returns) (y || f.yields) k
  | r, y, .after c :: k => (varies = true → c = .ret () → y = false) ∧
      Ok raises stops varies (r || c matches .ret _) y k

variable {raises stops varies : Bool}

theorem Ok.mono : ∀ {k : List (Frame S E V Unit)} {r r' y y' : Bool}, Ok raises stops varies r y k →
    (r' = true → r = true) → (y' = true → y = true) → Ok raises stops varies r' y' k := by
  intro k
  induction k with
  | nil => intros; trivial
  | cons fr k ih =>
    intro r r' y y' h hr hy
    have hy' : y = false → y' = false := by
      intro h; cases y' with
      | false => rfl
      | true => rw [hy rfl] at h; exact h
    cases fr with
    | seq b =>
      exact ⟨h.1, ih h.2 (by simp only [Bool.or_eq_true]; exact Or.imp_left hr)
        (by simp only [Bool.or_eq_true]; exact Or.imp_left hy)⟩
    | loop c b =>
      exact ⟨h.1, ih h.2 (by simp only [Bool.or_eq_true]; exact Or.imp_left hr)
        (by simp only [Bool.or_eq_true]; exact Or.imp_left hy)⟩
    | «catch» p b f =>
      exact ⟨h.1, fun hx => hy' (h.2.1 hx),
        ih h.2.2 (by simp only [Bool.or_eq_true]; exact Or.imp_left hr)
        (by simp only [Bool.or_eq_true]; exact Or.imp_left hy)⟩
    | fin f =>
      exact ⟨h.1, fun hx => hy' (h.2.1 hx), fun hv hr' => h.2.2.1 hv (hr hr'),
        ih h.2.2.2 (by simp only [Bool.or_eq_true]; exact Or.imp_left hr)
        (by simp only [Bool.or_eq_true]; exact Or.imp_left hy)⟩
    | after c =>
      exact ⟨fun hv hc => hy' (h.1 hv hc),
        ih h.2 (by simp only [Bool.or_eq_true]; exact Or.imp_left hr) hy⟩

section
variable {q : Consumer S E V A R} {Y : (S → Eff S E V) → Stmt (S × A) E Empty R}

theorem tk_eq (hf : Flags q raises stops varies) (a a' : A) : ∀ {k : List (Frame S E V Unit)}
    {r : Bool}, Ok raises stops varies r true k → tk Y q a k = tk Y q a' k := by
  have : ∀ {k : List (Frame S E V Unit)} {r : Bool}, Ok raises stops varies r true k →
      k.map (tf Y q a) = k.map (tf Y q a') := by
    intro k
    induction k with
    | nil => intros; rfl
    | cons fr k ih =>
      intro r h
      cases fr with
      | seq b => rw [List.map_cons, List.map_cons, ih (r := r || b.returns) (by simpa using h.2)]; rfl
      | loop c b => rw [List.map_cons, List.map_cons, ih (r := r || b.returns) (by simpa using h.2)]; rfl
      | «catch» p b f =>
        rw [List.map_cons, List.map_cons, ih (r := r || f.returns) (by simpa using h.2.2)]; rfl
      | fin f => rw [List.map_cons, List.map_cons, ih (r := r || f.returns) (by simpa using h.2.2.2)]; rfl
      | after c =>
        rw [List.map_cons, List.map_cons, ih h.2]
        congr 1
        cases c with
        | ret u =>
          cases hv : varies with
          | true => simpa using h.1 hv rfl
          | false => simp only [tf, tc, hf.varies hv a a']
        | _ => rfl
  intro k r h
  unfold tk
  rw [this h]

theorem iter_trans {n m : Nat} {x y z : FState (S × A) E R} (h1 : FState.step^[n] x = y)
    (h2 : FState.step^[m] y = z) : FState.step^[m + n] x = z := by
  rw [Function.iterate_add_apply, h1, h2]

/-- An exception of the consumer at an item leaves the fused function. -/
theorem leave_exc (hr : raises = true) (e : E) (a : A) (s : S × A) : ∀ {k : List (Frame S E V Unit)} {r : Bool},
    Ok raises stops varies r true k →
    ∃ n, FState.step^[n] (.go (.unwind (.exc e) (tk Y q a k) s)) = .done (.raised e s) := by
  intro k
  induction k with
  | nil => intro r _; exact ⟨2, rfl⟩
  | cons fr k ih =>
    intro r h
    cases fr with
    | seq b =>
      obtain ⟨n, hn⟩ := ih (r := r || b.returns) (by simpa using h.2)
      exact ⟨n + 1, hn⟩
    | loop c b =>
      obtain ⟨n, hn⟩ := ih (r := r || b.returns) (by simpa using h.2)
      exact ⟨n + 1, hn⟩
    | «catch» p b f => have := h.2.1 hr; simp at this
    | fin f => have := h.2.1 (.inl hr); simp at this
    | after c =>
      obtain ⟨n, hn⟩ := ih h.2
      exact ⟨n + 1, hn⟩

/-- A consumer that stops at an item returns from the fused function. -/
theorem leave_ret (hr : stops = true) (x : R) (a : A) (s : S × A) : ∀ {k : List (Frame S E V Unit)} {r : Bool},
    Ok raises stops varies r true k →
    ∃ n, FState.step^[n] (.go (.unwind (.ret x) (tk Y q a k) s)) = .done (.returned x s) := by
  intro k
  induction k with
  | nil => intro r _; exact ⟨2, rfl⟩
  | cons fr k ih =>
    intro r h
    cases fr with
    | seq b =>
      obtain ⟨n, hn⟩ := ih (r := r || b.returns) (by simpa using h.2)
      exact ⟨n + 1, hn⟩
    | loop c b =>
      obtain ⟨n, hn⟩ := ih (r := r || b.returns) (by simpa using h.2)
      exact ⟨n + 1, hn⟩
    | «catch» p b f =>
      obtain ⟨n, hn⟩ := ih (r := r || f.returns) (by simpa using h.2.2)
      exact ⟨n + 1, hn⟩
    | fin f => have := h.2.1 (.inr hr); simp at this
    | after c =>
      obtain ⟨n, hn⟩ := ih h.2
      exact ⟨n + 1, hn⟩

end

section
variable (q : Consumer S E V A R) (Y : (S → Eff S E V) → Stmt (S × A) E Empty R)
variable (raises stops varies : Bool)

/-- The generator with its consumer and the fused function at corresponding points. -/
inductive Sim : OState S E V A R → FState (S × A) E R → Prop
  | run (st : Stmt S E V Unit) (k : List (Frame S E V Unit)) (s : S) (a : A)
      (h1 : st.Fits raises stops varies) (h2 : Ok raises stops varies st.returns st.yields k) :
      Sim (.go (.run st k s) a) (.go (.run (st.fuse Y q.finish) (tk Y q a k) (s, a)))
  | unwind (c : Cmpl E Unit) (k : List (Frame S E V Unit)) (s : S) (a : A)
      (h2 : Ok raises stops varies (c matches .ret _) false k) :
      Sim (.go (.unwind c k s) a) (.go (.unwind (tc q a c) (tk Y q a k) (s, a)))
  | susp (f : S → Eff S E V) (v : V) (k : List (Frame S E V Unit)) (s s0 : S) (a : A)
      (h1 : f s0 = .ok v s) (h2 : Ok raises stops varies false true k) :
      Sim (.go (.susp v k s) a) (.go (.run (Y f) (tk Y q a k) (s0, a)))
  | done (o : Outcome S E R) (o' : Outcome (S × A) E R) (h : o'.dropAcc = o) :
      Sim (.done o) (.done o')

end

variable {q : Consumer S E V A R} {Y : (S → Eff S E V) → Stmt (S × A) E Empty R}

def isSusp : OState S E V A R → Bool
  | .go (.susp _ _ _) _ => true
  | _ => false

theorem sim_step (hf : Flags q raises stops varies) (hY : Refines q Y)
    {x : OState S E V A R} {y : FState (S × A) E R} (h : Sim q Y raises stops varies x y) :
    ∃ n y', FState.step^[n] y = y' ∧ Sim q Y raises stops varies (q.step x) y' ∧
      (n ≠ 0 ∨ isSusp x = false ∧ isSusp (q.step x) = true) := by
  cases h with
  | done o o' h => exact ⟨1, _, rfl, .done o o' h, .inl (by simp)⟩
  | susp f v k s s0 a h1 h2 =>
    simp only [Consumer.step]
    cases hi : q.item a v s with
    | ok nx s' =>
      cases nx with
      | more a' =>
        obtain ⟨n, hn⟩ := hY.more f (tk Y q a k) s0 s s' a a' v h1 hi
        refine ⟨n + 1, _, hn, ?_, .inl (by simp)⟩
        rw [tk_eq hf a a' h2]
        exact .unwind .normal k s' a' (h2.mono (by simp) (by simp))
      | stop r =>
        obtain ⟨n, hn⟩ := hY.stop f (tk Y q a k) s0 s s' a r v h1 hi
        have hs : stops = true := by
          cases hs : stops with
          | true => rfl
          | false => exact absurd hi (hf.stops hs _ _ _ _ _)
        obtain ⟨m, hm⟩ := leave_ret (q := q) (Y := Y) hs r a (s', a) h2
        exact ⟨m + (n + 1), _, iter_trans hn hm, .done _ _ rfl, .inl (by simp)⟩
    | raise e s' =>
      obtain ⟨n, hn⟩ := hY.fail f (tk Y q a k) s0 s s' a e v h1 hi
      have hs : raises = true := by
        cases hs : raises with
        | true => rfl
        | false => exact absurd hi (hf.raises hs _ _ _ _ _)
      obtain ⟨m, hm⟩ := leave_exc (q := q) (Y := Y) hs e a (s', a) h2
      exact ⟨m + (n + 1), _, iter_trans hn hm, .done _ _ rfl, .inl (by simp)⟩
  | unwind c k s a h2 =>
    cases k with
    | nil =>
      cases c with
      | normal => exact ⟨3, _, rfl, .done _ _ rfl, .inl (by simp)⟩
      | brk => exact ⟨2, _, rfl, .done _ _ rfl, .inl (by simp)⟩
      | cont => exact ⟨2, _, rfl, .done _ _ rfl, .inl (by simp)⟩
      | ret u => exact ⟨2, _, rfl, .done _ _ rfl, .inl (by simp)⟩
      | exc e => exact ⟨2, _, rfl, .done _ _ rfl, .inl (by simp)⟩
    | cons fr k =>
      refine ⟨1, _, rfl, ?_, .inl (by simp)⟩
      cases fr with
      | seq b =>
        cases c with
        | normal => exact .run b k s a h2.1 (h2.2.mono (by simp) (by simp))
        | _ => exact .unwind _ k s a (h2.2.mono (by simp) (by simp))
      | loop d b =>
        cases c with
        | normal => exact .run (.loop d b) k s a h2.1 (h2.2.mono (by simp [Stmt.returns]) (by simp [Stmt.yields]))
        | cont => exact .run (.loop d b) k s a h2.1 (h2.2.mono (by simp [Stmt.returns]) (by simp [Stmt.yields]))
        | brk => exact .unwind .normal k s a (h2.2.mono (by simp) (by simp))
        | _ => exact .unwind _ k s a (h2.2.mono (by simp) (by simp))
      | «catch» p bind hd =>
        cases c with
        | exc e =>
          simp only [Consumer.step, FState.step, tk, List.map_cons, List.cons_append, tf, tc, pop,
            Function.iterate_one]
          cases hp : p e with
          | true =>
            simp only [if_true]
            exact .run hd k (bind e s) a h2.1 (h2.2.2.mono (by simp) (by simp))
          | false => exact .unwind (.exc e) k s a (h2.2.2.mono (by simp) (by simp))
        | _ => exact .unwind _ k s a (h2.2.2.mono (by simp) (by simp))
      | fin f =>
        have hk := h2.2.2.2
        refine .run f (.after c :: k) s a h2.1 ⟨?_, hk.mono ?_ (by simp)⟩
        · intro hv hc
          exact h2.2.2.1 hv (by rw [hc])
        · simp only [Bool.or_eq_true]; exact Or.symm
      | after d =>
        have hk := h2.2
        cases c with
        | normal => exact .unwind d k s a (hk.mono (by simp) (by simp))
        | _ => exact .unwind _ k s a (hk.mono (by simp) (by simp))
  | run st k s a h1 h2 =>
    cases st with
    | skip => exact ⟨1, _, rfl, .unwind .normal k s a (h2.mono (by simp) (by simp)), .inl (by simp)⟩
    | act f =>
      refine ⟨1, _, rfl, ?_, .inl (by simp)⟩
      simp only [Consumer.step, exec, Stmt.fuse, FState.step, keep, Function.iterate_one]
      cases f s with
      | ok u s' => exact .unwind .normal k s' a (h2.mono (by simp) (by simp))
      | raise e s' => exact .unwind (.exc e) k s' a (h2.mono (by simp) (by simp))
    | seq b c =>
      exact ⟨1, _, rfl, .run b (.seq c :: k) s a h1.1 ⟨h1.2, h2⟩, .inl (by simp)⟩
    | ite c b d =>
      refine ⟨1, _, rfl, ?_, .inl (by simp)⟩
      simp only [Consumer.step, exec, Stmt.fuse, FState.step, keep, Function.iterate_one]
      cases c s with
      | ok u s' =>
        cases u with
        | true => exact .run b k s' a h1.1 (h2.mono (by simp only [Stmt.returns]; intro h; simp [h])
            (by simp only [Stmt.yields]; intro h; simp [h]))
        | false => exact .run d k s' a h1.2 (h2.mono (by simp only [Stmt.returns]; intro h; simp [h])
            (by simp only [Stmt.yields]; intro h; simp [h]))
      | raise e s' => exact .unwind (.exc e) k s' a (h2.mono (by simp) (by simp))
    | loop c b =>
      refine ⟨1, _, rfl, ?_, .inl (by simp)⟩
      simp only [Consumer.step, exec, Stmt.fuse, FState.step, keep, Function.iterate_one]
      cases c s with
      | ok u s' =>
        cases u with
        | true =>
          exact .run b (.loop c b :: k) s' a h1 ⟨h1, by simpa [Stmt.returns, Stmt.yields] using h2⟩
        | false => exact .unwind .normal k s' a (h2.mono (by simp) (by simp))
      | raise e s' => exact .unwind (.exc e) k s' a (h2.mono (by simp) (by simp))
    | brk => exact ⟨1, _, rfl, .unwind .brk k s a (h2.mono (by simp) (by simp)), .inl (by simp)⟩
    | cont => exact ⟨1, _, rfl, .unwind .cont k s a (h2.mono (by simp) (by simp)), .inl (by simp)⟩
    | ret f =>
      simp only [Consumer.step, exec, Stmt.fuse]
      cases hfs : f s with
      | ok u s' =>
        refine ⟨4, _, ?_, .unwind (.ret u) k s' a (h2.mono (by simp [Stmt.returns]) (by simp)), .inl (by simp)⟩
        simp only [Function.iterate_succ, Function.iterate_zero, Function.comp, FState.step, exec, keep,
          hfs, pop, id, tc]
      | raise e s' =>
        refine ⟨3, _, ?_, .unwind (.exc e) k s' a (h2.mono (by simp) (by simp)), .inl (by simp)⟩
        simp only [Function.iterate_succ, Function.iterate_zero, Function.comp, FState.step, exec, keep,
          hfs, pop, id, tc]
    | yld f =>
      simp only [Consumer.step, exec, Stmt.fuse]
      cases hfs : f s with
      | ok v s' =>
        exact ⟨0, _, rfl, .susp f v k s' s a hfs h2, .inr ⟨rfl, rfl⟩⟩
      | raise e s' =>
        obtain ⟨n, hn⟩ := hY.raise f (tk Y q a k) s s' a e hfs
        exact ⟨n + 1, _, hn, .unwind (.exc e) k s' a (h2.mono (by simp) (by simp)), .inl (by simp)⟩
    | «catch» b p bind hd =>
      refine ⟨1, _, rfl, .run b (.catch p bind hd :: k) s a h1.2.1 ⟨h1.2.2, h1.1, h2⟩, .inl (by simp)⟩
    | fin b f =>
      exact ⟨1, _, rfl, .run b (.fin f :: k) s a h1.2.2.1 ⟨h1.2.2.2, h1.1, h1.2.1, h2⟩, .inl (by simp)⟩

theorem step_done (n : Nat) (o : Outcome (S × A) E R) :
    FState.step^[n] (.done o : FState (S × A) E R) = .done o := by
  induction n with
  | zero => rfl
  | succ n ih => rw [Function.iterate_succ_apply]; exact ih

theorem forward (hf : Flags q raises stops varies) (hY : Refines q Y) : ∀ (n : Nat)
    (x : OState S E V A R) (y : FState (S × A) E R) (o : Outcome S E R),
    Sim q Y raises stops varies x y → q.step^[n] x = .done o →
    ∃ m o', FState.step^[m] y = .done o' ∧ o'.dropAcc = o := by
  intro n
  induction n with
  | zero =>
    intro x y o h hx
    cases (show x = .done o from hx)
    cases h with
    | done _ o' h => exact ⟨0, o', rfl, h⟩
  | succ n ih =>
    intro x y o h hx
    rw [Function.iterate_succ_apply] at hx
    obtain ⟨m, y', h1, h2, -⟩ := sim_step hf hY h
    obtain ⟨m', o', h3, h4⟩ := ih _ _ _ h2 hx
    exact ⟨m' + m, o', iter_trans h1 h3, h4⟩

theorem backward (hf : Flags q raises stops varies) (hY : Refines q Y) : ∀ (N m : Nat)
    (x : OState S E V A R) (y : FState (S × A) E R) (o' : Outcome (S × A) E R),
    2 * m + (if isSusp x then 0 else 1) ≤ N →
    Sim q Y raises stops varies x y → FState.step^[m] y = .done o' →
    ∃ n, q.step^[n] x = .done o'.dropAcc := by
  intro N
  induction N with
  | zero =>
    intro m x y o' hN h hy
    have hm : m = 0 := by omega
    have hs : isSusp x = true := by
      cases hx : isSusp x with
      | true => rfl
      | false => rw [hx] at hN; simp at hN
    subst hm
    cases (show y = .done o' from hy)
    cases h
    simp [isSusp] at hs
  | succ N ih =>
    intro m x y o' hN h hy
    obtain ⟨k, y', h1, h2, h3⟩ := sim_step hf hY h
    by_cases hk : k ≤ m
    · have hy' : FState.step^[m - k] y' = .done o' := by
        rw [← h1, ← Function.iterate_add_apply, Nat.sub_add_cancel hk]; exact hy
      by_cases hm : m = 0
      · subst hm
        cases (show y = .done o' from hy)
        cases h with
        | done o _ h => exact ⟨0, by rw [h]; rfl⟩
      · obtain ⟨n, hn⟩ := ih (m - k) (q.step x) y' o' (by
          rcases h3 with h3 | ⟨h3, h4⟩
          · split <;> omega
          · rw [h3] at hN; rw [h4]; simp at hN ⊢; omega) h2 hy'
        exact ⟨n + 1, by rw [Function.iterate_succ_apply]; exact hn⟩
    · have : y' = .done o' := by
        rw [← h1, show k = (k - m) + m by omega, Function.iterate_add_apply, hy, step_done]
      subst this
      cases hx : q.step x with
      | done o => rw [hx] at h2; cases h2 with | done _ _ h => exact ⟨1, by rw [h]; exact hx⟩
      | go c a => rw [hx] at h2; cases h2

/-- The simulation as a statement about complete runs. -/
theorem ends_iff (hf : Flags q raises stops varies) (hY : Refines q Y) (b : Stmt S E V Unit)
    (hb : b.Fits raises stops varies) (s : S) (a : A) (o : Outcome S E R) :
    q.Ends b s a o ↔ (Stmt.seq (b.fuse Y q.finish) (last q)).Ends s a o := by
  have h0 : Sim q Y raises stops varies (.go (.run b [] s) a)
      (.go (.run (b.fuse Y q.finish) (tk Y q a []) (s, a))) := .run b [] s a hb trivial
  unfold Consumer.Ends Stmt.Ends
  constructor
  · rintro ⟨n, hn⟩
    rw [repeat_eq] at hn
    obtain ⟨m, o', h1, h2⟩ := forward hf hY n _ _ o h0 hn
    exact ⟨m + 1, o', by rw [repeat_eq, Function.iterate_succ_apply]; exact h1, h2⟩
  · rintro ⟨m, o', h1, h2⟩
    rw [repeat_eq] at h1
    cases m with
    | zero => cases h1
    | succ m =>
      rw [Function.iterate_succ_apply] at h1
      obtain ⟨n, hn⟩ := backward hf hY _ m _ _ o' (Nat.le_refl _) h0 h1
      exact ⟨n, by rw [repeat_eq, hn, h2]⟩

theorem sum_refines (plus : A → V → S → Eff S E A) :
    Refines (sumConsumer plus) (sumYield plus) where
  raise f k s s' a e h := ⟨0, by
    simp only [Function.iterate_one, Nat.zero_add, FState.step, sumYield, exec, h]⟩
  more f k s s' s'' a a' v h hi := ⟨0, by
    simp only [sumConsumer] at hi
    simp only [Function.iterate_one, Nat.zero_add, FState.step, sumYield, exec, h]
    cases hp : plus a v s' with
    | ok x y => rw [hp] at hi; cases hi; rfl
    | raise x y => rw [hp] at hi; cases hi⟩
  stop f k s s' s'' a r v h hi := by
    simp only [sumConsumer] at hi
    cases hp : plus a v s' with
    | ok x y => rw [hp] at hi; cases hi
    | raise x y => rw [hp] at hi; cases hi
  fail f k s s' s'' a e v h hi := ⟨0, by
    simp only [sumConsumer] at hi
    simp only [Function.iterate_one, Nat.zero_add, FState.step, sumYield, exec, h]
    cases hp : plus a v s' with
    | ok x y => rw [hp] at hi; cases hi
    | raise x y => rw [hp] at hi; cases hi; rfl⟩

theorem anyAll_refines (isAny : Bool) (truth : V → S → Eff S E Bool) :
    Refines (anyAllConsumer isAny truth) (anyAllYield isAny truth) where
  raise f k s s' a e h := ⟨0, by
    simp only [Function.iterate_one, Nat.zero_add, FState.step, anyAllYield, exec, keep, h]⟩
  more f k s s' s'' a a' v h hi := ⟨1, by
    simp only [anyAllConsumer] at hi
    simp only [Function.iterate_succ, Function.iterate_zero, Function.comp, id, FState.step, anyAllYield,
      exec, keep, h]
    cases hp : truth v s' with
    | ok x y =>
      rw [hp] at hi
      cases isAny <;> cases x <;> simp at hi ⊢ <;> exact hi
    | raise x y => rw [hp] at hi; cases hi⟩
  stop f k s s' s'' a r v h hi := ⟨1, by
    simp only [anyAllConsumer] at hi
    simp only [Function.iterate_succ, Function.iterate_zero, Function.comp, id, FState.step, anyAllYield,
      exec, keep, h]
    cases hp : truth v s' with
    | ok x y =>
      rw [hp] at hi
      cases isAny <;> cases x <;> simp at hi ⊢ <;> simp [hi]
    | raise x y => rw [hp] at hi; cases hi⟩
  fail f k s s' s'' a e v h hi := ⟨0, by
    simp only [anyAllConsumer] at hi
    simp only [Function.iterate_one, Nat.zero_add, FState.step, anyAllYield, exec, keep, h]
    cases hp : truth v s' with
    | ok x y =>
      rw [hp] at hi
      cases isAny <;> cases x <;> simp at hi
    | raise x y => rw [hp] at hi; cases hi; rfl⟩

end Codon.Gen
