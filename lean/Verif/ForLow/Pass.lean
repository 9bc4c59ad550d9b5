import Verif.ForLow.Backward
/-!
# The pass computes the lowered form
-/
namespace Codon.ForLow
open Codon.Omp (w)

variable {W : World} {N : Nat}

/-- A program: all its variables are below `N`, and no loop has been started. -/
def Below (N : Nat) : Term → Prop
  | .const _ => True
  | .var x => x < N
  | .pair a b => Below N a ∧ Below N b
  | .op f a => (∀ x, f = .assign x → x < N) ∧ Below N a
  | .seq a b => Below N a ∧ Below N b
  | .ite c a b => Below N c ∧ Below N a ∧ Below N b
  | .while c a => Below N c ∧ Below N a
  | .brk => True
  | .cont => True
  | .try a x b => x < N ∧ Below N a ∧ Below N b
  | .for x _ a b => x < N ∧ Below N a ∧ Below N b
  | .impFor x a _ b => x < N ∧ Below N a ∧ Below N b
  | .genLoop _ _ _ => False
  | .impLoop _ _ _ _ _ => False

/-- Only old variables and the new ones are assigned. -/
def Asg (N k k' : Nat) (t : Term) : Prop := ∀ y, asg y t → y < N ∨ (k ≤ y ∧ y < k')

theorem Asg.mono {k k' l l' : Nat} {t : Term} (h : Asg N k k' t) (h1 : l ≤ k) (h2 : k' ≤ l') : Asg N l l' t := by
  intro y hy
  rcases h y hy with h | h <;> omega

theorem handle_cases (x : Nat) (it : Iter) (a b : Term) (k : Nat) :
    (handle x it a b k = (.for x it a b, k)) ∨
    (it = .range1 ∧ handle x it a b k = (.impFor x (.pair (.const (.int 0)) a) 1 b, k)) ∨
    (it = .range2 ∧ ∃ a1 a2, a = .pair a1 a2 ∧ handle x it a b k = (.impFor x (.pair a1 a2) 1 b, k)) ∨
    (it = .range3 ∧ ∃ a1 a2 c, c ≠ 0 ∧ a = .pair a1 (.pair a2 (.const (.int c))) ∧ handle x it a b k = (.impFor x (.pair a1 a2) c b, k)) ∨
    (it = .list ∧ handle x it a b k = (.seq (.op (.assign k) a) (.seq (.op (.assign (k + 1)) (.op .len (.var k)))
        (.seq (.op (.assign (k + 2)) (.op .ptr (.var k)))
          (.impFor (k + 3) (.pair (.const (.int 0)) (.var (k + 1))) 1 (lbody x (k + 2) (k + 3) b)))), k + 4)) := by
  unfold handle
  split
  · exact .inr (.inl ⟨rfl, rfl⟩)
  · exact .inr (.inr (.inl ⟨rfl, _, _, rfl, rfl⟩))
  · rename_i a1 a2 c
    split
    · rename_i h; subst h; exact .inl rfl
    · rename_i h; exact .inr (.inr (.inr (.inl ⟨rfl, _, _, c, h, rfl, rfl⟩)))
  · exact .inr (.inr (.inr (.inr ⟨rfl, rfl⟩)))
  · exact .inl rfl

theorem lower_pair {t a b : Term} {k : Nat} (h : (lower t k).1 = .pair a b) :
    ∃ t1 t2, t = .pair t1 t2 ∧ a = (lower t1 k).1 ∧ b = (lower t2 (lower t1 k).2).1 := by
  cases t with
  | pair t1 t2 => simp only [lower, Term.pair.injEq] at h; exact ⟨t1, t2, rfl, h.1.symm, h.2.symm⟩
  | «for» x it a b =>
    simp only [lower] at h
    rcases handle_cases x it (lower a k).1 (lower b (lower a k).2).1 (lower b (lower a k).2).2 with e | ⟨_, e⟩ | ⟨_, _, _, _, e⟩ | ⟨_, _, _, _, _, _, e⟩ | ⟨_, e⟩ <;>
      rw [e] at h <;> cases h
  | _ => simp only [lower, reduceCtorEq] at h

theorem lower_const {t : Term} {v : Val} {k : Nat} (h : (lower t k).1 = .const v) : t = .const v := by
  cases t with
  | const u => simpa [lower] using h
  | «for» x it a b =>
    simp only [lower] at h
    rcases handle_cases x it (lower a k).1 (lower b (lower a k).2).1 (lower b (lower a k).2).2 with e | ⟨_, e⟩ | ⟨_, _, _, _, e⟩ | ⟨_, _, _, _, _, _, e⟩ | ⟨_, e⟩ <;>
      rw [e] at h <;> cases h
  | _ => simp only [lower, reduceCtorEq] at h

/-- What the pass guarantees. -/
def Good (W : World) (N : Nat) (t : Term) (k : Nat) : Prop :=
  Low W N t (lower t k).1 (fun _ => True) ∧ k ≤ (lower t k).2 ∧ Asg N k (lower t k).2 (lower t k).1

theorem low_pair_inv {a b a' b' : Term} {c : St W → Prop} (h : Low W N (.pair a b) (.pair a' b') c) :
    Low W N a a' (fun _ => True) ∧ Low W N b b' (fun _ => True) := by
  cases h with
  | pair h1 h2 => exact ⟨h1, h2⟩

theorem good (t : Term) (ht : Below N t) : ∀ k ≥ N, Good W N t k := by
  induction t with
  | const v => intro k hk; exact ⟨.const v, Nat.le_refl _, fun y hy => by cases hy⟩
  | var x => intro k hk; exact ⟨.var x ht, Nat.le_refl _, fun y hy => by cases hy⟩
  | brk => intro k hk; exact ⟨.brk, Nat.le_refl _, fun y hy => by cases hy⟩
  | cont => intro k hk; exact ⟨.cont, Nat.le_refl _, fun y hy => by cases hy⟩
  | genLoop => exact ht.elim
  | impLoop => exact ht.elim
  | op f a ia =>
    intro k hk
    obtain ⟨l1, k1, a1⟩ := ia ht.2 k hk
    refine ⟨.op ?_ l1, k1, ?_⟩
    · cases f <;> first | exact ht.1 _ rfl | trivial
    · rintro y (hy | hy)
      · exact .inl (ht.1 y hy)
      · exact a1 y hy
  | pair a b ia ib =>
    intro k hk
    obtain ⟨l1, k1, a1⟩ := ia ht.1 k hk
    obtain ⟨l2, k2, a2⟩ := ib ht.2 _ (Nat.le_trans hk k1)
    refine ⟨.pair l1 l2, Nat.le_trans k1 k2, ?_⟩
    rintro y (hy | hy)
    · exact a1.mono (Nat.le_refl _) k2 y hy
    · exact a2.mono k1 (Nat.le_refl _) y hy
  | seq a b ia ib =>
    intro k hk
    obtain ⟨l1, k1, a1⟩ := ia ht.1 k hk
    obtain ⟨l2, k2, a2⟩ := ib ht.2 _ (Nat.le_trans hk k1)
    refine ⟨.seq l1 l2, Nat.le_trans k1 k2, ?_⟩
    rintro y (hy | hy)
    · exact a1.mono (Nat.le_refl _) k2 y hy
    · exact a2.mono k1 (Nat.le_refl _) y hy
  | «while» a b ia ib =>
    intro k hk
    obtain ⟨l1, k1, a1⟩ := ia ht.1 k hk
    obtain ⟨l2, k2, a2⟩ := ib ht.2 _ (Nat.le_trans hk k1)
    refine ⟨.while l1 l2, Nat.le_trans k1 k2, ?_⟩
    rintro y (hy | hy)
    · exact a1.mono (Nat.le_refl _) k2 y hy
    · exact a2.mono k1 (Nat.le_refl _) y hy
  | ite c a b ic ia ib =>
    intro k hk
    obtain ⟨l0, k0, a0⟩ := ic ht.1 k hk
    obtain ⟨l1, k1, a1⟩ := ia ht.2.1 _ (Nat.le_trans hk k0)
    obtain ⟨l2, k2, a2⟩ := ib ht.2.2 _ (Nat.le_trans hk (Nat.le_trans k0 k1))
    refine ⟨.ite l0 l1 l2, Nat.le_trans k0 (Nat.le_trans k1 k2), ?_⟩
    rintro y (hy | hy | hy)
    · exact a0.mono (Nat.le_refl _) (Nat.le_trans k1 k2) y hy
    · exact a1.mono k0 k2 y hy
    · exact a2.mono (Nat.le_trans k0 k1) (Nat.le_refl _) y hy
  | «try» a x b ia ib =>
    intro k hk
    obtain ⟨l1, k1, a1⟩ := ia ht.2.1 k hk
    obtain ⟨l2, k2, a2⟩ := ib ht.2.2 _ (Nat.le_trans hk k1)
    refine ⟨.try ht.1 l1 l2, Nat.le_trans k1 k2, ?_⟩
    rintro y (hy | hy | hy)
    · exact a1.mono (Nat.le_refl _) k2 y hy
    · exact .inl (hy ▸ ht.1)
    · exact a2.mono k1 (Nat.le_refl _) y hy
  | impFor x a c b ia ib =>
    intro k hk
    obtain ⟨l1, k1, a1⟩ := ia ht.2.1 k hk
    obtain ⟨l2, k2, a2⟩ := ib ht.2.2 _ (Nat.le_trans hk k1)
    refine ⟨.impFor ht.1 l1 l2, Nat.le_trans k1 k2, ?_⟩
    rintro y (hy | hy | hy)
    · exact .inl (hy ▸ ht.1)
    · exact a1.mono (Nat.le_refl _) k2 y hy
    · exact a2.mono k1 (Nat.le_refl _) y hy
  | «for» x it a b ia ib =>
    intro k hk
    obtain ⟨hx, hta, htb⟩ := ht
    obtain ⟨l1, k1, a1⟩ := ia hta k hk
    obtain ⟨l2, k2, a2⟩ := ib htb _ (Nat.le_trans hk k1)
    have k12 := Nat.le_trans k1 k2
    have A1 := a1.mono (Nat.le_refl _) k2
    have A2 := a2.mono k1 (Nat.le_refl _)
    unfold Good
    simp only [lower]
    rcases handle_cases x it (lower a k).1 (lower b (lower a k).2).1 (lower b (lower a k).2).2 with
      e | ⟨rfl, e⟩ | ⟨rfl, u1, u2, eu, e⟩ | ⟨rfl, u1, u2, c, hc, eu, e⟩ | ⟨rfl, e⟩
    · rw [e]
      refine ⟨.for hx l1 l2, k12, ?_⟩
      rintro y (hy | hy | hy)
      · exact .inl (hy ▸ hx)
      · exact A1 y hy
      · exact A2 y hy
    · rw [e]
      refine ⟨.range1 hx l1 l2, k12, ?_⟩
      rintro y (hy | (hy | hy) | hy)
      · exact .inl (hy ▸ hx)
      · cases hy
      · exact A1 y hy
      · exact A2 y hy
    · rw [e]
      obtain ⟨t1, t2, rfl, _, _⟩ := lower_pair eu
      rw [eu] at l1 A1
      obtain ⟨m1, m2⟩ := low_pair_inv l1
      refine ⟨.range2 hx m1 m2 l2, k12, ?_⟩
      rintro y (hy | hy | hy)
      · exact .inl (hy ▸ hx)
      · exact A1 y hy
      · exact A2 y hy
    · rw [e]
      obtain ⟨t1, t2, rfl, _, e2⟩ := lower_pair eu
      obtain ⟨t3, t4, rfl, _, e4⟩ := lower_pair e2.symm
      have e5 := lower_const e4.symm
      subst e5
      rw [eu] at l1 A1
      obtain ⟨m1, m2⟩ := low_pair_inv l1
      obtain ⟨m3, _⟩ := low_pair_inv m2
      refine ⟨.range3 hx hc m1 m3 l2, k12, ?_⟩
      rintro y (hy | (hy | hy) | hy)
      · exact .inl (hy ▸ hx)
      · exact A1 y (.inl hy)
      · exact A1 y (.inr (.inl hy))
      · exact A2 y hy
    · rw [e]
      generalize (lower b (lower a k).2).2 = m at *
      refine ⟨.list ⟨hx, by omega, by omega, by omega, by omega, by omega, by omega, by omega, ?_⟩ l1 l2, by dsimp only; omega, ?_⟩
      · intro hy
        rcases A2 _ hy with h | h <;> omega
      · dsimp only
        rintro y ((hy | hy) | ((hy | hy | hy) | ((hy | hy | hy) | (hy | (hy | hy) | ((hy | hy | hy | hy) | hy)))))
        any_goals (cases hy; done)
        · cases hy; right; omega
        · rcases A1 y hy with h | h <;> omega
        · cases hy; right; omega
        · cases hy; right; omega
        · right; omega
        · cases hy; exact .inl hx
        · rcases A2 y hy with h | h <;> omega

end Codon.ForLow
