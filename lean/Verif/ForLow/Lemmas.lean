import Verif.ForLow.Model
import Mathlib.Tactic.Common
/-!
# Simulation between loops over iterators and counted loops
-/
namespace Codon.ForLow
open Codon.Omp (w)

variable {W : World}

/-- The term may assign to `y`. -/
def asg (y : Nat) : Term → Prop
  | .const _ => False
  | .var _ => False
  | .pair a b => asg y a ∨ asg y b
  | .op f a => f = .assign y ∨ asg y a
  | .seq a b => asg y a ∨ asg y b
  | .ite c a b => asg y c ∨ asg y a ∨ asg y b
  | .while c a => asg y c ∨ asg y a
  | .brk => False
  | .cont => False
  | .try a x b => asg y a ∨ x = y ∨ asg y b
  | .for x _ a b => x = y ∨ asg y a ∨ asg y b
  | .impFor x a _ b => x = y ∨ asg y a ∨ asg y b
  | .genLoop x _ b => x = y ∨ asg y b
  | .impLoop x _ _ _ b => x = y ∨ asg y b

theorem set_ne {s : St W} {x y : Nat} {v : Val} (h : x ≠ y) : (s.set x v).vars y = s.vars y := by
  simp [St.set, Ne.symm h]

theorem set_same {s : St W} {x : Nat} {v : Val} : (s.set x v).vars x = v := by simp [St.set]

theorem set_heap {s : St W} {x : Nat} {v : Val} : (s.set x v).heap = s.heap := rfl

theorem op_frame {f : Op} {v : Val} {s s1 : St W} {r : Res} (h : OpEv W f v s r s1) {y : Nat} (hy : f ≠ .assign y) : s1.vars y = s.vars y := by
  cases h <;> first | rfl | skip
  rename_i x
  exact set_ne (fun e => hy (by rw [e]))

theorem frame {t : Term} {s s1 : St W} {r : Res} (h : Ev W t s r s1) {y : Nat} (hy : ¬ asg y t) : s1.vars y = s.vars y := by
  induction h <;> (try simp only [asg, not_or] at hy) <;> first
    | rfl
    | grind [op_frame, set_ne, asg]

/-- Source and target agree on the variables of the source and on everything outside. -/
def S (N : Nat) (s s' : St W) : Prop := (∀ x < N, s.vars x = s'.vars x) ∧ s.heap = s'.heap

theorem S.setL {N : Nat} {s s' : St W} (h : S N s s') {x : Nat} (hx : x < N) (v : Val) : S N (s.set x v) (s'.set x v) := by
  refine ⟨fun y hy => ?_, h.2⟩
  simp only [St.set]
  split
  · rfl
  · exact h.1 y hy

theorem S.setR {N : Nat} {s s' : St W} (h : S N s s') {x : Nat} (hx : N ≤ x) (v : Val) : S N s (s'.set x v) := by
  refine ⟨fun y hy => ?_, h.2⟩
  rw [set_ne (by omega)]
  exact h.1 y hy

theorem S.heap {N : Nat} {s s' : St W} (h : S N s s') (q : W.H) : S N { s with heap := q } { s' with heap := q } := ⟨h.1, rfl⟩

def opOk (N : Nat) : Op → Prop
  | .assign x => x < N
  | _ => True

theorem op_fwd {N : Nat} {f : Op} {v : Val} {s s' s1 : St W} {r : Res} (h : OpEv W f v s r s1) (hf : opOk N f) (hs : S N s s') :
    ∃ s1', OpEv W f v s' r s1' ∧ S N s1 s1' := by
  have e := hs.2
  cases h with
  | assign x v => exact ⟨_, .assign x v s', hs.setL hf v⟩
  | call k v _ u h hc => exact ⟨_, .call k v s' u h (e ▸ hc), hs.heap h⟩
  | callExc k v _ u h hc => exact ⟨_, .callExc k v s' u h (e ▸ hc), hs.heap h⟩
  | callCut k v _ h hc => exact ⟨_, .callCut k v s' h (e ▸ hc), hs.heap h⟩
  | callUb k v _ h hc => exact ⟨_, .callUb k v s' h (e ▸ hc), hs.heap h⟩
  | ret v => exact ⟨_, .ret v s', hs⟩
  | len r _ n h => exact ⟨_, .len r s' n (e ▸ h), hs⟩
  | lenUb r _ h => exact ⟨_, .lenUb r s' (e ▸ h), hs⟩
  | lenType v _ h => exact ⟨_, .lenType v s' h, hs⟩
  | ptr r _ n h => exact ⟨_, .ptr r s' n (e ▸ h), hs⟩
  | ptrUb r _ h => exact ⟨_, .ptrUb r s' (e ▸ h), hs⟩
  | ptrType v _ h => exact ⟨_, .ptrType v s' h, hs⟩
  | index p i _ v h => exact ⟨_, .index p i s' v (e ▸ h), hs⟩
  | indexUb p i _ h => exact ⟨_, .indexUb p i s' (e ▸ h), hs⟩
  | indexType v _ h => exact ⟨_, .indexType v s' h, hs⟩

theorem S.symm_op {N : Nat} {f : Op} {v : Val} {s s' s1' : St W} {r : Res} (h : OpEv W f v s' r s1') (hf : opOk N f) (hs : S N s s') :
    ∃ s1, OpEv W f v s r s1 ∧ S N s1 s1' := by
  have hs' : S N s' s := ⟨fun x hx => (hs.1 x hx).symm, hs.2.symm⟩
  obtain ⟨s1, h1, h2⟩ := op_fwd h hf hs'
  exact ⟨s1, h1, ⟨fun x hx => (h2.1 x hx).symm, h2.2.symm⟩⟩

/-- The counted loop that continues a range iterator. -/
inductive Match : RangeGen → Int → Int → Int → Prop where
  | fresh (a b c) : c ≠ 0 → Match (.fresh a b c) a c b
  | yielded (i b c) : c ≠ 0 → Match (.yielded i b c) (w (i + c)) c b

theorem match_resume {g : RangeGen} {i step stop : Int} (h : Match g i step stop) :
    (impDone i step stop = true ∧ g.resume = none) ∨
    (impDone i step stop = false ∧ g.resume = some (i, .yielded i stop step) ∧ Match (.yielded i stop step) (w (i + step)) step stop) := by
  cases h with
  | fresh a b c hc =>
    simp only [RangeGen.resume, RangeGen.check, impDone]
    rcases Int.lt_or_gt_of_ne hc with h | h
    · rw [if_neg (by omega), if_neg (by omega)]
      by_cases q : i > stop
      · exact .inr ⟨by simpa using q, by rw [if_pos q], .yielded _ _ _ hc⟩
      · exact .inl ⟨by simpa using q, by rw [if_neg q]⟩
    · rw [if_pos h, if_pos h]
      by_cases q : i < stop
      · exact .inr ⟨by simpa using q, by rw [if_pos q], .yielded _ _ _ hc⟩
      · exact .inl ⟨by simpa using q, by rw [if_neg q]⟩
  | yielded j b c hc =>
    simp only [RangeGen.resume, RangeGen.check, impDone]
    rcases Int.lt_or_gt_of_ne hc with h | h
    · rw [if_neg (by omega), if_neg (by omega)]
      by_cases q : w (j + step) > stop
      · exact .inr ⟨by simpa using q, by rw [if_pos q], .yielded _ _ _ hc⟩
      · exact .inl ⟨by simpa using q, by rw [if_neg q]⟩
    · rw [if_pos h, if_pos h]
      by_cases q : w (j + step) < stop
      · exact .inr ⟨by simpa using q, by rw [if_pos q], .yielded _ _ _ hc⟩
      · exact .inl ⟨by simpa using q, by rw [if_neg q]⟩

/-- The body of the counted loop over a list. -/
def lbody (x p j : Nat) (body : Term) : Term := .seq (.op (.assign x) (.op .index (.pair (.var p) (.var j)))) body

/-- The new variables of a loop over a list are new and different. -/
structure Fresh (N x v n p j : Nat) (body : Term) : Prop where
  hx : x < N
  hv : N ≤ v
  hn : N ≤ n
  hp : N ≤ p
  hj : N ≤ j
  nv : n ≠ v
  pn : p ≠ n
  pj : p ≠ j
  pb : ¬ asg p body

/-- `Low W N t t' c`: `t'` is the lowered form of `t`, in states of the target with `c`. -/
inductive Low (W : World) (N : Nat) : Term → Term → (St W → Prop) → Prop where
  | const (v) : Low W N (.const v) (.const v) (fun _ => True)
  | var (x) : x < N → Low W N (.var x) (.var x) (fun _ => True)
  | pair {a a' b b'} : Low W N a a' (fun _ => True) → Low W N b b' (fun _ => True) → Low W N (.pair a b) (.pair a' b') (fun _ => True)
  | op {f a a'} : opOk N f → Low W N a a' (fun _ => True) → Low W N (.op f a) (.op f a') (fun _ => True)
  | seq {a a' b b'} : Low W N a a' (fun _ => True) → Low W N b b' (fun _ => True) → Low W N (.seq a b) (.seq a' b') (fun _ => True)
  | ite {c c' a a' b b'} : Low W N c c' (fun _ => True) → Low W N a a' (fun _ => True) → Low W N b b' (fun _ => True) →
      Low W N (.ite c a b) (.ite c' a' b') (fun _ => True)
  | while {c c' a a'} : Low W N c c' (fun _ => True) → Low W N a a' (fun _ => True) → Low W N (.while c a) (.while c' a') (fun _ => True)
  | brk : Low W N .brk .brk (fun _ => True)
  | cont : Low W N .cont .cont (fun _ => True)
  | try {a a' x b b'} : x < N → Low W N a a' (fun _ => True) → Low W N b b' (fun _ => True) → Low W N (.try a x b) (.try a' x b') (fun _ => True)
  | for {x k a a' b b'} : x < N → Low W N a a' (fun _ => True) → Low W N b b' (fun _ => True) → Low W N (.for x k a b) (.for x k a' b') (fun _ => True)
  | impFor {x a a' c b b'} : x < N → Low W N a a' (fun _ => True) → Low W N b b' (fun _ => True) →
      Low W N (.impFor x a c b) (.impFor x a' c b') (fun _ => True)
  | genLoop {x g b b'} : x < N → Low W N b b' (fun _ => True) → Low W N (.genLoop x g b) (.genLoop x g b') (fun _ => True)
  | impLoop {x i c e b b'} : x < N → Low W N b b' (fun _ => True) → Low W N (.impLoop x i c e b) (.impLoop x i c e b') (fun _ => True)
  | range1 {x a a' b b'} : x < N → Low W N a a' (fun _ => True) → Low W N b b' (fun _ => True) →
      Low W N (.for x .range1 a b) (.impFor x (.pair (.const (.int 0)) a') 1 b') (fun _ => True)
  | range2 {x a a' b b' d d'} : x < N → Low W N a a' (fun _ => True) → Low W N d d' (fun _ => True) → Low W N b b' (fun _ => True) →
      Low W N (.for x .range2 (.pair a d) b) (.impFor x (.pair a' d') 1 b') (fun _ => True)
  | range3 {x a a' b b' d d' c} : x < N → c ≠ 0 → Low W N a a' (fun _ => True) → Low W N d d' (fun _ => True) → Low W N b b' (fun _ => True) →
      Low W N (.for x .range3 (.pair a (.pair d (.const (.int c)))) b) (.impFor x (.pair a' d') c b') (fun _ => True)
  | list {x v n p j a a' b b'} : Fresh N x v n p j b' → Low W N a a' (fun _ => True) → Low W N b b' (fun _ => True) →
      Low W N (.for x .list a b)
        (.seq (.op (.assign v) a') (.seq (.op (.assign n) (.op .len (.var v))) (.seq (.op (.assign p) (.op .ptr (.var v)))
          (.impFor j (.pair (.const (.int 0)) (.var n)) 1 (lbody x p j b'))))) (fun _ => True)
  | rangeLoop {x g i c e b b'} : x < N → Match g i c e → Low W N b b' (fun _ => True) →
      Low W N (.genLoop x (.range g) b) (.impLoop x i c e b') (fun _ => True)
  | list1 {x v n p j r b b'} : Fresh N x v n p j b' → Low W N b b' (fun _ => True) →
      Low W N (.genLoop x (.list (.fresh r)) b)
        (.seq (.op (.assign n) (.op .len (.var v))) (.seq (.op (.assign p) (.op .ptr (.var v)))
          (.impFor j (.pair (.const (.int 0)) (.var n)) 1 (lbody x p j b')))) (fun s => s.vars v = .lst r)
  | list2 {x v n p j r l b b'} : Fresh N x v n p j b' → Low W N b b' (fun _ => True) →
      Low W N (.genLoop x (.list (.fresh r)) b)
        (.seq (.op (.assign p) (.op .ptr (.var v))) (.impFor j (.pair (.const (.int 0)) (.var n)) 1 (lbody x p j b')))
        (fun s => s.vars v = .lst r ∧ s.vars n = .int l ∧ W.len s.heap r = some l)
  | list3 {x v n p j r l q b b'} : Fresh N x v n p j b' → Low W N b b' (fun _ => True) →
      Low W N (.genLoop x (.list (.fresh r)) b) (.impFor j (.pair (.const (.int 0)) (.var n)) 1 (lbody x p j b'))
        (fun s => s.vars n = .int l ∧ W.len s.heap r = some l ∧ s.vars p = .ptr q ∧ W.ptr s.heap r = some q)
  | list4 {x v n p j r l q b b'} : Fresh N x v n p j b' → Low W N b b' (fun _ => True) →
      Low W N (.genLoop x (.list (.fresh r)) b) (.impLoop j 0 1 l (lbody x p j b'))
        (fun s => W.len s.heap r = some l ∧ s.vars p = .ptr q ∧ W.ptr s.heap r = some q)
  | list5 {x v n p j i l q b b'} : Fresh N x v n p j b' → Low W N b b' (fun _ => True) →
      Low W N (.genLoop x (.list (.yielded i l q)) b) (.impLoop j (w (i + 1)) 1 l (lbody x p j b')) (fun s => s.vars p = .ptr q)

/-- A generator over a list that is about to test `i < l`. -/
inductive At (W : World) (h : W.H) : ListGen → Int → Int → Nat → Prop where
  | fresh (r l q) : W.len h r = some l → W.ptr h r = some q → At W h (.fresh r) 0 l q
  | yielded (i l q) : At W h (.yielded i l q) (w (i + 1)) l q

theorem At.resume {h : W.H} {g : ListGen} {i l : Int} {q : Nat} (a : At W h g i l q) : g.resume W h = ListGen.check W h i l q := by
  cases a with
  | fresh r l q h1 h2 => simp [ListGen.resume, h1, h2]
  | yielded i l q => rfl

end Codon.ForLow
