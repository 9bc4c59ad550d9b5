import Verif.Flow.CfgSound
/-!
# C08: walking in the finished graph

Helper definitions and lemmas for `CfgProps`.
-/
namespace Codon.Flow

/-! ### Walking in the finished graph -/

/-- `Go F b i t c j`: from place `i` of block `b` to place `j` of block `c`, executing `t`. -/
inductive Go (F : B) : Nat → Nat → List Instr → Nat → Nat → Prop
  | refl (b i) : Go F b i [] b i
  | emit {b i x t c j} : (F.code b)[i]? = some x → Go F b (i + 1) t c j → Go F b i (x :: t) c j
  | jump {b i d t c j} : i = (F.code b).length → (b, d) ∈ F.edges → Go F d 0 t c j → Go F b i t c j

theorem Go.trans {F : B} {b i t c j t' d k} (h : Go F b i t c j) (h' : Go F c j t' d k) :
    Go F b i (t ++ t') d k := by
  induction h with
  | refl => exact h'
  | emit hx _ ih => exact .emit hx (ih h')
  | jump hi he _ ih => exact .jump hi he (ih h')

theorem Go.edge {F : B} {b i t c j d} (h : Go F b i t c j) (hj : j = (F.code c).length) (he : (c, d) ∈ F.edges) :
    Go F b i t d 0 := by
  have := h.trans (.jump hj he (.refl d 0))
  rwa [List.append_nil] at this

theorem Go.cast {F : B} {b i t t' c j} (h : Go F b i t c j) (e : t = t') : Go F b i t' c j := e ▸ h

/-- The operations of a block behind `i`. -/
theorem Go.along {F : B} {b : Nat} (l : List Instr) : ∀ i, (∀ k, k < l.length → (F.code b)[i + k]? = l[k]?) →
    Go F b i l b (i + l.length) := by
  induction l with
  | nil => intro i _; exact .refl b i
  | cons x l ih =>
    intro i h
    refine .emit (by simpa using h 0 (by simp)) ?_
    have := ih (i + 1) (fun k hk => by
      have := h (k + 1) (by simpa using hk)
      rw [show i + 1 + k = i + (k + 1) by omega, this]
      simp)
    rw [show i + (x :: l).length = i + 1 + l.length by simp; omega]
    exact this

theorem go_prefix {F : B} {b : Nat} {u l : List Instr} (h : u ++ l <+: F.code b) :
    Go F b u.length l b (u ++ l).length := by
  rw [List.length_append]
  refine Go.along l _ fun k hk => ?_
  obtain ⟨v, hv⟩ := h
  rw [← hv, List.append_assoc, List.getElem?_append_right (by omega), List.getElem?_append_left (by omega)]
  congr 1; omega

/-- The state `s'`, reached from `s` by building something, has become part of the finished graph `F`; what was built
is not changed any more, except that the current block may grow (unless `c`). -/
structure Fin (F : B) (c : Prop) (s s' : B) : Prop where
  edges : ∀ x, x ∈ s'.edges → x ∈ F.edges
  range : ∀ b, s.next ≤ b → b < s'.next → b ≠ s'.cur → F.code b = s'.code b
  left : s'.cur ≠ s.cur → F.code s.cur = s'.code s.cur
  pre : s'.code s'.cur <+: F.code s'.cur
  clo : c → F.code s'.cur = s'.code s'.cur

theorem Fin.mono {F : B} {c c' : Prop} {s s' : B} (h : Fin F c s s') (hc : c' → c) : Fin F c' s s' :=
  ⟨h.edges, h.range, h.left, h.pre, fun x => h.clo (hc x)⟩

theorem Fin.split {F : B} {t c : Prop} {s s1 s2 : B} (hs : WF s) (h1 : Frame t s s1) (h2 : Frame t s1 s2)
    (h : Fin F c s s2) (ht : t → c) : Fin F t s s1 ∧ Fin F c s1 s2 := by
  have hc := hs.cur
  obtain ⟨a1, a2, a3, a4, a5, a6, a7⟩ := h1
  obtain ⟨b1, b2, b3, b4, b5, b6, b7⟩ := h2
  obtain ⟨c1, c2, c3, c4, c5⟩ := h
  refine ⟨⟨fun x hx => c1 x (b6 x hx), ?_, ?_, ?_, ?_⟩, ⟨c1, ?_, ?_, c4, c5⟩⟩
  · grind
  · grind
  · by_cases he : s2.cur = s1.cur
    · rw [he] at c4; exact b4.trans c4
    · have : F.code s1.cur = s2.code s1.cur := by grind
      rw [this]; exact b4
  · grind
  · grind
  · grind

theorem Fin.ofClosed {F : B} {t : Prop} {s s' : B} (h : Frame t s s') (h1 : ∀ x, x ∈ s'.edges → x ∈ F.edges)
    (h2 : ∀ b, s.next ≤ b → b < s'.next → F.code b = s'.code b) (h3 : F.code s.cur = s'.code s.cur) :
    Fin F True s s' := by
  have h4 : F.code s'.cur = s'.code s'.cur := by
    rcases h.cur with h4 | h4
    · rw [h4]; exact h3
    · exact h2 _ h4.1 h4.2
  exact ⟨h1, fun b hb hb' _ => h2 b hb hb', fun _ => h3, by rw [h4]; exact List.prefix_rfl, fun _ => h4⟩

/-! ### Well-behaved programs -/

/-- operations only -/
def Node.straight : Node → Bool
  | .skip => true
  | .op _ => true
  | .seq a b => a.straight && b.straight
  | _ => false

/-- ends with a jump out of its current block -/
def Node.opn : Node → Bool
  | .brk _ => true
  | .cont _ => true
  | .seq _ b => b.opn
  | _ => false

/-- Programs without the constructs of `CfgViol`.  `tcs`: the `try` statements around, innermost first, with a
`finally` part or not; `loops`: the loops around, with the number of `try` statements around each.
* nothing follows `break` or `continue` in a series;
* the test of `while` is a sequence of operations, and `while` is not used inside `try`;
* inside `try`, the iterator of a `for` loop does not raise; there are no counting loops;
* a `finally` part is a sequence of operations, and `break` and `continue` run through `finally` parts only if the
  outermost `try` has one and no loop is around it. -/
def good : Node → List Bool → List (Nat × Nat) → Bool
  | .skip, _, _ => true
  | .op _, _, _ => true
  | .ret, _, _ => true
  | .seq a b, tcs, loops => good a tcs loops && good b tcs loops && !a.opn
  | .ite c t f, tcs, loops => good c tcs loops && good t tcs loops && good f tcs loops
  | .tern c t f _, tcs, loops => good c tcs loops && good t tcs loops && good f tcs loops
  | .while_ l c b, tcs, loops =>
    c.straight && tcs.isEmpty && good b tcs (loops ++ [(l, tcs.length)]) && loops.all (·.1 != l)
  | .for_ l mr _ it b, tcs, loops =>
    (tcs.isEmpty || !mr) && good it tcs loops && good b tcs (loops ++ [(l, tcs.length)]) && loops.all (·.1 != l)
  | .impFor _ _ _ _ _ _, _, _ => false
  | .brk l, tcs, loops => jumpGood l tcs loops
  | .cont l, tcs, loops => jumpGood l tcs loops
  | .tryc b h els fin, tcs, loops =>
    good b ((!fin.isSkip) :: tcs) loops && good h ((!fin.isSkip) :: tcs) loops &&
      good els ((!fin.isSkip) :: tcs) loops && fin.straight
  | .ctch _ h rest, tcs, loops => good h tcs loops && good rest tcs loops
where
  jumpGood (l : Nat) (tcs : List Bool) (loops : List (Nat × Nat)) : Bool :=
    match loops.find? (·.1 == l) with
    | none => false
    | some (_, k) => (tcs.take (tcs.length - k)).all (!·) || (k == 0 && tcs.getLast? == some true)

def Env.absT (e : Env) : List Bool := e.tcs.map (·.2.isSome)
def Env.absL (e : Env) : List (Nat × Nat) := e.loops.map fun l => (l.id, l.tcLen)

def EnvOk (e : Env) : Prop := ∀ lp ∈ e.loops, lp.tcLen ≤ e.tcs.length

/-- Where a jump to block `target`, out to depth `k` of `try`, leads to. -/
def JumpTo (F : B) (e : Env) (target k c j : Nat) : Prop :=
  ((∀ x ∈ e.tcs.take (e.tcs.length - k), x.2 = none) ∧ c = target ∧ j = 0) ∨
  (k = 0 ∧ ∃ rb f r o tl, e.tcs.getLast? = some (rb, some f) ∧ (f, target) ∈ F.edges ∧ e.tcs = (r, o) :: tl ∧
    c = r ∧ j = 0)

/-- Where an outcome leads to; `(nc, nj)` is the place behind the statement. -/
def Tgt (F : B) (e : Env) (nc nj : Nat) : Outc → Nat → Nat → Prop
  | .normal, c, j => c = nc ∧ j = nj
  | .brk l, c, j => ∃ lp, e.find l = some lp ∧ JumpTo F e lp.end lp.tcLen c j
  | .cont l, c, j => ∃ lp, e.find l = some lp ∧ JumpTo F e lp.nextIt lp.tcLen c j
  | .ret, c, j => (∃ x ∈ e.tcs, x.2 ≠ none) → ∃ r o tl, e.tcs = (r, o) :: tl ∧ c = r ∧ j = 0
  | .raise, c, j => ∀ r o tl, e.tcs = (r, o) :: tl → c = r ∧ j = 0
  | .stop, _, _ => True

theorem Tgt.other {F : B} {e : Env} {nc nj nc' nj' : Nat} {o : Outc} {c j : Nat} (h : Tgt F e nc nj o c j)
    (ho : o ≠ .normal) : Tgt F e nc' nj' o c j := by
  cases o <;> first | exact absurd rfl ho | exact h

end Codon.Flow
