import Verif.Flow.CfgInd
import Verif.Flow.CfgOk
import Verif.Flow.CfgViol
/-!
# C08: the control-flow graph contains every execution

`CfgViol` has the constructs for which this is false; for programs without them (`good`) it is proved here, together
with what it means for constant propagation.
-/
namespace Codon.Flow

/-! ### From walks to paths -/

theorem go_path {F : B} {b i c j : Nat} {t : List Instr} (h : Go F b i t c j) : ∀ bs, OnPath F bs b →
    i ≤ (F.code b).length → ∃ bs' b' k, OnPath F bs' b' ∧
      bs.flatMap F.code ++ (F.code b).take i ++ t = bs'.flatMap F.code ++ (F.code b').take k := by
  induction h with
  | refl b i => intro bs hp _; exact ⟨bs, b, i, hp, by simp⟩
  | @emit b i x t c j hx _ ih =>
    intro bs hp hi
    have hlt : i < (F.code b).length := (List.getElem?_eq_some_iff.1 hx).1
    obtain ⟨bs', b', k, h1, h2⟩ := ih bs hp hlt
    refine ⟨bs', b', k, h1, ?_⟩
    rw [← h2, List.take_add_one, hx]
    simp
  | @jump b i d t c j hi he _ ih =>
    intro bs hp _
    obtain ⟨bs', b', k, h1, h2⟩ := ih (bs ++ [b]) (.step hp he) (Nat.zero_le _)
    refine ⟨bs', b', k, h1, ?_⟩
    rw [← h2, hi]
    simp

theorem args_code (args : List Instr) (s : B) :
    (args.foldl (fun s a => s.push 0 (some a)) s).cur = s.cur ∧
    (args.foldl (fun s a => s.push 0 (some a)) s).next = s.next ∧
    (args.foldl (fun s a => s.push 0 (some a)) s).edges = s.edges ∧
    ∀ b, (args.foldl (fun s a => s.push 0 (some a)) s).code b = if b = 0 then s.code 0 ++ args else s.code b := by
  induction args generalizing s with
  | nil =>
    refine ⟨rfl, rfl, rfl, fun b => ?_⟩
    by_cases h : b = 0 <;> simp [h]
  | cons a args ih =>
    obtain ⟨h1, h2, h3, h4⟩ := ih (s.push 0 (some a))
    refine ⟨h1, h2, h3, fun b => ?_⟩
    rw [List.foldl_cons, h4]
    by_cases h : b = 0 <;> simp [h, push_code]

def argState (args : List Instr) : B := args.foldl (fun s a => s.push 0 (some a)) B.empty

theorem argState_wf (args : List Instr) : WF (argState args) := by
  obtain ⟨h1, h2, h3, h4⟩ := args_code args B.empty
  refine ⟨by rw [argState, h1, h2]; decide, fun b hb => ?_⟩
  rw [argState, h2] at hb
  have : b ≠ 0 := by have : 1 ≤ b := hb; omega
  rw [argState, h4, if_neg this]
  rfl

/-- **C08, in part.** Every execution of a body without the constructs of `CfgViol`, whether it has ended or is still
going on, is on a path from the entry of the graph. -/
theorem c08_graph_covers_partial (args : List Instr) (body : Node) (hg : good body [] [] = true) (o : Outc)
    (t : List Instr) (hx : Exec (.node body) o t) : Covers (buildCFGraph args body) (args ++ t) := by
  obtain ⟨h1, h2, h3, h4⟩ := args_code args B.empty
  have hw := argState_wf args
  have hF : Fin (buildCFGraph args body) (body.opn = true ∨ (⟨[], [], 0⟩ : Env).tcs ≠ []) (argState args)
      (build body ⟨[], [], 0⟩ (argState args)) :=
    ⟨fun _ h => h, fun _ _ _ _ => rfl, fun _ => rfl, List.prefix_rfl, fun _ => rfl⟩
  obtain ⟨c, j, hgo, -⟩ := exec_claim (buildCFGraph args body) hx ⟨[], [], 0⟩ (argState args) hw
    (fun lp hl => by cases hl) hg hF
  have hpre := go_open hw hF
  have hcur : (argState args).cur = 0 := h1
  have hcode : (argState args).code 0 = args := by
    rw [argState, h4, if_pos rfl]; rfl
  rw [hcur, hcode] at hgo hpre
  obtain ⟨bs, b, k, q1, q2⟩ := go_path hgo [] .entry hpre.length_le
  refine ⟨bs, b, k, q1, ?_⟩
  rw [← q2]
  obtain ⟨u, hu⟩ := hpre
  rw [← hu]
  simp

/-! ### The graph is one the analyses can work with -/

/-- The assignments of a function have different numbers. -/
def DifferentIds (args : List Instr) (body : Node) : Prop :=
  ∀ i ∈ args ++ body.instrs, ∀ j ∈ args ++ body.instrs, i.id = j.id → i = j

theorem graph_instrs (args : List Instr) (body : Node) (b : Nat) (i : Instr)
    (h : i ∈ (buildCFGraph args body).code b) : i ∈ args ++ body.instrs := by
  obtain ⟨h1, h2, h3, h4⟩ := args_code args B.empty
  rw [List.mem_append]
  rcases build_instrs body _ _ b i h with h | h
  · rw [h4] at h
    split at h
    · exact .inl (by simpa [B.empty] using h)
    · cases h
  · exact .inr h

/-- The graphs that are built meet the assumption of C05, C06 and C07 on graphs: edges join existing blocks, nothing
leads to the entry, predecessors and successors fit.  (All programs, not only those of `good`.) -/
theorem c08_graph_ok (args : List Instr) (body : Node) (hp : body.proper false = true)
    (hid : DifferentIds args body) : (buildCFGraph args body).toCfg.Ok := by
  obtain ⟨h1, h2, h3, h4⟩ := args_code args B.empty
  have hw := argState_wf args
  obtain ⟨w, n, e⟩ := build_edges body false ⟨[], [], 0⟩ (argState args) hp
    ⟨by simp, by simp, by simp, by simp⟩ hw
    (by intro a b hab; rw [argState, h3] at hab; cases hab) (by rw [argState, h2]; decide)
  have hn : (argState args).next = 1 := h2
  change WF (buildCFGraph args body) at w
  change _ ≤ (buildCFGraph args body).next at n
  change EdgOk (buildCFGraph args body) at e
  have hpm : ∀ b p, p ∈ (buildCFGraph args body).toCfg.preds b ↔ (p, b) ∈ (buildCFGraph args body).edges := by
    intro b p
    simp [B.toCfg]
  have hsm : ∀ b p, b ∈ (buildCFGraph args body).toCfg.succs p ↔ (p, b) ∈ (buildCFGraph args body).edges := by
    intro b p
    simp [B.toCfg]
  refine ⟨?_, ?_, ?_, ?_, w.fresh, ?_⟩
  · change 0 < (buildCFGraph args body).next
    omega
  · intro b p hb
    have := e p b ((hpm b p).1 hb)
    exact ⟨this.1, this.2.2⟩
  · intro b p
    rw [hpm, hsm]
  · rw [List.eq_nil_iff_forall_not_mem]
    intro p hb
    have := e p 0 ((hpm 0 p).1 hb)
    omega
  · intro i j hi hj
    have mem : ∀ i, i ∈ (buildCFGraph args body).toCfg.ordering → i ∈ args ++ body.instrs := by
      intro i hi
      simp only [Cfg.ordering, List.mem_filter, List.mem_flatMap] at hi
      obtain ⟨⟨b, -, hb⟩, -⟩ := hi
      exact graph_instrs args body b i hb
    exact hid i (mem i hi) j (mem j hj)

/-! ### What it means for constant propagation -/

theorem path_cpath {s : B} {bs : List Nat} {b : Nat} (h : OnPath s bs b) : CPath s.toCfg b bs := by
  induction h with
  | entry => exact .entry
  | step _ he ih => exact .step ih (by simpa [B.toCfg] using he)

/-- A path that ends with `u` can be ended right after it. -/
theorem covers_last {s : B} {t : List Instr} {u : Instr} (h : Covers s (t ++ [u])) :
    ∃ bs b pos, OnPath s bs b ∧ (s.code b)[pos]? = some u ∧
      t ++ [u] = bs.flatMap s.code ++ (s.code b).take (pos + 1) := by
  obtain ⟨bs, b, k, hp, he⟩ := h
  induction hp generalizing k with
  | entry =>
    simp only [List.flatMap_nil, List.nil_append] at he
    refine ⟨[], 0, t.length, .entry, ?_, ?_⟩
    · have : ((s.code 0).take k)[t.length]? = some u := by rw [← he]; simp
      rw [List.getElem?_take] at this
      split at this
      · exact this
      · cases this
    · have hl : t.length + 1 = ((s.code 0).take k).length := by rw [← he]; simp
      rw [List.flatMap_nil, List.nil_append, he, hl, List.length_take]
      rcases Nat.le_total k (s.code 0).length with h | h
      · rw [Nat.min_eq_left h]
      · rw [Nat.min_eq_right h, List.take_of_length_le h, List.take_of_length_le (Nat.le_refl _)]
  | @step bs p b hp hed ih =>
    by_cases hk : (s.code b).take k = []
    · rw [hk, List.append_nil, List.flatMap_append] at he
      simp only [List.flatMap_cons, List.flatMap_nil, List.append_nil] at he
      exact ih (s.code p).length (by rw [he, List.take_of_length_le (Nat.le_refl _)])
    · obtain ⟨l, x, hx⟩ : ∃ l x, (s.code b).take k = l ++ [x] :=
        ⟨_, _, (List.dropLast_append_getLast hk).symm⟩
      rw [hx, ← List.append_assoc] at he
      obtain ⟨h1, h2⟩ := List.append_inj' he rfl
      simp only [List.cons.injEq, and_true] at h2
      subst h2
      refine ⟨bs ++ [p], b, l.length, .step hp hed, ?_, ?_⟩
      · have : ((s.code b).take k)[l.length]? = some u := by rw [hx]; simp
        rw [List.getElem?_take] at this
        split at this
        · exact this
        · cases this
      · rw [h1, List.append_assoc]
        congr 1
        have hl : l.length + 1 = ((s.code b).take k).length := by rw [hx]; simp
        rw [hl, ← hx, List.length_take]
        rcases Nat.le_total k (s.code b).length with h | h
        · rw [Nat.min_eq_left h]
        · rw [Nat.min_eq_right h, List.take_of_length_le h, List.take_of_length_le (Nat.le_refl _)]

/-- **C08 with C05 and C07.** For a body without the constructs of `CfgViol`: if constant propagation replaces the read
of the local variable `x` by the operation `use` by the constant `c`, then in every execution of the body that comes
to that operation the variable holds `c` (if it was assigned at all). -/
theorem c08_const_prop_partial {κ : Type} (args : List Instr) (body : Node) (hg : good body [] [] = true)
    (hp : body.proper false = true) (hid : DifferentIds args body) (lit : Nat → Option κ) (global : Nat → Bool)
    (ins : Nat → Bits) (hins : rdAnalyze (buildCFGraph args body).toCfg = some ins) (x : Nat) (use : Instr) (c : κ)
    (hrep : ∀ b pos, ((buildCFGraph args body).code b)[pos]? = some use →
      constProp (buildCFGraph args body).toCfg ins global lit x b pos = some c)
    (o : Outc) (t : List Instr) (hx : Exec (.node body) o (t ++ [use]))
    (s s' : Nat → Option κ) (h0 : s x = none)
    (hrun : Run lit (fun y => Taken (buildCFGraph args body).toCfg y ∨ global y = true) s (args ++ t ++ [use]) s')
    (v : κ) (hv : s' x = some v) : v = c := by
  have hcov := c08_graph_covers_partial args body hg o _ hx
  rw [← List.append_assoc] at hcov
  obtain ⟨bs, b, pos, h1, h2, h3⟩ := covers_last hcov
  exact c07_const_prop _ (c08_graph_ok args body hp hid) ins hins global lit x b pos c (hrep b pos h2) bs
    (path_cpath h1) s s' h0 (by rw [h3] at hrun; exact hrun) v hv

/-! ### An example -/

/-- ```
x = 0
for i in it():
    try:
        f()
        if c:
            break
    except E as e:
        continue
    finally:
        g()
while d:
    h()
    if c2: return
use(x)
``` -/
def exBody : Node :=
  .seq (.op (.assign 1 0 (some 100)))
    (.seq (.for_ 1 true (.assign 3 1 none) (.op (.other 2))
        (.tryc (.seq (.op (.other 4)) (.ite (.op (.other 5)) (.brk 1) .skip))
          (.ctch (some (.assign 6 2 none)) (.cont 1) .skip) .skip (.op (.other 7))))
      (.seq (.while_ 2 (.op (.other 8)) (.seq (.op (.other 9)) (.ite (.op (.other 10)) .ret .skip)))
        (.op (.other 11))))

/-- An execution: the first round is left by an exception and `continue`, the second by `break`, both through
`finally`; then one round of the `while`. -/
theorem exBody_exec : Exec (.node exBody) .normal ([.assign 1 0 (some 100), .other 2, .assign 3 1 none, .other 4,
    .assign 6 2 none, .other 7, .assign 3 1 none, .other 4, .other 5, .other 7, .other 8, .other 9, .other 10, .other 8] ++
    [.other 11]) := by
  have h1 : Exec (.node (.tryc (.seq (.op (.other 4)) (.ite (.op (.other 5)) (.brk 1) .skip))
      (.ctch (some (.assign 6 2 none)) (.cont 1) .skip) .skip (.op (.other 7)))) (.cont 1) _ :=
    .tryc (.coreCaught (.seqOut (.opRaise _) (by decide)) (.clause (.cont 1))) (by decide) (.op _)
  have h2 : Exec (.node (.tryc (.seq (.op (.other 4)) (.ite (.op (.other 5)) (.brk 1) .skip))
      (.ctch (some (.assign 6 2 none)) (.cont 1) .skip) .skip (.op (.other 7)))) (.brk 1) _ :=
    .tryc (.coreOut (.seq (.op _) (.iteT (.op _) (.brk 1))) (by decide) (by decide)) (by decide) (.op _)
  exact exec_eq (.seq (.op _) (.seq (.for_ (.op _) (.forLoop h1 (.inr rfl) (.forBrk h2)))
    (.seq (.while_ (.whileLoop (.op _) (.seq (.op _) (.iteF (.op _) .skip)) (.inl rfl) (.whileEnd (.op _)))) (.op _)))) rfl

example : good exBody [] [] = true ∧ exBody.proper false = true ∧ DifferentIds [] exBody := by
  unfold DifferentIds
  decide +kernel

/-- The read of `x` at the end is replaced by the literal 0. -/
example : propagated exBody lit0 0 16 0 = some 0 ∧
    ∀ c, c < (buildCFGraph [] exBody).next → ∀ k, ((buildCFGraph [] exBody).code c)[k]? = some (.other 11) → c = 16 ∧ k = 0 :=
  ⟨by decide +kernel, onlyAt_spec (by decide +kernel)⟩

/-- The constructs of `CfgViol` are not `good`. -/
example : [whileTernary, whileTry, afterBreak, loopBound, finallyBlocks, nextRaises].map (good · [] []) =
    [false, false, false, false, false, false] := by decide

end Codon.Flow
