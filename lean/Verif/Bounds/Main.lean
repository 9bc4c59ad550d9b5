import Verif.Bounds.Trace
/-!
# From the checks to the values
-/
namespace Codon.Bounds

variable {r : Run} {L : Loop} {ix : Index} {rd : RD} {defs : List Nat}

/-- What is read for the access. -/
def Index.reads (ix : Index) : List Event := .read ix.loc ix.arr :: ix.idx.reads

theorem Index.reads_wrote (ix : Index) : wrote ix.reads = [] := by
  have := Codon.Bounds.reads_wrote ix.idx
  simp only [wrote, Index.reads, List.filterMap_cons] at *
  exact this

/-- The execution until the access is evaluated. -/
def Run.acc (r : Run) (L : Loop) : List Event := r.entry L ++ r.mid L

theorem Run.trace_eq : r.trace L ix = r.acc L ++ ix.reads := by simp [Run.trace, Run.acc, Index.reads]

theorem last_trace (x : Nat) : last x (r.trace L ix) = last x (r.acc L) := by
  rw [Run.trace_eq, last_reads _ _ _ ix.reads_wrote]

theorem last_entry (x : Nat) : last x (r.entry L) = last x r.pre := by
  rw [Run.entry, last_reads]
  rw [wrote_append, Codon.Bounds.reads_wrote, Codon.Bounds.reads_wrote]; rfl

/-- What the analysis says about a read for the access. -/
theorem sound_access (ok : r.Ok L ix rd defs) {loc z : Nat} (h : Event.read loc z ∈ ix.reads) {y : Nat} {d : RDef} {v : Val}
    (hl : last y (r.acc L) = some (d, v)) : rd y loc = [] ∨ d ∈ rd y loc := by
  obtain ⟨p, q, hpq⟩ := List.append_of_mem h
  have hs := ok.sound
  rw [Run.trace_eq, hpq, ← List.append_assoc] at hs
  have := hs.at rfl
  simp only [List.nil_append] at this
  have hw : wrote p = [] := by
    have := ix.reads_wrote
    rw [hpq, wrote_append] at this
    exact (List.append_eq_nil_iff.1 this).1
  have h2 := this y (by rw [wrote_append, List.mem_append]; exact .inl (mem_wrote (last_mem hl)))
  rw [last_reads _ _ _ hw, hl] at h2
  simpa using h2

/-- A variable other than the loop variable that is used in the bounds and in the access has the same value in both. -/
theorem stable (ok : r.Ok L ix rd defs) {R : List (Nat × Nat)} {loc1 loc2 x : Nat} (hx : x ≠ L.var)
    (h1 : Event.read loc1 x ∈ L.start.reads ++ L.stop.reads) (p1 : Passed L rd R loc1 x)
    (h2 : Event.read loc2 x ∈ ix.reads) (p2 : Passed L rd R loc2 x) : last x (r.acc L) = last x r.pre := by
  unfold Passed at p1 p2
  rw [if_neg hx] at p1 p2
  obtain ⟨d1, e1, l1⟩ := p1
  obtain ⟨d2, e2, l2⟩ := p2
  have hid : d2.id = d1.id := by rw [l1] at l2; simpa using l2.symm
  -- the definition is outside of the loop
  have hout : d1.id ∉ defs := by
    have hm : Event.read loc1 x ∈ r.trace L ix := by
      simp only [Run.trace, Run.entry, List.mem_append] at h1 ⊢
      exact .inl (.inr h1)
    obtain ⟨p, q, hpq, hnp⟩ := List.eq_append_cons_of_mem hm
    have ha := ok.assigned
    rw [hpq] at ha
    have ha : x ∈ wrote p := ha.at rfl
    obtain ⟨d0, v0, hl⟩ := last_some ha
    have hs := ok.sound
    rw [hpq] at hs
    have hs := hs.at (q := p) rfl x ha
    rw [hl, e1] at hs
    have hd : d0 = d1 := by simpa using hs
    subst hd
    intro hin
    obtain ⟨u, w, huw⟩ := List.append_of_mem (last_mem hl)
    have he := ok.entry
    rw [hpq, huw, List.append_assoc] at he
    have := he.at (q := u) rfl hin _ h1
    exact hnp (by rw [huw]; exact List.mem_append_left _ this)
  -- so the variable is not assigned in the loop
  have hmid : x ∉ wrote (r.mid L) := by
    intro hw
    obtain ⟨d, v, hl⟩ := last_some hw
    have hl2 : last x (r.acc L) = some (d, v) := by rw [Run.acc, last_append, hl]; rfl
    have hin := ok.inside _ (last_mem hl) _ _ _ rfl
    rcases sound_access ok h2 hl2 with h | h
    · rw [e2] at h; cases h
    · rw [e2] at h
      have : d = d2 := by simpa using h
      subst this
      rw [hid] at hin
      exact hout hin
  rw [Run.acc, last_append, last_none hmid, last_entry]; rfl

/-- The loop variable was not assigned in the body if the analysis says so. -/
theorem original (ok : r.Ok L ix rd defs) {loc z : Nat} (h : Event.read loc z ∈ ix.reads)
    (ho : isOriginalLoopVar L rd loc = true) : L.var ∉ wrote r.m1 := by
  intro hw
  obtain ⟨d, v, hl⟩ := last_some hw
  have hl2 : last L.var (r.acc L) = some (d, v) := by
    have : r.acc L = (r.entry L ++ r.m0 ++ [.write r.d L.var (.int r.c)]) ++ r.m1 := by simp [Run.acc, Run.mid]
    rw [this, last_append, hl]; rfl
  have hown := ok.round _ (last_mem hl) _ _ rfl
  unfold isOriginalLoopVar at ho
  split at ho
  · rename_i d1 d2 hd
    have ho' : d1.own L = true ∧ d2.own L = true := by
      unfold RDef.own
      simp only [RDef.of, Bool.or_eq_true, Bool.and_eq_true] at ho ⊢
      grind
    rcases sound_access ok h hl2 with h | h
    · rw [hd] at h; cases h
    · rw [hd] at h
      simp only [List.mem_cons, List.not_mem_nil, or_false] at h
      rcases h with rfl | rfl
      · rw [ho'.1] at hown; cases hown
      · rw [ho'.2] at hown; cases hown
  · cases ho

theorem last_loopVar (hm : L.var ∉ wrote r.m1) : last L.var (r.acc L) = some (r.d, .int r.c) := by
  have : r.acc L = (r.entry L ++ r.m0) ++ ([.write r.d L.var (.int r.c)] ++ r.m1) := by simp [Run.acc, Run.mid]
  rw [this, last_append, last_append, last_none hm]
  simp [last]

/-- A copy made in this round has the value of the loop variable. -/
theorem alias_value (ok : r.Ok L ix rd defs) {loc x : Nat} (h : Event.read loc x ∈ ix.reads)
    (ha : isAliasOfLoopVar L rd loc x = true) (hw : x ∈ wrote r.m1) : last x (r.acc L) = some ((rd x loc).headD r.d, .int r.c) := by
  unfold isAliasOfLoopVar at ha
  split at ha
  · rename_i d hd
    simp only [Bool.and_eq_true, beq_iff_eq] at ha
    have hm := original ok h ha.2
    obtain ⟨d', v, hl⟩ := last_some hw
    have hacc : r.acc L = (r.entry L ++ r.m0 ++ [.write r.d L.var (.int r.c)]) ++ r.m1 := by simp [Run.acc, Run.mid]
    have hl2 : last x (r.acc L) = some (d', v) := by rw [hacc, last_append, hl]; rfl
    have hdd : d' = d := by
      rcases sound_access ok h hl2 with h | h
      · rw [hd] at h; cases h
      · rw [hd] at h; simpa using h
    subst hdd
    obtain ⟨u, w, huw⟩ := List.append_of_mem (last_mem hl)
    have hc := ok.copies
    have htr : r.trace L ix = (r.entry L ++ r.m0 ++ [.write r.d L.var (.int r.c)] ++ u) ++ .write d' x v :: (w ++ ix.reads) := by
      rw [Run.trace_eq, hacc, huw]; simp
    rw [htr] at hc
    have hu : L.var ∉ wrote u := by
      intro h; apply hm; rw [huw, wrote_append]; exact List.mem_append_left _ h
    have h3 := hc.at (q := r.entry L ++ r.m0 ++ [.write r.d L.var (.int r.c)] ++ u) rfl L.var
      (by simp only [wrote_append, List.mem_append]; exact .inl (.inr (by simp [wrote]))) ha.1
    rw [last_append, last_none hu, last_append] at h3
    rw [hl2, hd]
    simp [last] at h3
    simp [h3]
  · cases ha

/-- The main argument.  `A` and `P` are the executions at the access and at the bounds. -/
theorem in_range (ok : r.Ok L ix rd defs) (h : elides L ix rd = true)
    (hs : L.start.exact r.pre = some r.s) (he : L.stop.exact r.pre = some r.e)
    (hup : 0 < L.step → r.e + L.step ≤ 2 ^ 63) (hdown : L.step < 0 → -2 ^ 63 ≤ r.e + L.step + 1)
    (hsz : ∀ x ∈ ix.idx.sizes ++ (L.start.sizes ++ L.stop.sizes), ∀ ev ∈ r.trace L ix, ∀ d sh, ev = .write d x (.arr sh) →
      sh.length = 1)
    (hpos : 0 < ix.idx.varCoef (isLoopVar L rd))
    (hlenUp : 0 < L.step → ∀ y, 0 ≤ ix.idx.lenCoef y + ix.idx.varCoef (isLoopVar L rd) * L.start.lenCoef y ∧
      ix.idx.lenCoef y + ix.idx.varCoef (isLoopVar L rd) * L.stop.lenCoef y ≤ if y = ix.arr then 1 else 0)
    (hlenDown : L.step < 0 → ∀ y, 0 ≤ ix.idx.lenCoef y + ix.idx.varCoef (isLoopVar L rd) * L.stop.lenCoef y ∧
      ix.idx.lenCoef y + ix.idx.varCoef (isLoopVar L rd) * L.start.lenCoef y ≤ if y = ix.arr then 1 else 0)
    (hal : ∀ q ∈ ix.idx.vars, isAliasOfLoopVar L rd q.1 q.2 = true → q.2 ≠ L.var → q.2 ∈ wrote r.m1)
    {i n : Int} (hi : ix.idx.eval (r.trace L ix) = some i) {d : RDef} (hn : last ix.arr (r.trace L ix) = some (d, .arr [n])) :
    0 ≤ i ∧ i < n := by
  unfold elides at h
  split at h
  · cases h
  rename_i hstep
  have hstep0 : L.step ≠ 0 := fun e => hstep (.inl e)
  split at h
  rotate_left
  · cases h
  rename_i start stop hps hpe
  unfold canElide at h
  split at h
  · cases h
  rename_i idx hpi
  simp only [Bool.and_eq_true] at h
  obtain ⟨hck, hr⟩ := h
  obtain ⟨R, pA, pS, pE, pI⟩ := checkAll_spec hck
  -- reads that passed the checks
  have passI : ∀ loc x, Event.read loc x ∈ ix.reads → Passed L rd R loc x := by
    intro loc x hx
    simp only [Index.reads, List.mem_cons, Event.read.injEq] at hx
    rcases hx with ⟨rfl, rfl⟩ | hx
    · exact pA
    · obtain ⟨t, h1, h2, rfl, rfl⟩ := parse_reads _ _ _ hpi _ _ hx
      exact pI t h1 h2
  have passB : ∀ loc x, Event.read loc x ∈ L.start.reads ++ L.stop.reads → Passed L rd R loc x := by
    intro loc x hx
    rcases List.mem_append.1 hx with hx | hx
    · obtain ⟨t, h1, h2, rfl, rfl⟩ := parse_reads _ _ _ hps _ _ hx
      exact pS t h1 h2
    · obtain ⟨t, h1, h2, rfl, rfl⟩ := parse_reads _ _ _ hpe _ _ hx
      exact pE t h1 h2
  -- the loop variable
  have loopV : ∀ loc, Event.read loc L.var ∈ ix.reads → last L.var (r.acc L) = some (r.d, .int r.c) := by
    intro loc hx
    have := passI _ _ hx
    rw [Passed, if_pos rfl] at this
    exact last_loopVar (original ok hx this)
  have idxReads : ∀ {ev}, ev ∈ ix.idx.reads → ev ∈ ix.reads := fun h => List.mem_cons_of_mem _ h
  rw [last_trace] at hn
  -- the values
  classical
  let A := r.acc L
  let P := r.pre
  let τ : Nat → Int := fun y => if y ≠ L.var ∧ ∃ loc, Event.read loc y ∈ ix.reads then ival A y else ival P y
  let ℓ : Nat → Int := fun y => if y ≠ L.var ∧ ∃ loc, Event.read loc y ∈ ix.reads then alen A y else alen P y
  have hτ : ∀ loc y, Event.read loc y ∈ L.start.reads ++ L.stop.reads → τ y = ival P y ∧ ℓ y = alen P y := by
    intro loc y hy
    by_cases hc : y ≠ L.var ∧ ∃ loc, Event.read loc y ∈ ix.reads
    · obtain ⟨hne, loc2, h2⟩ := hc
      have hst := stable ok hne hy (passB _ _ hy) h2 (passI _ _ h2)
      have : (y ≠ L.var ∧ ∃ loc, Event.read loc y ∈ ix.reads) := ⟨hne, loc2, h2⟩
      simp only [τ, ℓ, if_pos this, ival, alen, A, P, hst]
      exact ⟨trivial, trivial⟩
    · simp only [τ, ℓ, if_neg hc]
      exact ⟨trivial, trivial⟩
  have hval : ∀ ev ∈ r.trace L ix, ∀ d x v, ev = .write d x v → v.Ok := ok.values
  have accMem : ∀ {ev}, ev ∈ r.acc L → ev ∈ r.trace L ix := fun h => by rw [Run.trace_eq]; exact List.mem_append_left _ h
  have preMem : ∀ {ev}, ev ∈ r.pre → ev ∈ r.trace L ix := fun h => by
    rw [Run.trace]; exact List.mem_append_left _ (List.mem_append_left _ h)
  have alen_nonneg : ∀ t : List Event, (∀ ev ∈ t, ev ∈ r.trace L ix) → ∀ y, 0 ≤ alen t y := by
    intro t ht y
    unfold alen
    split
    · rename_i d' m tl hl
      exact (hval _ (ht _ (last_mem hl)) _ _ _ rfl m (List.mem_cons_self ..)).1
    · omega
  have hℓ : ∀ y, 0 ≤ ℓ y := by
    intro y
    simp only [ℓ]
    split
    · exact alen_nonneg _ (fun _ h => accMem h) y
    · exact alen_nonneg _ (fun _ h => preMem h) y
  -- the bounds
  have linB : ∀ e : E, (∀ ev ∈ e.reads, ev ∈ L.start.reads ++ L.stop.reads) → e.lin τ ℓ = e.lin (ival P) (alen P) := by
    intro e hsub
    exact lin_congr e (fun q hq => (hτ _ _ (hsub _ (vars_reads e q hq))).1)
      (fun q hq => (hτ _ _ (hsub _ (lens_reads e q hq))).2)
  have szP : ∀ x ∈ L.start.sizes ++ L.stop.sizes, ∀ d sh, last x P = some (d, .arr sh) → sh.length = 1 := by
    intro x hx d sh hl
    exact hsz x (List.mem_append_right _ hx) _ (preMem (last_mem hl)) _ _ rfl
  have hS : tsum τ ℓ start = r.s := by
    rw [parse_sum τ ℓ _ _ _ hps, linB _ fun ev h => List.mem_append_left _ h,
      exact_lin _ _ _ hs fun x hx => szP x (List.mem_append_left _ hx)]
    simp [P]
  have hE : tsum τ ℓ stop = r.e := by
    rw [parse_sum τ ℓ _ _ _ hpe, linB _ fun ev h => List.mem_append_right _ h,
      exact_lin _ _ _ he fun x hx => szP x (List.mem_append_right _ hx)]
    simp [P]
  -- the index
  have hi' : ix.idx.eval A = some i := by
    rw [← hi]
    have : ∀ (f : Int → Int) (e : E), e.evalWith f A = e.evalWith f (r.trace L ix) := by
      intro f e
      induction e with
      | add a b iha ihb => simp only [E.evalWith, iha, ihb]
      | sub a b iha ihb => simp only [E.evalWith, iha, ihb]
      | _ => simp only [E.evalWith, last_trace, A]
    exact this _ _
  obtain ⟨w, hw, hiw⟩ := eval_exact _ _ _ hi'
  have hwlin : w = ix.idx.lin (ival A) (alen A) := exact_lin _ _ _ hw fun x hx d sh hl =>
    hsz x (List.mem_append_left _ hx) _ (accMem (last_mem hl)) _ _ rfl
  have hρ : ∀ q ∈ ix.idx.vars, upd τ L.var r.c q.2 = ival A q.2 := by
    intro q hq
    have hrd := idxReads (vars_reads _ q hq)
    by_cases hq2 : q.2 = L.var
    · rw [hq2] at hrd ⊢
      have := loopV _ hrd
      simp [upd, ival, A, this]
    · have : (q.2 ≠ L.var ∧ ∃ loc, Event.read loc q.2 ∈ ix.reads) := ⟨hq2, _, hrd⟩
      simp only [upd, if_neg hq2, τ, if_pos this]
  have hℓi : ∀ q ∈ ix.idx.lens, ℓ q.2 = alen A q.2 := by
    intro q hq
    have hrd := idxReads (lens_reads _ q hq)
    by_cases hq2 : q.2 = L.var
    · obtain ⟨d', sh, hl⟩ := eval_lens _ _ _ hi' q hq
      rw [hq2] at hrd hl
      have := loopV _ hrd
      simp [A, this] at hl
    · have : (q.2 ≠ L.var ∧ ∃ loc, Event.read loc q.2 ∈ ix.reads) := ⟨hq2, _, hrd⟩
      simp only [ℓ, if_pos this]
  have hI : tsum (upd τ L.var r.c) ℓ (idx.map (unalias L rd)) = w := by
    rw [tsum_unalias L rd _ _ r.c idx ?_ (by simp [upd]), parse_sum _ _ _ _ _ hpi, hwlin]
    · simp only [Bool.false_eq_true, if_false, Int.one_mul]
      exact lin_congr _ hρ hℓi
    · intro t ht hk hA
      have hm := parse_var _ _ _ hpi t ht hk
      rw [hρ _ hm]
      have hrd := idxReads (vars_reads _ _ hm)
      by_cases hq2 : t.x = L.var
      · simp only [hq2] at hrd ⊢
        have := loopV _ hrd
        simp [ival, A, this]
      · have := alias_value ok hrd hA (hal _ hm hA hq2)
        simp only [ival, A]
        simp only at this
        rw [this]
  have hq : vcoef L.var (idx.map (unalias L rd)) = ix.idx.varCoef (isLoopVar L rd) := by
    rw [parse_vcoef L rd _ _ _ hpi]; simp
  generalize hqq : ix.idx.varCoef (isLoopVar L rd) = q at *
  -- the array
  have harr : ℓ ix.arr = n := by
    have hrd : Event.read ix.loc ix.arr ∈ ix.reads := List.mem_cons_self ..
    by_cases ha : ix.arr = L.var
    · rw [ha] at hrd hn
      rw [loopV _ hrd] at hn
      simp at hn
    · have : (ix.arr ≠ L.var ∧ ∃ loc, Event.read loc ix.arr ∈ ix.reads) := ⟨ha, _, hrd⟩
      simp only [ℓ, if_pos this, alen, A, hn]
  have hnOk : n < 2 ^ 63 := (hval _ (accMem (last_mem hn)) _ _ _ rfl n (List.mem_cons_self ..)).2
  have t1 : tsum τ ℓ (replaceLoopVariable (idx.map (unalias L rd)) L.var start) = w + q * (r.s - r.c) := by
    rw [tsum_replace, hS, tsum_upd τ ℓ L.var r.s r.c, hI, hq]
  have t2 : tsum τ ℓ (replaceLoopVariable (idx.map (unalias L rd)) L.var stop) = w + q * (r.e - r.c) := by
    rw [tsum_replace, hE, tsum_upd τ ℓ L.var r.e r.c, hI, hq]
  have c1 : ∀ y, lcoef y (replaceLoopVariable (idx.map (unalias L rd)) L.var start) =
      ix.idx.lenCoef y + q * L.start.lenCoef y := by
    intro y
    rw [lcoef_replace, lcoef_unalias, hq, parse_lcoef y _ _ _ hpi, parse_lcoef y _ _ _ hps]; simp
  have c2 : ∀ y, lcoef y (replaceLoopVariable (idx.map (unalias L rd)) L.var stop) =
      ix.idx.lenCoef y + q * L.stop.lenCoef y := by
    intro y
    rw [lcoef_replace, lcoef_unalias, hq, parse_lcoef y _ _ _ hpi, parse_lcoef y _ _ _ hpe]; simp
  have climit : ∀ y, lcoef y [Term.lenTerm ix.loc ix.arr] = if y = ix.arr then 1 else 0 := by
    intro y
    by_cases hy : y = ix.arr
    · simp [lcoef, Term.lenTerm, hy]
    · have : ¬ ix.arr = y := fun e => hy e.symm
      simp [lcoef, Term.lenTerm, hy, this]
  have cval : ∀ y v, lcoef y [Term.valTerm v] = 0 := by intro y v; simp [lcoef, Term.valTerm]
  have vlimit : tsum τ ℓ [Term.lenTerm ix.loc ix.arr] = n := by simp [tsum, tval, Term.lenTerm, harr]
  have vval : ∀ v, tsum τ ℓ [Term.valTerm v] = v := by intro v; simp [tsum, tval, Term.valTerm]
  have hw0 : 0 ≤ w ∧ w < n := by
    rcases Int.lt_or_gt_of_ne hstep0 with hneg | hposs
    · -- counting down
      have hnp : ¬ L.step > 0 := by omega
      simp only [inRange, if_neg hnp, Bool.and_eq_true] at hr
      obtain ⟨h1, h2⟩ := hr
      have hcnt := counter_down ok.counter hneg ok.bounds.1 (hdown hneg)
      have l1 := lessCheck_le h1 τ ℓ hℓ (fun y => by rw [c1, climit]; exact (hlenDown hneg y).2)
      have l2 := lessCheck_le h2 τ ℓ hℓ (fun y => by rw [c2, cval]; exact (hlenDown hneg y).1)
      rw [t1, vlimit] at l1
      rw [t2, vval] at l2
      simp only [if_true] at l1
      simp only [Bool.false_eq_true, if_false] at l2
      have m1 : 0 ≤ q * (r.s - r.c) := Int.mul_nonneg (by omega) (by omega)
      have m2 : 0 < q * (r.c - r.e) := Int.mul_pos hpos (by omega)
      have m3 : q * (r.e - r.c) = - (q * (r.c - r.e)) := by rw [← Int.mul_neg]; congr 1; omega
      omega
    · simp only [inRange, if_pos (show L.step > 0 from hposs), Bool.and_eq_true] at hr
      obtain ⟨h1, h2⟩ := hr
      have hcnt := counter_up ok.counter hposs ok.bounds.1 (hup hposs)
      have l1 := lessCheck_le h1 τ ℓ hℓ (fun y => by rw [c1, cval]; exact (hlenUp hposs y).1)
      have l2 := lessCheck_le h2 τ ℓ hℓ (fun y => by rw [c2, climit]; exact (hlenUp hposs y).2)
      rw [t1, vval] at l1
      rw [t2, vlimit] at l2
      simp only [Bool.false_eq_true, if_false] at l1 l2
      have m1 : 0 ≤ q * (r.c - r.s) := Int.mul_nonneg (by omega) (by omega)
      have m2 : 0 < q * (r.e - r.c) := Int.mul_pos hpos (by omega)
      have m3 : q * (r.s - r.c) = - (q * (r.c - r.s)) := by rw [← Int.mul_neg]; congr 1; omega
      omega
  have hfi : Fits i := eval_fits hi' (p := isLoopVar L rd) (by omega) (fun ev h => hval ev (accMem h))
  rw [fits_bmod hfi, fits_bmod (by unfold Fits; omega)] at hiw
  omega

end Codon.Bounds
