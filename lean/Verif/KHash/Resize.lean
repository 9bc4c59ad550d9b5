import Verif.KHash.Inv

/-! Correctness of the in-place rehash (`_kh_resize`) and of `_kh_put`. -/

namespace Codon.KHash

section
set_option linter.unusedSectionVars false
set_option linter.unusedSimpArgs false
set_option linter.unusedVariables false

variable {K V : Type} [DecidableEq K] (h : K → BitVec 64)

/-- Invariant of the rehash loop: `hand` is the element being carried, `M` everything stored. -/
structure RI (n n' : Nat) (s : RS K V) (hand M : List (K × Option V)) : Prop where
  flen : n ≤ 16 * s.f.length
  glen : s.g.length = fsize n'
  kl : s.keys.length = max n n'
  vl : s.vals.length = max n n'
  gD : ∀ i, i < n' → D s.g i = false
  disj : ∀ i, i < n → i < n' → live s.f i = true → E s.g i = true
  iniF : ∀ i, i < n → live s.f i = true → ∃ k, rd s.keys i = some k
  iniG : ∀ i, i < n' → E s.g i = false → ∃ k, rd s.keys i = some k
  path : ∀ i, i < n' → E s.g i = false → ∀ k, rd s.keys i = some k →
    ∃ r, r < n' ∧ P n' (bucket h k (n' - 1)) r = i ∧
      ∀ q, q < r → E s.g (P n' (bucket h k (n' - 1)) q) = false
  perm : (contentOf s.f s.keys s.vals n ++ contentOf s.g s.keys s.vals n' ++ hand).Perm M

variable {h}

theorem live_g {n n' : Nat} {s : RS K V} {hand M : List (K × Option V)}
    (r : RI h n n' s hand M) {i : Nat} (hi : i < n') : live s.g i = !E s.g i := by
  unfold live; rw [r.gD i hi]; simp

theorem occ_le {n n' : Nat} {s : RS K V} {hand M : List (K × Option V)}
    (r : RI h n n' s hand M) : cnt (fun i => !E s.g i) n' + (contentOf s.f s.keys s.vals n).length
      + hand.length = M.length := by
  have h1 := r.perm.length_eq
  have h2 : (contentOf s.g s.keys s.vals n').length = cnt (live s.g) n' := by
    apply length_contentOf
    intro i hi hl
    rw [live_g r hi] at hl
    exact r.iniG i hi (by simpa using hl)
  have h3 : cnt (live s.g) n' = cnt (fun i => !E s.g i) n' := by
    unfold cnt
    apply List.countP_congr
    intro i hi
    rw [live_g r (List.mem_range.mp hi)]
  simp only [List.length_append] at h1
  omega

theorem findEmpty_run {g : Flags} {b a T : Nat} (hg : 2 ^ b ≤ 16 * g.length)
    (h1 : E g (P (2 ^ b) a T) = true) (h2 : ∀ s, s < T → E g (P (2 ^ b) a s) = false) :
    ∀ fuel s, s ≤ T → T - s < fuel →
      findEmpty g (2 ^ b - 1) fuel s (P (2 ^ b) a s) = some (P (2 ^ b) a T) := by
  have hpos : 0 < 2 ^ b := by positivity
  intro fuel
  induction fuel with
  | zero => intro s _ hf; omega
  | succ fuel ih =>
    intro s hs hf
    unfold findEmpty
    rw [isempty_eq (lt_of_lt_of_le (P_lt hpos _ _) hg)]
    by_cases hsT : s = T
    · subst hsT
      rw [h1]; simp
    · rw [h2 s (by omega)]
      simp only [Option.bind_eq_bind, Option.bind_some]
      rw [P_succ, ih (s + 1) (by omega) (by omega)]
      simp

theorem findEmpty_spec {n b : Nat} (hb : 2 ≤ b) {s : RS K V} {hand M : List (K × Option V)}
    (r : RI h n (2 ^ b) s hand M) (hM : M.length < 2 ^ b) (key : K) :
    ∃ T, T < 2 ^ b ∧ E s.g (P (2 ^ b) (bucket h key (2 ^ b - 1)) T) = true ∧
      (∀ q, q < T → E s.g (P (2 ^ b) (bucket h key (2 ^ b - 1)) q) = false) ∧
      findEmpty s.g (2 ^ b - 1) (2 * 2 ^ b) 0 (bucket h key (2 ^ b - 1)) =
        some (P (2 ^ b) (bucket h key (2 ^ b - 1)) T) := by
  have hocc := occ_le r
  obtain ⟨e, he1, he2⟩ := cnt_lt_exists (p := fun i => !E s.g i) (n := 2 ^ b) (by omega)
  have he2 : E s.g e = true := by simpa using he2
  obtain ⟨q, hq1, hq2⟩ := P_surj b (bucket h key (2 ^ b - 1)) e he1
  have hex : ∃ T, E s.g (P (2 ^ b) (bucket h key (2 ^ b - 1)) T) = true := ⟨q, by rw [hq2]; exact he2⟩
  have hlt : Nat.find hex < 2 ^ b :=
    lt_of_le_of_lt (Nat.find_min' hex (m := q) (by rw [hq2]; exact he2)) hq1
  refine ⟨Nat.find hex, hlt, Nat.find_spec hex, fun q hq => by simpa using Nat.find_min hex hq, ?_⟩
  have hrun := findEmpty_run (g := s.g) (b := b) (a := bucket h key (2 ^ b - 1))
    (by rw [r.glen]; exact pow_le_fsize hb) (Nat.find_spec hex)
    (fun q hq => by simpa using Nat.find_min hex hq) (2 * 2 ^ b) 0 (by omega) (by omega)
  rwa [P_zero (bucket_lt h key)] at hrun

theorem contentOf_congr {f : Flags} {keys keys' : Mem K} {vals vals' : Mem V} {f' : Flags} {n : Nat}
    (hc : ∀ i, i < n → slotOf f' keys' vals' i = slotOf f keys vals i) :
    contentOf f' keys' vals' n = contentOf f keys vals n := by
  unfold contentOf
  apply List.filterMap_congr
  intro i hi
  exact hc i (List.mem_range.mp hi)

/-- One placement of the element in hand: it goes to bucket `i`; whatever was pending there is
taken out. -/
theorem place {n b : Nat} {s : RS K V} {key : K} {val : Option V}
    {M : List (K × Option V)} (r : RI h n (2 ^ b) s [(key, val)] M) {T : Nat} (hT : T < 2 ^ b)
    (h1 : E s.g (P (2 ^ b) (bucket h key (2 ^ b - 1)) T) = true)
    (h2 : ∀ q, q < T → E s.g (P (2 ^ b) (bucket h key (2 ^ b - 1)) q) = false)
    {g' f' : Flags} (hgl : g'.length = s.g.length)
    (hgE : ∀ j, E g' j = (E s.g j && decide (j ≠ P (2 ^ b) (bucket h key (2 ^ b - 1)) T)))
    (hgD : ∀ j, D g' j = D s.g j)
    (hfl : f'.length = s.f.length)
    (hf : ∀ j, j < n →
      live f' j = (live s.f j && decide (j ≠ P (2 ^ b) (bucket h key (2 ^ b - 1)) T)))
    {hand : List (K × Option V)}
    (hhand : (if P (2 ^ b) (bucket h key (2 ^ b - 1)) T < n then
      slotOf s.f s.keys s.vals (P (2 ^ b) (bucket h key (2 ^ b - 1)) T) else none).toList = hand) :
    RI h n (2 ^ b)
      ⟨f', s.keys.set (P (2 ^ b) (bucket h key (2 ^ b - 1)) T) (some key),
        s.vals.set (P (2 ^ b) (bucket h key (2 ^ b - 1)) T) val, g'⟩ hand M := by
  have hpos : 0 < 2 ^ b := by positivity
  generalize hi : P (2 ^ b) (bucket h key (2 ^ b - 1)) T = i at *
  have hib : i < 2 ^ b := by rw [← hi]; exact P_lt hpos _ _
  have hik : i < s.keys.length := by rw [r.kl]; omega
  have hiv : i < s.vals.length := by rw [r.vl]; omega
  have hrd : ∀ j, rd (s.keys.set i (some key)) j = if j = i then some key else rd s.keys j :=
    fun j => rd_set hik
  have hvj : ∀ j, ((s.vals.set i val)[j]?).join = if j = i then val else (s.vals[j]?).join :=
    fun j => join_set hiv
  have hlg' : ∀ j, j < 2 ^ b → live g' j = (live s.g j || decide (j = i)) := by
    intro j hj
    unfold live
    rw [hgE, hgD, r.gD j hj]
    by_cases hji : j = i
    · subst hji; simp
    · simp [hji]
  -- contents of the old part
  have pF : ∀ j, j < n → j ≠ i → slotOf f' (s.keys.set i (some key)) (s.vals.set i val) j =
      slotOf s.f s.keys s.vals j := by
    intro j hj hji
    unfold slotOf
    rw [hf j hj, hrd, hvj, if_neg hji, if_neg hji]
    simp [hji]
  have pG : ∀ j, j < 2 ^ b → j ≠ i → slotOf g' (s.keys.set i (some key)) (s.vals.set i val) j =
      slotOf s.g s.keys s.vals j := by
    intro j hj hji
    unfold slotOf
    rw [hlg' j hj, hrd, hvj, if_neg hji, if_neg hji]
    simp [hji]
  have permF : (contentOf s.f s.keys s.vals n).Perm
      (hand ++ contentOf f' (s.keys.set i (some key)) (s.vals.set i val) n) := by
    by_cases hin : i < n
    · rw [if_pos hin] at hhand
      obtain ⟨l, hl1, hl2⟩ := filterMap_update (f := slotOf s.f s.keys s.vals)
        (g := slotOf f' (s.keys.set i (some key)) (s.vals.set i val)) hin pF
      have hnone : slotOf f' (s.keys.set i (some key)) (s.vals.set i val) i = none := by
        unfold slotOf; rw [hf i hin]; simp
      rw [hnone] at hl2
      rw [hhand] at hl1
      simp only [Option.toList_none, List.nil_append] at hl2
      exact hl1.trans (List.Perm.append_left _ hl2.symm)
    · rw [if_neg hin] at hhand
      subst hhand
      simp only [Option.toList_none, List.nil_append]
      rw [contentOf_congr (f := s.f) (keys := s.keys) (vals := s.vals)
        (fun j hj => pF j hj (by omega))]
  have permG : (contentOf g' (s.keys.set i (some key)) (s.vals.set i val) (2 ^ b)).Perm
      ((key, val) :: contentOf s.g s.keys s.vals (2 ^ b)) := by
    obtain ⟨l, hl1, hl2⟩ := filterMap_update (f := slotOf s.g s.keys s.vals)
      (g := slotOf g' (s.keys.set i (some key)) (s.vals.set i val)) hib pG
    have h0 : slotOf s.g s.keys s.vals i = none := by
      unfold slotOf; simp [live, h1]
    have h1' : slotOf g' (s.keys.set i (some key)) (s.vals.set i val) i = some (key, val) := by
      rw [slotOf_eq (k := key), hvj, if_pos rfl]
      · rw [hlg' i hib]; simp
      · rw [hrd, if_pos rfl]
    rw [h0] at hl1
    rw [h1'] at hl2
    simp only [Option.toList_none, Option.toList_some, List.nil_append, List.cons_append] at hl1 hl2
    exact hl2.trans (List.Perm.cons _ hl1.symm)
  constructor
  · show n ≤ 16 * f'.length
    rw [hfl]; exact r.flen
  · exact hgl.trans r.glen
  · simp [r.kl]
  · simp [r.vl]
  · intro j hj
    show D g' j = false
    rw [hgD]; exact r.gD j hj
  · intro j hjn hjb hl
    have hl : live f' j = true := hl
    show E g' j = true
    rw [hf j hjn] at hl
    simp only [Bool.and_eq_true, decide_eq_true_eq] at hl
    rw [hgE]
    simp [hl.2, r.disj j hjn hjb hl.1]
  · intro j hj hl
    have hl : live f' j = true := hl
    rw [hf j hj] at hl
    simp only [Bool.and_eq_true, decide_eq_true_eq] at hl
    show ∃ k, rd (s.keys.set i (some key)) j = some k
    rw [hrd, if_neg hl.2]
    exact r.iniF j hj hl.1
  · intro j hj hE
    have hE : E g' j = false := hE
    show ∃ k, rd (s.keys.set i (some key)) j = some k
    rw [hrd]
    by_cases hji : j = i
    · exact ⟨key, by rw [if_pos hji]⟩
    · rw [if_neg hji]
      rw [hgE] at hE
      exact r.iniG j hj (by simpa [hji] using hE)
  · intro j hj hE k hk
    have hE : E g' j = false := hE
    have hk : rd (s.keys.set i (some key)) j = some k := hk
    have hmono : ∀ q, E s.g q = false → E g' q = false := by
      intro q hq; rw [hgE, hq]; rfl
    rw [hrd] at hk
    by_cases hji : j = i
    · rw [if_pos hji] at hk
      cases hk
      subst hji
      exact ⟨T, hT, hi, fun q hq => hmono _ (h2 q hq)⟩
    · rw [if_neg hji] at hk
      rw [hgE] at hE
      obtain ⟨t, a1, a2, a3⟩ := r.path j hj (by simpa [hji] using hE) k hk
      exact ⟨t, a1, a2, fun q hq => hmono _ (a3 q hq)⟩
  · refine List.Perm.trans ?_ r.perm
    show (contentOf f' (s.keys.set i (some key)) (s.vals.set i val) n ++
      contentOf g' (s.keys.set i (some key)) (s.vals.set i val) (2 ^ b) ++ hand).Perm _
    generalize contentOf f' (s.keys.set i (some key)) (s.vals.set i val) n = A' at *
    generalize contentOf g' (s.keys.set i (some key)) (s.vals.set i val) (2 ^ b) = B' at *
    generalize contentOf s.f s.keys s.vals n = A at *
    generalize contentOf s.g s.keys s.vals (2 ^ b) = B at *
    calc (A' ++ B' ++ hand).Perm (hand ++ (A' ++ B')) := List.perm_append_comm
      _ = (hand ++ A') ++ B' := by rw [List.append_assoc]
      _ |>.Perm (A ++ B') := List.Perm.append_right _ permF.symm
      _ |>.Perm (A ++ ((key, val) :: B)) := List.Perm.append_left _ permG
      _ |>.Perm (A ++ (B ++ [(key, val)])) :=
          List.Perm.append_left _ (by
            have := List.perm_append_comm (l₁ := [(key, val)]) (l₂ := B)
            simpa using this)
      _ = A ++ B ++ [(key, val)] := by rw [List.append_assoc]

/-- The kick-out loop finishes and puts everything in hand into the new part. -/
theorem kick_spec {n b : Nat} (hb : 2 ≤ b) {M : List (K × Option V)} (hM : M.length < 2 ^ b) :
    ∀ fuel (s : RS K V) key val, RI h n (2 ^ b) s [(key, val)] M →
      (contentOf s.f s.keys s.vals n).length < fuel →
      ∃ s', kick h n (2 ^ b) fuel s key val = some s' ∧ RI h n (2 ^ b) s' [] M ∧
        ∀ j, j < n → live s'.f j = true → live s.f j = true := by
  intro fuel
  induction fuel with
  | zero => intro s key val _ hf; omega
  | succ fuel ih =>
    intro s key val r hfuel
    have hpos : 0 < 2 ^ b := by positivity
    obtain ⟨T, hT, h1, h2, hfe⟩ := findEmpty_spec hb r hM key
    have hib : P (2 ^ b) (bucket h key (2 ^ b - 1)) T < 2 ^ b := P_lt hpos _ _
    have hig : P (2 ^ b) (bucket h key (2 ^ b - 1)) T < 16 * s.g.length := by
      rw [r.glen]; exact lt_of_lt_of_le hib (pow_le_fsize hb)
    obtain ⟨g', hsg, hgl, hgE, hgD⟩ := setEmptyFalse_spec hig
    unfold kick
    rw [hfe]
    simp only [Option.bind_eq_bind, Option.bind_some, hsg]
    have hwk : wr s.keys (P (2 ^ b) (bucket h key (2 ^ b - 1)) T) (some key) =
        some (s.keys.set (P (2 ^ b) (bucket h key (2 ^ b - 1)) T) (some key)) := by
      unfold wr; rw [if_pos (by rw [r.kl]; omega)]
    have hwv : wr s.vals (P (2 ^ b) (bucket h key (2 ^ b - 1)) T) val =
        some (s.vals.set (P (2 ^ b) (bucket h key (2 ^ b - 1)) T) val) := by
      unfold wr; rw [if_pos (by rw [r.vl]; omega)]
    by_cases hp : P (2 ^ b) (bucket h key (2 ^ b - 1)) T < n ∧
        live s.f (P (2 ^ b) (bucket h key (2 ^ b - 1)) T) = true
    · obtain ⟨hin, hli⟩ := hp
      have hpend : pendingAt s.f n (P (2 ^ b) (bucket h key (2 ^ b - 1)) T) = some true := by
        unfold pendingAt
        rw [if_pos hin, iseither_eq (lt_of_lt_of_le hin r.flen)]
        unfold live at hli
        simpa using hli
      obtain ⟨k', hk'⟩ := r.iniF _ hin hli
      obtain ⟨f', hsf, hfl, hfE, hfD⟩ := setDelTrue_spec (lt_of_lt_of_le hin r.flen)
      have hv : s.vals[P (2 ^ b) (bucket h key (2 ^ b - 1)) T]? =
          some ((s.vals[P (2 ^ b) (bucket h key (2 ^ b - 1)) T]?).join) := by
        rw [List.getElem?_eq_getElem (by rw [r.vl]; omega)]; simp
      rw [hpend, hk', hwk, hwv, hsf]
      simp only [Option.bind_some, if_true]
      rw [hv, Option.bind_some]
      have hlf' : ∀ j, j < n → live f' j =
          (live s.f j && decide (j ≠ P (2 ^ b) (bucket h key (2 ^ b - 1)) T)) := by
        intro j _
        unfold live
        rw [hfE, hfD]
        by_cases hj : j = P (2 ^ b) (bucket h key (2 ^ b - 1)) T
        · simp [hj]
        · simp [hj]
      have hslot := slotOf_eq (vals := s.vals) hli hk'
      have r' := place r hT h1 h2 hgl hgE hgD hfl hlf' (hand := [(k', _)])
        (by rw [if_pos hin, hslot]; rfl)
      obtain ⟨s', e1, e2, e3⟩ := ih _ k' _ r' (by
        have a := occ_le r
        have c := occ_le r'
        have hg1 := cnt_update (p := fun i => !E s.g i) (q := fun i => !E g' i) hib (by
          intro i _ hi
          show (!E g' i) = _
          rw [hgE]; simp [hi])
        rw [hgE] at hg1
        simp [h1] at hg1
        simp only [List.length_cons, List.length_nil] at a c
        have c' : cnt (fun i => !E g' i) (2 ^ b) + (contentOf f' (s.keys.set
          (P (2 ^ b) (bucket h key (2 ^ b - 1)) T) (some key)) (s.vals.set
          (P (2 ^ b) (bucket h key (2 ^ b - 1)) T) val) n).length + (0 + 1) = M.length := c
        show (contentOf f' (s.keys.set
          (P (2 ^ b) (bucket h key (2 ^ b - 1)) T) (some key)) (s.vals.set
          (P (2 ^ b) (bucket h key (2 ^ b - 1)) T) val) n).length < fuel
        omega)
      refine ⟨s', e1, e2, fun j hj hl => ?_⟩
      have := e3 j hj hl
      have this : live f' j = true := this
      rw [hlf' j hj] at this
      simp only [Bool.and_eq_true] at this
      exact this.1
    · have hpend : pendingAt s.f n (P (2 ^ b) (bucket h key (2 ^ b - 1)) T) = some false := by
        unfold pendingAt
        by_cases hin : P (2 ^ b) (bucket h key (2 ^ b - 1)) T < n
        · rw [if_pos hin, iseither_eq (lt_of_lt_of_le hin r.flen)]
          have hnl : ¬ live s.f (P (2 ^ b) (bucket h key (2 ^ b - 1)) T) = true :=
            fun hc => hp ⟨hin, hc⟩
          unfold live at hnl
          simp at hnl
          simp
          exact hnl
        · rw [if_neg hin]
      rw [hpend, hwk, hwv]
      simp only [Option.bind_some, Option.pure_def]
      have hlf : ∀ j, j < n → live s.f j =
          (live s.f j && decide (j ≠ P (2 ^ b) (bucket h key (2 ^ b - 1)) T)) := by
        intro j hj
        by_cases hji : j = P (2 ^ b) (bucket h key (2 ^ b - 1)) T
        · have : live s.f j = false := by
            have : ¬ live s.f j = true := fun hc => hp ⟨hji ▸ hj, hji ▸ hc⟩
            simpa using this
          rw [this]; rfl
        · simp [hji]
      have r' := place r hT h1 h2 hgl hgE hgD rfl hlf (hand := []) (by
        by_cases hin : P (2 ^ b) (bucket h key (2 ^ b - 1)) T < n
        · rw [if_pos hin]
          have : ¬ live s.f (P (2 ^ b) (bucket h key (2 ^ b - 1)) T) = true :=
            fun hc => hp ⟨hin, hc⟩
          simp [slotOf, this]
        · rw [if_neg hin]; rfl)
      exact ⟨_, rfl, r', fun j _ hl => hl⟩

/-- The loop over the old buckets moves everything. -/
theorem rehash_spec {n b : Nat} (hb : 2 ≤ b) {M : List (K × Option V)} (hM : M.length < 2 ^ b) :
    ∀ m j (s : RS K V), j + m = n → RI h n (2 ^ b) s [] M →
      (∀ i, i < j → live s.f i = false) →
      ∃ s', rehash h n (2 ^ b) m j s = some s' ∧ RI h n (2 ^ b) s' [] M ∧
        ∀ i, i < n → live s'.f i = false := by
  intro m
  induction m with
  | zero =>
    intro j s hj r hl
    exact ⟨s, rfl, r, fun i hi => hl i (by omega)⟩
  | succ m ih =>
    intro j s hj r hl
    unfold rehash
    have hjn : j < n := by omega
    rw [iseither_eq (lt_of_lt_of_le hjn r.flen)]
    simp only [Option.bind_eq_bind, Option.bind_some]
    by_cases hlj : live s.f j = true
    · have hlj' := hlj
      unfold live at hlj'
      simp only [Bool.and_eq_true, Bool.not_eq_true'] at hlj'
      rw [hlj'.1, hlj'.2]
      simp only [Bool.or_self, Bool.false_eq_true, if_false]
      obtain ⟨k, hk⟩ := r.iniF j hjn hlj
      have hv : s.vals[j]? = some ((s.vals[j]?).join) := by
        rw [List.getElem?_eq_getElem (by rw [r.vl]; omega)]; simp
      obtain ⟨f', hsf, hfl, hfE, hfD⟩ := setDelTrue_spec (lt_of_lt_of_le hjn r.flen)
      rw [hk, hsf]
      simp only [Option.bind_some]
      rw [hv, Option.bind_some]
      have hlf' : ∀ i, live f' i = (live s.f i && decide (i ≠ j)) := by
        intro i
        unfold live
        rw [hfE, hfD]
        by_cases hi : i = j
        · simp [hi]
        · simp [hi]
      have r1 : RI h n (2 ^ b) { s with f := f' } [(k, (s.vals[j]?).join)] M := by
        constructor
        · show n ≤ 16 * f'.length
          rw [hfl]; exact r.flen
        · exact r.glen
        · exact r.kl
        · exact r.vl
        · exact r.gD
        · intro i hin hib hli
          have hli : live f' i = true := hli
          rw [hlf'] at hli
          simp only [Bool.and_eq_true] at hli
          exact r.disj i hin hib hli.1
        · intro i hin hli
          have hli : live f' i = true := hli
          rw [hlf'] at hli
          simp only [Bool.and_eq_true] at hli
          exact r.iniF i hin hli.1
        · exact r.iniG
        · exact r.path
        · refine List.Perm.trans ?_ r.perm
          obtain ⟨l, hl1, hl2⟩ := filterMap_update (f := slotOf s.f s.keys s.vals)
            (g := slotOf f' s.keys s.vals) hjn (by
              intro i _ hij
              unfold slotOf
              rw [hlf']; simp [hij])
          have a1 : slotOf s.f s.keys s.vals j = some (k, (s.vals[j]?).join) := slotOf_eq hlj hk
          have a2 : slotOf f' s.keys s.vals j = none := by
            unfold slotOf; rw [hlf']; simp
          rw [a1] at hl1
          rw [a2] at hl2
          simp only [Option.toList_none, Option.toList_some, List.nil_append, List.cons_append]
            at hl1 hl2
          have hF : (contentOf s.f s.keys s.vals n).Perm
            ((k, (s.vals[j]?).join) :: contentOf f' s.keys s.vals n) :=
            hl1.trans (List.Perm.cons _ hl2.symm)
          show (contentOf f' s.keys s.vals n ++ contentOf s.g s.keys s.vals (2 ^ b) ++
            [(k, (s.vals[j]?).join)]).Perm (contentOf s.f s.keys s.vals n ++
            contentOf s.g s.keys s.vals (2 ^ b) ++ [])
          rw [List.append_nil]
          refine List.Perm.trans List.perm_append_comm ?_
          rw [← List.append_assoc]
          exact List.Perm.append_right _ hF.symm
      obtain ⟨s', e1, e2, e3⟩ := kick_spec hb hM (n + 1) { s with f := f' } k _ r1 (by
        show (contentOf f' s.keys s.vals n).length < n + 1
        have : (contentOf f' s.keys s.vals n).length ≤ (List.range n).length :=
          List.length_filterMap_le _ _
        simp at this; omega)
      rw [e1]
      simp only [Option.bind_some]
      exact ih (j + 1) s' (by omega) e2 (by
        intro i hi
        by_contra hc
        have hc : live s'.f i = true := by simpa using hc
        have := e3 i (by omega) hc
        have this : live f' i = true := this
        rw [hlf'] at this
        simp only [Bool.and_eq_true, decide_eq_true_eq] at this
        have h2 := hl i (by omega)
        rw [this.1] at h2; cases h2)
    · have hE : (E s.f j || D s.f j) = true := by
        unfold live at hlj
        simp at hlj
        simp
        by_cases hE : E s.f j = true
        · exact Or.inl hE
        · exact Or.inr (hlj (by simpa using hE))
      rw [if_pos hE]
      exact ih (j + 1) s (by omega) r (by
        intro i hi
        by_cases hij : i = j
        · subst hij; simpa using hlj
        · exact hl i (by omega))

theorem rd_realloc {α : Type} {m : Mem α} {n i : Nat} (hi : i < n) : rd (realloc m n) i = rd m i := by
  unfold rd realloc
  by_cases him : i < m.length
  · rw [List.getElem?_append_left (by simp; omega), List.getElem?_take_of_lt hi]
  · rw [List.getElem?_append_right (by simp; omega), List.getElem?_eq_none (l := m) (by omega)]
    rw [List.getElem?_replicate]
    split <;> rfl

theorem length_realloc {α : Type} (m : Mem α) (n : Nat) : (realloc m n).length = n := by
  unfold realloc; simp; omega

theorem contentOf_fresh (n : Nat) (hn : n ≤ 16 * fsize n) (keys : Mem K) (vals : Mem V) :
    contentOf (freshFlags n) keys vals n = [] := by
  unfold contentOf
  rw [List.filterMap_eq_nil_iff]
  intro i hi
  have hi := List.mem_range.mp hi
  have := fresh_E n i (by omega)
  simp [slotOf, live, this]

/-- Resizing keeps the contents; it either does nothing or moves to the requested size. -/
theorem kresize_inv {t : Tbl K V} (ht : Inv h t) (m : BitVec 64) :
    ∃ t', kresize h t m = some t' ∧ Inv h t' ∧ t'.content.Perm t.content ∧
      t'.size = t.size ∧
      ((t' = t ∧ upper (roundUp m) ≤ t.size) ∨
       (t.size < upper (roundUp m) ∧ Full h t' ∧ t'.nb = roundUp m ∧ t'.nocc = t.size)) := by
  obtain ⟨b, hb, hb', he⟩ := roundUp_pow m
  have h4 : 2 ^ 2 ≤ 2 ^ b := Nat.pow_le_pow_right (by omega) hb
  unfold kresize
  rw [he]
  by_cases hsz : t.size ≥ upper (2 ^ b)
  · refine ⟨t, ?_, ht, List.Perm.refl _, rfl, Or.inl ⟨rfl, hsz⟩⟩
    simp [hsz]
  · have hsize : t.size = t.content.length ∧ (t.content.map Prod.fst).Nodup ∧
        t.nb ≤ 16 * t.flags.length ∧ t.keys.length = t.nb ∧ t.vals.length = t.nb ∧
        (∀ i, i < t.nb → live t.flags i = true → ∃ k, rd t.keys i = some k) := by
      rcases ht with rfl | ht
      · refine ⟨rfl, by simp [Tbl.content, Tbl.empty, contentOf], Nat.zero_le _, rfl, rfl, ?_⟩
        intro i hi; exact absurd hi (by simp [Tbl.empty])
      · obtain ⟨b', hb1, _, hb2⟩ := ht.pow
        refine ⟨ht.sz, ht.nd, ?_, ht.kl, ht.vl, ht.ini⟩
        rw [ht.fl, hb2]; exact pow_le_fsize hb1
    obtain ⟨hs1, hnd, hfl, hkl, hvl, hini⟩ := hsize
    have hlt : t.content.length < 2 ^ b := by
      have := upper_lt (n := 2 ^ b) (by omega)
      omega
    -- initial state of the loop
    generalize hk0 : (if t.nb < 2 ^ b then realloc t.keys (2 ^ b) else t.keys) = keys0
    generalize hv0 : (if t.nb < 2 ^ b then realloc t.vals (2 ^ b) else t.vals) = vals0
    have hrk : ∀ i, i < t.nb → rd keys0 i = rd t.keys i := by
      intro i hi
      rw [← hk0]; split
      · exact rd_realloc (by omega)
      · rfl
    have hrv : ∀ i, i < t.nb → (vals0[i]?).join = (t.vals[i]?).join := by
      intro i hi
      rw [← hv0]; split
      · exact rd_realloc (by omega)
      · rfl
    have hr0 : RI h t.nb (2 ^ b) ⟨t.flags, keys0, vals0, freshFlags (2 ^ b)⟩ [] t.content := by
      have hfs := pow_le_fsize hb
      constructor
      · exact hfl
      · exact fresh_length _
      · show keys0.length = _
        rw [← hk0]; split
        · rw [length_realloc]; omega
        · rw [hkl]; omega
      · show vals0.length = _
        rw [← hv0]; split
        · rw [length_realloc]; omega
        · rw [hvl]; omega
      · intro i hi; exact fresh_D _ _ (by omega)
      · intro i _ hi _; exact fresh_E _ _ (by omega)
      · intro i hi hl
        obtain ⟨k, hk⟩ := hini i hi hl
        exact ⟨k, (hrk i hi).trans hk⟩
      · intro i hi hE
        have : E (freshFlags (2 ^ b)) i = true := fresh_E _ _ (by omega)
        rw [show E (freshFlags (2 ^ b)) i = false from hE] at this; cases this
      · intro i hi hE
        have : E (freshFlags (2 ^ b)) i = true := fresh_E _ _ (by omega)
        rw [show E (freshFlags (2 ^ b)) i = false from hE] at this; cases this
      · show (contentOf t.flags keys0 vals0 t.nb ++ contentOf (freshFlags (2 ^ b)) keys0 vals0 (2 ^ b)
          ++ []).Perm t.content
        rw [contentOf_fresh _ hfs, List.append_nil, List.append_nil]
        rw [contentOf_congr (f := t.flags) (keys := t.keys) (vals := t.vals) ?_]
        · exact List.Perm.refl _
        · intro i hi
          unfold slotOf
          rw [hrk i hi, hrv i hi]
    obtain ⟨s', e1, e2, e3⟩ := rehash_spec hb hlt t.nb 0 _ (by omega) hr0 (by omega)
    simp only [hsz, if_false, Option.bind_eq_bind, Option.pure_def, ge_iff_le, gt_iff_lt, hk0, hv0]
    rw [e1, Option.bind_some]
    generalize hk1 : (if 2 ^ b < t.nb then realloc s'.keys (2 ^ b) else s'.keys) = keys1
    generalize hv1 : (if 2 ^ b < t.nb then realloc s'.vals (2 ^ b) else s'.vals) = vals1
    have hrk1 : ∀ i, i < 2 ^ b → rd keys1 i = rd s'.keys i := by
      intro i hi
      rw [← hk1]; split
      · exact rd_realloc (by omega)
      · rfl
    have hrv1 : ∀ i, i < 2 ^ b → (vals1[i]?).join = (s'.vals[i]?).join := by
      intro i hi
      rw [← hv1]; split
      · exact rd_realloc (by omega)
      · rfl
    have hcont : contentOf s'.g keys1 vals1 (2 ^ b) = contentOf s'.g s'.keys s'.vals (2 ^ b) := by
      apply contentOf_congr
      intro i hi
      unfold slotOf
      rw [hrk1 i hi, hrv1 i hi]
    have hemp : contentOf s'.f s'.keys s'.vals t.nb = [] := by
      unfold contentOf
      rw [List.filterMap_eq_nil_iff]
      intro i hi
      simp [slotOf, e3 i (List.mem_range.mp hi)]
    have hperm : (contentOf s'.g s'.keys s'.vals (2 ^ b)).Perm t.content := by
      have := e2.perm
      rw [hemp, List.nil_append, List.append_nil] at this
      exact this
    have hoc := occ_le e2
    rw [hemp] at hoc
    simp only [List.length_nil, Nat.add_zero] at hoc
    refine ⟨_, rfl, ?_⟩
    have hfull : Full h (⟨2 ^ b, t.size, t.size, upper (2 ^ b), s'.g, keys1, vals1⟩ : Tbl K V) := by
      constructor
      · exact ⟨b, hb, hb', rfl⟩
      · exact e2.glen
      · show keys1.length = 2 ^ b
        rw [← hk1]; split
        · exact length_realloc _ _
        · have := e2.kl; omega
      · show vals1.length = 2 ^ b
        rw [← hv1]; split
        · exact length_realloc _ _
        · have := e2.vl; omega
      · show t.size = (contentOf s'.g keys1 vals1 (2 ^ b)).length
        rw [hcont, hperm.length_eq, hs1]
      · show t.size = cnt (fun i => !E s'.g i) (2 ^ b)
        rw [hoc, hs1]
      · rfl
      · show t.size ≤ upper (2 ^ b)
        omega
      · intro i hi hl
        have hi : i < 2 ^ b := hi
        have hl : live s'.g i = true := hl
        rw [live_g e2 hi] at hl
        obtain ⟨k, hk⟩ := e2.iniG i hi (by simpa using hl)
        exact ⟨k, (hrk1 i hi).trans hk⟩
      · show ((contentOf s'.g keys1 vals1 (2 ^ b)).map Prod.fst).Nodup
        rw [hcont, (hperm.map Prod.fst).nodup_iff]
        exact hnd
      · intro i hi hl k hk
        have hi : i < 2 ^ b := hi
        have hl : live s'.g i = true := hl
        rw [live_g e2 hi] at hl
        exact e2.path i hi (by simpa using hl) k ((hrk1 i hi).symm.trans hk)
    refine ⟨Or.inr hfull, ?_, rfl, Or.inr ⟨by omega, hfull, rfl, rfl⟩⟩
    show (contentOf s'.g keys1 vals1 (2 ^ b)).Perm t.content
    rw [hcont]; exact hperm

/-- `_kh_put` makes room before inserting. -/
theorem putGrow_spec {t : Tbl K V} (ht : Inv h t) (hnb : t.nb ≤ 2 ^ 60) :
    ∃ t', putGrow h t = some t' ∧ Full h t' ∧ t'.nocc < t'.ub ∧ t'.content.Perm t.content ∧
      t'.nb ≤ max t.nb (max 4 (4 * t.size)) := by
  have empt : upper 4 = 3 := rfl
  unfold putGrow
  by_cases hc : t.nocc ≥ t.ub
  · rw [if_pos hc]
    rcases ht with rfl | ht
    · have hr : roundUp (BitVec.ofNat 64 (Tbl.empty (K := K) (V := V)).nb + 1) = 4 := by
        show roundUp (BitVec.ofNat 64 0 + 1) = 4
        decide
      obtain ⟨t', e1, e2, e3, e4, e5⟩ := kresize_inv (h := h) (t := (Tbl.empty : Tbl K V)) (Or.inl rfl)
        (BitVec.ofNat 64 (Tbl.empty (K := K) (V := V)).nb + 1)
      rw [hr, empt] at e5
      rcases e5 with ⟨-, hbad⟩ | ⟨a1, a2, a3, a4⟩
      · exact absurd hbad (by simp [Tbl.empty])
      · refine ⟨t', ?_, a2, ?_, e3, ?_⟩
        · rw [if_neg (by simp [Tbl.empty])]; exact e1
        · rw [a4, a2.ubd, a3]; simp [Tbl.empty, empt]
        · rw [a3]; omega
    · obtain ⟨b, hb, hb', he⟩ := ht.pow
      have h4 : 2 ^ 2 ≤ 2 ^ b := Nat.pow_le_pow_right (by omega) hb
      have hb60 : b ≤ 60 := by
        rw [he] at hnb
        exact (Nat.pow_le_pow_iff_right (by omega)).mp hnb
      have hsl : t.size <<< 1 = 2 * t.size := shl1 _
      have hso : t.size ≤ t.nb := by
        rw [ht.sz]
        have : t.content.length ≤ (List.range t.nb).length := List.length_filterMap_le _ _
        simpa using this
      by_cases hg : t.nb > t.size <<< 1
      · rw [if_pos hg]
        have hr : roundUp (BitVec.ofNat 64 t.nb - 1) = t.nb := by
          rw [he]; exact roundUp_pred hb hb'
        obtain ⟨t', e1, e2, e3, e4, e5⟩ := kresize_inv (Or.inr ht : Inv h t)
          (BitVec.ofNat 64 t.nb - 1)
        rw [hr] at e5
        have hup := upper_half (n := t.nb) (by omega)
        rcases e5 with ⟨-, hbad⟩ | ⟨a1, a2, a3, a4⟩
        · omega
        · exact ⟨t', e1, a2, by rw [a4, a2.ubd, a3]; exact a1, e3, by omega⟩
      · rw [if_neg hg]
        have hr : roundUp (BitVec.ofNat 64 t.nb + 1) = 2 * t.nb := by
          rw [he]; exact roundUp_succ hb (by omega)
        obtain ⟨t', e1, e2, e3, e4, e5⟩ := kresize_inv (Or.inr ht : Inv h t)
          (BitVec.ofNat 64 t.nb + 1)
        rw [hr] at e5
        have hup := upper_half (n := 2 * t.nb) (by omega)
        rcases e5 with ⟨-, hbad⟩ | ⟨a1, a2, a3, a4⟩
        · omega
        · exact ⟨t', e1, a2, by rw [a4, a2.ubd, a3]; exact a1, e3, by omega⟩
  · rw [if_neg hc]
    rcases ht with rfl | ht
    · exact absurd (by simp [Tbl.empty]) hc
    · exact ⟨t, rfl, ht, by omega, List.Perm.refl _, by omega⟩

/-- `_kh_put`: after it the key has a bucket; nothing else changes. -/
theorem kput_spec {t : Tbl K V} (ht : Inv h t) (hnb : t.nb ≤ 2 ^ 60) (key : K) :
    ∃ t' ret x v, kput h t key = some (t', ret, x) ∧ Full h t' ∧ x < t'.nb ∧
      t'.nb ≤ max t.nb (max 4 (4 * t.size)) ∧
      slotOf t'.flags t'.keys t'.vals x = some (key, v) ∧
      ((ret = 0 ∧ (key, v) ∈ t.content ∧ t'.content.Perm t.content) ∨
       (ret ≠ 0 ∧ (∀ w, (key, w) ∉ t.content) ∧ t'.content.Perm ((key, v) :: t.content))) := by
  obtain ⟨t1, g1, g2, g3, g4, g5⟩ := putGrow_spec ht hnb
  obtain ⟨t', ret, x, v, p1, p2, p3, p4, p5, p6⟩ := put_room g2 key g3
  refine ⟨t', ret, x, v, ?_, p2, p4, by omega, p5, ?_⟩
  · unfold kput; rw [g1]; exact p1
  · rcases p6 with ⟨a, rfl⟩ | ⟨a, c, d⟩
    · exact Or.inl ⟨a, g4.mem_iff.mp (mem_contentOf.mpr ⟨x, p4, p5⟩), g4⟩
    · exact Or.inr ⟨a, fun w hw => c w (g4.mem_iff.mpr hw), d.trans (List.Perm.cons _ g4)⟩

end

end Codon.KHash
