import Verif.KHash.Probe
import Mathlib.Data.List.Nodup

/-! Representation invariant of the table and correctness of the internal operations. -/

namespace Codon.KHash

/-- Bucket `i` is in use. -/
def live (fl : Flags) (i : Nat) : Bool := !E fl i && !D fl i

section
set_option linter.unusedSectionVars false
set_option linter.unusedSimpArgs false
set_option linter.unusedVariables false

variable {K V : Type} [DecidableEq K] (h : K → BitVec 64)

/-- Content of bucket `i`. -/
def slotOf (fl : Flags) (keys : Mem K) (vals : Mem V) (i : Nat) : Option (K × Option V) :=
  if live fl i then (rd keys i).map fun k => (k, (vals[i]?).join) else none

/-- All contents of the first `n` buckets. -/
def contentOf (fl : Flags) (keys : Mem K) (vals : Mem V) (n : Nat) : List (K × Option V) :=
  (List.range n).filterMap (slotOf fl keys vals)

def Tbl.content (t : Tbl K V) : List (K × Option V) := contentOf t.flags t.keys t.vals t.nb

/-- Number of buckets below `n` satisfying `p`. -/
def cnt (p : Nat → Bool) (n : Nat) : Nat := (List.range n).countP p

/-- Invariant of a table with allocated storage. -/
structure Full (t : Tbl K V) : Prop where
  pow : ∃ b, 2 ≤ b ∧ b ≤ 62 ∧ t.nb = 2 ^ b
  fl : t.flags.length = fsize t.nb
  kl : t.keys.length = t.nb
  vl : t.vals.length = t.nb
  sz : t.size = t.content.length
  oc : t.nocc = cnt (fun i => !E t.flags i) t.nb
  ubd : t.ub = upper t.nb
  le : t.nocc ≤ t.ub
  ini : ∀ i, i < t.nb → live t.flags i = true → ∃ k, rd t.keys i = some k
  nd : (t.content.map Prod.fst).Nodup
  path : ∀ i, i < t.nb → live t.flags i = true → ∀ k, rd t.keys i = some k →
    ∃ r, r < t.nb ∧ P t.nb (bucket h k (t.nb - 1)) r = i ∧
      ∀ s, s < r → E t.flags (P t.nb (bucket h k (t.nb - 1)) s) = false

/-- Invariant of every table reachable through the API. -/
def Inv (t : Tbl K V) : Prop := t = Tbl.empty ∨ Full h t

/-! ### Lists indexed by buckets -/

theorem filterMap_update {α : Type} {f g : Nat → Option α} {n x : Nat} (hx : x < n)
    (hne : ∀ i, i < n → i ≠ x → g i = f i) :
    ∃ l, ((List.range n).filterMap f).Perm ((f x).toList ++ l) ∧
      ((List.range n).filterMap g).Perm ((g x).toList ++ l) := by
  have hp : (List.range n).Perm (x :: (List.range n).erase x) :=
    List.perm_cons_erase (List.mem_range.mpr hx)
  have hnd : ((List.range n).erase x).Nodup := (List.nodup_range).erase x
  have hmem : ∀ i ∈ (List.range n).erase x, i ≠ x ∧ i < n := by
    intro i hi
    rw [(List.nodup_range).mem_erase_iff] at hi
    exact ⟨hi.1, List.mem_range.mp hi.2⟩
  have hc : ((List.range n).erase x).filterMap g = ((List.range n).erase x).filterMap f := by
    apply List.filterMap_congr
    intro i hi
    exact hne i (hmem i hi).2 (hmem i hi).1
  refine ⟨((List.range n).erase x).filterMap f, ?_, ?_⟩
  · refine (hp.filterMap f).trans ?_
    rw [List.filterMap_cons]
    cases f x <;> simp
  · refine (hp.filterMap g).trans ?_
    rw [List.filterMap_cons, hc]
    cases g x <;> simp

theorem cnt_update {p q : Nat → Bool} {n x : Nat} (hx : x < n)
    (hne : ∀ i, i < n → i ≠ x → q i = p i) :
    cnt q n + (p x).toNat = cnt p n + (q x).toNat := by
  have hp : (List.range n).Perm (x :: (List.range n).erase x) :=
    List.perm_cons_erase (List.mem_range.mpr hx)
  have hc : ((List.range n).erase x).countP q = ((List.range n).erase x).countP p := by
    apply List.countP_congr
    intro i hi
    rw [(List.nodup_range).mem_erase_iff] at hi
    rw [hne i (List.mem_range.mp hi.2) hi.1]
  unfold cnt
  rw [hp.countP_eq, hp.countP_eq, List.countP_cons, List.countP_cons, hc]
  cases p x <;> cases q x <;> simp

theorem cnt_lt_exists {p : Nat → Bool} {n : Nat} (hc : cnt p n < n) : ∃ i, i < n ∧ p i = false := by
  by_contra hcon
  have : cnt p n = n := by
    unfold cnt
    have : (List.range n).countP p = (List.range n).length := by
      rw [List.countP_eq_length]
      intro i hi
      have := not_exists.mp hcon i
      simp only [not_and, Bool.not_eq_false] at this
      exact this (List.mem_range.mp hi)
    simpa using this
  omega

theorem cnt_mono {p q : Nat → Bool} {n : Nat} (hpq : ∀ i, i < n → p i = true → q i = true) :
    cnt p n ≤ cnt q n := by
  unfold cnt
  apply List.countP_mono_left
  intro i hi
  exact hpq i (List.mem_range.mp hi)

theorem cnt_le (p : Nat → Bool) (n : Nat) : cnt p n ≤ n := by
  unfold cnt
  have := List.countP_le_length (p := p) (l := List.range n)
  simpa using this

theorem mem_contentOf {fl : Flags} {keys : Mem K} {vals : Mem V} {n : Nat} {p : K × Option V} :
    p ∈ contentOf fl keys vals n ↔ ∃ i, i < n ∧ slotOf fl keys vals i = some p := by
  unfold contentOf
  rw [List.mem_filterMap]
  simp only [List.mem_range]

theorem length_contentOf {fl : Flags} {keys : Mem K} {vals : Mem V} {n : Nat}
    (ini : ∀ i, i < n → live fl i = true → ∃ k, rd keys i = some k) :
    (contentOf fl keys vals n).length = cnt (live fl) n := by
  unfold contentOf cnt
  rw [List.length_filterMap_eq_countP]
  apply List.countP_congr
  intro i hi
  have hi := List.mem_range.mp hi
  unfold slotOf
  by_cases hl : live fl i = true
  · obtain ⟨k, hk⟩ := ini i hi hl
    simp [hl, hk]
  · simp [hl]

theorem slot_inj {fl : Flags} {keys : Mem K} {vals : Mem V} {n : Nat}
    (nd : ((contentOf fl keys vals n).map Prod.fst).Nodup) {i j : Nat} (hi : i < n) (hj : j < n)
    {k : K} {v w : Option V} (h1 : slotOf fl keys vals i = some (k, v))
    (h2 : slotOf fl keys vals j = some (k, w)) : i = j := by
  unfold contentOf at nd
  rw [List.Nodup, List.pairwise_map, List.pairwise_filterMap] at nd
  rw [List.pairwise_iff_getElem] at nd
  rcases Nat.lt_trichotomy i j with hlt | he | hlt
  · have := nd i j (by simpa using hi) (by simpa using hj) hlt (k, v) (by simpa using h1) (k, w)
      (by simpa using h2)
    exact absurd rfl this
  · exact he
  · have := nd j i (by simpa using hj) (by simpa using hi) hlt (k, w) (by simpa using h2) (k, v)
      (by simpa using h1)
    exact absurd rfl this

theorem slotOf_live {fl : Flags} {keys : Mem K} {vals : Mem V} {i : Nat} {p : K × Option V}
    (hs : slotOf fl keys vals i = some p) : live fl i = true ∧ rd keys i = some p.1 ∧
      (vals[i]?).join = p.2 := by
  unfold slotOf at hs
  split at hs
  · rename_i hl
    refine ⟨hl, ?_⟩
    cases hr : rd keys i with
    | none => simp [hr] at hs
    | some k => simp [hr] at hs; subst hs; simp
  · cases hs

theorem slotOf_eq {fl : Flags} {keys : Mem K} {vals : Mem V} {i : Nat} {k : K}
    (hl : live fl i = true) (hr : rd keys i = some k) :
    slotOf fl keys vals i = some (k, (vals[i]?).join) := by
  simp [slotOf, hl, hr]

/-! ### Geometry -/

theorem pow_le_fsize {b : Nat} (hb : 2 ≤ b) : 2 ^ b ≤ 16 * fsize (2 ^ b) := by
  unfold fsize
  rw [shr4]
  split
  · omega
  · rename_i hlt
    have h4 : 4 ≤ b := by
      by_contra hc
      have : 2 ^ b ≤ 2 ^ 3 := Nat.pow_le_pow_right (by omega) (by omega)
      omega
    have : 16 ∣ 2 ^ b := by
      have := Nat.pow_dvd_pow 2 h4
      simpa using this
    omega

theorem bucket_lt (key : K) {b : Nat} : bucket h key (2 ^ b - 1) < 2 ^ b := by
  unfold bucket
  rw [mask_mod]
  exact Nat.mod_lt _ (by positivity)

theorem upper_lt {n : Nat} (hn : 4 ≤ n) : upper n < n := by unfold upper; omega
theorem upper_half {n : Nat} (hn : 4 ≤ n) : n / 2 < upper n := by unfold upper; omega

/-! ### Loops -/

/-- The condition on which the probe loops stop. -/
def stop (t : Tbl K V) (key : K) (i : Nat) : Bool :=
  E t.flags i || (!D t.flags i && decide (rd t.keys i = some key))

variable {h}

theorem Full.flr {t : Tbl K V} (ht : Full h t) {i : Nat} (hi : i < t.nb) :
    i < 16 * t.flags.length := by
  obtain ⟨b, hb, hb', he⟩ := ht.pow
  rw [ht.fl, he]
  have := pow_le_fsize hb
  omega

theorem goOn_eq {t : Tbl K V} (ht : Full h t) (key : K) {i : Nat} (hi : i < t.nb) :
    goOn t key i = some (!stop t key i) := by
  unfold goOn stop
  rw [isempty_eq (ht.flr hi), isdel_eq (ht.flr hi)]
  have hini := ht.ini i hi
  unfold live at hini
  cases hE : E t.flags i
  · cases hD : D t.flags i
    · rw [hE, hD] at hini
      obtain ⟨k, hk⟩ := hini rfl
      rw [hk]
      simp
    · simp
  · simp

/-- A probe sequence in a full table always reaches a stopping bucket. -/
theorem exists_stop {t : Tbl K V} (ht : Full h t) (key : K) :
    ∃ T, T < t.nb ∧ stop t key (P t.nb (bucket h key (t.nb - 1)) T) = true ∧
      ∀ s, s < T → stop t key (P t.nb (bucket h key (t.nb - 1)) s) = false := by
  obtain ⟨b, hb, hb', he⟩ := ht.pow
  have h4 : 2 ^ 2 ≤ 2 ^ b := Nat.pow_le_pow_right (by omega) hb
  have hlt : cnt (fun i => !E t.flags i) t.nb < t.nb := by
    rw [← ht.oc]
    have := upper_lt (n := t.nb) (by omega)
    have := ht.le
    rw [ht.ubd] at this
    omega
  obtain ⟨e, he1, he2⟩ := cnt_lt_exists hlt
  have he2 : E t.flags e = true := by simpa using he2
  rw [he] at he1
  obtain ⟨r, hr1, hr2⟩ := P_surj b (bucket h key (2 ^ b - 1)) e he1
  have hex : ∃ T, stop t key (P t.nb (bucket h key (t.nb - 1)) T) = true := by
    refine ⟨r, ?_⟩
    rw [he, hr2]
    simp [stop, he2]
  refine ⟨Nat.find hex, ?_, Nat.find_spec hex, ?_⟩
  · refine lt_of_le_of_lt (Nat.find_min' hex (m := r) ?_) (by omega)
    rw [he, hr2]
    simp [stop, he2]
  · intro s hs
    simpa using Nat.find_min hex hs

theorem getLoop_run {t : Tbl K V} (ht : Full h t) (key : K) {T : Nat} (hT : T < t.nb)
    (h1 : stop t key (P t.nb (bucket h key (t.nb - 1)) T) = true)
    (h2 : ∀ s, s < T → stop t key (P t.nb (bucket h key (t.nb - 1)) s) = false) :
    ∀ fuel s, s ≤ T → T - s < fuel →
      getLoop t key (t.nb - 1) (bucket h key (t.nb - 1)) fuel s
          (P t.nb (bucket h key (t.nb - 1)) s) =
        some (if live t.flags (P t.nb (bucket h key (t.nb - 1)) T) then
          P t.nb (bucket h key (t.nb - 1)) T else t.nb) := by
  obtain ⟨b, hb, hb', he⟩ := ht.pow
  have hpos : 0 < t.nb := by omega
  intro fuel
  induction fuel with
  | zero => intro s _ hf; omega
  | succ fuel ih =>
    intro s hs hf
    unfold getLoop
    rw [goOn_eq ht key (P_lt hpos _ _)]
    by_cases hsT : s = T
    · subst hsT
      rw [h1, iseither_eq (ht.flr (P_lt hpos _ _))]
      simp only [Bool.not_true, Option.bind_eq_bind, Option.bind_some, Option.pure_def, live,
        Bool.false_eq_true, if_false]
      by_cases hE : E t.flags (P t.nb (bucket h key (t.nb - 1)) s) = true <;>
        by_cases hD : D t.flags (P t.nb (bucket h key (t.nb - 1)) s) = true <;> simp [hE, hD]
    · have hlt : s < T := by omega
      rw [h2 s hlt]
      have e1 : (P t.nb (bucket h key (t.nb - 1)) s + (s + 1)) &&& (t.nb - 1) =
          P t.nb (bucket h key (t.nb - 1)) (s + 1) := by
        rw [he]; exact P_succ b _ s
      simp only [Bool.not_false, Option.bind_eq_bind, Option.bind_some, if_true]
      rw [e1, if_neg, ih (s + 1) (by omega) (by omega)]
      have hb0 : bucket h key (t.nb - 1) < 2 ^ b := by rw [he]; exact bucket_lt h key
      rw [← P_zero (n := t.nb) (a := bucket h key (t.nb - 1)) (by omega)]
      rw [P_zero (n := t.nb) (a := bucket h key (t.nb - 1)) (by omega)]
      have := P_inj (b := b) (a := bucket h key (t.nb - 1)) (s := 0) (t := s + 1) (by omega) (by omega)
      rw [P_zero hb0] at this
      rw [he] at this ⊢
      exact fun hc => this hc.symm

/-- `_kh_get` finds the bucket of a stored key and otherwise reports the end. -/
theorem kget_full {t : Tbl K V} (ht : Full h t) (key : K) :
    (∃ x v, kget h t key = some x ∧ x < t.nb ∧ slotOf t.flags t.keys t.vals x = some (key, v)) ∨
    (kget h t key = some t.nb ∧ ∀ v, (key, v) ∉ t.content) := by
  obtain ⟨b, hb, hb', he⟩ := ht.pow
  have hpos : 0 < t.nb := by rw [he]; positivity
  obtain ⟨T, hT, h1, h2⟩ := exists_stop ht key
  have hrun := getLoop_run ht key hT h1 h2 (2 * t.nb) 0 (by omega) (by omega)
  have hk : kget h t key = some (if live t.flags (P t.nb (bucket h key (t.nb - 1)) T) then
          P t.nb (bucket h key (t.nb - 1)) T else t.nb) := by
    unfold kget
    rw [if_pos (by omega)]
    have hb0 : bucket h key (t.nb - 1) < t.nb := by rw [he]; exact bucket_lt h key
    rw [P_zero hb0] at hrun
    exact hrun
  by_cases hl : live t.flags (P t.nb (bucket h key (t.nb - 1)) T) = true
  · left
    rw [if_pos hl] at hk
    refine ⟨_, _, hk, P_lt hpos _ _, slotOf_eq hl ?_⟩
    unfold stop at h1
    unfold live at hl
    simp only [Bool.and_eq_true, Bool.not_eq_true'] at hl
    simpa [hl.1, hl.2] using h1
  · right
    rw [if_neg hl] at hk
    refine ⟨hk, fun v hv => ?_⟩
    obtain ⟨i, hi, hs⟩ := mem_contentOf.mp hv
    obtain ⟨hli, hri, -⟩ := slotOf_live hs
    obtain ⟨r, hr, hPr, hpath⟩ := ht.path i hi hli key hri
    have hst : stop t key (P t.nb (bucket h key (t.nb - 1)) r) = true := by
      rw [hPr]
      unfold live at hli
      simp only [Bool.and_eq_true, Bool.not_eq_true'] at hli
      have hri' : rd t.keys i = some key := hri
      simp [stop, hli.1, hli.2, hri']
    have hTr : T ≤ r := by
      by_contra hc
      rw [h2 r (by omega)] at hst; cases hst
    have hETf : E t.flags (P t.nb (bucket h key (t.nb - 1)) T) = false ∨ T = r := by
      by_cases hTr' : T = r
      · exact Or.inr hTr'
      · exact Or.inl (hpath T (by omega))
    rcases hETf with hE | hE
    · unfold stop at h1
      rw [hE] at h1
      unfold live at hl
      rw [hE] at hl
      simp at hl
      simp [hl] at h1
    · subst hE
      rw [hPr] at hl
      exact hl hli

theorem kget_inv {t : Tbl K V} (ht : Inv h t) (key : K) :
    (∃ x v, kget h t key = some x ∧ x < t.nb ∧ slotOf t.flags t.keys t.vals x = some (key, v)) ∨
    (kget h t key = some t.nb ∧ ∀ v, (key, v) ∉ t.content) := by
  rcases ht with rfl | ht
  · right
    exact ⟨rfl, fun v hv => by simp [Tbl.content, contentOf, Tbl.empty] at hv⟩
  · exact kget_full ht key

/-! ### Insertion -/

theorem putLoop_run {t : Tbl K V} (ht : Full h t) (key : K) {T : Nat} (hT : T < t.nb)
    (h1 : stop t key (P t.nb (bucket h key (t.nb - 1)) T) = true)
    (h2 : ∀ s, s < T → stop t key (P t.nb (bucket h key (t.nb - 1)) s) = false) :
    ∀ fuel s site, s ≤ T → T - s < fuel →
      ∃ site', putLoop t key (t.nb - 1) (bucket h key (t.nb - 1)) fuel s
          (P t.nb (bucket h key (t.nb - 1)) s) site =
        some (t.nb, P t.nb (bucket h key (t.nb - 1)) T, site') ∧
        (site' = site ∨ ∃ r, r < T ∧ site' = P t.nb (bucket h key (t.nb - 1)) r ∧
          D t.flags site' = true ∧ E t.flags site' = false) := by
  obtain ⟨b, hb, hb', he⟩ := ht.pow
  have hpos : 0 < t.nb := by omega
  intro fuel
  induction fuel with
  | zero => intro s _ _ hf; omega
  | succ fuel ih =>
    intro s site hs hf
    unfold putLoop
    rw [goOn_eq ht key (P_lt hpos _ _)]
    by_cases hsT : s = T
    · subst hsT
      rw [h1]
      refine ⟨site, ?_, Or.inl rfl⟩
      simp
    · have hlt : s < T := by omega
      have hst := h2 s hlt
      rw [hst, isdel_eq (ht.flr (P_lt hpos _ _))]
      have e1 : (P t.nb (bucket h key (t.nb - 1)) s + (s + 1)) &&& (t.nb - 1) =
          P t.nb (bucket h key (t.nb - 1)) (s + 1) := by
        rw [he]; exact P_succ b _ s
      simp only [Bool.not_false, Option.bind_eq_bind, Option.bind_some, if_true]
      have hne : P t.nb (bucket h key (t.nb - 1)) (s + 1) ≠ bucket h key (t.nb - 1) := by
        have hb0 : bucket h key (t.nb - 1) < 2 ^ b := by rw [he]; exact bucket_lt h key
        have := P_inj (b := b) (a := bucket h key (t.nb - 1)) (s := 0) (t := s + 1) (by omega)
          (by omega)
        rw [P_zero hb0] at this
        rw [he] at this ⊢
        exact fun hc => this hc.symm
      rw [e1, if_neg hne]
      obtain ⟨site', hr, hs'⟩ := ih (s + 1) (if D t.flags (P t.nb (bucket h key (t.nb - 1)) s) = true
        then P t.nb (bucket h key (t.nb - 1)) s else site) (by omega) (by omega)
      refine ⟨site', hr, ?_⟩
      rcases hs' with hs' | hs'
      · by_cases hD : D t.flags (P t.nb (bucket h key (t.nb - 1)) s) = true
        · rw [if_pos hD] at hs'
          right
          refine ⟨s, hlt, hs', ?_, ?_⟩
          · rw [hs']; exact hD
          · rw [hs']
            unfold stop at hst
            simp only [Bool.or_eq_false_iff] at hst
            exact hst.1
        · rw [if_neg hD] at hs'
          exact Or.inl hs'
      · exact Or.inr hs'

/-- The bucket chosen by `_kh_put`: the key's own bucket if it is stored, otherwise a free bucket
that is reached along non-empty buckets only. -/
theorem putFind_full {t : Tbl K V} (ht : Full h t) (key : K) :
    ∃ x, putFind h t key = some x ∧ x < t.nb ∧
      ((∃ v, slotOf t.flags t.keys t.vals x = some (key, v)) ∨
       (live t.flags x = false ∧ (∀ v, (key, v) ∉ t.content) ∧
        ∃ r, r < t.nb ∧ P t.nb (bucket h key (t.nb - 1)) r = x ∧
          ∀ s, s < r → E t.flags (P t.nb (bucket h key (t.nb - 1)) s) = false)) := by
  obtain ⟨b, hb, hb', he⟩ := ht.pow
  have hpos : 0 < t.nb := by rw [he]; positivity
  have hb0 : bucket h key (t.nb - 1) < t.nb := by
    have := bucket_lt h key (b := b); rw [he]; exact this
  obtain ⟨T, hT, h1, h2⟩ := exists_stop ht key
  have nonE : ∀ s, s < T → E t.flags (P t.nb (bucket h key (t.nb - 1)) s) = false := by
    intro s hs
    have := h2 s hs
    unfold stop at this
    simp only [Bool.or_eq_false_iff] at this
    exact this.1
  have absent : E t.flags (P t.nb (bucket h key (t.nb - 1)) T) = true → ∀ v, (key, v) ∉ t.content := by
    intro hE v hv
    obtain ⟨i, hi, hs⟩ := mem_contentOf.mp hv
    obtain ⟨hli, hri, -⟩ := slotOf_live hs
    obtain ⟨r, hr, hPr, hpath⟩ := ht.path i hi hli key hri
    have hri' : rd t.keys i = some key := hri
    unfold live at hli
    simp only [Bool.and_eq_true, Bool.not_eq_true'] at hli
    have hst : stop t key (P t.nb (bucket h key (t.nb - 1)) r) = true := by
      rw [hPr]; simp [stop, hli.1, hli.2, hri']
    have hTr : T ≤ r := by
      by_contra hc
      rw [h2 r (by omega)] at hst; cases hst
    by_cases hTr' : T = r
    · subst hTr'; rw [hPr, hli.1] at hE; cases hE
    · rw [hpath T (by omega)] at hE; cases hE
  obtain ⟨site', hr, hs'⟩ := putLoop_run ht key hT h1 h2 (2 * t.nb) 0 t.nb (by omega) (by omega)
  rw [P_zero hb0] at hr
  unfold putFind
  simp only [Option.bind_eq_bind, Option.pure_def]
  rw [isempty_eq (ht.flr hb0), Option.bind_some]
  by_cases hE0 : E t.flags (bucket h key (t.nb - 1)) = true
  · rw [if_pos hE0]
    refine ⟨_, rfl, hb0, Or.inr ⟨by simp [live, hE0], ?_, 0, hpos, P_zero hb0, by omega⟩⟩
    have hT0 : T = 0 := by
      by_contra hc
      have := nonE 0 (by omega)
      rw [P_zero hb0, hE0] at this; cases this
    apply absent
    rw [hT0, P_zero hb0]; exact hE0
  · rw [if_neg hE0, hr, Option.bind_some]
    simp only [if_true]
    rw [isempty_eq (ht.flr (P_lt hpos _ _)), Option.bind_some]
    by_cases hET : E t.flags (P t.nb (bucket h key (t.nb - 1)) T) = true
    · by_cases hsite : site' = t.nb
      · rw [if_neg (by simp [hsite])]
        exact ⟨_, rfl, P_lt hpos _ _, Or.inr ⟨by simp [live, hET], absent hET, T, hT, rfl, nonE⟩⟩
      · rw [if_pos (by simp [hET, hsite])]
        rcases hs' with hs' | ⟨r, hr1, hr2, hr3, hr4⟩
        · exact absurd hs' hsite
        · refine ⟨_, rfl, by rw [hr2]; exact P_lt hpos _ _,
            Or.inr ⟨by simp [live, hr3], absent hET, r, by omega, hr2.symm, fun s hs => nonE s (by omega)⟩⟩
    · rw [if_neg (by simp [hET])]
      refine ⟨_, rfl, P_lt hpos _ _, Or.inl ⟨_, slotOf_eq (i := P t.nb (bucket h key (t.nb - 1)) T) ?_ ?_⟩⟩
      · have hET' : E t.flags (P t.nb (bucket h key (t.nb - 1)) T) = false := by simpa using hET
        unfold stop at h1
        rw [hET'] at h1
        simp at h1
        simp [live, hET', h1.1]
      · unfold stop at h1
        have hET' : E t.flags (P t.nb (bucket h key (t.nb - 1)) T) = false := by simpa using hET
        rw [hET'] at h1
        simp at h1
        exact h1.2

theorem rd_set {α : Type} {m : Mem α} {i j : Nat} {a : Option α} (hi : i < m.length) :
    rd (m.set i a) j = if j = i then a else rd m j := by
  unfold rd
  rw [List.getElem?_set]
  by_cases hij : i = j
  · subst hij; simp [hi]
  · have : ¬ j = i := fun hc => hij hc.symm
    simp [hij, this]

theorem join_set {α : Type} {m : Mem α} {i j : Nat} {a : Option α} (hi : i < m.length) :
    ((m.set i a)[j]?).join = if j = i then a else (m[j]?).join := rd_set hi

/-- Putting a new key into a free bucket reached along non-empty buckets. -/
theorem occupy_full {t : Tbl K V} (ht : Full h t) (key : K) {x : Nat} (hx : x < t.nb)
    (hl : live t.flags x = false) (habs : ∀ v, (key, v) ∉ t.content)
    {r : Nat} (hr : r < t.nb) (hP : P t.nb (bucket h key (t.nb - 1)) r = x)
    (hpath : ∀ s, s < r → E t.flags (P t.nb (bucket h key (t.nb - 1)) s) = false)
    (hroom : t.nocc < t.ub)
    {flags' : Flags} (hlen : flags'.length = t.flags.length)
    (hE : ∀ j, E flags' j = (E t.flags j && decide (j ≠ x)))
    (hD : ∀ j, D flags' j = (D t.flags j && decide (j ≠ x))) :
    let t' : Tbl K V := { t with
      keys := t.keys.set x (some key), flags := flags', size := t.size + 1,
      nocc := t.nocc + (E t.flags x).toNat }
    Full h t' ∧ ∃ v, slotOf t'.flags t'.keys t'.vals x = some (key, v) ∧
        t'.content.Perm ((key, v) :: t.content) := by
  intro t'
  have hkx : x < t.keys.length := by rw [ht.kl]; exact hx
  have hlive : ∀ j, live flags' j = (live t.flags j || decide (j = x)) := by
    intro j
    unfold live
    rw [hE, hD]
    by_cases hj : j = x
    · subst hj; simp
    · simp [hj]
  have hrd : ∀ j, rd t'.keys j = if j = x then some key else rd t.keys j := fun j => rd_set hkx
  have hslot : ∀ j, j < t.nb → j ≠ x →
      slotOf t'.flags t'.keys t'.vals j = slotOf t.flags t.keys t.vals j := by
    intro j _ hj
    unfold slotOf
    rw [hrd, if_neg hj]
    show (if live flags' j = true then _ else _) = _
    rw [hlive j]
    simp [hj, t']
  have hsx : slotOf t'.flags t'.keys t'.vals x = some (key, (t.vals[x]?).join) := by
    apply slotOf_eq
    · show live flags' x = true
      rw [hlive]; simp
    · rw [hrd, if_pos rfl]
  have hs0 : slotOf t.flags t.keys t.vals x = none := by simp [slotOf, hl]
  have hperm : t'.content.Perm ((key, (t.vals[x]?).join) :: t.content) := by
    obtain ⟨l, hl1, hl2⟩ := filterMap_update (f := slotOf t.flags t.keys t.vals)
      (g := slotOf t'.flags t'.keys t'.vals) hx hslot
    rw [hs0] at hl1
    rw [hsx] at hl2
    simp only [Option.toList_none, List.nil_append, Option.toList_some, List.cons_append] at hl1 hl2
    exact hl2.trans (List.Perm.cons _ hl1.symm)
  refine ⟨?_, _, hsx, hperm⟩
  have hocc : t'.nocc = cnt (fun i => !E t'.flags i) t'.nb := by
    have := cnt_update (p := fun i => !E t.flags i) (q := fun i => !E flags' i) hx (by
      intro i _ hi
      show (!E flags' i) = _
      rw [hE]; simp [hi])
    rw [hE x] at this
    show t.nocc + (E t.flags x).toNat = cnt (fun i => !E flags' i) t.nb
    rw [ht.oc]
    cases hEx : E t.flags x <;> simp [hEx] at this ⊢ <;> omega
  constructor
  · exact ht.pow
  · exact hlen.trans ht.fl
  · simp [t', ht.kl]
  · exact ht.vl
  · rw [hperm.length_eq]; simp [t', ht.sz]
  · exact hocc
  · exact ht.ubd
  · show t.nocc + (E t.flags x).toNat ≤ t.ub
    have : (E t.flags x).toNat ≤ 1 := Bool.toNat_le _
    omega
  · intro i hi hli
    rw [hrd]
    by_cases hix : i = x
    · exact ⟨key, by rw [if_pos hix]⟩
    · rw [if_neg hix]
      have : live flags' i = true := hli
      rw [hlive] at this
      exact ht.ini i hi (by simpa [hix] using this)
  · rw [(hperm.map Prod.fst).nodup_iff, List.map_cons, List.nodup_cons]
    refine ⟨?_, ht.nd⟩
    intro hm
    obtain ⟨p, hp, hpk⟩ := List.mem_map.mp hm
    have hpk : p.1 = key := hpk
    exact habs p.2 (by rw [show (key, p.2) = p from by rw [← hpk]]; exact hp)
  · intro i hi hli k hk
    have hEmono : ∀ j, E t.flags j = false → E t'.flags j = false := by
      intro j hj
      show E flags' j = false
      rw [hE, hj]; rfl
    rw [hrd] at hk
    by_cases hix : i = x
    · rw [if_pos hix] at hk
      cases hk
      subst hix
      exact ⟨r, hr, hP, fun s hs => hEmono _ (hpath s hs)⟩
    · rw [if_neg hix] at hk
      have : live flags' i = true := hli
      rw [hlive] at this
      obtain ⟨r', a1, a2, a3⟩ := ht.path i hi (by simpa [hix] using this) k hk
      exact ⟨r', a1, a2, fun s hs => hEmono _ (a3 s hs)⟩

/-- `_kh_put` on a table with room. -/
theorem put_room {t : Tbl K V} (ht : Full h t) (key : K) (hroom : t.nocc < t.ub) :
    ∃ t' ret x v, (do let x ← putFind h t key; putAt t key x) = some (t', ret, x) ∧
      Full h t' ∧ t'.nb = t.nb ∧ x < t'.nb ∧ slotOf t'.flags t'.keys t'.vals x = some (key, v) ∧
      ((ret = 0 ∧ t' = t) ∨
       (ret ≠ 0 ∧ (∀ w, (key, w) ∉ t.content) ∧ t'.content.Perm ((key, v) :: t.content))) := by
  obtain ⟨x, hf, hx, hcase⟩ := putFind_full ht key
  rw [hf]
  simp only [Option.bind_eq_bind, Option.bind_some]
  unfold putAt
  rw [isempty_eq (ht.flr hx), isdel_eq (ht.flr hx)]
  simp only [Option.bind_eq_bind, Option.bind_some]
  rcases hcase with ⟨v, hs⟩ | ⟨hl, habs, r, hr, hP, hpath⟩
  · obtain ⟨hli, -, -⟩ := slotOf_live hs
    unfold live at hli
    simp only [Bool.and_eq_true, Bool.not_eq_true'] at hli
    refine ⟨t, 0, x, v, ?_, ht, rfl, hx, hs, Or.inl ⟨rfl, rfl⟩⟩
    simp [hli.1, hli.2]
  · obtain ⟨flags', hset, hlen, hE, hD⟩ := setBothFalse_spec (ht.flr hx)
    obtain ⟨hfull, v, hs, hperm⟩ := occupy_full ht key hx hl habs hr hP hpath hroom hlen hE hD
    have hw : wr t.keys x (some key) = some (t.keys.set x (some key)) := by
      unfold wr; rw [if_pos (by rw [ht.kl]; exact hx)]
    by_cases hEx : E t.flags x = true
    · refine ⟨_, 1, x, v, ?_, hfull, rfl, hx, hs, Or.inr ⟨by simp, habs, hperm⟩⟩
      rw [hw, hset, hEx]; rfl
    · have hEx' : E t.flags x = false := by simpa using hEx
      have hDx : D t.flags x = true := by
        unfold live at hl
        rw [hEx'] at hl
        simpa using hl
      refine ⟨_, 2, x, v, ?_, hfull, rfl, hx, hs, Or.inr ⟨by simp, habs, hperm⟩⟩
      rw [hw, hset, hEx', hDx]; rfl

/-! ### Deletion -/

theorem kdel_full {t : Tbl K V} (ht : Full h t) {x : Nat} (hx : x < t.nb) {k : K} {v : Option V}
    (hs : slotOf t.flags t.keys t.vals x = some (k, v)) :
    ∃ t', kdel t x = some t' ∧ Full h t' ∧ t'.nb = t.nb ∧ t'.keys = t.keys ∧ t'.vals = t.vals ∧
      (∀ j, live t'.flags j = (live t.flags j && decide (j ≠ x))) ∧
      t.content.Perm ((k, v) :: t'.content) := by
  obtain ⟨hli, hrk, -⟩ := slotOf_live hs
  have hli' := hli
  unfold live at hli'
  simp only [Bool.and_eq_true, Bool.not_eq_true'] at hli'
  obtain ⟨flags', hset, hlen, hE, hD⟩ := setDelTrue_spec (ht.flr hx)
  have hlive : ∀ j, live flags' j = (live t.flags j && decide (j ≠ x)) := by
    intro j
    unfold live
    rw [hE, hD]
    by_cases hj : j = x
    · subst hj; simp
    · simp [hj]
  let t' : Tbl K V := { t with flags := flags', size := t.size - 1 }
  have hk : kdel t x = some t' := by
    unfold kdel
    rw [if_pos (by omega), iseither_eq (ht.flr hx), hli'.1, hli'.2]
    simp [hset, t']
  have hslot : ∀ j, j < t.nb → j ≠ x →
      slotOf t'.flags t'.keys t'.vals j = slotOf t.flags t.keys t.vals j := by
    intro j _ hj
    unfold slotOf
    show (if live flags' j = true then _ else _) = _
    rw [hlive j]
    simp [hj, t']
  have hsx : slotOf t'.flags t'.keys t'.vals x = none := by
    unfold slotOf
    show (if live flags' x = true then _ else _) = _
    rw [hlive]; simp
  have hperm : t.content.Perm ((k, v) :: t'.content) := by
    obtain ⟨l, hl1, hl2⟩ := filterMap_update (f := slotOf t.flags t.keys t.vals)
      (g := slotOf t'.flags t'.keys t'.vals) hx hslot
    rw [hs] at hl1
    rw [hsx] at hl2
    simp only [Option.toList_none, List.nil_append, Option.toList_some, List.cons_append] at hl1 hl2
    exact hl1.trans (List.Perm.cons _ hl2.symm)
  refine ⟨t', hk, ?_, rfl, rfl, rfl, hlive, hperm⟩
  constructor
  · exact ht.pow
  · exact hlen.trans ht.fl
  · exact ht.kl
  · exact ht.vl
  · show t.size - 1 = _
    have := hperm.length_eq
    rw [← ht.sz] at this
    simp only [List.length_cons] at this
    omega
  · show t.nocc = cnt (fun i => !E flags' i) t.nb
    rw [ht.oc]
    congr 1
    funext i
    rw [hE]
  · exact ht.ubd
  · exact ht.le
  · intro i hi hl
    have : live flags' i = true := hl
    rw [hlive] at this
    simp only [Bool.and_eq_true] at this
    exact ht.ini i hi this.1
  · have := ht.nd
    rw [(hperm.map Prod.fst).nodup_iff, List.map_cons, List.nodup_cons] at this
    exact this.2
  · intro i hi hl k' hk'
    have : live flags' i = true := hl
    rw [hlive] at this
    simp only [Bool.and_eq_true] at this
    obtain ⟨r, a1, a2, a3⟩ := ht.path i hi this.1 k' hk'
    refine ⟨r, a1, a2, fun s hs => ?_⟩
    show E flags' _ = false
    rw [hE]; exact a3 s hs

/-! ### Clearing -/

theorem kclear_inv {t : Tbl K V} (ht : Inv h t) :
    Inv h (kclear t) ∧ (kclear t).content = [] ∧ (kclear t).nb = t.nb := by
  rcases ht with rfl | ht
  · exact ⟨Or.inl rfl, rfl, rfl⟩
  · obtain ⟨b, hb, hb', he⟩ := ht.pow
    have hne : t.flags ≠ [] := by
      intro hc
      have := ht.fl
      have h2 := pow_le_fsize hb
      rw [hc, he] at this
      simp only [List.length_nil] at this
      have : 0 < 2 ^ b := by positivity
      omega
    have hfr : ∀ i, i < t.nb → E (freshFlags t.nb) i = true := by
      intro i hi
      apply fresh_E
      have := pow_le_fsize hb
      rw [he] at hi ⊢
      omega
    have hnl : ∀ i, i < t.nb → live (freshFlags t.nb) i = false := by
      intro i hi; simp [live, hfr i hi]
    have hk : kclear t = { t with flags := freshFlags t.nb, size := 0, nocc := 0 } := by
      unfold kclear; rw [if_pos hne]
    have hcont : (kclear t).content = [] := by
      rw [hk]
      unfold Tbl.content contentOf
      rw [List.filterMap_eq_nil_iff]
      intro i hi
      have hi := List.mem_range.mp hi
      simp [slotOf, hnl i hi]
    refine ⟨Or.inr ?_, hcont, by rw [hk]⟩
    constructor
    · rw [hk]; exact ht.pow
    · rw [hk]; exact fresh_length _
    · rw [hk]; exact ht.kl
    · rw [hk]; exact ht.vl
    · rw [hcont, hk]; rfl
    · rw [hk]
      show 0 = cnt _ t.nb
      symm
      unfold cnt
      rw [List.countP_eq_zero]
      intro i hi
      have hi := List.mem_range.mp hi
      simp [hfr i hi]
    · rw [hk]; exact ht.ubd
    · rw [hk]; exact Nat.zero_le _
    · rw [hk]; intro i hi hl
      rw [hnl i hi] at hl; cases hl
    · rw [hcont]; simp
    · rw [hk]; intro i hi hl
      rw [hnl i hi] at hl; cases hl

/-! ### Writing values -/

theorem setVal_full {t : Tbl K V} (ht : Full h t) {x : Nat} (hx : x < t.nb) {k : K} {v : Option V}
    (hs : slotOf t.flags t.keys t.vals x = some (k, v)) (w : V) :
    ∃ l, wr t.vals x (some w) = some (t.vals.set x (some w)) ∧
      Full h { t with vals := t.vals.set x (some w) } ∧
      t.content.Perm ((k, v) :: l) ∧
      ({ t with vals := t.vals.set x (some w) } : Tbl K V).content.Perm ((k, some w) :: l) := by
  have hvx : x < t.vals.length := by rw [ht.vl]; exact hx
  let t' : Tbl K V := { t with vals := t.vals.set x (some w) }
  have hj : ∀ j, (t'.vals[j]?).join = if j = x then some w else (t.vals[j]?).join :=
    fun j => join_set hvx
  have hslot : ∀ j, j < t.nb → j ≠ x →
      slotOf t'.flags t'.keys t'.vals j = slotOf t.flags t.keys t.vals j := by
    intro j _ hjx
    unfold slotOf
    rw [hj, if_neg hjx]
  obtain ⟨hli, hrk, -⟩ := slotOf_live hs
  have hsx : slotOf t'.flags t'.keys t'.vals x = some (k, some w) := by
    rw [slotOf_eq (k := k) hli hrk, hj, if_pos rfl]
  obtain ⟨l, hl1, hl2⟩ := filterMap_update (f := slotOf t.flags t.keys t.vals)
    (g := slotOf t'.flags t'.keys t'.vals) hx hslot
  rw [hs] at hl1
  rw [hsx] at hl2
  simp only [Option.toList_some, List.cons_append, List.nil_append] at hl1 hl2
  have hl1' : t.content.Perm ((k, v) :: l) := hl1
  have hl2' : t'.content.Perm ((k, some w) :: l) := hl2
  refine ⟨l, by unfold wr; rw [if_pos hvx], ?_, hl1', hl2'⟩
  constructor
  · exact ht.pow
  · exact ht.fl
  · exact ht.kl
  · simp [ht.vl]
  · rw [hl2'.length_eq]
    have := hl1'.length_eq
    rw [← ht.sz] at this
    simpa using this
  · exact ht.oc
  · exact ht.ubd
  · exact ht.le
  · exact ht.ini
  · have := ht.nd
    rw [(hl1'.map Prod.fst).nodup_iff] at this
    rw [(hl2'.map Prod.fst).nodup_iff]
    exact this
  · exact ht.path

end

end Codon.KHash
