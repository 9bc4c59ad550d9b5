import Verif.NpRed.Reduce
/-!
# The reducers give the right results
-/
namespace Codon.NpRed
open Codon.Numpy Codon.NpLine
variable {V S O T : Type}

/-- `accept` for all elements. -/
def acceptAll (R : Redux V S O) : List V → S → Nat → S
  | [], s, _ => s
  | v :: r, s, i => acceptAll R r (R.accept s v i) (i + 1)

theorem scan_all (R : Redux V S O) (hd : ∀ s, R.done s = false) : ∀ (l : List V) (s : S) (i : Nat), scan R (l.map some) s i = .ok (acceptAll R l s i, i + l.length)
  | [], _, _ => rfl
  | v :: l, s, i => by
    simp only [List.map_cons, scan, hd, Bool.false_eq_true, if_false, acceptAll]
    rw [scan_all R hd l]
    simp only [List.length_cons]
    congr 2
    omega

/-! ### `sum`, `prod` -/

theorem fold_out (op : T → T → T) (unit : T) (cast : V → T) (ha : ∀ x y z, op (op x y) z = op x (op y z)) (hu : ∀ x, op x unit = x) : ∀ (l : List V) (s t : T),
    op s (l.foldl (fun t v => op t (cast v)) t) = l.foldl (fun t v => op t (cast v)) (op s t)
  | [], _, _ => rfl
  | v :: l, s, t => by
    simp only [List.foldl_cons]
    rw [fold_out op unit cast ha hu l, ha]

theorem fold_law (op : T → T → T) (unit : T) (cast : V → T) (initial : T) (ha : ∀ x y z, op (op x y) z = op x (op y z)) (hu : ∀ x, op x unit = x) :
    Law (foldRedux op unit cast initial) (fun _ => True) fun vs o => o = vs.foldl (fun t v => op t (cast v)) initial := by
  have acc : ∀ (l : List V) (s : T) (i : Nat), acceptAll (foldRedux op unit cast initial) l s i = l.foldl (fun t v => op t (cast v)) s := by
    intro l
    induction l with
    | nil => intro s i; rfl
    | cons v l ih => intro s i; exact ih _ _
  refine ⟨fun l _ => ⟨_, _, _, scan_all _ (fun _ => rfl) l _ 0, rfl, acc l _ 0⟩, fun f hf => ?_, fun G hG l _ o => ?_⟩
  · injection hf with hf
    subst hf
    have one : ∀ (s : T) (l : List V), op s (l.foldl (fun t v => op t (cast v)) unit) = l.foldl (fun t v => op t (cast v)) s := fun s l => by
      rw [fold_out op unit cast ha hu, hu]
    refine ⟨fun l _ => ⟨_, rfl, fun n => ⟨_, rfl, one _ l⟩⟩, fun ls _ _ => ?_⟩
    have run : ∀ (ls : List (List V)) (s : T), runLists (fun s l (_ : Bool) => (.ok (op s (l.foldl (fun t v => op t (cast v)) unit)) : Except Fail T)) ls s =
        .ok (ls.flatten.foldl (fun t v => op t (cast v)) s) := by
      intro ls
      induction ls with
      | nil => intro s; rfl
      | cons l ls ih =>
        intro s
        simp only [runLists, List.flatten_cons, List.foldl_append]
        rw [one]
        exact ih _
    exact ⟨_, run ls _, fun n => ⟨_, rfl, rfl⟩⟩
  · injection hG with hG
    subst hG
    have : ∀ (l : List V) (k : Nat) (c : T), stepList ⟨some initial, fun c v _ => op c (cast v)⟩ l k c = l.foldl (fun t v => op t (cast v)) c := by
      intro l
      induction l with
      | nil => intro k c; rfl
      | cons v l ih => intro k c; exact ih _ _
    exact this l 0 initial

theorem fold_sym (op : T → T → T) (cast : V → T) (initial : T) (ha : ∀ x y z, op (op x y) z = op x (op y z)) (hc : ∀ x y, op x y = op y x) :
    Sym (fun _ : List V => True) fun vs o => o = vs.foldl (fun t v => op t (cast v)) initial := by
  intro l l' hp
  refine ⟨fun _ => trivial, fun o ho => ho.trans ?_⟩
  haveI : RightCommutative fun (t : T) (v : V) => op t (cast v) := ⟨fun t x y => by
    show op (op t (cast x)) (cast y) = op (op t (cast y)) (cast x)
    rw [ha, ha, hc (cast x)]⟩
  exact hp.foldl_eq initial

/-! ### `min`, `max`, `ptp` -/

theorem best_cases (lt : V → V → Bool) (m x : V) : (lt x m = true ∧ best lt m x = x) ∨ (lt x m = false ∧ best lt m x = m) := by
  unfold best
  cases h : lt x m <;> simp

theorem Linear.flip {lt : V → V → Bool} (L : Linear lt) : Linear fun x y => lt y x :=
  ⟨L.irrefl, fun x y z h1 h2 => L.trans z y x h2 h1, fun x y h1 h2 => L.total x y h2 h1⟩

theorem Linear.neg_trans {lt : V → V → Bool} (L : Linear lt) {x y z : V} (h1 : lt x y = false) (h2 : lt y z = false) : lt x z = false := by
  by_contra h
  have h : lt x z = true := by simpa using h
  cases h3 : lt y x with
  | false =>
    have := L.total x y h1 h3
    subst this
    rw [h] at h2; cases h2
  | true =>
    have := L.trans y x z h3 h
    rw [this] at h2; cases h2

/-- `m` is among `l` and nothing in `l` comes before it. -/
def Least (lt : V → V → Bool) (l : List V) (m : V) : Prop := m ∈ l ∧ ∀ x ∈ l, lt x m = false

theorem least_one {lt : V → V → Bool} (L : Linear lt) (x : V) : Least lt [x] x := ⟨by simp, fun y hy => by simp only [List.mem_singleton] at hy; subst hy; exact L.irrefl y⟩

theorem least_best {lt : V → V → Bool} (L : Linear lt) (l r : List V) (m x : V) (h1 : Least lt l m) (h2 : Least lt r x) : Least lt (l ++ r) (best lt m x) := by
  rcases best_cases lt m x with ⟨h, e⟩ | ⟨h, e⟩
  · rw [e]
    refine ⟨by simp [h2.1], fun y hy => ?_⟩
    rcases List.mem_append.mp hy with hy | hy
    · have := h1.2 y hy
      by_contra hh
      have hh : lt y x = true := by simpa using hh
      rw [L.trans y x m hh h] at this; cases this
    · exact h2.2 y hy
  · rw [e]
    refine ⟨by simp [h1.1], fun y hy => ?_⟩
    rcases List.mem_append.mp hy with hy | hy
    · exact h1.2 y hy
    · exact L.neg_trans (h2.2 y hy) h

theorem least_fold {lt : V → V → Bool} (L : Linear lt) : ∀ (r l : List V) (m : V), Least lt l m → Least lt (l ++ r) (r.foldl (best lt) m)
  | [], l, m, h => by simpa using h
  | x :: r, l, m, h => by
    have := least_fold L r (l ++ [x]) (best lt m x) (least_best L l [x] m x h (least_one L x))
    simpa using this

theorem least_same {lt : V → V → Bool} (L : Linear lt) {l : List V} {m n : V} (h1 : Least lt l m) (h2 : Least lt l n) : m = n := L.total m n (h2.2 m h1.1) (h1.2 n h2.1)

theorem best_iff (lt : V → V → Bool) (initial : Option V) (vs : List V) (m : V) : Least lt (initial.toList ++ vs) m ↔ Best lt initial vs m := by
  unfold Least Best
  cases initial with
  | none => simp
  | some i =>
    simp only [Option.toList_some, List.singleton_append, List.mem_cons, Option.some.injEq]
    constructor
    · rintro ⟨h1, h2⟩
      exact ⟨h1.symm.imp id Eq.symm, fun x hx => h2 x (Or.inr hx), fun x hx => h2 x (Or.inl hx.symm)⟩
    · rintro ⟨h1, h2, h3⟩
      refine ⟨h1.symm.imp Eq.symm id, fun x hx => ?_⟩
      rcases hx with rfl | hx
      · exact h3 x rfl
      · exact h2 x hx

theorem least_perm {lt : V → V → Bool} {l l' : List V} (hp : l.Perm l') {m : V} (h : Least lt l m) : Least lt l' m :=
  ⟨hp.mem_iff.mp h.1, fun x hx => h.2 x (hp.mem_iff.mpr hx)⟩

/-- The state of `MinRedux` after the elements `l`. -/
def Seen (lt : V → V → Bool) (l : List V) (s : Option V) : Prop := (l = [] ∧ s = none) ∨ ∃ m, s = some m ∧ Least lt l m

theorem seen_step {lt : V → V → Bool} (L : Linear lt) (initial : Option V) (i : Nat) (l : List V) (s : Option V) (v : V) (h : Seen lt l s) :
    Seen lt (l ++ [v]) ((minRedux lt initial).accept s v i) := by
  rcases h with ⟨rfl, rfl⟩ | ⟨m, rfl, hm⟩
  · exact Or.inr ⟨v, rfl, least_one L v⟩
  · exact Or.inr ⟨_, rfl, least_best L l [v] m v hm (least_one L v)⟩

theorem min_law (lt : V → V → Bool) (L : Linear lt) (initial : Option V) :
    Law (minRedux lt initial) (fun vs => vs ≠ [] ∨ initial ≠ none) fun vs o => Least lt (initial.toList ++ vs) o := by
  have start : Seen lt initial.toList initial := by
    cases initial with
    | none => exact Or.inl ⟨rfl, rfl⟩
    | some i => exact Or.inr ⟨i, rfl, least_one L i⟩
  have acc : ∀ (l p : List V) (s : Option V) (i : Nat), Seen lt p s → Seen lt (p ++ l) (acceptAll (minRedux lt initial) l s i) := by
    intro l
    induction l with
    | nil => intro p s i h; rw [List.append_nil]; exact h
    | cons v l ih =>
      intro p s i h
      have := ih (p ++ [v]) _ (i + 1) (seen_step L initial i p s v h)
      rw [List.append_assoc] at this
      exact this
  have fin : ∀ (l : List V) (s : Option V), (l ≠ [] ∨ initial ≠ none) → Seen lt (initial.toList ++ l) s → ∀ n, ∃ o, (minRedux lt initial).result s n = .ok o ∧ Least lt (initial.toList ++ l) o := by
    intro l s hd hs n
    rcases hs with ⟨h1, h2⟩ | ⟨m, rfl, hm⟩
    · simp only [List.append_eq_nil_iff, Option.toList_eq_nil_iff] at h1
      rcases hd with hd | hd
      · exact absurd h1.2 hd
      · exact absurd h1.1 hd
    · exact ⟨m, rfl, hm⟩
  refine ⟨fun l hd => ?_, fun f hf => ?_, fun G hG l hd o => ?_⟩
  · obtain ⟨o, h1, h2⟩ := fin l _ hd (acc l _ initial 0 start) (0 + l.length)
    exact ⟨_, _, o, scan_all _ (fun _ => rfl) l _ 0, h1, h2⟩
  · injection hf with hf
    have fnone : ∀ (x : V) (l : List V) (b : Bool), f none (x :: l) b = .ok (some (l.foldl (best lt) x)) := fun x l b => by rw [← hf]
    have fsome : ∀ (m : V) (p l : List V) (b : Bool), Least lt p m → ∃ s, f (some m) l b = .ok s ∧ Seen lt (p ++ l) s := fun m p l b h => by
      have h1 := least_fold L l p m h
      refine ⟨some (l.foldl (best lt) m), ?_, Or.inr ⟨_, rfl, h1⟩⟩
      rw [← hf]
      cases b with
      | false => rfl
      | true =>
        have h2 : best lt m (l.foldl (best lt) m) = l.foldl (best lt) m := by
          rcases best_cases lt m (l.foldl (best lt) m) with ⟨_, e⟩ | ⟨h, e⟩
          · exact e
          · rw [e]
            exact L.total _ _ (h1.2 m (List.mem_append_left _ ‹Least lt p m›.1)) h
        show Except.ok (some (if true = true then _ else _)) = _
        rw [if_pos rfl, h2]
    have one : ∀ (p l : List V) (s : Option V) (b : Bool), Seen lt p s → (s = none → l ≠ []) → ∃ s', f s l b = .ok s' ∧ Seen lt (p ++ l) s' := by
      intro p l s b hs hl
      rcases hs with ⟨rfl, rfl⟩ | ⟨m, rfl, hm⟩
      · cases l with
        | nil => exact absurd rfl (hl rfl)
        | cons x l => exact ⟨_, fnone x l b, Or.inr ⟨_, rfl, by simpa using least_fold L l [x] x (least_one L x)⟩⟩
      · exact fsome m p l b hm
    refine ⟨fun l hd => ?_, fun ls hd hls => ?_⟩
    · obtain ⟨s, h1, h2⟩ := one _ l initial false start (fun he => by
        rcases hd with hd | hd
        · exact hd
        · exact absurd he hd)
      exact ⟨s, h1, fin l s hd h2⟩
    · have run : ∀ (ls : List (List V)) (p : List V) (s : Option V), Seen lt p s → (s = none → ∀ l ∈ ls, l ≠ []) → ∃ s', runLists f ls s = .ok s' ∧ Seen lt (p ++ ls.flatten) s' := by
        intro ls
        induction ls with
        | nil => intro p s h _; exact ⟨s, rfl, by simpa using h⟩
        | cons l ls ih =>
          intro p s h hl
          obtain ⟨s1, h1, h2⟩ := one p l s true h (fun he => hl he l (by simp))
          obtain ⟨s2, h3, h4⟩ := ih (p ++ l) s1 h2 (fun he => by
            rcases h2 with ⟨h5, h6⟩ | ⟨m, h6, _⟩
            · intro l' hl'
              have hs : s = none := by
                rcases h with ⟨_, h⟩ | ⟨m, _, hm⟩
                · exact h
                · have := hm.1
                  simp only [List.append_eq_nil_iff] at h5
                  rw [h5.1] at this; cases this
              exact hl hs l' (by simp [hl'])
            · rw [he] at h6; cases h6)
          refine ⟨s2, ?_, by simpa using h4⟩
          simp only [runLists, h1]
          exact h3
      obtain ⟨s, h1, h2⟩ := run ls _ initial start (fun he => hls (by
        rcases hd with hd | hd
        · exact hd
        · exact absurd he hd))
      exact ⟨s, h1, fin _ s hd h2⟩
  · injection hG with hG
    subst hG
    have tail : ∀ (l p : List V) (k : Nat) (c : V), Least lt p c → (initial = none → k ≠ 0) →
        Least lt (p ++ l) (stepList ⟨initial, fun c v k => if initial.isNone ∧ k = 0 then v else best lt c v⟩ l k c) := by
      intro l
      induction l with
      | nil => intro p k c h _; rw [List.append_nil]; exact h
      | cons v l ih =>
        intro p k c h hk
        have hn : ¬ (initial.isNone = true ∧ k = 0) := fun hh => hk (Option.isNone_iff_eq_none.mp hh.1) hh.2
        have := ih (p ++ [v]) (k + 1) (best lt c v) (least_best L p [v] c v h (least_one L v)) (fun _ => by omega)
        simp only [stepList, if_neg hn]
        simpa using this
    cases hi : initial with
    | some i =>
      have := tail l [i] 0 i (least_one L i) (fun h => by rw [hi] at h; cases h)
      simpa [hi] using this
    | none =>
      cases l with
      | nil => rcases hd with hd | hd
               · exact absurd rfl hd
               · exact absurd hi hd
      | cons v l =>
        have := tail l [v] 1 v (least_one L v) (fun _ => by omega)
        simp only [stepList]
        simpa [hi] using this

theorem min_sym (lt : V → V → Bool) (initial : Option V) : Sym (fun vs : List V => vs ≠ [] ∨ initial ≠ none) fun vs o => Least lt (initial.toList ++ vs) o :=
  fun l l' hp => ⟨fun h => h.imp (fun h h' => h (by subst h'; exact hp.eq_nil)) id, fun _ h => least_perm (hp.append_left _) h⟩

theorem ptp_law (lt : V → V → Bool) (L : Linear lt) (sub : V → V → V) :
    Law (ptpRedux lt sub) (fun vs => vs ≠ []) fun vs o => ∃ hi lo, Least (fun x y => lt y x) vs hi ∧ Least lt vs lo ∧ o = sub hi lo := by
  have acc : ∀ (l p : List V) (s : Option V × Option V) (i : Nat), Seen (fun x y => lt y x) p s.1 → Seen lt p s.2 →
      Seen (fun x y => lt y x) (p ++ l) (acceptAll (ptpRedux lt sub) l s i).1 ∧ Seen lt (p ++ l) (acceptAll (ptpRedux lt sub) l s i).2 := by
    intro l
    induction l with
    | nil => intro p s i h1 h2; rw [List.append_nil]; exact ⟨h1, h2⟩
    | cons v l ih =>
      intro p s i h1 h2
      have := ih (p ++ [v]) ((ptpRedux lt sub).accept s v i) (i + 1) (seen_step L.flip none i p s.1 v h1) (seen_step L none i p s.2 v h2)
      rw [List.append_assoc] at this
      exact this
  have fin : ∀ (l : List V) (s : Option V × Option V), l ≠ [] → Seen (fun x y => lt y x) l s.1 → Seen lt l s.2 →
      ∀ n, ∃ o, (ptpRedux lt sub).result s n = .ok o ∧ ∃ hi lo, Least (fun x y => lt y x) l hi ∧ Least lt l lo ∧ o = sub hi lo := by
    rintro l ⟨s1, s2⟩ hd h1 h2 n
    rcases h1 with ⟨h1, _⟩ | ⟨hi, h1, hhi⟩
    · exact absurd h1 hd
    rcases h2 with ⟨h2, _⟩ | ⟨lo, h2, hlo⟩
    · exact absurd h2 hd
    simp only at h1 h2
    subst h1 h2
    exact ⟨_, rfl, hi, lo, hhi, hlo, rfl⟩
  refine ⟨fun l hd => ?_, fun f hf => ?_, fun G hG => (by cases hG)⟩
  · obtain ⟨h1, h2⟩ := acc l [] (none, none) 0 (Or.inl ⟨rfl, rfl⟩) (Or.inl ⟨rfl, rfl⟩)
    obtain ⟨o, h3, h4⟩ := fin l _ hd h1 h2 (0 + l.length)
    exact ⟨_, _, o, scan_all _ (fun _ => rfl) l _ 0, h3, h4⟩
  · injection hf with hf
    have one : ∀ (p l : List V) (s : Option V × Option V), Seen (fun x y => lt y x) p s.1 → Seen lt p s.2 → l ≠ [] →
        ∃ s', f s l true = .ok s' ∧ Seen (fun x y => lt y x) (p ++ l) s'.1 ∧ Seen lt (p ++ l) s'.2 := by
      rintro p l ⟨s1, s2⟩ h1 h2 hl
      cases l with
      | nil => exact absurd rfl hl
      | cons x l =>
        have e1 := least_fold L.flip l [x] x (least_one L.flip x)
        have e2 := least_fold L l [x] x (least_one L x)
        refine ⟨_, by rw [← hf], ?_, ?_⟩
        · rcases h1 with ⟨rfl, h1⟩ | ⟨hi, h1, hhi⟩
          · simp only at h1
            subst h1
            exact Or.inr ⟨_, rfl, e1⟩
          · simp only at h1
            subst h1
            exact Or.inr ⟨_, rfl, least_best L.flip p _ hi _ hhi e1⟩
        · rcases h2 with ⟨rfl, h2⟩ | ⟨lo, h2, hlo⟩
          · simp only at h2
            subst h2
            exact Or.inr ⟨_, rfl, e2⟩
          · simp only at h2
            subst h2
            exact Or.inr ⟨_, rfl, least_best L p _ lo _ hlo e2⟩
    refine ⟨fun l hd => ?_, fun ls hd hls => ?_⟩
    · cases l with
      | nil => exact absurd rfl hd
      | cons x l =>
        refine ⟨_, by rw [← hf], fin (x :: l) _ hd (Or.inr ⟨_, rfl, least_fold L.flip l [x] x (least_one L.flip x)⟩) (Or.inr ⟨_, rfl, least_fold L l [x] x (least_one L x)⟩)⟩
    · have run : ∀ (ls : List (List V)) (p : List V) (s : Option V × Option V), Seen (fun x y => lt y x) p s.1 → Seen lt p s.2 → (∀ l ∈ ls, l ≠ []) →
          ∃ s', runLists f ls s = .ok s' ∧ Seen (fun x y => lt y x) (p ++ ls.flatten) s'.1 ∧ Seen lt (p ++ ls.flatten) s'.2 := by
        intro ls
        induction ls with
        | nil => intro p s h1 h2 _; exact ⟨s, rfl, by simpa using h1, by simpa using h2⟩
        | cons l ls ih =>
          intro p s h1 h2 hl
          obtain ⟨s1, h3, h4, h5⟩ := one p l s h1 h2 (hl l (by simp))
          obtain ⟨s2, h6, h7, h8⟩ := ih (p ++ l) s1 h4 h5 fun l' hl' => hl l' (by simp [hl'])
          refine ⟨s2, ?_, by simpa using h7, by simpa using h8⟩
          simp only [runLists, h3]
          exact h6
      obtain ⟨s, h1, h2, h3⟩ := run ls [] (none, none) (Or.inl ⟨rfl, rfl⟩) (Or.inl ⟨rfl, rfl⟩) (hls hd)
      exact ⟨s, h1, fin _ s hd h2 h3⟩

theorem ptp_sym (lt : V → V → Bool) (sub : V → V → V) :
    Sym (fun vs : List V => vs ≠ []) fun vs o => ∃ hi lo, Least (fun x y => lt y x) vs hi ∧ Least lt vs lo ∧ o = sub hi lo :=
  fun l l' hp => ⟨fun h h' => h (by subst h'; exact hp.eq_nil), fun _ ⟨hi, lo, h1, h2, h3⟩ => ⟨hi, lo, least_perm hp h1, least_perm hp h2, h3⟩⟩

/-! ### `argmin`, `argmax` -/

theorem arg_law (lt : V → V → Bool) (L : Linear lt) : Law (argRedux lt) (fun vs => vs ≠ []) (FirstBest lt) := by
  have acc : ∀ (l p : List V) (m : V) (j : Nat), p[j]? = some m → (∀ x ∈ p, lt x m = false) → (∀ i < j, ∀ x, p[i]? = some x → lt m x = true) →
      FirstBest lt (p ++ l) (acceptAll (argRedux lt) l (some m, j) p.length).2 := by
    intro l
    induction l with
    | nil =>
      intro p m j h1 h2 h3
      simp only [List.append_nil]
      exact ⟨m, h1, h2, h3⟩
    | cons v l ih =>
      intro p m j h1 h2 h3
      have hjp : j < p.length := by
        by_contra hh
        rw [List.getElem?_eq_none (by omega)] at h1; cases h1
      have e : p ++ v :: l = (p ++ [v]) ++ l := by simp
      rw [e, acceptAll]
      have el : p.length + 1 = (p ++ [v]).length := by simp
      rw [el]
      cases hv : lt v m with
      | true =>
        have es : (argRedux lt).accept (some m, j) v p.length = (some v, p.length) := by simp [argRedux, hv]
        rw [es]
        refine ih (p ++ [v]) v p.length (by simp) (fun x hx => ?_) fun i hi x hx => ?_
        · rcases List.mem_append.mp hx with hx | hx
          · by_contra hh
            have hh : lt x v = true := by simpa using hh
            have := L.trans x v m hh hv
            rw [h2 x hx] at this; cases this
          · simp only [List.mem_singleton] at hx; subst hx; exact L.irrefl x
        · rw [List.getElem?_append_left hi] at hx
          have hxm := h2 x (List.mem_of_getElem? hx)
          by_contra hh
          have hh : lt v x = false := by simpa using hh
          have := L.neg_trans hh hxm
          rw [hv] at this; cases this
      | false =>
        have es : (argRedux lt).accept (some m, j) v p.length = (some m, j) := by simp [argRedux, hv]
        rw [es]
        refine ih (p ++ [v]) m j (by rw [List.getElem?_append_left hjp]; exact h1) (fun x hx => ?_) fun i hi x hx => ?_
        · rcases List.mem_append.mp hx with hx | hx
          · exact h2 x hx
          · simp only [List.mem_singleton] at hx; subst hx; exact hv
        · rw [List.getElem?_append_left (by omega)] at hx
          exact h3 i hi x hx
  refine ⟨fun l hd => ⟨_, _, _, scan_all _ (fun _ => rfl) l _ 0, rfl, ?_⟩, fun f hf => (by cases hf), fun G hG => (by cases hG)⟩
  cases l with
  | nil => exact absurd rfl hd
  | cons v l =>
    exact acc l [v] v 0 rfl (fun x hx => by simp only [List.mem_singleton] at hx; subst hx; exact L.irrefl x) (fun i hi => by omega)

/-! ### `any`, `all`, `count_nonzero` -/

theorem any_law (truth : V → Bool) : Law (anyRedux truth) (fun _ => True) fun vs o => (o = true ↔ ∃ x ∈ vs, truth x = true) := by
  have acc : ∀ (l : List V) (i : Nat), ∃ i', scan (anyRedux truth) (l.map some) false i = .ok (l.any truth, i') := by
    intro l
    induction l with
    | nil => intro i; exact ⟨i, rfl⟩
    | cons v l ih =>
      intro i
      cases hv : truth v with
      | true => exact ⟨i, by simp [scan, anyRedux, hv]⟩
      | false =>
        obtain ⟨i', h⟩ := ih (i + 1)
        refine ⟨i', ?_⟩
        simp only [anyRedux] at h
        simpa [scan, anyRedux, hv] using h
  refine ⟨fun l _ => ?_, fun f hf => (by cases hf), fun G hG => (by cases hG)⟩
  obtain ⟨i', h⟩ := acc l 0
  exact ⟨_, _, _, h, rfl, List.any_eq_true⟩

theorem all_law (truth : V → Bool) : Law (allRedux truth) (fun _ => True) fun vs o => (o = true ↔ ∀ x ∈ vs, truth x = true) := by
  have acc : ∀ (l : List V) (i : Nat), ∃ i', scan (allRedux truth) (l.map some) true i = .ok (l.all truth, i') := by
    intro l
    induction l with
    | nil => intro i; exact ⟨i, rfl⟩
    | cons v l ih =>
      intro i
      cases hv : truth v with
      | false => exact ⟨i, by simp [scan, allRedux, hv]⟩
      | true =>
        obtain ⟨i', h⟩ := ih (i + 1)
        refine ⟨i', ?_⟩
        simp only [allRedux] at h
        simpa [scan, allRedux, hv] using h
  refine ⟨fun l _ => ?_, fun f hf => (by cases hf), fun G hG => (by cases hG)⟩
  obtain ⟨i', h⟩ := acc l 0
  exact ⟨_, _, _, h, rfl, List.all_eq_true⟩

theorem nonzero_law (truth : V → Bool) : Law (nonzeroRedux truth) (fun _ => True) fun vs o => o = (vs.filter truth).length := by
  have acc : ∀ (l : List V) (s i : Nat), acceptAll (nonzeroRedux truth) l s i = s + (l.filter truth).length := by
    intro l
    induction l with
    | nil => intro s i; rfl
    | cons v l ih =>
      intro s i
      rw [acceptAll, ih]
      cases hv : truth v <;> simp [nonzeroRedux, hv]
      omega
  refine ⟨fun l _ => ⟨_, _, _, scan_all _ (fun _ => rfl) l _ 0, rfl, (acc l _ 0).trans (Nat.zero_add _)⟩, fun f hf => (by cases hf), fun G hG l _ o => ?_⟩
  injection hG with hG
  subst hG
  have : ∀ (l : List V) (k c : Nat), stepList ⟨some 0, fun c v _ => if truth v then c + 1 else c⟩ l k c = c + (l.filter truth).length := by
    intro l
    induction l with
    | nil => intro k c; rfl
    | cons v l ih =>
      intro k c
      rw [stepList, ih]
      cases hv : truth v <;> simp [hv]
      omega
  exact (this l 0 0).trans (Nat.zero_add _)

theorem sym_any (truth : V → Bool) : Sym (fun _ : List V => True) fun vs o => (o = true ↔ ∃ x ∈ vs, truth x = true) :=
  fun _ _ hp => ⟨fun _ => trivial, fun _ h => h.trans ⟨fun ⟨x, hx, h⟩ => ⟨x, hp.mem_iff.mp hx, h⟩, fun ⟨x, hx, h⟩ => ⟨x, hp.mem_iff.mpr hx, h⟩⟩⟩

theorem sym_all (truth : V → Bool) : Sym (fun _ : List V => True) fun vs o => (o = true ↔ ∀ x ∈ vs, truth x = true) :=
  fun _ _ hp => ⟨fun _ => trivial, fun _ h => h.trans ⟨fun h x hx => h x (hp.mem_iff.mpr hx), fun h x hx => h x (hp.mem_iff.mp hx)⟩⟩

theorem sym_nonzero (truth : V → Bool) : Sym (fun _ : List V => True) fun vs (o : Nat) => o = (vs.filter truth).length :=
  fun _ _ hp => ⟨fun _ => trivial, fun _ h => h.trans (hp.filter truth).length_eq⟩

end Codon.NpRed
