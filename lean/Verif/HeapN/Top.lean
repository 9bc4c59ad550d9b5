import Verif.HeapN.Lemmas

/-! Lemmas for C84: the heap of the best entries. -/

namespace Codon.HeapN
open Heapq

section
variable {T K E : Type} {d : Deco T K E} {lt : K → K → Bool} {pos : E → Int}

/-- What the proofs need of the tuples: they are compared by their keys, then by their positions. -/
structure Ok (d : Deco T K E) (lt : K → K → Bool) (pos : E → Int) : Prop where
  swoK : SWO lt
  swo : SWO d.less
  fst : ∀ x i, d.fst (d.deco x i) = d.key x
  out : ∀ x i, d.out (d.deco x i) = x
  pos_deco : ∀ x i, pos (d.deco x i) = i
  le : ∀ a b, d.less a b = true → lt (d.fst b) (d.fst a) = false
  less : ∀ a b, pos a ≠ pos b → d.less a b = (lt (d.fst a) (d.fst b) || (!lt (d.fst b) (d.fst a) && decide (pos a < pos b)))

def klt (d : Deco T K E) (lt : K → K → Bool) (a b : T) : Bool := lt (d.key a) (d.key b)

/-- Entries in order, all of them made before `ord`. -/
structure Inv (d : Deco T K E) (pos : E → Int) (ord : Int) (S : List E) : Prop where
  sorted : S.Pairwise fun a b => d.less a b = true
  fst : ∀ e ∈ S, d.fst e = d.key (d.out e)
  pos_lt : ∀ e ∈ S, pos e < ord

theorem Ok.new_less (ok : Ok d lt pos) {x : T} {ord : Int} {y : E} (hp : pos y < ord)
    (h : lt (d.key x) (d.fst y) = true) : d.less (d.deco x ord) y = true := by
  rw [ok.less _ _ (by rw [ok.pos_deco]; omega), ok.fst, h]; rfl

theorem Ok.less_new (ok : Ok d lt pos) {x : T} {ord : Int} {y : E} (hp : pos y < ord)
    (h : lt (d.key x) (d.fst y) = false) : d.less y (d.deco x ord) = true := by
  rw [ok.less _ _ (by rw [ok.pos_deco]; omega), ok.fst, ok.pos_deco, h]; simp [hp]

theorem Inv.ins (ok : Ok d lt pos) {ord : Int} {S : List E} (h : Inv d pos ord S) (x : T) :
    Inv d pos (ord + 1) (insP (fun y => lt (d.key x) (d.fst y)) (d.deco x ord) S) := by
  refine ⟨?_, ?_, ?_⟩
  · have hp := h.pos_lt
    have hs := h.sorted
    clear h
    induction S with
    | nil => simp [insP]
    | cons y S ih =>
      have h' := List.pairwise_cons.mp hs
      have hy := hp y (List.mem_cons_self ..)
      unfold insP
      by_cases hl : lt (d.key x) (d.fst y) = true
      · rw [if_pos hl]
        refine List.pairwise_cons.mpr ⟨?_, hs⟩
        intro z hz
        rcases List.mem_cons.mp hz with rfl | hz'
        · exact ok.new_less hy hl
        · exact ok.new_less (hp z hz) (ok.swoK.lt_of_lt_of_le hl (ok.le _ _ (h'.1 z hz')))
      · rw [if_neg hl]
        refine List.pairwise_cons.mpr ⟨?_, ih (fun e he => hp e (List.mem_cons_of_mem _ he)) h'.2⟩
        intro z hz
        rcases List.mem_cons.mp ((insP_perm _ _ _).subset hz) with rfl | hz
        · exact ok.less_new hy (by simpa using hl)
        · exact h'.1 z hz
  · intro e he
    rcases List.mem_cons.mp ((insP_perm _ _ _).subset he) with rfl | he
    · rw [ok.fst, ok.out]
    · exact h.fst e he
  · intro e he
    rcases List.mem_cons.mp ((insP_perm _ _ _).subset he) with rfl | he
    · rw [ok.pos_deco]; omega
    · have := h.pos_lt e he; omega

theorem Inv.ins_map (ok : Ok d lt pos) {ord : Int} {S : List E} (h : Inv d pos ord S) (x : T) :
    (insP (fun y => lt (d.key x) (d.fst y)) (d.deco x ord) S).map d.out =
      insP (fun y => klt d lt x y) x (S.map d.out) := by
  have e : insP (fun y => lt (d.key x) (d.fst y)) (d.deco x ord) S =
      insP (fun y => klt d lt x (d.out y)) (d.deco x ord) S := by
    have hf := h.fst
    clear h
    induction S with
    | nil => rfl
    | cons y S ih =>
      have hy := hf y (List.mem_cons_self ..)
      by_cases hl : lt (d.key x) (d.fst y) = true
      · have hl' : klt d lt x (d.out y) = true := by rw [klt, ← hy]; exact hl
        rw [insP, insP, if_pos hl, if_pos hl']
      · have hl' : ¬ klt d lt x (d.out y) = true := by rw [klt, ← hy]; exact hl
        rw [insP, insP, if_neg hl, if_neg hl', ih (fun e he => hf e (List.mem_cons_of_mem _ he))]
  rw [e, insP_map d.out (fun y => klt d lt x y), ok.out]

theorem Inv.sub {ord ord' : Int} {S S' : List E} (h : Inv d pos ord S) (hs : S'.Sublist S) (ho : ord ≤ ord') :
    Inv d pos ord' S' :=
  ⟨h.sorted.sublist hs, fun e he => h.fst e (hs.subset he), fun e he => by have := h.pos_lt e (hs.subset he); omega⟩

theorem klt_swo (ok : Ok d lt pos) : SWO (klt d lt) := ok.swoK.key d.key

/-- The root of the heap is the last of the entries in order. -/
theorem root_last {h L : List E} {t r : E} (hp : h.Perm (L ++ [t]))
    (hs : (L ++ [t]).Pairwise fun a b => d.less a b = true) (hr : r ∈ h) (hm : ∀ y ∈ h, d.less r y = false) : r = t := by
  rcases List.mem_append.mp (hp.subset hr) with hL | hT
  · have := (List.pairwise_append.mp hs).2.2 r hL t (by simp)
    rw [hm t (hp.symm.subset (by simp))] at this; cases this
  · simpa using hT

theorem nsLoop_spec (ok : Ok d lt pos) : ∀ (es p : List T) (h : List E) (ord : Int) (S : List E),
    IsHeap (fun a b => d.less b a) h → h.Perm S → S ≠ [] → Inv d pos ord S →
    S.map d.out = (sortOf (klt d lt) p).take S.length →
    ∃ top, h[0]? = some top ∧ ∃ (h' S' : List E), nsLoop d lt es h (d.fst top) ord = some h' ∧ h'.Perm S' ∧
      S'.Pairwise (fun a b => d.less a b = true) ∧ S'.map d.out = (sortOf (klt d lt) (p ++ es)).take S.length := by
  intro es
  induction es with
  | nil =>
    intro p h ord S hh hp hne hi hm
    have hne' : h ≠ [] := by rintro rfl; exact hne (List.nil_perm.mp hp)
    obtain ⟨top, t, rfl⟩ := List.exists_cons_of_ne_nil hne'
    exact ⟨top, rfl, _, S, rfl, hp, hi.sorted, by simpa using hm⟩
  | cons e es ih =>
    intro p h ord S hh hp hne hi hm
    have hne' : h ≠ [] := by rintro rfl; exact hne (List.nil_perm.mp hp)
    obtain ⟨top, tl, hcons⟩ := List.exists_cons_of_ne_nil hne'
    have h0 : h[0]? = some top := by rw [hcons]; rfl
    refine ⟨top, h0, ?_⟩
    obtain ⟨L, t, rfl⟩ : ∃ L t, S = L ++ [t] :=
      ⟨S.dropLast, S.getLast hne, (List.dropLast_concat_getLast hne).symm⟩
    have htop : top = t := root_last hp hi.sorted (by rw [hcons]; simp)
      (fun y hy => root_least ok.swo.flip (isHeap_iff.mp hh) h0 y hy)
    have hM : sortOf (klt d lt) p = L.map d.out ++ d.out t :: (sortOf (klt d lt) p).drop (L.length + 1) := by
      have := List.take_append_drop (L.length + 1) (sortOf (klt d lt) p)
      rw [show L.length + 1 = (L ++ [t]).length by simp, ← hm] at this
      simpa using this.symm
    have hft := hi.fst t (by simp)
    unfold nsLoop
    by_cases hl : lt (d.key e) (d.fst top) = true
    · rw [if_pos hl]
      obtain ⟨r, h', q1, q2, q3, q4, q5⟩ := c27_heapreplace ok.swo.flip h (d.deco e ord) hne' hh
      have hr : r = t := root_last hp hi.sorted q4 q5
      rw [(c27_max_variants h (d.deco e ord)).2.2, q1]
      have hiL := hi.sub (S' := L) (List.sublist_append_left ..) (Int.le_refl ord)
      have hp' : h'.Perm (insP (fun y => lt (d.key e) (d.fst y)) (d.deco e ord) L) := by
        refine List.Perm.trans ?_ (insP_perm _ _ _).symm
        refine List.Perm.cons_inv (a := r) (q2.trans ?_)
        rw [hr]
        refine ((hp.trans List.perm_append_comm).cons (d.deco e ord)).trans ?_
        exact List.Perm.swap t _ L
      have hmap : (insP (fun y => lt (d.key e) (d.fst y)) (d.deco e ord) L).map d.out =
          (sortOf (klt d lt) (p ++ [e])).take (insP (fun y => lt (d.key e) (d.fst y)) (d.deco e ord) L).length := by
        rw [hiL.ins_map ok, sortOf_snoc, (insP_perm _ _ _).length_eq]
        have := insP_take (p := fun y => klt d lt e y) (x := e) hM (by
          show lt (d.key e) (d.key (d.out t)) = true
          rw [← hft, ← htop]; exact hl)
        rw [List.length_map] at this
        rw [List.length_cons, this]
      obtain ⟨top', f1, h'', S', f2, f3, f4, f5⟩ := ih (p ++ [e]) h' (ord + 1) _ q3 hp'
        (by intro h; have := (insP_perm (fun y => lt (d.key e) (d.fst y)) (d.deco e ord) L).length_eq; rw [h] at this; simp at this)
        (hiL.ins ok e) hmap
      refine ⟨h'', S', ?_, f3, f4, ?_⟩
      · simp [f1, f2]
      · rw [(insP_perm _ _ _).length_eq] at f5
        simpa using f5
    · rw [if_neg hl]
      have hl' : lt (d.key e) (d.fst top) = false := by simpa using hl
      have hmap : (L ++ [t]).map d.out = (sortOf (klt d lt) (p ++ [e])).take (L ++ [t]).length := by
        rw [sortOf_snoc]
        have h1 : sortOf (klt d lt) p = (L ++ [t]).map d.out ++ (sortOf (klt d lt) p).drop (L.length + 1) := by
          exact hM.trans (by simp)
        have := insP_take_none (p := fun y => klt d lt e y) (x := e) (L := (L ++ [t]).map d.out)
          (R := (sortOf (klt d lt) p).drop (L.length + 1)) (by
            intro y hy
            obtain ⟨z, hz, rfl⟩ := List.mem_map.mp hy
            show lt (d.key e) (d.key (d.out z)) = false
            rw [← hi.fst z hz]
            rcases List.mem_append.mp hz with hz' | hz'
            · have := (List.pairwise_append.mp hi.sorted).2.2 z hz' t (by simp)
              exact ok.swoK.negTrans (by rw [← htop]; exact hl') (ok.le _ _ this)
            · simp at hz'; subst hz'; rw [← htop]; exact hl')
        rw [← h1] at this
        rw [List.length_map] at this
        rw [this]
      obtain ⟨top', f1, h'', S', f2, f3, f4, f5⟩ := ih (p ++ [e]) h ord _ hh hp (by simp) hi hmap
      rw [h0] at f1
      cases f1
      exact ⟨h'', S', f2, f3, f4, by simpa using f5⟩

/-- The first entries. -/
theorem fill_spec (d : Deco T K E) : ∀ (n k : Nat) (xs : List T),
    fill d ((List.range' k n).map fun (i : Nat) => (i : Int)) xs =
      ((xs.take n).zipIdx k |>.map fun (x, i) => d.deco x (i : Int), xs.drop n, decide (xs.length < n))
  | 0, k, xs => by simp [fill]
  | n + 1, k, [] => by simp [fill, List.range'_succ]
  | n + 1, k, x :: xs => by
    rw [List.range'_succ, List.map_cons, fill, fill_spec d n (k + 1) xs]
    simp

/-- The first entries, put in order. -/
theorem entries_spec (ok : Ok d lt pos) (xs : List T) :
    ∃ S, S.Perm (xs.zipIdx.map fun (x, i) => d.deco x (i : Int)) ∧ Inv d pos xs.length S ∧
      S.map d.out = sortOf (klt d lt) xs := by
  refine snoc_ind (P := fun xs => ∃ S, S.Perm (xs.zipIdx.map fun (x, i) => d.deco x (i : Int)) ∧ Inv d pos xs.length S ∧
      S.map d.out = sortOf (klt d lt) xs) ⟨[], List.Perm.refl _, ⟨List.Pairwise.nil, by simp, by simp⟩, rfl⟩ ?_ xs
  rintro xs x ⟨S, h1, h2, h3⟩
  refine ⟨_, ?_, (by simpa using h2.ins ok x), ?_⟩
  · refine (insP_perm _ _ _).trans ?_
    rw [List.zipIdx_append, List.map_append]
    simp only [List.zipIdx_singleton, List.map_cons, List.map_nil, Nat.zero_add]
    exact (h1.cons _).trans (List.perm_append_comm (l₁ := [_]))
  · rw [h2.ins_map ok, sortOf_snoc, h3]

/-- `nsmallest` up to the final sort. -/
def core (d : Deco T K E) (lt : K → K → Bool) (n : Int) (xs : List T) : Option (List E) :=
  let (r, rest, done) := fill d (upTo n) xs
  if r.isEmpty then some []
  else do
    let h ← heapifyMax d.less r
    let top := d.fst (← h[0]?)
    if !done then nsLoop d lt rest h top n else some h

theorem core_spec (ok : Ok d lt pos) (n : Int) (xs : List T) :
    ∃ h S, core d lt n xs = some h ∧ h.Perm S ∧ S.Pairwise (fun a b => d.less a b = true) ∧
      S.map d.out = (sortOf (klt d lt) xs).take n.toNat := by
  unfold core
  have hf := fill_spec d n.toNat 0 xs
  rw [← List.range_eq_range'] at hf
  rw [upTo, hf]
  simp only
  obtain ⟨S, s1, s2, s3⟩ := entries_spec ok (xs.take n.toNat)
  by_cases he : ((xs.take n.toNat).zipIdx.map fun (x, i) => d.deco x (i : Int)).isEmpty = true
  · rw [if_pos he]
    rw [List.isEmpty_iff, List.map_eq_nil_iff, List.zipIdx_eq_nil_iff, List.take_eq_nil_iff] at he
    refine ⟨[], [], rfl, List.Perm.refl _, List.Pairwise.nil, ?_⟩
    rcases he with h | h
    · rw [h]; rfl
    · rw [h]; simp [sortOf]
  · rw [if_neg he, (c27_max_variants _ (d.deco (xs.take n.toNat |>.head (by
      rintro h; rw [h] at he; exact he rfl)) 0)).1]
    obtain ⟨h, q1, q2, q3⟩ := c27_heapify ok.swo.flip ((xs.take n.toNat).zipIdx.map fun (x, i) => d.deco x (i : Int))
    rw [q1]
    have hSne : S ≠ [] := by rintro rfl; rw [List.nil_perm.mp s1] at he; exact he rfl
    have hlen : S.length = (xs.take n.toNat).length := by simpa using s1.length_eq
    obtain ⟨top, f1, h', S', f2, f3, f4, f5⟩ := nsLoop_spec ok (xs.drop n.toNat) (xs.take n.toNat) h n S q3 (q2.trans s1.symm) hSne
      (s2.sub (List.Sublist.refl _) (by
        simp only [List.length_take]
        have : 0 < S.length := List.length_pos_iff.mpr hSne
        rw [hlen, List.length_take] at this; omega)) (by
        rw [s3]
        refine (List.take_of_length_le ?_).symm
        rw [(sortOf_spec (klt_swo ok) _).perm.length_eq, hlen]
        exact Nat.le_refl _)
    rw [Option.bind_eq_bind, Option.bind_some, f1, Option.bind_eq_bind, Option.bind_some]
    by_cases hd : xs.length < n.toNat
    · simp only [hd, decide_true, Bool.not_true, Bool.false_eq_true, if_false]
      refine ⟨h, S, rfl, q2.trans s1.symm, s2.sorted, ?_⟩
      rw [s3, List.take_of_length_le (by omega : xs.length ≤ n.toNat), List.take_of_length_le]
      rw [(sortOf_spec (klt_swo ok) _).perm.length_eq]; omega
    · simp only [hd, decide_false, Bool.not_false, if_true]
      refine ⟨h', S', f2, f3, f4, ?_⟩
      rw [f5, List.take_append_drop, hlen, List.length_take, Nat.min_eq_left (by omega)]

theorem sorted_eq {less : E → E → Bool} : ∀ {s S : List E}, s.Perm S → s.Pairwise (fun a b => less b a = false) →
    S.Pairwise (fun a b => less a b = true) → s = S
  | [], S, hp, _, _ => (List.nil_perm.mp hp).symm
  | x :: s, [], hp, _, _ => absurd hp (by simp)
  | x :: s, y :: S, hp, h1, h2 => by
    have p1 := List.pairwise_cons.mp h1
    have p2 := List.pairwise_cons.mp h2
    have hxy : x = y := by
      rcases List.mem_cons.mp (hp.subset (List.mem_cons_self ..)) with h | h
      · exact h
      · rcases List.mem_cons.mp (hp.symm.subset (List.mem_cons_self ..)) with h' | h'
        · exact h'.symm
        · have := p2.1 x h
          rw [p1.1 y h'] at this; cases this
    subst hxy
    rw [sorted_eq (List.Perm.cons_inv hp) p1.2 p2.2]

theorem best_spec (ho : SWO lt) : ∀ (xs p v : List T), v = (sortOf (klt d lt) p).take 1 →
    best d lt v xs = (sortOf (klt d lt) (p ++ xs)).take 1
  | [], p, v, h => by cases v <;> simpa [best] using h
  | a :: xs, p, v, h => by
    have e : (p ++ a :: xs) = (p ++ [a]) ++ xs := by simp
    rw [e]
    have hs := sortOf_snoc (klt d lt) p a
    cases hM : sortOf (klt d lt) p with
    | nil =>
      rw [hM] at h hs
      subst h
      exact best_spec ho xs (p ++ [a]) [a] (by rw [hs]; rfl)
    | cons m M =>
      rw [hM] at h hs
      subst h
      refine best_spec ho xs (p ++ [a]) _ ?_
      rw [hs]
      show (if lt (d.key a) (d.key m) then [a] else [m]) = _
      simp only [insP, klt]
      by_cases hl : lt (d.key a) (d.key m) = true
      · simp [hl]
      · simp [hl]

theorem nsmallest_core (d : Deco T K E) (pdq : Bool) (lt : K → K → Bool) (n : Int) (xs : List T) (hn : n ≠ 1) :
    nsmallest d pdq lt n xs = (core d lt n xs).bind fun h =>
      (Sort.listSort d.less none false pdq false h).bind fun s => some (s.map d.out) := by
  unfold nsmallest core
  rw [if_neg hn]
  rcases fill d (upTo n) xs with ⟨r, rest, done⟩
  simp only
  by_cases hr : r.isEmpty = true
  · rw [if_pos hr, if_pos hr]
    rfl
  · rw [if_neg hr, if_neg hr]
    simp only [Option.bind_eq_bind, Option.pure_def, Option.bind_assoc]

theorem nsmallest_spec (ok : Ok d lt pos) (pdq : Bool) (n : Int) (xs : List T) :
    nsmallest d pdq lt n xs = some ((sortOf (klt d lt) xs).take n.toNat) := by
  by_cases hn : n = 1
  · subst hn
    rw [nsmallest, if_pos rfl, best_spec ok.swoK xs [] [] rfl]
    rfl
  · rw [nsmallest_core d pdq lt n xs hn]
    obtain ⟨h, S, e1, e2, e3, e4⟩ := core_spec ok n xs
    obtain ⟨s, f1, f2, f3, -⟩ := Sort.c29_list_sort ok.swo none false pdq false h
    rw [e1, Option.bind_some, f1, Option.bind_some, sorted_eq (f2.trans e2) (f3 rfl) e3, e4]

/-! ## `nlargest` is `nsmallest` for the opposite order -/

def mirror (d : Deco T K E) : Deco T K E where
  key := d.key
  deco x i := d.deco x (-i)
  fst := d.fst
  less a b := d.less b a
  out := d.out

theorem nlLoop_eq (d : Deco T K E) (lt : K → K → Bool) : ∀ (es : List T) (h : List E) (top : K) (ord : Int),
    nlLoop d lt es h top (-ord) = nsLoop (mirror d) (fun a b => lt b a) es h top ord
  | [], _, _, _ => rfl
  | e :: es, h, top, ord => by
    unfold nlLoop nsLoop
    rw [(c27_max_variants (lt := (mirror d).less) h ((mirror d).deco e ord)).2.2]
    have ih : ∀ h top, nlLoop d lt es h top (-ord - 1) = nsLoop (mirror d) (fun a b => lt b a) es h top (ord + 1) := by
      intro h top
      rw [← nlLoop_eq d lt es h top (ord + 1)]
      congr 1; omega
    simp only [ih, nlLoop_eq d lt es]
    rfl

theorem fill_mirror (d : Deco T K E) : ∀ (is : List Int) (xs : List T),
    fill d (is.map fun i => -i) xs = fill (mirror d) is xs
  | [], _ => by simp [fill]
  | _ :: _, [] => by simp [fill]
  | i :: is, x :: xs => by
    rw [List.map_cons, fill, fill, fill_mirror d is xs]; rfl

theorem best_mirror (d : Deco T K E) (b : K → K → Bool) : ∀ (xs v : List T), best d b v xs = best (mirror d) b v xs
  | [], v => by cases v <;> simp [best]
  | a :: xs, [] => by rw [best, best]; exact best_mirror d b xs _
  | a :: xs, v :: vs => by rw [best, best]; exact best_mirror d b xs _

theorem nlargest_core (d : Deco T K E) (pdq : Bool) (lt gt : K → K → Bool) (n : Int) (xs : List T) (hn : n ≠ 1) :
    nlargest d pdq lt gt n xs = (core (mirror d) (fun a b => lt b a) n xs).bind fun h =>
      (Sort.listSort d.less none false pdq false h).bind fun s => some (s.reverse.map d.out) := by
  unfold nlargest core
  have hd : downTo n = (upTo n).map fun i => -i := by simp [downTo, upTo]
  rw [if_neg hn, hd, fill_mirror]
  rcases fill (mirror d) (upTo n) xs with ⟨r, rest, done⟩
  simp only
  by_cases hr : r.isEmpty = true
  · rw [if_pos hr, if_pos hr]
    rfl
  · rw [if_neg hr, if_neg hr]
    cases r with
    | nil => exact absurd rfl hr
    | cons e r =>
      rw [(c27_max_variants (lt := (mirror d).less) (e :: r) e).1]
      simp only [Option.bind_eq_bind, Option.pure_def, Option.bind_assoc, nlLoop_eq]
      rfl

theorem nlargest_spec (ok : Ok (mirror d) (fun a b => lt b a) pos) (pdq : Bool) (gt : K → K → Bool)
    (hg : ∀ a b, gt a b = lt b a) (n : Int) (xs : List T) :
    nlargest d pdq lt gt n xs = some ((sortOf (fun a b => klt d lt b a) xs).take n.toNat) := by
  have hk : klt (mirror d) (fun a b => lt b a) = fun a b => klt d lt b a := rfl
  by_cases hn : n = 1
  · subst hn
    rw [nlargest, if_pos rfl, best_mirror, show gt = (fun a b => lt b a) by funext a b; exact hg a b,
      best_spec ok.swoK xs [] [] rfl]
    rfl
  · rw [nlargest_core d pdq lt gt n xs hn]
    obtain ⟨h, S, e1, e2, e3, e4⟩ := core_spec ok n xs
    have hswo : SWO d.less := ok.swo.flip
    obtain ⟨s, f1, f2, f3, -⟩ := Sort.c29_list_sort hswo none false pdq false h
    rw [e1, Option.bind_some, f1, Option.bind_some]
    have : s.reverse = S := sorted_eq (less := (mirror d).less) ((List.reverse_perm s).trans (f2.trans e2))
      (List.pairwise_reverse.mpr (f3 rfl)) e3
    rw [this]
    exact congrArg some e4

end

end Codon.HeapN
