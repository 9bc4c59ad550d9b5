import Verif.Pickle.Comb
/-!
# Dictionaries and sets
-/
namespace Codon.Pickle
open Codon.KHash Codon.KHash.Spec
variable {K V : Type} [DecidableEq K] {h : K → BitVec 64} (pad : Nat → Nat)

/-! ### Item by item -/

theorem pairs_works {P : Pick K} {Q : Pick V} {okK : K → Prop} {okV : V → Prop} {R : V → V → Prop} (hP : Works P okK (fun x y => y = x)) (hQ : Works Q okV R) :
    ∀ (ps : List (K × V)), (∀ p ∈ ps, okK p.1 ∧ okV p.2) → ∀ pos, ∃ bs, Writes (pairs P Q ps) pos bs ∧
      ∀ (t : Tbl K V) (m : Map K V), Rel h t m → t.nb ≤ 2 ^ 41 → m.length + ps.length ≤ 2 ^ 38 →
        Reads (readPairs h P Q ps.length t) bs fun t' => ∃ ps' : List (K × V), List.Forall₂ (fun p q => p.1 = q.1 ∧ R p.2 q.2) ps ps' ∧ Rel h t' (ps'.foldl (fun m p => store m p.1 p.2) m)
  | [], _, pos => ⟨[], writes_nil pos, fun t m r _ _ => reads_pure t ⟨[], .nil, r⟩⟩
  | (k, v) :: ps, hps, pos => by
    obtain ⟨a, ha, ha'⟩ := hP.trip k (hps (k, v) (by simp)).1 pos
    obtain ⟨b, hb, hb'⟩ := hQ.trip v (hps (k, v) (by simp)).2 (pos + a.length)
    obtain ⟨c, hc, hc'⟩ := pairs_works hP hQ ps (fun p hp => hps p (by simp [hp])) (pos + a.length + b.length)
    refine ⟨a ++ (b ++ c), writes_bind ha (writes_bind hb hc), fun t m r h1 h2 => ?_⟩
    refine reads_bind (g := fun k s => Out.bind (Q.unpickle s) fun q => Out.bind (ofOpt (setitem h t k q.1)) fun t => readPairs h P Q ps.length t q.2) ha' fun k' hk => ?_
    refine reads_bind (g := fun v s => Out.bind (ofOpt (setitem h t k' v)) fun t => readPairs h P Q ps.length t s) hb' fun v' hv => ?_
    subst hk
    obtain ⟨t', e1, e2, e3⟩ := setitem_rel r (by omega) k' v'
    rw [e1]
    have hs := r.size
    have hl : (store m k' v').length ≤ m.length + 1 := by
      unfold store erase
      have := List.length_filter_le (fun p : K × V => decide (p.1 ≠ k')) m
      simp only [List.length_cons]; omega
    have h3 : t'.nb ≤ 2 ^ 41 := by
      have : 4 * t.size ≤ 2 ^ 41 := by rw [hs]; simp only [List.length_cons] at h2; omega
      omega
    refine reads_mono (hc' t' _ e2 h3 (by simp only [List.length_cons] at h2; omega)) fun t'' ht => ?_
    obtain ⟨ps', q1, q2⟩ := ht
    exact ⟨(k', v') :: ps', .cons ⟨rfl, hv⟩ q1, q2⟩

theorem foldl_store_fresh : ∀ (ps : List (K × V)) (m : Map K V), (ps.map Prod.fst).Nodup → (∀ p ∈ ps, ∀ q ∈ m, q.1 ≠ p.1) → (ps.foldl (fun m p => store m p.1 p.2) m).Perm (ps ++ m)
  | [], m, _, _ => by simp
  | p :: ps, m, hn, hf => by
    rw [List.foldl_cons]
    have he : store m p.1 p.2 = p :: m := by
      unfold store erase
      rw [List.filter_eq_self.mpr fun q hq => by simpa using hf p (by simp) q hq]
    rw [he]
    rw [List.map_cons, List.nodup_cons] at hn
    refine (foldl_store_fresh ps _ hn.2 fun p' hp' q hq => ?_).trans ?_
    · rcases List.mem_cons.mp hq with rfl | hq
      · intro e; exact hn.1 (e ▸ List.mem_map_of_mem hp')
      · exact hf p' (by simp [hp']) q hq
    · exact List.perm_middle

theorem forall2_keys {R : V → V → Prop} {ps qs : List (K × V)} (hq : List.Forall₂ (fun p q => p.1 = q.1 ∧ R p.2 q.2) ps qs) : qs.map Prod.fst = ps.map Prod.fst := by
  induction hq with
  | nil => rfl
  | cons a _ ih => rw [List.map_cons, List.map_cons, ih, a.1]

theorem Rel_perm {t : Tbl K V} {m m' : Map K V} (r : Rel h t m) (hp : m.Perm m') : Rel h t m' := ⟨r.inv, r.perm.trans (hp.map _)⟩

theorem keys_works {P : Pick K} {ok : K → Prop} (hP : Works P ok (fun x y => y = x)) :
    ∀ (ps : List K), (∀ p ∈ ps, ok p) → ∀ pos, ∃ bs, Writes (pickleAll P ps) pos bs ∧
      ∀ (t : SetM.CSet K) (S : List K), SetM.RelS h t S → t.nb ≤ 2 ^ 41 → S.length + ps.length ≤ 2 ^ 38 →
        Reads (readKeys h P ps.length t) bs fun t' => SetM.RelS h t' (ps.foldl (fun S k => S.insert k) S)
  | [], _, pos => ⟨[], writes_nil pos, fun t m r _ _ => reads_pure t r⟩
  | k :: ps, hps, pos => by
    obtain ⟨a, ha, ha'⟩ := hP.trip k (hps _ (by simp)) pos
    obtain ⟨c, hc, hc'⟩ := keys_works hP ps (fun p hp => hps p (by simp [hp])) (pos + a.length)
    refine ⟨a ++ c, writes_bind ha hc, fun t S r h1 h2 => ?_⟩
    refine reads_bind (g := fun k s => Out.bind (ofOpt (SetM.add h t k)) fun t => readKeys h P ps.length t s) ha' fun k' hk => ?_
    subst hk
    obtain ⟨t', e1, e2, e3⟩ := SetM.add_relS r (by omega) k'
    rw [e1]
    have hs := r.size
    have hl : (S.insert k').length ≤ S.length + 1 := by
      rw [List.length_insert]; split <;> omega
    have h3 : t'.nb ≤ 2 ^ 41 := by
      have : 4 * t.size ≤ 2 ^ 41 := by rw [hs]; simp only [List.length_cons] at h2; omega
      omega
    refine hc' t' _ e2 h3 ?_
    simp only [List.length_cons] at h2
    exact Nat.le_trans (Nat.add_le_add_right hl _) (by omega)

theorem foldl_insert_fresh : ∀ (ps S : List K), ps.Nodup → (∀ p ∈ ps, p ∉ S) → (ps.foldl (fun S k => S.insert k) S).Perm (ps ++ S)
  | [], S, _, _ => by simp
  | p :: ps, S, hn, hf => by
    rw [List.foldl_cons, List.insert_of_not_mem (hf p (by simp))]
    rw [List.nodup_cons] at hn
    refine (foldl_insert_fresh ps _ hn.2 fun p' hp' hq => ?_).trans List.perm_middle
    rcases List.mem_cons.mp hq with rfl | hq
    · exact hn.1 hp'
    · exact hf p' (by simp [hp']) hq

/-- The numbers at the head of a table fit. -/
theorem head_bounds {t : Tbl K V} (ht : Inv h t) (hb : t.nb ≤ 2 ^ 41) (hs : t.size ≤ 2 ^ 38) : t.nb < 2 ^ 63 ∧ t.size < 2 ^ 63 ∧ t.nocc < 2 ^ 63 ∧ t.ub < 2 ^ 63 := by
  rcases ht with rfl | ht
  · simp [Tbl.empty]
  · obtain ⟨b, b1, b2, b3⟩ := ht.pow
    have h4 : 2 ^ 2 ≤ 2 ^ b := Nat.pow_le_pow_right (by omega) b1
    have := upper_lt (n := t.nb) (by omega)
    have := ht.le
    have := ht.ubd
    omega

theorem roundUp_bound {n : Nat} (hn : n ≤ 2 ^ 41) : roundUp (BitVec.ofNat 64 n) ≤ 2 ^ 41 := by
  refine roundUp_le (by decide) (by decide) ?_
  have ht : (BitVec.ofNat 64 n).toNat = n := by rw [BitVec.toNat_ofNat]; omega
  rw [BitVec.toInt_eq_toNat_of_lt (by omega), ht]
  exact_mod_cast hn

/-! ### Raw memory -/

/-- The table after reloading. -/
structure Reload (t t' : Tbl K V) : Prop where
  nb : t'.nb = t.nb
  size : t'.size = t.size
  nocc : t'.nocc = t.nocc
  ub : t'.ub = t.ub
  flags : t'.flags = t.flags
  kl : t'.keys.length = t.nb
  vl : t'.vals.length = t.nb
  keys : ∀ i k, rd t.keys i = some k → rd t'.keys i = some k

theorem reload_slot {t t' : Tbl K V} (ht : Full h t) (hr : Reload t t') (i : Nat) (hi : i < t.nb) :
    (slotOf t'.flags t'.keys t'.vals i).map Prod.fst = (slotOf t.flags t.keys t.vals i).map Prod.fst := by
  unfold slotOf
  rw [hr.flags]
  by_cases hl : live t.flags i = true
  · obtain ⟨k, hk⟩ := ht.ini i hi hl
    rw [if_pos hl, if_pos hl, hk, hr.keys i k hk]; rfl
  · rw [if_neg hl, if_neg hl]

theorem map_filterMap' {α β γ : Type} (f : α → Option β) (g : β → γ) : ∀ l : List α, (l.filterMap f).map g = l.filterMap fun a => (f a).map g
  | [] => rfl
  | a :: l => by rw [List.map_filterMap]

theorem reload_fst {t t' : Tbl K V} (ht : Full h t) (hr : Reload t t') : t'.content.map Prod.fst = t.content.map Prod.fst := by
  unfold Tbl.content contentOf
  rw [map_filterMap', map_filterMap', hr.nb]
  exact List.filterMap_congr fun i hi => reload_slot ht hr i (List.mem_range.mp hi)

theorem reload_full {t t' : Tbl K V} (ht : Full h t) (hr : Reload t t') : Full h t' := by
  have hf := reload_fst ht hr
  refine ⟨by rw [hr.nb]; exact ht.pow, by rw [hr.flags, hr.nb]; exact ht.fl, by rw [hr.kl, hr.nb], by rw [hr.vl, hr.nb], ?_, by rw [hr.nocc, hr.flags, hr.nb]; exact ht.oc,
    by rw [hr.ub, hr.nb]; exact ht.ubd, by rw [hr.nocc, hr.ub]; exact ht.le, ?_, by rw [hf]; exact ht.nd, ?_⟩
  · rw [hr.size, ht.sz, ← List.length_map (as := t.content) Prod.fst, ← hf, List.length_map]
  · intro i hi hl
    rw [hr.nb] at hi; rw [hr.flags] at hl
    obtain ⟨k, hk⟩ := ht.ini i hi hl
    exact ⟨k, hr.keys i k hk⟩
  · intro i hi hl k hk
    rw [hr.nb] at hi; rw [hr.flags] at hl
    obtain ⟨k0, hk0⟩ := ht.ini i hi hl
    have : k0 = k := by rw [hr.keys i k0 hk0] at hk; exact Option.some.inj hk
    subst this
    rw [hr.nb, hr.flags]
    exact ht.path i hi hl k0 hk0

theorem reload_content {t t' : Tbl K V} {m : Map K V} (ht : Full h t) (r : Rel h t m) (hr : Reload t t') (hv : ∀ i v, rd t.vals i = some v → rd t'.vals i = some v) : t'.content = t.content := by
  unfold Tbl.content
  rw [hr.nb]
  refine contentOf_congr fun i hi => ?_
  by_cases hl : live t.flags i = true
  · obtain ⟨k, hk⟩ := ht.ini i hi hl
    have hs : slotOf t.flags t.keys t.vals i = some (k, rd t.vals i) := by
      unfold slotOf rd; rw [if_pos hl]
      unfold rd at hk; rw [hk]; rfl
    have hm : (k, rd t.vals i) ∈ t.content := List.mem_filterMap.mpr ⟨i, List.mem_range.mpr hi, hs⟩
    obtain ⟨v, hv1, _⟩ := mem_emb.mp (r.perm.mem_iff.mp hm)
    rw [hs, hv1]
    unfold slotOf
    rw [hr.flags, if_pos hl, hr.keys i k hk]
    have := hv i v hv1
    unfold rd at this
    rw [this]; rfl
  · unfold slotOf
    rw [hr.flags, if_neg hl, if_neg hl]

theorem ofCells_length {α : Type} (I : Img α) : ∀ (n : Nat) (m : List Byte), (ofCells I n m).length = n
  | 0, _ => rfl
  | n + 1, m => by rw [ofCells, List.length_cons, ofCells_length I n]

theorem rd_forall2 {α : Type} {cs : Mem α} {ds : List α} (hf : List.Forall₂ (fun c x => c = none ∨ c = some x) cs ds) : ∀ i x, rd cs i = some x → rd (ds.map some) i = some x := by
  induction hf with
  | nil => intro i x hx; simp [rd] at hx
  | @cons c d cs ds h1 _ ih =>
    intro i x hx
    cases i with
    | zero =>
      rcases h1 with rfl | rfl
      · simp [rd] at hx
      · simpa [rd] using hx
    | succ i =>
      have : rd cs i = some x := by simpa [rd] using hx
      have := ih i x this
      simpa [rd] using this

theorem rd_cells {α : Type} (I : Img α) (hI : I.Good) (cs : Mem α) (o : Nat) (i : Nat) (x : α) (hx : rd cs i = some x) : rd ((ofCells I cs.length (cells pad I o cs)).map some) i = some x :=
  rd_forall2 (ofCells_cells pad I hI cs o) i x hx

omit [DecidableEq K] in
theorem flagWords_full {t : Tbl K V} (ht : Inv h t) : t.flags.length = flagWords t.nb := by
  rcases ht with rfl | ht
  · rfl
  · obtain ⟨b, b1, b2, b3⟩ := ht.pow
    have h4 : 2 ^ 2 ≤ 2 ^ b := Nat.pow_le_pow_right (by omega) b1
    rw [flagWords, if_pos (by omega), ht.fl]

omit [DecidableEq K] in
theorem inv_lens {t : Tbl K V} (ht : Inv h t) : t.keys.length = t.nb ∧ t.vals.length = t.nb := by
  rcases ht with rfl | ht
  · exact ⟨rfl, rfl⟩
  · exact ⟨ht.kl, ht.vl⟩

end Codon.Pickle
