import Verif.Pickle.Tables
/-!
# Dictionaries and sets, continued
-/
namespace Codon.Pickle
open Codon.KHash Codon.KHash.Spec
variable {K V : Type} [DecidableEq K] {h : K → BitVec 64} (pad : Nat → Nat)

/-- What `writeNat` writes. -/
def natBytes (n pos : Nat) : List Byte := (cellImg 64 8).put (pad pos) (BitVec.ofNat 64 n)

theorem writes_natBytes (n pos : Nat) : Writes (writeNat pad n) pos (natBytes pad n pos) := writes_nat pad n pos
theorem reads_natBytes (n pos : Nat) (hn : n < 2 ^ 63) : Reads (readNat pad) (natBytes pad n pos) (· = n) := reads_nat pad n _ hn
theorem length_natBytes (n pos : Nat) : (natBytes pad n pos).length = 8 := length_leBytes _ _

theorem u32_good : u32Img.Good := cell_good 32 4 (by decide) (by decide)

/-- Item by item. -/
theorem dict_slow {P : Pick K} {Q : Pick V} {okK : K → Prop} {okV : V → Prop} {R : V → V → Prop} (hP : Works P okK (fun x y => y = x)) (hQ : Works Q okV R)
    (hn : P.image = none ∨ Q.image = none) (t : Tbl K V) (ht : DictOk h okK okV t) (pos : Nat) :
    ∃ bs, Writes ((pDict pad h P Q).pickle t) pos bs ∧ Reads (pDict pad h P Q).unpickle bs (DictEq h R t) := by
  obtain ⟨m, r, b1, b2, hm⟩ := ht
  obtain ⟨l, l1, l2⟩ := items_rel r
  have hs := r.size
  have hb := head_bounds r.inv b1 (by omega)
  have hl : l.length = t.size := by rw [hs]; exact l2.length_eq
  obtain ⟨c, c1, c2⟩ := pairs_works (h := h) hP hQ l (fun p hp => hm p (l2.mem_iff.mp hp)) (pos + (natBytes pad t.nb pos).length + (natBytes pad t.size (pos + (natBytes pad t.nb pos).length)).length)
  refine ⟨natBytes pad t.nb pos ++ (natBytes pad t.size (pos + (natBytes pad t.nb pos).length) ++ c), ?_, ?_⟩
  · have W := writes_bind (writes_natBytes pad t.nb pos) (writes_bind (writes_natBytes pad t.size (pos + (natBytes pad t.nb pos).length)) c1)
    have e : (pDict pad h P Q).pickle t = fun j => Out.bind (writeNat pad t.nb j) fun j => Out.bind (writeNat pad t.size j) fun j => pairs P Q l j := by
      funext j
      unfold pDict
      rcases hi : P.image with _ | I <;> rcases hj : Q.image with _ | J
      · simp only [l1]; rfl
      · simp only [l1]; rfl
      · simp only [l1]; rfl
      · rcases hn with hn | hn
        · rw [hi] at hn; cases hn
        · rw [hj] at hn; cases hn
    rw [e]; exact W
  · have e : (pDict pad h P Q).unpickle = fun s => Out.bind (readNat pad s) fun p => Out.bind (readNat pad p.2) fun q =>
        Out.bind (ofOpt (kresize h Tbl.empty (BitVec.ofNat 64 p.1))) fun t => readPairs h P Q q.1 t q.2 := by
      funext s
      unfold pDict
      rcases hi : P.image with _ | I <;> rcases hj : Q.image with _ | J
      · rfl
      · rfl
      · rfl
      · rcases hn with hn | hn
        · rw [hi] at hn; cases hn
        · rw [hj] at hn; cases hn
    rw [e]
    refine reads_bind (g := fun nb s => Out.bind (readNat pad s) fun q => Out.bind (ofOpt (kresize h Tbl.empty (BitVec.ofNat 64 nb))) fun t => readPairs h P Q q.1 t q.2)
      (reads_natBytes pad _ _ hb.1) fun nb hnb => ?_
    refine reads_bind (g := fun n s => Out.bind (ofOpt (kresize h Tbl.empty (BitVec.ofNat 64 nb))) fun t => readPairs h P Q n t s) (reads_natBytes pad _ _ hb.2.1) fun n hn' => ?_
    subst hnb
    obtain ⟨t0, t1, t2, t3⟩ := resize_rel (h := h) (V := V) rel_empty (BitVec.ofNat 64 t.nb)
    rw [t1, hn', ← hl]
    have h0 : t0.nb ≤ 2 ^ 41 := by
      rcases t3 with t3 | t3
      · rw [t3]; exact Nat.zero_le _
      · rw [t3]; exact roundUp_bound b1
    refine reads_mono (c2 t0 [] t2 h0 (by simp; omega)) fun t' ht' => ?_
    obtain ⟨ps', q1, q2⟩ := ht'
    have hkeys := forall2_keys q1
    have rl := Rel_perm r l2.symm
    refine ⟨l, ps', rl, Rel_perm q2 ?_, q1⟩
    refine (foldl_store_fresh ps' [] (by rw [hkeys]; exact rl.nd) fun p _ q hq => by simp at hq).trans ?_
    rw [List.append_nil]

/-- The whole table. -/
theorem dict_raw {P : Pick K} {Q : Pick V} {okK : K → Prop} {okV : V → Prop} {R : V → V → Prop} {I : Img K} {J : Img V} (hI : I.Good) (hJ : J.Good) (hR : ∀ v, R v v)
    (hi : P.image = some I) (hj : Q.image = some J) (t : Tbl K V) (ht : DictOk h okK okV t) (pos : Nat) :
    ∃ bs, Writes ((pDict pad h P Q).pickle t) pos bs ∧ Reads (pDict pad h P Q).unpickle bs (DictEq h R t) := by
  obtain ⟨m, r, b1, b2, hm⟩ := ht
  have hs := r.size
  have hb := head_bounds r.inv b1 (by omega)
  obtain ⟨kl, vl⟩ := inv_lens r.inv
  have fl := flagWords_full r.inv
  have W := writes_bind (writes_bind (writes_natBytes pad t.nb pos) (writes_bind (writes_natBytes pad t.size _) (writes_bind (writes_natBytes pad t.nocc _) (writes_natBytes pad t.ub _))))
    (writes_bind (writes_pos (f := fun o j => writeRaw (cells pad u32Img o (t.flags.map some)) j) (writes_raw _ _))
      (writes_bind (writes_pos (f := fun o j => writeRaw (cells pad I o t.keys) j) (writes_raw _ _)) (writes_pos (f := fun o j => writeRaw (cells pad J o t.vals) j) (writes_raw _ _))))
  have e : (pDict pad h P Q).pickle t = fun j => Out.bind (writeHead pad t j) fun j => Out.bind (writeRaw (cells pad u32Img j.data.length (t.flags.map some)) j) fun j =>
      Out.bind (writeRaw (cells pad I j.data.length t.keys) j) fun j => writeRaw (cells pad J j.data.length t.vals) j := by
    funext j
    unfold pDict
    simp only [hi, hj]
  rw [e]
  refine ⟨_, W, ?_⟩
  · simp only [pDict, hi, hj]
    rw [List.append_assoc, List.append_assoc, List.append_assoc]
    refine reads_bind (g := fun nb s => Out.bind (readNat pad s) fun q => Out.bind (readNat pad q.2) fun r => Out.bind (readNat pad r.2) fun u =>
      Out.bind (readRaw (flagWords nb * u32Img.size) u.2) fun fl => Out.bind (readRaw (nb * I.size) fl.2) fun ks => Out.bind (readRaw (nb * J.size) ks.2) fun vs =>
      some (.ok ((⟨nb, q.1, r.1, u.1, ofCells u32Img (flagWords nb) fl.1, (ofCells I nb ks.1).map some, (ofCells J nb vs.1).map some⟩ : Tbl K V), vs.2)))
      (reads_natBytes pad _ _ hb.1) fun nb hnb => ?_
    subst hnb
    refine reads_bind (g := fun size s => Out.bind (readNat pad s) fun r => Out.bind (readNat pad r.2) fun u =>
      Out.bind (readRaw (flagWords t.nb * u32Img.size) u.2) fun fl => Out.bind (readRaw (t.nb * I.size) fl.2) fun ks => Out.bind (readRaw (t.nb * J.size) ks.2) fun vs =>
      some (.ok ((⟨t.nb, size, r.1, u.1, ofCells u32Img (flagWords t.nb) fl.1, (ofCells I t.nb ks.1).map some, (ofCells J t.nb vs.1).map some⟩ : Tbl K V), vs.2)))
      (reads_natBytes pad _ _ hb.2.1) fun size hsize => ?_
    subst hsize
    refine reads_bind (g := fun nocc s => Out.bind (readNat pad s) fun u =>
      Out.bind (readRaw (flagWords t.nb * u32Img.size) u.2) fun fl => Out.bind (readRaw (t.nb * I.size) fl.2) fun ks => Out.bind (readRaw (t.nb * J.size) ks.2) fun vs =>
      some (.ok ((⟨t.nb, t.size, nocc, u.1, ofCells u32Img (flagWords t.nb) fl.1, (ofCells I t.nb ks.1).map some, (ofCells J t.nb vs.1).map some⟩ : Tbl K V), vs.2)))
      (reads_natBytes pad _ _ hb.2.2.1) fun nocc hnocc => ?_
    subst hnocc
    refine reads_bind (g := fun ub s =>
      Out.bind (readRaw (flagWords t.nb * u32Img.size) s) fun fl => Out.bind (readRaw (t.nb * I.size) fl.2) fun ks => Out.bind (readRaw (t.nb * J.size) ks.2) fun vs =>
      some (.ok ((⟨t.nb, t.size, t.nocc, ub, ofCells u32Img (flagWords t.nb) fl.1, (ofCells I t.nb ks.1).map some, (ofCells J t.nb vs.1).map some⟩ : Tbl K V), vs.2)))
      (reads_natBytes pad _ _ hb.2.2.2) fun ub hub => ?_
    subst hub
    refine reads_bind (g := fun fl s => Out.bind (readRaw (t.nb * I.size) s) fun ks => Out.bind (readRaw (t.nb * J.size) ks.2) fun vs =>
      some (.ok ((⟨t.nb, t.size, t.nocc, t.ub, ofCells u32Img (flagWords t.nb) fl, (ofCells I t.nb ks.1).map some, (ofCells J t.nb vs.1).map some⟩ : Tbl K V), vs.2)))
      (reads_raw _ (by rw [length_cells pad _ u32_good, List.length_map, fl])) fun f hf => ?_
    refine reads_bind (g := fun ks s => Out.bind (readRaw (t.nb * J.size) s) fun vs =>
      some (.ok ((⟨t.nb, t.size, t.nocc, t.ub, ofCells u32Img (flagWords t.nb) f, (ofCells I t.nb ks).map some, (ofCells J t.nb vs.1).map some⟩ : Tbl K V), vs.2)))
      (reads_raw _ (by rw [length_cells pad I hI, kl])) fun ks hks => ?_
    refine reads_map (g := fun vs => (⟨t.nb, t.size, t.nocc, t.ub, ofCells u32Img (flagWords t.nb) f, (ofCells I t.nb ks).map some, (ofCells J t.nb vs).map some⟩ : Tbl K V))
      (reads_raw _ (by rw [length_cells pad J hJ, vl])) fun vs hvs => ?_
    have hflags : ofCells u32Img (flagWords t.nb) f = t.flags := by rw [hf, ← fl, ofCells_some pad _ u32_good]
    rw [hflags]
    have hrel : Reload t (⟨t.nb, t.size, t.nocc, t.ub, t.flags, (ofCells I t.nb ks).map some, (ofCells J t.nb vs).map some⟩ : Tbl K V) := by
      refine ⟨rfl, rfl, rfl, rfl, rfl, by simp [ofCells_length], by simp [ofCells_length], fun i k hk => ?_⟩
      rw [hks, ← kl]
      exact rd_cells pad I hI t.keys _ i k hk
    refine ⟨m, m, r, ?_, forall2_self (fun p => ⟨rfl, hR p.2⟩) m⟩
    rcases r.inv with hE | hF
    · subst hE
      exact r
    · refine ⟨Or.inr (reload_full hF hrel), ?_⟩
      rw [reload_content hF r hrel fun i v hv => ?_]
      · exact r.perm
      · rw [hvs, ← vl]
        exact rd_cells pad J hJ t.vals _ i v hv

theorem dict_works {P : Pick K} {Q : Pick V} {okK : K → Prop} {okV : V → Prop} {R : V → V → Prop} (hP : Works P okK (fun x y => y = x)) (hQ : Works Q okV R) :
    Works (pDict pad h P Q) (DictOk h okK okV) (DictEq h R) := by
  refine ⟨fun t ht pos => ?_, fun I hI => by cases hI⟩
  rcases hi : P.image with _ | I
  · exact dict_slow pad hP hQ (Or.inl hi) t ht pos
  · rcases hj : Q.image with _ | J
    · exact dict_slow pad hP hQ (Or.inr hj) t ht pos
    · exact dict_raw pad (hP.img I hi).1 (hQ.img J hj).1 (hQ.img J hj).2 hi hj t ht pos

end Codon.Pickle
