import Verif.Pickle.Dicts
/-!
# Sets
-/
namespace Codon.Pickle
open Codon.KHash Codon.KHash.Spec
variable {K : Type} [DecidableEq K] {h : K → BitVec 64} (pad : Nat → Nat)

/-- Element by element. -/
theorem set_slow {P : Pick K} {ok : K → Prop} (hP : Works P ok (fun x y => y = x)) (hn : P.image = none) (t : SetM.CSet K) (ht : SetOk h ok t) (pos : Nat) :
    ∃ bs, Writes ((pSet pad h P).pickle t) pos bs ∧ Reads (pSet pad h P).unpickle bs (SetEq h t) := by
  obtain ⟨S, r, b1, b2, hm⟩ := ht
  obtain ⟨l, l1, l2⟩ := SetM.keys_relS r
  have hs := r.size
  have hb := head_bounds r.inv b1 (by omega)
  have hl : l.length = t.size := by rw [hs]; exact l2.length_eq
  obtain ⟨c, c1, c2⟩ := keys_works (h := h) hP l (fun p hp => hm p (l2.mem_iff.mp hp)) (pos + (natBytes pad t.nb pos).length + (natBytes pad t.size (pos + (natBytes pad t.nb pos).length)).length)
  refine ⟨natBytes pad t.nb pos ++ (natBytes pad t.size (pos + (natBytes pad t.nb pos).length) ++ c), ?_, ?_⟩
  · have W := writes_bind (writes_natBytes pad t.nb pos) (writes_bind (writes_natBytes pad t.size (pos + (natBytes pad t.nb pos).length)) c1)
    have e : (pSet pad h P).pickle t = fun j => Out.bind (writeNat pad t.nb j) fun j => Out.bind (writeNat pad t.size j) fun j => pickleAll P l j := by
      funext j
      unfold pSet
      simp only [hn, l1]; rfl
    rw [e]; exact W
  · have e : (pSet pad h P).unpickle = fun s => Out.bind (readNat pad s) fun p => Out.bind (readNat pad p.2) fun q =>
        Out.bind (ofOpt (kresize h Tbl.empty (BitVec.ofNat 64 p.1))) fun t => readKeys h P q.1 t q.2 := by
      funext s
      unfold pSet
      simp only [hn]
    rw [e]
    refine reads_bind (g := fun nb s => Out.bind (readNat pad s) fun q => Out.bind (ofOpt (kresize h Tbl.empty (BitVec.ofNat 64 nb))) fun t => readKeys h P q.1 t q.2)
      (reads_natBytes pad _ _ hb.1) fun nb hnb => ?_
    refine reads_bind (g := fun n s => Out.bind (ofOpt (kresize h Tbl.empty (BitVec.ofNat 64 nb))) fun t => readKeys h P n t s) (reads_natBytes pad _ _ hb.2.1) fun n hn' => ?_
    subst hnb
    obtain ⟨t0, t1, t2, t3⟩ := resize_rel (h := h) (V := Unit) rel_empty (BitVec.ofNat 64 t.nb)
    rw [t1, hn', ← hl]
    have h0 : t0.nb ≤ 2 ^ 41 := by
      rcases t3 with t3 | t3
      · rw [t3]; exact Nat.zero_le _
      · rw [t3]; exact roundUp_bound b1
    have r0 : SetM.RelS h t0 [] := ⟨t2.inv, by rw [List.Perm.eq_nil t2.perm]; exact List.Perm.nil⟩
    refine reads_mono (c2 t0 [] r0 h0 (by simp; omega)) fun t' ht' => ?_
    have rl := r.congr l2.symm
    refine ⟨l, rl, ht'.congr ?_⟩
    refine (foldl_insert_fresh l [] rl.nd fun p _ hq => by simp at hq).trans ?_
    rw [List.append_nil]

/-- The whole table. -/
theorem set_raw {P : Pick K} {ok : K → Prop} {I : Img K} (hI : I.Good) (hi : P.image = some I) (t : SetM.CSet K) (ht : SetOk h ok t) (pos : Nat) :
    ∃ bs, Writes ((pSet pad h P).pickle t) pos bs ∧ Reads (pSet pad h P).unpickle bs (SetEq h t) := by
  obtain ⟨S, r, b1, b2, hm⟩ := ht
  have hs := r.size
  have hb := head_bounds r.inv b1 (by omega)
  obtain ⟨kl, vl⟩ := inv_lens r.inv
  have fl := flagWords_full r.inv
  have W := writes_bind (writes_bind (writes_natBytes pad t.nb pos) (writes_bind (writes_natBytes pad t.size _) (writes_bind (writes_natBytes pad t.nocc _) (writes_natBytes pad t.ub _))))
    (writes_bind (writes_pos (f := fun o j => writeRaw (cells pad u32Img o (t.flags.map some)) j) (writes_raw _ _)) (writes_pos (f := fun o j => writeRaw (cells pad I o t.keys) j) (writes_raw _ _)))
  have e : (pSet pad h P).pickle t = fun j => Out.bind (writeHead pad t j) fun j => Out.bind (writeRaw (cells pad u32Img j.data.length (t.flags.map some)) j) fun j =>
      writeRaw (cells pad I j.data.length t.keys) j := by
    funext j
    unfold pSet
    simp only [hi]
  rw [e]
  refine ⟨_, W, ?_⟩
  simp only [pSet, hi]
  rw [List.append_assoc, List.append_assoc, List.append_assoc]
  refine reads_bind (g := fun nb s => Out.bind (readNat pad s) fun q => Out.bind (readNat pad q.2) fun r => Out.bind (readNat pad r.2) fun u =>
    Out.bind (readRaw (flagWords nb * u32Img.size) u.2) fun fl => Out.bind (readRaw (nb * I.size) fl.2) fun ks =>
    some (.ok ((⟨nb, q.1, r.1, u.1, ofCells u32Img (flagWords nb) fl.1, (ofCells I nb ks.1).map some, List.replicate nb none⟩ : SetM.CSet K), ks.2)))
    (reads_natBytes pad _ _ hb.1) fun nb hnb => ?_
  subst hnb
  refine reads_bind (g := fun size s => Out.bind (readNat pad s) fun r => Out.bind (readNat pad r.2) fun u =>
    Out.bind (readRaw (flagWords t.nb * u32Img.size) u.2) fun fl => Out.bind (readRaw (t.nb * I.size) fl.2) fun ks =>
    some (.ok ((⟨t.nb, size, r.1, u.1, ofCells u32Img (flagWords t.nb) fl.1, (ofCells I t.nb ks.1).map some, List.replicate t.nb none⟩ : SetM.CSet K), ks.2)))
    (reads_natBytes pad _ _ hb.2.1) fun size hsize => ?_
  subst hsize
  refine reads_bind (g := fun nocc s => Out.bind (readNat pad s) fun u =>
    Out.bind (readRaw (flagWords t.nb * u32Img.size) u.2) fun fl => Out.bind (readRaw (t.nb * I.size) fl.2) fun ks =>
    some (.ok ((⟨t.nb, t.size, nocc, u.1, ofCells u32Img (flagWords t.nb) fl.1, (ofCells I t.nb ks.1).map some, List.replicate t.nb none⟩ : SetM.CSet K), ks.2)))
    (reads_natBytes pad _ _ hb.2.2.1) fun nocc hnocc => ?_
  subst hnocc
  refine reads_bind (g := fun ub s =>
    Out.bind (readRaw (flagWords t.nb * u32Img.size) s) fun fl => Out.bind (readRaw (t.nb * I.size) fl.2) fun ks =>
    some (.ok ((⟨t.nb, t.size, t.nocc, ub, ofCells u32Img (flagWords t.nb) fl.1, (ofCells I t.nb ks.1).map some, List.replicate t.nb none⟩ : SetM.CSet K), ks.2)))
    (reads_natBytes pad _ _ hb.2.2.2) fun ub hub => ?_
  subst hub
  refine reads_bind (g := fun fl s => Out.bind (readRaw (t.nb * I.size) s) fun ks =>
    some (.ok ((⟨t.nb, t.size, t.nocc, t.ub, ofCells u32Img (flagWords t.nb) fl, (ofCells I t.nb ks.1).map some, List.replicate t.nb none⟩ : SetM.CSet K), ks.2)))
    (reads_raw _ (by rw [length_cells pad _ u32_good, List.length_map, fl])) fun f hf => ?_
  refine reads_map (g := fun ks => (⟨t.nb, t.size, t.nocc, t.ub, ofCells u32Img (flagWords t.nb) f, (ofCells I t.nb ks).map some, List.replicate t.nb none⟩ : SetM.CSet K))
    (reads_raw _ (by rw [length_cells pad I hI, kl])) fun ks hks => ?_
  have hflags : ofCells u32Img (flagWords t.nb) f = t.flags := by rw [hf, ← fl, ofCells_some pad _ u32_good]
  rw [hflags]
  have hrel : Reload t (⟨t.nb, t.size, t.nocc, t.ub, t.flags, (ofCells I t.nb ks).map some, List.replicate t.nb none⟩ : SetM.CSet K) := by
    refine ⟨rfl, rfl, rfl, rfl, rfl, by simp [ofCells_length], by simp, fun i k hk => ?_⟩
    rw [hks, ← kl]
    exact rd_cells pad I hI t.keys _ i k hk
  refine ⟨S, r, ?_⟩
  rcases r.inv with hE | hF
  · subst hE
    exact r
  · refine ⟨Or.inr (reload_full hF hrel), ?_⟩
    rw [reload_fst hF hrel]
    exact r.perm

theorem set_works {P : Pick K} {ok : K → Prop} (hP : Works P ok (fun x y => y = x)) : Works (pSet pad h P) (SetOk h ok) (SetEq h) := by
  refine ⟨fun t ht pos => ?_, fun I hI => by cases hI⟩
  rcases hi : P.image with _ | I
  · exact set_slow pad hP hi t ht pos
  · exact set_raw pad (hP.img I hi).1 hi t ht pos

end Codon.Pickle
