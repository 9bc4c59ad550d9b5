import Verif.Pickle.Basic
/-!
# Strings, lists, tuples and classes
-/
namespace Codon.Pickle
open Codon.KHash
variable {α β : Type} (pad : Nat → Nat)

theorem str_works : Works (pStr pad) (fun x => x.length < 2 ^ 63) (fun x y => y = x) := by
  refine ⟨fun x hx pos => ⟨_, writes_bind (writes_nat pad _ pos) (writes_raw x _), ?_⟩, fun I hI => by cases hI⟩
  exact reads_bind (g := fun n s => readRaw n s) (reads_nat pad _ _ hx) fun n hn => reads_raw x hn

theorem all_works {P : Pick α} {ok : α → Prop} {R : α → α → Prop} (hP : Works P ok R) : ∀ (xs : List α), (∀ x ∈ xs, ok x) → ∀ pos,
    ∃ bs, Writes (pickleAll P xs) pos bs ∧ Reads (unpickleAll P xs.length) bs (List.Forall₂ R xs)
  | [], _, pos => ⟨[], writes_nil pos, reads_pure _ .nil⟩
  | x :: xs, hxs, pos => by
    obtain ⟨a, ha, ha'⟩ := hP.trip x (hxs x (by simp)) pos
    obtain ⟨b, hb, hb'⟩ := all_works hP xs (fun y hy => hxs y (by simp [hy])) (pos + a.length)
    refine ⟨a ++ b, writes_bind ha hb, ?_⟩
    exact reads_bind (g := fun x s => Out.bind (unpickleAll P xs.length s) fun p => some (.ok (x :: p.1, p.2))) ha' fun y hy => reads_map hb' fun ys hys => .cons hy hys

theorem forall2_self {R : α → α → Prop} (h : ∀ x, R x x) : ∀ xs : List α, List.Forall₂ R xs xs
  | [] => .nil
  | x :: xs => .cons (h x) (forall2_self h xs)

theorem list_works {P : Pick α} {ok : α → Prop} {R : α → α → Prop} (hP : Works P ok R) : Works (pList pad P) (listOk ok) (List.Forall₂ R) := by
  refine ⟨fun x hx pos => ?_, fun I hI => by cases hI⟩
  obtain ⟨hl, hx⟩ := hx
  rcases hi : P.image with _ | I
  · obtain ⟨b, hb, hb'⟩ := all_works hP x hx (pos + ((cellImg 64 8).put (pad pos) (BitVec.ofNat 64 x.length)).length)
    refine ⟨(cellImg 64 8).put (pad pos) (BitVec.ofNat 64 x.length) ++ b, ?_, ?_⟩
    · have := writes_bind (writes_nat pad x.length pos) hb
      simp only [pList, hi]
      exact this
    · simp only [pList, hi]
      exact reads_bind (g := fun n s => unpickleAll P n s) (reads_nat pad _ _ hl) fun n hn => by rw [hn]; exact hb'
  · obtain ⟨hg, hR⟩ := hP.img I hi
    refine ⟨(cellImg 64 8).put (pad pos) (BitVec.ofNat 64 x.length) ++ cells pad I (pos + ((cellImg 64 8).put (pad pos) (BitVec.ofNat 64 x.length)).length) (x.map some), ?_, ?_⟩
    · have := writes_bind (writes_nat pad x.length pos) (writes_pos (f := fun o j => writeRaw (cells pad I o (x.map some)) j) (writes_raw _ _))
      simp only [pList, hi]
      exact this
    · simp only [pList, hi]
      refine reads_bind (g := fun n s => Out.bind (readRaw (n * I.size) s) fun p => some (.ok (ofCells I n p.1, p.2))) (reads_nat pad _ _ hl) fun n hn => ?_
      subst hn
      refine reads_map (g := ofCells I x.length) (reads_raw _ ?_) fun m hm => ?_
      · rw [length_cells pad I hg, List.length_map]
      · rw [hm, ofCells_some pad I hg]
        exact forall2_self hR x

/-! ### Tuples -/

theorem fNil_works : FWorks fNil (fun _ => True) (fun _ _ => True) := by
  refine ⟨fun x _ pos => ⟨[], writes_nil pos, reads_pure _ trivial⟩, fun I hI => ?_⟩
  cases hI
  exact ⟨fun o => Nat.le_refl o, fun o p x => by simp, fun _ _ _ _ => rfl, Nat.one_pos, fun _ => trivial⟩

theorem le_alignUp (o a : Nat) (ha : 0 < a) : o ≤ alignUp o a := by
  unfold alignUp
  have h := Nat.div_add_mod (o + a - 1) a
  have h2 := Nat.mod_lt (o + a - 1) ha
  rw [Nat.mul_comm] at h
  omega

theorem fCons_works {P : Pick α} {F : Flds β} {ok : α → Prop} {R : α → α → Prop} {ok' : β → Prop} {R' : β → β → Prop} (hP : Works P ok R) (hF : FWorks F ok' R') :
    FWorks (fCons P F) (fun x => ok x.1 ∧ ok' x.2) (fun x y => R x.1 y.1 ∧ R' x.2 y.2) := by
  refine ⟨fun x hx pos => ?_, fun I hI => ?_⟩
  · obtain ⟨a, ha, ha'⟩ := hP.trip x.1 hx.1 pos
    obtain ⟨b, hb, hb'⟩ := hF.trip x.2 hx.2 (pos + a.length)
    exact ⟨a ++ b, writes_bind ha hb, reads_bind (g := fun u s => Out.bind (F.unpickle s) fun p => some (.ok ((u, p.1), p.2))) ha' fun u hu => reads_map hb' fun v hv => ⟨hu, hv⟩⟩
  · rcases hp : P.image with _ | J
    · simp [fCons, hp] at hI
    · rcases hf : F.image with _ | G
      · simp [fCons, hp, hf] at hI
      · simp only [fCons, hp, hf, Option.some.injEq] at hI
        subst hI
        obtain ⟨g, r⟩ := hP.img J hp
        obtain ⟨f1, f2, f3, f4, f5⟩ := hF.img G hf
        refine ⟨fun o => ?_, fun o p x => ?_, fun o p x t => ?_, ?_, fun x => ⟨r _, f5 _⟩⟩
        · have := le_alignUp o J.align g.align
          have := f1 (alignUp o J.align + J.size)
          simp only [consImg]; omega
        · have := le_alignUp o J.align g.align
          have := f1 (alignUp o J.align + J.size)
          simp only [consImg, List.length_append, length_leBytes, g.size, f2]; omega
        · simp only [consImg]
          have e1 : (leBytes (alignUp o J.align - o) p).length = alignUp o J.align - o := length_leBytes _ _
          rw [List.append_assoc, List.append_assoc, List.drop_left' e1, List.take_left' (g.size _ _), g.get, ← List.drop_drop, List.drop_left' e1, List.drop_left' (g.size _ _), f3]
        · simp only [consImg]; omega

theorem tuple_works {F : Flds β} {ok : β → Prop} {R : β → β → Prop} (hF : FWorks F ok R) : Works (pTuple F) ok R := by
  refine ⟨hF.trip, fun I hI => ?_⟩
  rcases hf : F.image with _ | G
  · simp [pTuple, hf] at hI
  · simp only [pTuple, hf, Option.map_some, Option.some.injEq] at hI
    subst hI
    obtain ⟨f1, f2, f3, f4, f5⟩ := hF.img G hf
    refine ⟨⟨fun p x => ?_, fun p x => f3 0 p x _, f4⟩, f5⟩
    have := le_alignUp (G.fin 0) G.align f4
    simp only [tupleImg, List.length_append, length_leBytes, f2]; omega

theorem class_works {F : Flds β} {ok : β → Prop} {R : β → β → Prop} (hF : FWorks F ok R) : Works (pClass F) ok R := ⟨hF.trip, fun I hI => by cases hI⟩

end Codon.Pickle
