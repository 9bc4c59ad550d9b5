import Verif.Twister.Spec
import Mathlib.Tactic.SplitIfs
/-! # Lemmas on the Mersenne Twister -/
namespace Codon.Twister

/-! ### Blocks given by a function -/

def blk (g : Nat → Option Word) : Block Word := (List.range 625).map g

theorem blk_length (g : Nat → Option Word) : (blk g).length = 625 := by simp [blk]

theorem blk_congr {g h : Nat → Option Word} (e : ∀ j, j < 625 → g j = h j) : blk g = blk h := by
  unfold blk
  exact List.map_congr_left fun j hj => e j (List.mem_range.1 hj)

theorem blk_of {d : Block Word} (h : d.length = 625) : d = blk fun j => d[j]?.join := by
  apply List.ext_getElem?
  intro i
  unfold blk
  by_cases hi : i < 625
  · rw [List.getElem?_map, List.getElem?_range hi, List.getElem?_eq_getElem (by omega)]; simp
    rw [List.getElem?_eq_getElem (by omega)]; simp
  · rw [List.getElem?_eq_none (by omega), List.getElem?_eq_none (by simp; omega)]

theorem ld_blk {ε : Type} {g : Nat → Option Word} {i : Int} {n : Nat} {v : Word} (e : i = n) (h : n < 625) (hv : g n = some v) :
    ld (ε := ε) (blk g) i = .ok v := by
  subst e
  unfold ld blk
  rw [if_pos (by omega)]
  simp [h, hv]

theorem st_blk {ε : Type} {g : Nat → Option Word} {i : Int} {n : Nat} {v : Word} (e : i = n) (h : n < 625) :
    st (ε := ε) (blk g) i v = .ok (blk fun j => if j = n then some v else g j) := by
  subst e
  unfold st
  rw [if_pos ⟨by omega, by rw [blk_length]; simpa using h⟩]
  refine congrArg Out.ok ?_
  apply List.ext_getElem?
  intro j
  simp only [Int.toNat_natCast, List.getElem?_set, blk_length]
  unfold blk
  by_cases hj : j < 625
  · rw [List.getElem?_map, List.getElem?_map, List.getElem?_range hj]
    by_cases hn : n = j
    · subst hn; simp [h]
    · rw [if_neg hn]; simp [show ¬ j = n from fun q => hn q.symm]
  · rw [List.getElem?_eq_none (l := List.map _ _) (by simp; omega), List.getElem?_eq_none (l := List.map _ _) (by simp; omega)]
    split_ifs <;> first | rfl | omega

attribute [irreducible] blk

/-! ### Course-of-values sequences -/

theorem tbl_stable (f : Nat → (Nat → Word) → Word) : ∀ (m n : Nat), n < m → Spec.tbl f m n = Spec.seq f n := by
  intro m
  induction m with
  | zero => intro n h; omega
  | succ m ih =>
    intro n h
    by_cases e : n = m
    · subst e; rfl
    · show (if n = m then _ else _) = _
      rw [if_neg e]
      exact ih n (by omega)

theorem seq_eq (f : Nat → (Nat → Word) → Word)
    (hf : ∀ n a b, (∀ j, j < n → a j = b j) → f n a = f n b) (n : Nat) : Spec.seq f n = f n (Spec.seq f) := by
  show (if n = n then f n (Spec.tbl f n) else _) = _
  rw [if_pos rfl]
  exact hf n _ _ fun j hj => tbl_stable f n j hj

/-! ### The bit operations -/

theorem mask_eq (a b : Word) :
    ((a &&& upperMask) ||| (b &&& lowerMask)) = (a.extractLsb' 31 1 ++ b.extractLsb' 0 31 : BitVec 32) := by
  have hu : ∀ i : Fin 32, upperMask.getLsbD i = decide (31 ≤ i.val) := by decide
  have hl : ∀ i : Fin 32, lowerMask.getLsbD i = decide (i.val < 31) := by decide
  apply BitVec.eq_of_getLsbD_eq
  intro i hi
  have h1 := hu ⟨i, hi⟩
  have h2 := hl ⟨i, hi⟩
  simp only at h1 h2
  rw [BitVec.getLsbD_or, BitVec.getLsbD_and, BitVec.getLsbD_and, h1, h2, BitVec.getLsbD_append]
  by_cases c : i < 31
  · simp [c, show ¬ 31 ≤ i by omega]
  · have : i = 31 := by omega
    subst this
    simp

theorem odd_eq (y : Word) : (y &&& 1 = 1) ↔ y.getLsbD 0 = true := by
  constructor
  · intro h
    have := congrArg (fun z : Word => z.getLsbD 0) h
    simpa using this
  · intro h
    apply BitVec.eq_of_getLsbD_eq
    intro i hi
    have h1 : ∀ i : Fin 32, (1 : Word).getLsbD i = decide (i.val = 0) := by decide
    have h2 := h1 ⟨i, hi⟩
    simp only at h2
    rw [BitVec.getLsbD_and, h2]
    by_cases c : i = 0
    · subst c; simp [h]
    · simp [c]

theorem stepWord_val (a b c : Word) :
    (c ^^^ (((a &&& upperMask) ||| (b &&& lowerMask)) >>> 1) ^^^
      (if ((a &&& upperMask) ||| (b &&& lowerMask)) &&& 1 = 1 then matrixA else 0)) = c ^^^ Spec.twist a b := by
  unfold Spec.twist
  rw [BitVec.xor_assoc, mask_eq]
  have : (((a.extractLsb' 31 1 ++ b.extractLsb' 0 31 : BitVec 32) &&& 1) = 1) ↔ b.getLsbD 0 = true := by
    rw [odd_eq, BitVec.getLsbD_append]
    simp
  simp only [this]
  rfl

theorem temper_eq (y : Word) : temper y = Spec.temper y := rfl

/-! ### Drawing -/

/-- The recurrence. -/
def Rec (x : Nat → Word) : Prop := ∀ n, x (n + 624) = x (n + 397) ^^^ Spec.twist (x n) (x (n + 1))

/-- In the middle of renewing: `kk` words are new. -/
def mix (x : Nat → Word) (b : Nat) (idx : Word) (kk : Nat) : Nat → Option Word
  | 0 => some idx
  | j + 1 => some (if j < kk then x (b + 624 + j) else x (b + j))

theorem stepWord_mix {x : Nat → Word} (hx : Rec x) {b kk : Nat} {idx : Word} {k k1 km : Int} {n1 nm : Nat} (hk : kk < 624)
    (ek : k = kk) (e1 : k1 = n1) (em : km = nm) (l1 : n1 < 624) (lm : nm < 624)
    (h1 : mix x b idx kk (n1 + 1) = some (x (b + kk + 1))) (hm : mix x b idx kk (nm + 1) = some (x (b + kk + 397))) :
    stepWord (blk (mix x b idx kk)) k k1 km = .ok (blk (mix x b idx (kk + 1))) := by
  unfold stepWord mtGet mtSet
  rw [ld_blk (n := kk + 1) (v := x (b + kk)) (by omega) (by omega) (by simp [mix]), Out.bind_ok,
    ld_blk (n := n1 + 1) (by omega) (by omega) h1, Out.bind_ok]
  dsimp only
  rw [ld_blk (n := nm + 1) (by omega) (by omega) hm, Out.bind_ok, stepWord_val, ← hx, st_blk (n := kk + 1) (by omega) (by omega)]
  refine congrArg Out.ok ?_
  apply blk_congr
  intro j hj
  cases j with
  | zero => simp [mix]
  | succ j =>
    simp only [mix]
    by_cases c : j = kk
    · subst c
      rw [if_pos rfl, if_pos (by omega)]
      congr 2; omega
    · rw [if_neg (by omega)]
      by_cases c2 : j < kk
      · rw [if_pos c2, if_pos (by omega)]
      · rw [if_neg c2, if_neg (by omega)]

theorem loop1_mix {x : Nat → Word} (hx : Rec x) {b : Nat} {idx : Word} : ∀ (n kk : Nat), kk + n ≤ 227 →
    loop1 (blk (mix x b idx kk)) kk n = .ok (blk (mix x b idx (kk + n))) := by
  intro n
  induction n with
  | zero => intro kk _; rfl
  | succ n ih =>
    intro kk h
    rw [loop1, stepWord_mix hx (kk := kk) (n1 := kk + 1) (nm := kk + 397) (by omega) rfl (by omega) (by simp [M]) (by omega) (by omega)
      (by simp only [mix]; rw [if_neg (by omega), Nat.add_assoc]) (by simp only [mix]; rw [if_neg (by omega), Nat.add_assoc]), Out.bind_ok]
    have := ih (kk + 1) (by omega)
    rw [Nat.cast_add_one] at this
    rw [this, show kk + 1 + n = kk + (n + 1) by omega]

theorem loop2_mix {x : Nat → Word} (hx : Rec x) {b : Nat} {idx : Word} : ∀ (n kk : Nat), 227 ≤ kk → kk + n ≤ 623 →
    loop2 (blk (mix x b idx kk)) kk n = .ok (blk (mix x b idx (kk + n))) := by
  intro n
  induction n with
  | zero => intro kk _ _; rfl
  | succ n ih =>
    intro kk h0 h
    rw [loop2, stepWord_mix hx (kk := kk) (n1 := kk + 1) (nm := kk - 227) (by omega) rfl (by omega) (by simp only [M, N]; omega) (by omega) (by omega)
      (by simp only [mix]; rw [if_neg (by omega), Nat.add_assoc])
      (by simp only [mix]; rw [if_pos (by omega), show b + 624 + (kk - 227) = b + kk + 397 by omega]), Out.bind_ok]
    have := ih (kk + 1) (by omega) (by omega)
    rw [Nat.cast_add_one] at this
    rw [this, show kk + 1 + n = kk + (n + 1) by omega]

/-- The block of a generator that has taken all words before `pos` of the sequence. -/
def St (x : Nat → Word) (pos : Nat) (d : Block Word) : Prop :=
  ∃ b i, pos = b + i ∧ i ≤ 624 ∧ d = blk (mix x b (BitVec.ofNat 32 i) 0)

theorem mix_idx (x : Nat → Word) (b : Nat) (u v : Word) (kk : Nat) :
    (fun j => if j = 0 then some v else mix x b u kk j) = mix x b v kk := by
  funext j
  cases j <;> simp [mix]

theorem renew_st {x : Nat → Word} (hx : Rec x) {pos : Nat} {d : Block Word} (h : St x pos d) :
    ∃ b i, pos = b + i ∧ i < 624 ∧ renew d = .ok (blk (mix x b (BitVec.ofNat 32 i) 0)) := by
  obtain ⟨b, i, e, hi, rfl⟩ := h
  unfold renew
  rw [ld_blk (i := 0) (n := 0) (v := BitVec.ofNat 32 i) rfl (by omega) rfl, Out.bind_ok]
  have ti : (BitVec.ofNat 32 i).toNat = i := by simp; omega
  rw [ti]
  by_cases c : i = 624
  · subst c
    refine ⟨b + 624, 0, by omega, by omega, ?_⟩
    rw [if_pos (by simp [N])]
    have e1 := loop1_mix hx (b := b) (idx := BitVec.ofNat 32 624) 227 0 (by omega)
    have e2 := loop2_mix hx (b := b) (idx := BitVec.ofNat 32 624) 396 227 (by omega) (by omega)
    rw [show (N - M).toNat = 227 from rfl, show (M - 1).toNat = 396 from rfl, show (0 : Int) = ((0 : Nat) : Int) from rfl, e1, Out.bind_ok,
      show N - M = ((227 : Nat) : Int) from rfl, e2, Out.bind_ok,
      show (227 + 396 : Nat) = 623 from rfl,
      stepWord_mix hx (k := N - 1) (k1 := ((0 : Nat) : Int)) (km := M - 1) (kk := 623) (n1 := 0) (nm := 396) (by omega) rfl rfl rfl (by omega) (by omega)
        (by simp [mix]) (by simp [mix]), Out.bind_ok, st_blk (i := ((0 : Nat) : Int)) (n := 0) rfl (by omega), mix_idx]
    refine congrArg Out.ok ?_
    apply blk_congr
    intro j hj
    cases j with
    | zero => rfl
    | succ j =>
      simp only [mix]
      rw [if_pos (by omega), if_neg (by omega)]
  · exact ⟨b, i, e, by omega, by rw [if_neg (by simp only [N]; omega)]; rfl⟩

theorem genrand_st {x : Nat → Word} (hx : Rec x) {pos : Nat} {d : Block Word} (h : St x pos d) :
    ∃ d', genrand d = .ok (Spec.temper (x pos), d') ∧ St x (pos + 1) d' := by
  obtain ⟨b, i, e, hi, er⟩ := renew_st hx h
  have ti : (BitVec.ofNat 32 i).toNat = i := by simp; omega
  refine ⟨blk (mix x b (BitVec.ofNat 32 (i + 1)) 0), ?_, b, i + 1, by omega, by omega, rfl⟩
  unfold genrand mtGet
  rw [er, Out.bind_ok, ld_blk (i := 0) (n := 0) (v := BitVec.ofNat 32 i) rfl (by omega) rfl, Out.bind_ok, ti,
    ld_blk (n := i + 1) (v := x pos) (by omega) (by omega) (by simp [mix, e]), Out.bind_ok,
    st_blk (i := 0) (n := 0) rfl (by omega), mix_idx, Out.bind_ok, temper_eq]
  rw [BitVec.ofNat_add]
  rfl

end Codon.Twister
