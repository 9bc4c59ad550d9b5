import Verif.Exc.Model
import Mathlib.Tactic.Common
import Mathlib.Tactic.Ring

/-! Property C17: the LEB128 readers. -/

namespace Codon.Exc

/-! ### Specification -/

/-- The bytes `bs` lie at address `p`. -/
def At (mem : Mem) (p : Int) (bs : List UInt8) : Prop := ∀ (i : Nat) (b : UInt8), bs[i]? = some b → mem (p + i) = some b

/-- `bs` is a ULEB128 encoding of `n`, possibly with superfluous groups. -/
inductive Uleb : List UInt8 → Nat → Prop
  | last {b} : b.toNat < 128 → Uleb [b] b.toNat
  | more {b bs n} : 128 ≤ b.toNat → Uleb bs n → Uleb (b :: bs) (b.toNat - 128 + 128 * n)

/-- `bs` is an SLEB128 encoding of `v`: bit 6 of the last byte is the sign. -/
inductive Sleb : List UInt8 → Int → Prop
  | pos {b} : b.toNat < 64 → Sleb [b] b.toNat
  | neg {b} : 64 ≤ b.toNat → b.toNat < 128 → Sleb [b] (b.toNat - 128)
  | more {b bs v} : 128 ≤ b.toNat → Sleb bs v → Sleb (b :: bs) (b.toNat - 128 + 128 * v)

/-! ### Lemmas -/

theorem At.head {mem : Mem} {p : Int} {b : UInt8} {bs : List UInt8} (h : At mem p (b :: bs)) : mem p = some b := by
  have := h 0 b rfl
  simpa using this

theorem At.tail {mem : Mem} {p : Int} {b : UInt8} {bs : List UInt8} (h : At mem p (b :: bs)) : At mem (p + 1) bs := by
  intro i c hc
  have := h (i + 1) c (by simpa using hc)
  rw [← this]
  congr 1
  push_cast
  omega

theorem At.left {mem : Mem} {p : Int} {as bs : List UInt8} (h : At mem p (as ++ bs)) : At mem p as := by
  intro i c hc
  have hi := (List.getElem?_eq_some_iff.mp hc).1
  exact h i c (by rw [List.getElem?_append_left hi]; exact hc)

theorem At.right {mem : Mem} {p : Int} {as bs : List UInt8} (h : At mem p (as ++ bs)) : At mem (p + as.length) bs := by
  intro i c hc
  have := h (as.length + i) c (by rw [List.getElem?_append_right (by omega)]; simpa using hc)
  rw [← this]
  congr 1
  push_cast
  omega

theorem Uleb.ne {bs : List UInt8} {n : Nat} (h : Uleb bs n) : bs ≠ [] := by cases h <;> simp

theorem Uleb.lt {bs : List UInt8} {n : Nat} (h : Uleb bs n) : n < 2 ^ (7 * bs.length) := by
  induction h with
  | last h => simpa using h
  | @more b bs n h1 h2 ih =>
    have := b.toNat_lt
    rw [List.length_cons, show 7 * (bs.length + 1) = 7 + 7 * bs.length by omega, Nat.pow_add]
    omega

/-- `Sleb` in terms of `Uleb` and the last byte. -/
theorem Sleb.raw {bs : List UInt8} {v : Int} (h : Sleb bs v) : ∃ n b, Uleb bs n ∧ bs.getLast? = some b ∧
    ((b.toNat < 64 ∧ v = n) ∨ (64 ≤ b.toNat ∧ b.toNat < 128 ∧ v = n - 2 ^ (7 * bs.length))) := by
  induction h with
  | @pos b h => exact ⟨b.toNat, b, .last (by omega), rfl, Or.inl ⟨h, rfl⟩⟩
  | @neg b h1 h2 => exact ⟨b.toNat, b, .last h2, rfl, Or.inr ⟨h1, h2, by simp⟩⟩
  | @more b bs v h1 h2 ih =>
    obtain ⟨n, c, r1, r2, r3⟩ := ih
    refine ⟨_, c, .more h1 r1, by rw [List.getLast?_cons, r2]; rfl, ?_⟩
    rcases r3 with ⟨r3, rfl⟩ | ⟨r3, r4, rfl⟩
    · left
      exact ⟨r3, by omega⟩
    · right
      refine ⟨r3, r4, ?_⟩
      rw [List.length_cons, show 7 * (bs.length + 1) = 7 + 7 * bs.length by omega, pow_add]
      push_cast
      omega

theorem or_add {a b k : Nat} (ha : a < 2 ^ k) : a ||| b * 2 ^ k = a + b * 2 ^ k := by
  rw [Nat.mul_comm, Nat.or_comm, ← Nat.two_pow_add_eq_or_of_lt ha, Nat.add_comm]

/-- One group that fits into 31 bits. -/
theorem orShift_small {r : BitVec 64} {b : UInt8} {shift : Nat} (hr : r.toNat < 2 ^ shift) (hs : shift < 32)
    (hb : (b.toNat % 128) * 2 ^ shift < 2 ^ 31) :
    ∃ r', orShift r b shift = some r' ∧ r'.toNat = r.toNat + (b.toNat % 128) * 2 ^ shift := by
  refine ⟨_, by unfold orShift; rw [if_pos hs], ?_⟩
  have h1 : (BitVec.ofNat 32 (b.toNat % 128) <<< shift).toNat = (b.toNat % 128) * 2 ^ shift := by
    rw [BitVec.toNat_shiftLeft, BitVec.toNat_ofNat, Nat.mod_eq_of_lt (a := b.toNat % 128) (by omega), Nat.shiftLeft_eq,
      Nat.mod_eq_of_lt (by omega)]
  have hm : (BitVec.ofNat 32 (b.toNat % 128) <<< shift).msb = false := by
    rw [BitVec.msb_eq_decide, h1]
    simp only [decide_eq_false_iff_not]
    omega
  rw [BitVec.toNat_or, BitVec.signExtend_eq_setWidth_of_msb_false hm, BitVec.toNat_setWidth, h1, Nat.mod_eq_of_lt (by omega),
    or_add hr]

theorem lebLoop_spec {mem : Mem} {bs : List UInt8} {n : Nat} (h : Uleb bs n) : ∀ (f : Nat) (p : Int) (r : BitVec 64) (shift : Nat),
    At mem p bs → bs.length ≤ f → shift + 7 * bs.length ≤ 38 → r.toNat < 2 ^ shift → n * 2 ^ shift < 2 ^ 31 →
    ∃ r' b, lebLoop mem f p r shift = some (r', b, shift + 7 * bs.length, p + bs.length) ∧ bs.getLast? = some b ∧
      r'.toNat = r.toNat + n * 2 ^ shift := by
  induction h with
  | @last b h =>
    intro f p r shift hat hf hs hr hn
    obtain ⟨f, rfl⟩ : ∃ g, f = g + 1 := ⟨f - 1, by simp at hf; omega⟩
    simp only [List.length_singleton] at hs
    obtain ⟨r', h1, h2⟩ := orShift_small (b := b) hr (by omega) (by rw [Nat.mod_eq_of_lt h]; exact hn)
    unfold lebLoop
    rw [hat.head]
    simp only [Option.bind_eq_bind, Option.bind_some]
    rw [h1]
    simp only [Option.bind_some]
    rw [if_neg (by omega)]
    refine ⟨r', b, by simp, rfl, ?_⟩
    rw [h2, Nat.mod_eq_of_lt h]
  | @more b bs n hb h ih =>
    intro f p r shift hat hf hs hr hn
    have hlt := b.toNat_lt
    have hlen : 0 < bs.length := List.length_pos_iff.mpr h.ne
    simp only [List.length_cons] at hs hf
    obtain ⟨f, rfl⟩ : ∃ g, f = g + 1 := ⟨f - 1, by omega⟩
    have hm : b.toNat % 128 = b.toNat - 128 := by omega
    have hexp : (b.toNat - 128 + 128 * n) * 2 ^ shift = (b.toNat - 128) * 2 ^ shift + n * 2 ^ (shift + 7) := by
      rw [Nat.pow_add, Nat.add_mul]; ring
    obtain ⟨r', h1, h2⟩ := orShift_small (b := b) hr (by omega) (by rw [hm]; omega)
    have hr' : r'.toNat < 2 ^ (shift + 7) := by
      rw [h2, Nat.pow_add, hm]
      have h127 : b.toNat - 128 ≤ 127 := by omega
      have : (b.toNat - 128) * 2 ^ shift ≤ 127 * 2 ^ shift := Nat.mul_le_mul_right _ h127
      have : 2 ^ shift * 2 ^ 7 = 127 * 2 ^ shift + 2 ^ shift := by ring
      omega
    obtain ⟨r2, c, g1, g2, g3⟩ := ih f (p + 1) r' (shift + 7) hat.tail (by omega) (by omega) hr' (by omega)
    unfold lebLoop
    rw [hat.head]
    simp only [Option.bind_eq_bind, Option.bind_some]
    rw [h1]
    simp only [Option.bind_some]
    rw [if_pos hb, g1]
    refine ⟨r2, c, ?_, by rw [List.getLast?_cons, g2]; rfl, ?_⟩
    · simp only [Option.some.injEq, Prod.mk.injEq, List.length_cons, true_and]
      push_cast
      omega
    · rw [g3, h2, hexp, hm]; omega

/-- A group at shift 32 or more is undefined behaviour. -/
theorem lebLoop_long {mem : Mem} {bs : List UInt8} {n : Nat} (h : Uleb bs n) : ∀ (f : Nat) (p : Int) (r : BitVec 64) (shift : Nat),
    At mem p bs → 32 ≤ shift + 7 * (bs.length - 1) → lebLoop mem f p r shift = none := by
  induction h with
  | @last b h =>
    intro f p r shift hat hs
    cases f with
    | zero => rfl
    | succ f =>
      unfold lebLoop
      rw [hat.head]
      simp only [Option.bind_eq_bind, Option.bind_some]
      unfold orShift
      rw [if_neg (by simp at hs; omega)]
      rfl
  | @more b bs n hb h ih =>
    intro f p r shift hat hs
    have hlen : 0 < bs.length := List.length_pos_iff.mpr h.ne
    cases f with
    | zero => rfl
    | succ f =>
      unfold lebLoop
      rw [hat.head]
      simp only [Option.bind_eq_bind, Option.bind_some]
      cases ho : orShift r b shift with
      | none => rfl
      | some r' =>
        simp only [Option.bind_some]
        rw [if_pos hb]
        exact ih f (p + 1) r' (shift + 7) hat.tail (by simp only [List.length_cons] at hs; omega)

/-- A last group with more than 31 bits in total gives a wrong number. -/
theorem lebLoop_wrong {mem : Mem} {bs : List UInt8} {n : Nat} (h : Uleb bs n) : ∀ (f : Nat) (p : Int) (r : BitVec 64) (shift : Nat)
    (x : BitVec 64) (rest : UInt8 × Nat × Int),
    At mem p bs → shift + 7 * (bs.length - 1) = 28 → r.toNat < 2 ^ shift → 2 ^ 31 ≤ n * 2 ^ shift →
    lebLoop mem f p r shift = some (x, rest) → x.toNat < 2 ^ 31 ∨ 2 ^ 35 ≤ x.toNat := by
  induction h with
  | @last b h =>
    intro f p r shift x rest hat hs hr hn he
    simp at hs
    subst hs
    cases f with
    | zero => cases he
    | succ f =>
      unfold lebLoop at he
      rw [hat.head] at he
      simp only [Option.bind_eq_bind, Option.bind_some] at he
      unfold orShift at he
      rw [if_pos (by omega)] at he
      simp only [Option.bind_some] at he
      rw [if_neg (by omega)] at he
      simp only [Option.pure_def, Option.some.injEq, Prod.mk.injEq] at he
      obtain ⟨rfl, -⟩ := he
      rw [BitVec.toNat_or, BitVec.toNat_signExtend, BitVec.toNat_setWidth]
      have h1 : (BitVec.ofNat 32 (b.toNat % 128) <<< 28).toNat = (b.toNat % 16) * 2 ^ 28 := by
        rw [BitVec.toNat_shiftLeft, BitVec.toNat_ofNat, Nat.shiftLeft_eq]
        omega
      have hmsb : (BitVec.ofNat 32 (b.toNat % 128) <<< 28).msb = decide (8 ≤ b.toNat % 16) := by
        rw [BitVec.msb_eq_decide, h1]
        simp only [decide_eq_decide]
        omega
      rw [h1, hmsb]
      by_cases h8 : 8 ≤ b.toNat % 16
      · right
        rw [if_pos (by simpa using h8)]
        refine Nat.le_trans ?_ Nat.right_le_or
        omega
      · left
        rw [if_neg (by simpa using h8), Nat.add_zero, Nat.mod_eq_of_lt (by omega), or_add hr]
        omega
  | @more b bs n hb h ih =>
    intro f p r shift x rest hat hs hr hn he
    have hlt := b.toNat_lt
    have hlen : 0 < bs.length := List.length_pos_iff.mpr h.ne
    simp only [List.length_cons] at hs
    have hm : b.toNat % 128 = b.toNat - 128 := by omega
    have hsm : shift ≤ 21 := by omega
    have hpow : 2 ^ shift ≤ 2 ^ 21 := Nat.pow_le_pow_right (by omega) hsm
    have h127 : (b.toNat - 128) * 2 ^ shift ≤ 127 * 2 ^ shift := Nat.mul_le_mul_right _ (by omega)
    have hexp : (b.toNat - 128 + 128 * n) * 2 ^ shift = (b.toNat - 128) * 2 ^ shift + n * 2 ^ (shift + 7) := by
      rw [Nat.pow_add, Nat.add_mul]; ring
    cases f with
    | zero => cases he
    | succ f =>
      obtain ⟨r', h1, h2⟩ := orShift_small (b := b) hr (by omega) (by rw [hm]; omega)
      have hr' : r'.toNat < 2 ^ (shift + 7) := by
        rw [h2, Nat.pow_add, hm]
        have : 2 ^ shift * 2 ^ 7 = 127 * 2 ^ shift + 2 ^ shift := by ring
        omega
      have hn' : 2 ^ 31 ≤ n * 2 ^ (shift + 7) := by
        by_contra hc
        have hdvd : (2 ^ (shift + 7)) ∣ 2 ^ 31 := Nat.pow_dvd_pow 2 (by omega)
        obtain ⟨k, hk⟩ := hdvd
        have hnk : n < k := by
          by_contra hnk
          have := Nat.mul_le_mul_right (2 ^ (shift + 7)) (Nat.le_of_not_lt hnk)
          rw [Nat.mul_comm k, ← hk] at this
          omega
        have : (n + 1) * 2 ^ (shift + 7) ≤ k * 2 ^ (shift + 7) := Nat.mul_le_mul_right _ hnk
        rw [Nat.mul_comm k, ← hk, Nat.add_mul, Nat.one_mul, Nat.pow_add] at this
        rw [hexp, Nat.pow_add] at hn
        have e2 : 2 ^ shift * 2 ^ 7 = 127 * 2 ^ shift + 2 ^ shift := by ring
        have := Nat.two_pow_pos shift
        omega
      unfold lebLoop at he
      rw [hat.head] at he
      simp only [Option.bind_eq_bind, Option.bind_some] at he
      rw [h1] at he
      simp only [Option.bind_some] at he
      rw [if_pos hb] at he
      exact ih f (p + 1) r' (shift + 7) x rest hat.tail (by omega) hr' hn' he

/-! ### C17 -/

/-- The bytes `bs` at address 0. -/
def memOf (bs : List UInt8) : Mem := fun a => if 0 ≤ a then bs[a.toNat]? else none

theorem readULEB_spec {mem : Mem} {p : Int} {bs : List UInt8} {n : Nat} (hat : At mem p bs) (h : Uleb bs n) (h5 : bs.length ≤ 5)
    (hn : n < 2 ^ 31) : readULEB128 mem p = some (BitVec.ofNat 64 n, p + bs.length) := by
  obtain ⟨r, b, h1, _, h3⟩ := lebLoop_spec h 6 p 0 0 hat (by omega) (by omega) (by simp) (by omega)
  unfold readULEB128
  have e : (0 : BitVec 64).toNat = 0 := rfl
  rw [h1]
  simp only [Option.bind_eq_bind, Option.bind_some, Option.pure_def, Option.some.injEq, Prod.mk.injEq, and_true]
  apply BitVec.eq_of_toNat_eq
  rw [h3, BitVec.toNat_ofNat, e]
  omega

theorem readSLEB_spec {mem : Mem} {p : Int} {bs : List UInt8} {v : Int} (hat : At mem p bs) (h : Sleb bs v) (h5 : bs.length ≤ 5)
    (hl : - 2 ^ 27 ≤ v ∧ v < 2 ^ 31) (h4 : v < 0 → bs.length ≤ 4) :
    readSLEB128 mem p = some (BitVec.ofInt 64 v, p + bs.length) := by
  obtain ⟨n, b, r1, r2, r3⟩ := h.raw
  have hlt := r1.lt
  have hltz : (n : Int) < 2 ^ (7 * bs.length) := by exact_mod_cast hlt
  have hn : n < 2 ^ 31 := by
    rcases r3 with ⟨_, rfl⟩ | ⟨_, _, rfl⟩
    · omega
    · have h4 := h4 (by omega)
      have : 2 ^ (7 * bs.length) ≤ 2 ^ 28 := Nat.pow_le_pow_right (by omega) (by omega)
      omega
  obtain ⟨r, c, h1, h2, h3⟩ := lebLoop_spec r1 6 p 0 0 hat (by omega) (by omega) (by simp) (by omega)
  rw [r2] at h2
  obtain rfl : b = c := by simpa using h2
  have e : (0 : BitVec 64).toNat = 0 := rfl
  rw [e] at h3
  unfold readSLEB128
  rw [h1]
  simp only [Option.bind_eq_bind, Option.bind_some, Nat.zero_add]
  rcases r3 with ⟨q1, rfl⟩ | ⟨q1, q2, rfl⟩
  · rw [if_neg (by omega)]
    simp only [Option.pure_def, Option.some.injEq, Prod.mk.injEq, and_true]
    apply BitVec.eq_of_toNat_eq
    rw [h3, BitVec.ofInt_natCast, BitVec.toNat_ofNat]
    omega
  · have h4 := h4 (by omega)
    generalize hk : 7 * bs.length = k at *
    have hk28 : k ≤ 28 := by omega
    rw [if_pos (by omega), if_pos (by omega)]
    simp only [Option.pure_def, Option.some.injEq, Prod.mk.injEq, and_true]
    have hpow : 2 ^ k ≤ 2 ^ 28 := Nat.pow_le_pow_right (by omega) hk28
    have hpos := Nat.two_pow_pos k
    have hs : (BitVec.allOnes 32 <<< k).toNat = (2 ^ (32 - k) - 1) * 2 ^ k := by
      rw [BitVec.toNat_shiftLeft, BitVec.toNat_allOnes, Nat.shiftLeft_eq]
      have e32 : 2 ^ 32 = 2 ^ (32 - k) * 2 ^ k := by rw [← Nat.pow_add]; congr 1; omega
      have e1 : (2 ^ 32 - 1) * 2 ^ k = (2 ^ k - 1) * 2 ^ 32 + (2 ^ 32 - 2 ^ k) := by
        rw [Nat.sub_mul, Nat.sub_mul, Nat.one_mul, Nat.one_mul, Nat.mul_comm (2 ^ 32) (2 ^ k)]
        have := Nat.mul_le_mul_right (2 ^ 32) hpos
        omega
      rw [e1, Nat.add_comm, Nat.add_mul_mod_self_right, Nat.mod_eq_of_lt (by omega), Nat.sub_mul, Nat.one_mul, ← e32]
    have hmsb : (BitVec.allOnes 32 <<< k).msb = true := by
      rw [BitVec.msb_eq_decide, hs, Nat.sub_mul, Nat.one_mul, ← Nat.pow_add, show 32 - k + k = 32 by omega]
      simp only [decide_eq_true_eq]
      omega
    apply BitVec.eq_of_toNat_eq
    rw [BitVec.toNat_or, BitVec.toNat_signExtend, BitVec.toNat_setWidth, hmsb, hs, if_pos rfl, h3, BitVec.toNat_ofInt]
    have e64 : 2 ^ 64 = 2 ^ (64 - k) * 2 ^ k := by rw [← Nat.pow_add]; congr 1; omega
    have e32 : 2 ^ 32 = 2 ^ (32 - k) * 2 ^ k := by rw [← Nat.pow_add]; congr 1; omega
    have ev : (2 ^ (32 - k) - 1) * 2 ^ k % 2 ^ 64 + (2 ^ 64 - 2 ^ 32) = (2 ^ (64 - k) - 1) * 2 ^ k := by
      rw [Nat.sub_mul, Nat.one_mul, ← e32, Nat.sub_mul, ← e64]
      rw [Nat.mod_eq_of_lt (by omega)]
      omega
    rw [ev, Nat.zero_add, Nat.pow_zero, Nat.mul_one, or_add hlt, Nat.sub_mul, ← e64]
    have hc : ((2 : Int) ^ k) = ((2 ^ k : Nat) : Int) := by push_cast; rfl
    rw [hc]
    omega

/-- **C17 (partial).** `readULEB128` returns the encoded number and the address behind it exactly if the number is below
2^31 and written in at most five bytes; with a sixth byte its behaviour is undefined, and a five-byte number of 2^31 or
more is decoded wrongly.  Missing: the property claims it for all 64-bit numbers. -/
theorem c17_uleb_partial (mem : Mem) (p : Int) (bs : List UInt8) (n : Nat) (hat : At mem p bs) (h : Uleb bs n) :
    (readULEB128 mem p = some (BitVec.ofNat 64 n, p + bs.length) ↔ bs.length ≤ 5 ∧ n < 2 ^ 31) ∧
    (6 ≤ bs.length → readULEB128 mem p = none) := by
  have hlong : 6 ≤ bs.length → readULEB128 mem p = none := by
    intro h6
    unfold readULEB128
    rw [lebLoop_long h 6 p 0 0 hat (by omega)]
    rfl
  refine ⟨⟨fun he => ?_, fun ⟨h5, hn⟩ => readULEB_spec hat h h5 hn⟩, hlong⟩
  by_cases h6 : 6 ≤ bs.length
  · rw [hlong h6] at he; cases he
  · refine ⟨by omega, ?_⟩
    by_contra hn
    have hlt := h.lt
    have h5 : bs.length = 5 := by
      by_contra hc
      have : 2 ^ (7 * bs.length) ≤ 2 ^ 28 := Nat.pow_le_pow_right (by omega) (by omega)
      omega
    unfold readULEB128 at he
    cases hl : lebLoop mem 6 p 0 0 with
    | none => rw [hl] at he; cases he
    | some x =>
      obtain ⟨x, c, sh, q⟩ := x
      rw [hl] at he
      simp only [Option.bind_eq_bind, Option.bind_some, Option.pure_def, Option.some.injEq, Prod.mk.injEq] at he
      have hw := lebLoop_wrong h 6 p 0 0 x _ hat (by omega) (by simp) (by omega) hl
      rw [h5] at hlt
      rw [he.1, BitVec.toNat_ofNat] at hw
      omega

example : Uleb [0xAC, 0x02] 300 ∧ At (memOf [7, 0xAC, 0x02]) 1 [0xAC, 0x02] := by
  have h := Uleb.more (b := 0xAC) (by decide) (.last (b := 0x02) (by decide))
  refine ⟨by simpa using h, fun i b hi => ?_⟩
  match i with
  | 0 => simpa [memOf] using hi
  | 1 => simpa [memOf] using hi
  | i + 2 => simp at hi

/-- **C17 (partial).** `readSLEB128` returns the encoded number and the address behind it for numbers between -2^27 and
2^31 - 1 (negative ones in at most four, others in at most five bytes). -/
theorem c17_sleb_partial (mem : Mem) (p : Int) (bs : List UInt8) (v : Int) (hat : At mem p bs) (h : Sleb bs v) (h5 : bs.length ≤ 5)
    (hl : - 2 ^ 27 ≤ v ∧ v < 2 ^ 31) (h4 : v < 0 → bs.length ≤ 4) :
    readSLEB128 mem p = some (BitVec.ofInt 64 v, p + bs.length) := readSLEB_spec hat h h5 hl h4

example : Sleb [0x80, 0x7f] (-128) := by
  have h := Sleb.more (b := 0x80) (by decide) (.neg (b := 0x7f) (by decide) (by decide))
  simpa using h

/-- **C17 is violated** for large numbers: 2^31 is read as 2^64 - 2^31, and reading 2^35 or -2^28 (five bytes) shifts an
`int` by more than 31 bits. -/
theorem c17_violation : (Uleb [0x80, 0x80, 0x80, 0x80, 0x08] (2 ^ 31) ∧
      readULEB128 (memOf [0x80, 0x80, 0x80, 0x80, 0x08]) 0 = some (BitVec.ofNat 64 (2 ^ 64 - 2 ^ 31), 5)) ∧
    (Uleb [0x80, 0x80, 0x80, 0x80, 0x80, 0x01] (2 ^ 35) ∧ readULEB128 (memOf [0x80, 0x80, 0x80, 0x80, 0x80, 0x01]) 0 = none) ∧
    (Sleb [0x80, 0x80, 0x80, 0x80, 0x7f] (- 2 ^ 28) ∧ readSLEB128 (memOf [0x80, 0x80, 0x80, 0x80, 0x7f]) 0 = none) := by
  have m : ∀ {bs n}, Uleb bs n → Uleb (0x80 :: bs) (128 * n) := fun h => by
    have := Uleb.more (b := 0x80) (by decide) h
    simpa using this
  have ms : ∀ {bs v}, Sleb bs v → Sleb (0x80 :: bs) (128 * v) := fun h => by
    have := Sleb.more (b := 0x80) (by decide) h
    simpa using this
  refine ⟨⟨m (m (m (m (.last (b := 0x08) (by decide))))), by decide +kernel⟩,
    ⟨m (m (m (m (m (.last (b := 0x01) (by decide)))))), by decide +kernel⟩,
    ⟨ms (ms (ms (ms (.neg (b := 0x7f) (by decide) (by decide))))), by decide +kernel⟩⟩

end Codon.Exc
