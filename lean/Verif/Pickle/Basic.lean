import Verif.Pickle.Spec
/-!
# Files and memory
-/
namespace Codon.Pickle
open Codon.KHash
variable {α β : Type}

/-! ### Steps -/

theorem writes_nil (pos : Nat) : Writes (fun j => some (.ok j)) pos [] := fun j _ => by simp

theorem writes_bind {f g : Jar → Out Jar} {pos : Nat} {a b : List Byte} (hf : Writes f pos a) (hg : Writes g (pos + a.length) b) : Writes (fun j => Out.bind (f j) g) pos (a ++ b) := by
  intro j hj
  dsimp only
  rw [hf j hj]
  by_cases h1 : a.length ≤ j.room
  · rw [if_pos h1]
    simp only [Out.bind]
    rw [hg _ (by simp [hj])]
    dsimp only
    by_cases h2 : b.length ≤ j.room - a.length
    · rw [if_pos h2, if_pos (by simp; omega)]
      simp only [List.append_assoc, List.length_append]
      rw [show j.room - a.length - b.length = j.room - (a.length + b.length) by omega]
    · rw [if_neg h2, if_neg (by simp; omega)]
  · rw [if_neg h1, if_neg (by simp; omega)]
    rfl

/-- The position may be used to write. -/
theorem writes_pos {f : Nat → Jar → Out Jar} {pos : Nat} {a : List Byte} (hf : Writes (f pos) pos a) : Writes (fun j => f j.data.length j) pos a := by
  intro j hj
  dsimp only
  rw [hj]; exact hf j hj

theorem writeLoop_spec : ∀ (n : Nat) (bs : List Byte) (j : Jar), bs.length ≤ n → writeLoop n bs j = if bs.length ≤ j.room then .ok ⟨j.data ++ bs, j.room - bs.length⟩ else .error .io
  | 0, bs, j, hn => by
    have : bs = [] := List.length_eq_zero_iff.mp (by omega)
    subst this; simp [writeLoop]
  | n + 1, bs, j, hn => by
    rw [writeLoop]
    by_cases h0 : bs.length = 0
    · have : bs = [] := List.length_eq_zero_iff.mp h0
      subst this; simp
    · rw [if_neg h0]
      have key : ∀ b, 0 < b → b ≤ bs.length → (let r := gzwrite j (bs.take b); if r.2 ≠ b then (.error .io : Except Err Jar) else writeLoop n (bs.drop b) r.1) =
          if bs.length ≤ j.room then .ok ⟨j.data ++ bs, j.room - bs.length⟩ else .error .io := by
        intro b hb hle
        have hl : (bs.take b).length = b := by rw [List.length_take]; omega
        dsimp only
        unfold gzwrite
        rw [hl]
        by_cases h1 : b ≤ j.room
        · rw [if_pos h1]
          dsimp only
          rw [if_neg (by simp), writeLoop_spec n _ _ (by rw [List.length_drop]; omega)]
          dsimp only
          rw [List.length_drop, List.append_assoc, List.take_append_drop, show j.room - b - (bs.length - b) = j.room - bs.length by omega]
          by_cases h2 : bs.length ≤ j.room
          · rw [if_pos (by omega), if_pos h2]
          · rw [if_neg (by omega), if_neg h2]
        · rw [if_neg h1]
          dsimp only
          rw [if_pos (by omega), if_neg (by omega)]
      have hL : 0 < LIMIT := by decide
      by_cases h1 : bs.length < LIMIT
      · rw [if_pos h1]; exact key _ (by omega) (by omega)
      · rw [if_neg h1]; exact key _ hL (by omega)

theorem writes_raw (bs : List Byte) (pos : Nat) : Writes (writeRaw bs) pos bs := fun j _ => by rw [writeRaw, writeLoop_spec _ _ _ (Nat.le_refl _)]

theorem reads_mono {f : List Byte → Out (α × List Byte)} {bs : List Byte} {R R' : α → Prop} (h : Reads f bs R) (hR : ∀ x, R x → R' x) : Reads f bs R' :=
  ⟨fun rest => by obtain ⟨y, h1, h2⟩ := h.1 rest; exact ⟨y, h1, hR y h2⟩, h.2⟩

theorem reads_pure (x : α) {R : α → Prop} (hx : R x) : Reads (fun s => some (.ok (x, s))) [] R := ⟨fun _ => ⟨x, rfl, hx⟩, fun n hn => by simp at hn⟩

theorem reads_bind {f : List Byte → Out (α × List Byte)} {g : α → List Byte → Out (β × List Byte)} {a b : List Byte} {R : α → Prop} {S : β → Prop} (hf : Reads f a R)
    (hg : ∀ x, R x → Reads (g x) b S) : Reads (fun s => Out.bind (f s) fun p => g p.1 p.2) (a ++ b) S := by
  refine ⟨fun rest => ?_, fun n hn => ?_⟩
  · obtain ⟨x, h1, h2⟩ := hf.1 (b ++ rest)
    obtain ⟨y, h3, h4⟩ := (hg x h2).1 rest
    refine ⟨y, ?_, h4⟩
    dsimp only
    rw [List.append_assoc, h1]
    exact h3
  · dsimp only
    rw [List.length_append] at hn
    by_cases hc : n < a.length
    · rw [List.take_append_of_le_length (by omega), hf.2 n hc]; rfl
    · obtain ⟨x, h1, h2⟩ := hf.1 (b.take (n - a.length))
      rw [List.take_append, List.take_of_length_le (by omega), h1]
      exact (hg x h2).2 _ (by omega)

theorem reads_map {f : List Byte → Out (α × List Byte)} {g : α → β} {a : List Byte} {R : α → Prop} {S : β → Prop} (hf : Reads f a R) (hg : ∀ x, R x → S (g x)) :
    Reads (fun s => Out.bind (f s) fun p => some (.ok (g p.1, p.2))) a S := by
  have := reads_bind (b := []) (g := fun x s => some (.ok (g x, s))) hf fun x hx => reads_pure (g x) (hg x hx)
  rw [List.append_nil] at this
  exact this

theorem readLoop_spec : ∀ (k n : Nat) (s : List Byte), n ≤ k → readLoop k n s = if n ≤ s.length then .ok (s.take n, s.drop n) else .error .io
  | 0, n, s, hn => by
    have : n = 0 := by omega
    subst this; simp [readLoop]
  | k + 1, n, s, hn => by
    rw [readLoop]
    by_cases h0 : n = 0
    · subst h0; simp
    · rw [if_neg h0]
      have key : ∀ b, 0 < b → b ≤ n → (let r := gzread s b; if r.1.length ≠ b then (.error .io : Except Err (List Byte × List Byte)) else match readLoop k (n - b) r.2 with
          | .error e => .error e
          | .ok (m, s') => .ok (r.1 ++ m, s')) = if n ≤ s.length then .ok (s.take n, s.drop n) else .error .io := by
        intro b hb hle
        dsimp only [gzread]
        rw [List.length_take]
        by_cases h1 : b ≤ s.length
        · rw [if_neg (by omega), readLoop_spec k _ _ (by omega), List.length_drop]
          by_cases h2 : n ≤ s.length
          · rw [if_pos (by omega), if_pos h2]
            dsimp only
            rw [← List.take_add, List.drop_drop, show b + (n - b) = n by omega]
          · rw [if_neg (by omega), if_neg h2]
        · rw [if_pos (by omega), if_neg (by omega)]
      have hL : 0 < LIMIT := by decide
      by_cases h1 : n < LIMIT
      · rw [if_pos h1]; exact key _ (by omega) (by omega)
      · rw [if_neg h1]; exact key _ hL (by omega)

theorem reads_raw (bs : List Byte) {n : Nat} (hn : n = bs.length) : Reads (readRaw n) bs (· = bs) := by
  subst hn
  refine ⟨fun rest => ⟨bs, ?_, rfl⟩, fun n hn => ?_⟩
  · rw [readRaw, readLoop_spec _ _ _ (Nat.le_refl _), if_pos (by simp), List.take_left, List.drop_left]
  · rw [readRaw, readLoop_spec _ _ _ (Nat.le_refl _), if_neg (by rw [List.length_take]; omega)]

/-! ### Numbers in memory -/

theorem length_leBytes (w n : Nat) : (leBytes w n).length = w := by simp [leBytes]

theorem leBytes_succ (w n : Nat) : leBytes (w + 1) n = BitVec.ofNat 8 n :: leBytes w (n / 256) := by
  simp only [leBytes, List.range_succ_eq_map, List.map_cons, List.map_map, Nat.pow_zero, Nat.div_one]
  congr 1
  refine List.map_congr_left fun i _ => ?_
  simp only [Function.comp]
  rw [Nat.div_div_eq_div_mul, Nat.succ_eq_add_one, Nat.pow_succ, Nat.mul_comm]

theorem ofBytes_leBytes : ∀ w n : Nat, ofBytes (leBytes w n) = n % 256 ^ w
  | 0, n => by simp [leBytes, ofBytes, Nat.mod_one]
  | w + 1, n => by
    rw [leBytes_succ, ofBytes, List.foldr_cons]
    have ih := ofBytes_leBytes w (n / 256)
    rw [ofBytes] at ih
    rw [ih, BitVec.toNat_ofNat, Nat.pow_succ 256 w, Nat.mul_comm (256 ^ w) 256, Nat.mod_mul]

theorem cell_good (n w : Nat) (h : n ≤ 8 * w) (hw : 0 < w) : (cellImg n w).Good := by
  refine ⟨fun p x => length_leBytes _ _, fun p x => ?_, hw⟩
  simp only [cellImg]
  rw [ofBytes_leBytes]
  apply BitVec.eq_of_toNat_eq
  rw [BitVec.toNat_ofNat]
  have hd : 2 ^ n ∣ 256 ^ w := by
    rw [show (256 : Nat) = 2 ^ 8 from rfl, ← Nat.pow_mul]
    exact Nat.pow_dvd_pow 2 h
  rw [Nat.mod_mod_of_dvd _ hd, Nat.add_mul_mod_self_left, Nat.mod_eq_of_lt x.isLt]

theorem writes_write (pad : Nat → Nat) (I : Img α) (x : α) (pos : Nat) : Writes (write pad I x) pos (I.put (pad pos) x) := by
  intro j hj
  rw [write, hj]
  exact writes_raw _ pos j hj

theorem reads_read (I : Img α) (hI : I.Good) (p : Nat) (x : α) : Reads (read I) (I.put p x) (· = x) := by
  refine reads_map (f := readRaw I.size) (g := I.get) (reads_raw (I.put p x) (hI.size p x).symm) fun y hy => ?_
  rw [hy, hI.get]

theorem cell_works (pad : Nat → Nat) (n w : Nat) (h : n ≤ 8 * w) (hw : 0 < w) : Works (pCell pad n w) (fun _ => True) (fun x y => y = x) :=
  ⟨fun x _ pos => ⟨_, writes_write pad _ x pos, reads_read _ (cell_good n w h hw) _ x⟩, fun I hI => by cases hI; exact ⟨cell_good n w h hw, fun _ => rfl⟩⟩

theorem writes_nat (pad : Nat → Nat) (n pos : Nat) : Writes (writeNat pad n) pos ((cellImg 64 8).put (pad pos) (BitVec.ofNat 64 n)) := writes_write pad _ _ pos

theorem reads_nat (pad : Nat → Nat) (n p : Nat) (hn : n < 2 ^ 63) : Reads (readNat pad) ((cellImg 64 8).put p (BitVec.ofNat 64 n)) (· = n) := by
  have h := reads_read (cellImg 64 8) (cell_good 64 8 (by decide) (by decide)) p (BitVec.ofNat 64 n)
  have := reads_bind (b := []) (S := (· = n)) (g := fun (x : BitVec 64) s => if 0 ≤ x.toInt then some (.ok (x.toNat, s)) else none) h fun x hx => by
    subst hx
    have ht : (BitVec.ofNat 64 n).toNat = n := by rw [BitVec.toNat_ofNat]; omega
    have hi : (BitVec.ofNat 64 n).toInt = n := by rw [BitVec.toInt_eq_toNat_of_lt (by omega), ht]
    refine ⟨fun rest => ⟨n, ?_, rfl⟩, fun k hk => by simp at hk⟩
    dsimp only
    rw [if_pos (by omega), ht]; rfl
  rw [List.append_nil] at this
  exact this

/-! ### Cells -/

theorem length_cells (pad : Nat → Nat) (I : Img α) (hI : I.Good) : ∀ (cs : List (Option α)) (o : Nat), (cells pad I o cs).length = cs.length * I.size
  | [], _ => by simp [cells]
  | some x :: cs, o => by rw [cells, List.length_append, length_cells pad I hI cs, hI.size, List.length_cons, Nat.succ_mul]; omega
  | none :: cs, o => by rw [cells, List.length_append, length_cells pad I hI cs, length_leBytes, List.length_cons, Nat.succ_mul]; omega

/-- What is loaded from cells agrees with what was stored in them. -/
theorem ofCells_cells (pad : Nat → Nat) (I : Img α) (hI : I.Good) : ∀ (cs : List (Option α)) (o : Nat), List.Forall₂ (fun c x => c = none ∨ c = some x) cs (ofCells I cs.length (cells pad I o cs))
  | [], _ => .nil
  | some x :: cs, o => by
    rw [cells, List.length_cons, ofCells]
    rw [List.take_append_of_le_length (by rw [hI.size]), List.take_of_length_le (by rw [hI.size]), hI.get, List.drop_append_of_le_length (by rw [hI.size]), List.drop_of_length_le (by rw [hI.size]),
      List.nil_append]
    exact .cons (Or.inr rfl) (ofCells_cells pad I hI cs _)
  | none :: cs, o => by
    rw [cells, List.length_cons, ofCells]
    rw [List.drop_append_of_le_length (by rw [length_leBytes]), List.drop_of_length_le (by rw [length_leBytes]), List.nil_append]
    exact .cons (Or.inl rfl) (ofCells_cells pad I hI cs _)

theorem forall2_some {cs : List α} {ds : List α} (h : List.Forall₂ (fun c x => c = none ∨ c = some x) (cs.map some) ds) : ds = cs := by
  induction cs generalizing ds with
  | nil => cases h; rfl
  | cons c cs ih =>
    cases h with
    | cons h1 h2 =>
      rcases h1 with h1 | h1
      · cases h1
      · rw [ih h2, Option.some.inj h1]

theorem ofCells_some (pad : Nat → Nat) (I : Img α) (hI : I.Good) (cs : List α) (o : Nat) : ofCells I cs.length (cells pad I o (cs.map some)) = cs := by
  have := ofCells_cells pad I hI (cs.map some) o
  rw [List.length_map] at this
  exact forall2_some this

end Codon.Pickle
