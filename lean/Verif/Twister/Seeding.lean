import Verif.Twister.Lemmas
/-! # Seeding -/
namespace Codon.Twister

/-! ### `init_u32` -/

/-- The first `m` words are written. -/
def part (g : Nat → Option Word) (m : Nat) : Nat → Option Word
  | 0 => g 0
  | j + 1 => if j < m then some (Spec.knuth j) else g (j + 1)

theorem u32Loop_part (g : Nat → Option Word) : ∀ (n m : Nat), 1 ≤ m → m + n ≤ 624 →
    u32Loop (blk (part g m)) m n = .ok (blk (part g (m + n))) := by
  intro n
  induction n with
  | zero => intro m _ _; rfl
  | succ n ih =>
    intro m h1 h2
    obtain ⟨m, rfl⟩ : ∃ k, m = k + 1 := ⟨m - 1, by omega⟩
    unfold u32Loop mtGet mtSet
    rw [ld_blk (n := m + 1) (v := Spec.knuth m) (by omega) (by omega) (by simp [part]), Out.bind_ok,
      st_blk (n := m + 1 + 1) (by omega) (by omega), Out.bind_ok]
    have e : blk (fun j => if j = m + 1 + 1 then
        some (1812433253 * (Spec.knuth m ^^^ (Spec.knuth m >>> 30)) + BitVec.ofInt 32 ((m + 1 : Nat) : Int)) else part g (m + 1) j)
        = blk (part g (m + 1 + 1)) := by
      apply blk_congr
      intro j _
      cases j with
      | zero => simp [part]
      | succ j =>
        simp only [part]
        by_cases c : j = m + 1
        · subst c
          rw [if_pos rfl, if_pos (by omega), Spec.knuth, BitVec.ofInt_natCast]
        · rw [if_neg (by omega)]
          by_cases c2 : j < m + 1
          · rw [if_pos c2, if_pos (by omega)]
          · rw [if_neg c2, if_neg (by omega)]
    rw [e, ← Nat.cast_add_one, ih (m + 1 + 1) (by omega) (by omega), show m + 1 + 1 + n = m + 1 + (n + 1) by omega]

theorem initU32_eq {d : Block Word} (h : d.length = 625) :
    initU32 d 19650218 = .ok (blk fun j => match j with | 0 => some 624 | j + 1 => some (Spec.knuth j)) := by
  rw [blk_of h]
  generalize (fun j : Nat => d[j]?.join) = g
  unfold initU32 mtSet
  rw [st_blk (i := 0 + 1) (n := 1) rfl (by omega), Out.bind_ok]
  have e : blk (fun j => if j = 1 then some 19650218 else g j) = blk (part g 1) := by
    apply blk_congr
    intro j _
    rcases j with _ | _ | j <;> simp [part, Spec.knuth]
  rw [e, show (1 : Int) = ((1 : Nat) : Int) from rfl, show (N - ((1 : Nat) : Int)).toNat = 623 from rfl,
    u32Loop_part g 623 1 (by omega) (by omega), Out.bind_ok, st_blk (i := 0) (n := 0) rfl (by omega)]
  refine congrArg Out.ok (blk_congr fun j hj => ?_)
  cases j with
  | zero => simp [N]
  | succ j =>
    simp only [part]
    rw [if_neg (by omega), if_pos (by omega)]

/-! ### Stirring -/

/-- The value before the one written at time `t`. -/
def prev (z : Nat → Word) (t : Nat) : Word := if t = 0 then Spec.knuth 0 else z (t + 622)

/-- After `t` values: `lo` is the first word. -/
def ring (z : Nat → Word) (t : Nat) (lo : Word) : Nat → Option Word
  | 0 => some 624
  | 1 => some lo
  | j + 2 => some (z (t + (j + 623 - t % 623) % 623))

def LoOk (z : Nat → Word) (t : Nat) (lo : Word) : Prop := t % 623 = 0 → lo = prev z t

theorem ring_cur (z : Nat → Word) (t : Nat) (lo : Word) : ring z t lo (t % 623 + 2) = some (z t) := by
  simp only [ring]
  congr 2; omega

theorem ring_prev {z : Nat → Word} {t : Nat} {lo : Word} (h : LoOk z t lo) : ring z t lo (t % 623 + 1) = some (prev z t) := by
  by_cases c : t % 623 = 0
  · rw [c]; simp [ring, h c]
  · obtain ⟨k, e⟩ : ∃ k, t % 623 = k + 1 := ⟨t % 623 - 1, by omega⟩
    rw [e]
    simp only [ring, prev]
    rw [if_neg (by rintro rfl; simp at e)]
    congr 2; omega

theorem ring_set (z : Nat → Word) (t : Nat) (lo : Word) :
    blk (fun j => if j = t % 623 + 2 then some (z (t + 623)) else ring z t lo j) = blk (ring z (t + 1) lo) := by
  apply blk_congr
  intro j hj
  rcases j with _ | _ | j
  · simp [ring]
  · simp [ring]
  · simp only [ring]
    by_cases c : j = t % 623
    · rw [if_pos (by omega)]
      congr 2; omega
    · rw [if_neg (by omega)]
      congr 2; omega

theorem ring_lo (z : Nat → Word) (t : Nat) (lo v : Word) :
    blk (fun j => if j = 1 then some v else ring z t lo j) = blk (ring z t v) := by
  apply blk_congr
  intro j hj
  rcases j with _ | _ | j <;> simp [ring]

theorem around_ring (z : Nat → Word) (t : Nat) (lo : Word) :
    ∃ lo', LoOk z (t + 1) lo' ∧
      around (blk (ring z (t + 1) lo)) (((t % 623 + 1 : Nat) : Int) + 1) = .ok (blk (ring z (t + 1) lo'), (((t + 1) % 623 + 1 : Nat) : Int)) := by
  unfold around
  by_cases c : t % 623 = 622
  · refine ⟨z (t + 623), fun _ => by simp [prev], ?_⟩
    rw [if_pos (by simp only [N]; omega)]
    unfold mtGet mtSet
    rw [ld_blk (n := 624) (v := z (t + 623)) (by simp [N]) (by omega) (by simp only [ring]; congr 2; omega), Out.bind_ok,
      st_blk (i := 0 + 1) (n := 1) rfl (by omega), Out.bind_ok, ring_lo]
    rw [show (t + 1) % 623 = 0 by omega]
    rfl
  · refine ⟨lo, fun h => by omega, ?_⟩
    rw [if_neg (by simp only [N]; omega)]
    rw [show ((t % 623 + 1 : Nat) : Int) + 1 = (((t + 1) % 623 + 1 : Nat) : Int) by omega]
    rfl

/-! ### The values written -/

theorem seeding_eq (key : List Word) (t : Nat) :
    Spec.seeding key (t + 623) =
      if t < Spec.rounds key then
        Spec.stir (Spec.seeding key t) (prev (Spec.seeding key) t) 1664525 + key.getD (t % key.length) 0 + BitVec.ofNat 32 (t % key.length)
      else Spec.stir (Spec.seeding key t) (prev (Spec.seeding key) t) 1566083941 - BitVec.ofNat 32 (t % 623 + 1) := by
  unfold Spec.seeding
  rw [seq_eq]
  · rw [if_neg (by omega)]
    simp only [Nat.add_sub_cancel, prev, show t + 623 - 1 = t + 622 by omega]
  · intro n a b h
    by_cases c : n < 623
    · rw [if_pos c, if_pos c]
    · rw [if_neg c, if_neg c]
      simp only [h (n - 623) (by omega), h (n - 1) (by omega)]

theorem seeding_first (key : List Word) (n : Nat) (h : n < 623) : Spec.seeding key n = Spec.knuth (n + 1) := by
  unfold Spec.seeding
  rw [seq_eq]
  · rw [if_pos h]
  · intro n a b h
    by_cases c : n < 623
    · rw [if_pos c, if_pos c]
    · rw [if_neg c, if_neg c]
      simp only [h (n - 623) (by omega), h (n - 1) (by omega)]

theorem keyLoop_ring {key : List Word} (hk : key ≠ []) : ∀ (n t : Nat) (lo : Word), t + n ≤ Spec.rounds key →
    LoOk (Spec.seeding key) t lo →
    ∃ lo', LoOk (Spec.seeding key) (t + n) lo' ∧
      keyLoop key (blk (ring (Spec.seeding key) t lo)) ((t % 623 + 1 : Nat) : Int) ((t % key.length : Nat) : Int) n
        = .ok (blk (ring (Spec.seeding key) (t + n) lo'), (((t + n) % 623 + 1 : Nat) : Int)) := by
  have hl : 0 < key.length := List.length_pos_iff.2 hk
  intro n
  induction n with
  | zero => intro t lo _ h; exact ⟨lo, h, rfl⟩
  | succ n ih =>
    intro t lo hr h
    obtain ⟨lo1, h1, e1⟩ := around_ring (Spec.seeding key) t lo
    obtain ⟨lo2, h2, e2⟩ := ih (t + 1) lo1 (by omega) h1
    refine ⟨lo2, by rw [show t + (n + 1) = t + 1 + n by omega]; exact h2, ?_⟩
    have hm : t % key.length < key.length := Nat.mod_lt _ hl
    have hc : ld (ε := Empty) (key.map some) ((t % key.length : Nat) : Int) = .ok (key.getD (t % key.length) 0) := by
      have := ld_map (ε := Empty) (xs := key) (r := []) (i := ((t % key.length : Nat) : Int)) (by omega) (by rw [Int.toNat_natCast]; exact hm)
      rw [List.append_nil] at this
      rw [this]
      simp only [Int.toNat_natCast, List.getD_eq_getElem?_getD, List.getElem?_eq_getElem hm, Option.getD_some]
    unfold keyLoop mtGet mtSet
    rw [ld_blk (n := t % 623 + 2) (by omega) (by omega) (ring_cur _ t lo), Out.bind_ok,
      ld_blk (n := t % 623 + 1) (by omega) (by omega) (ring_prev h), Out.bind_ok, hc, Out.bind_ok,
      st_blk (n := t % 623 + 2) (by omega) (by omega), Out.bind_ok]
    have ev : (Spec.seeding key t ^^^ (prev (Spec.seeding key) t ^^^ prev (Spec.seeding key) t >>> 30) * 1664525) +
        key.getD (t % key.length) 0 + BitVec.ofInt 32 ((t % key.length : Nat) : Int) = Spec.seeding key (t + 623) := by
      rw [seeding_eq, if_pos (by omega), BitVec.ofInt_natCast]; rfl
    rw [ev, ring_set, e1, Out.bind_ok]
    have ej : (if ((t % key.length : Nat) : Int) + 1 ≥ (key.length : Int) then (0 : Int) else ((t % key.length : Nat) : Int) + 1)
        = (((t + 1) % key.length : Nat) : Int) := by
      rw [Nat.add_mod]
      by_cases c : t % key.length + 1 = key.length
      · rw [if_pos (by omega)]
        by_cases c1 : key.length = 1
        · rw [c1]; simp
        · rw [Nat.mod_eq_of_lt (show 1 < key.length by omega), c, Nat.mod_self]; rfl
      · rw [if_neg (by omega), Nat.mod_eq_of_lt (show 1 < key.length by omega), Nat.mod_eq_of_lt (show t % key.length + 1 < key.length by omega)]
        rfl
    dsimp only
    rw [ej, e2, show t + 1 + n = t + (n + 1) by omega]

theorem mixLoop_ring {key : List Word} : ∀ (n t : Nat) (lo : Word), Spec.rounds key ≤ t →
    LoOk (Spec.seeding key) t lo →
    ∃ lo', mixLoop (blk (ring (Spec.seeding key) t lo)) ((t % 623 + 1 : Nat) : Int) n = .ok (blk (ring (Spec.seeding key) (t + n) lo')) := by
  intro n
  induction n with
  | zero => intro t lo _ h; exact ⟨lo, rfl⟩
  | succ n ih =>
    intro t lo hr h
    obtain ⟨lo1, h1, e1⟩ := around_ring (Spec.seeding key) t lo
    obtain ⟨lo2, e2⟩ := ih (t + 1) lo1 (by omega) h1
    refine ⟨lo2, ?_⟩
    unfold mixLoop mtGet mtSet
    rw [ld_blk (n := t % 623 + 2) (by omega) (by omega) (ring_cur _ t lo), Out.bind_ok,
      ld_blk (n := t % 623 + 1) (by omega) (by omega) (ring_prev h), Out.bind_ok,
      st_blk (n := t % 623 + 2) (by omega) (by omega), Out.bind_ok]
    have ev : (Spec.seeding key t ^^^ (prev (Spec.seeding key) t ^^^ prev (Spec.seeding key) t >>> 30) * 1566083941) -
        BitVec.ofInt 32 ((t % 623 + 1 : Nat) : Int) = Spec.seeding key (t + 623) := by
      rw [seeding_eq, if_neg (by omega), BitVec.ofInt_natCast]; rfl
    rw [ev, ring_set, e1, Out.bind_ok]
    dsimp only
    rw [e2, show t + 1 + n = t + (n + 1) by omega]

/-! ### The sequence of a seeded generator -/

theorem words_dep (key : List Word) (n : Nat) (a b : Nat → Word) (h : ∀ j, j < n → a j = b j) :
    (if n = 0 then (2147483648 : Word) else if n < 624 then Spec.seeding key (Spec.lastAt key n)
      else a (n - 227) ^^^ Spec.twist (a (n - 624)) (a (n - 623))) =
    (if n = 0 then (2147483648 : Word) else if n < 624 then Spec.seeding key (Spec.lastAt key n)
      else b (n - 227) ^^^ Spec.twist (b (n - 624)) (b (n - 623))) := by
  by_cases c : n = 0
  · rw [if_pos c, if_pos c]
  · rw [if_neg c, if_neg c]
    by_cases c2 : n < 624
    · rw [if_pos c2, if_pos c2]
    · rw [if_neg c2, if_neg c2, h _ (by omega), h _ (by omega), h _ (by omega)]

theorem words_rec (key : List Word) : Rec (Spec.words key) := by
  intro n
  unfold Spec.words
  rw [seq_eq _ (words_dep key), if_neg (by omega), if_neg (by omega)]
  rw [show n + 624 - 227 = n + 397 by omega, show n + 624 - 624 = n by omega, show n + 624 - 623 = n + 1 by omega]

theorem words_zero (key : List Word) : Spec.words key 0 = 2147483648 := by
  unfold Spec.words
  rw [seq_eq _ (words_dep key), if_pos rfl]

theorem words_first (key : List Word) (n : Nat) (h : n + 1 < 624) : Spec.words key (n + 1) = Spec.seeding key (Spec.lastAt key (n + 1)) := by
  unfold Spec.words
  rw [seq_eq _ (words_dep key), if_neg (by omega), if_pos h]

theorem initArray_st {key : List Word} (hk : key ≠ []) {d : Block Word} (h : d.length = 625) :
    ∃ d', initArray d key = .ok d' ∧ St (Spec.words key) 624 d' := by
  unfold initArray
  rw [initU32_eq h, Out.bind_ok]
  have e0 : blk (fun j => match j with | 0 => some 624 | j + 1 => some (Spec.knuth j)) = blk (ring (Spec.seeding key) 0 (Spec.knuth 0)) := by
    apply blk_congr
    intro j hj
    rcases j with _ | _ | j
    · rfl
    · rfl
    · simp only [ring]
      rw [show 0 + (j + 623 - 0 % 623) % 623 = j by omega, seeding_first key j (by omega)]
  have er : (if N > (key.length : Int) then N.toNat else key.length) = Spec.rounds key := by
    unfold Spec.rounds N
    split_ifs with c
    · show 624 = _
      omega
    · omega
  obtain ⟨lo1, h1, e1⟩ := keyLoop_ring hk (Spec.rounds key) 0 (Spec.knuth 0) (by omega) (fun _ => rfl)
  obtain ⟨lo2, e2⟩ := mixLoop_ring (key := key) 623 (0 + Spec.rounds key) lo1 (by omega) h1
  rw [Nat.zero_mod, Nat.zero_mod] at e1
  rw [e0, er, show (1 : Int) = ((0 + 1 : Nat) : Int) from rfl, show (0 : Int) = ((0 : Nat) : Int) from rfl, e1, Out.bind_ok,
    show (N - ((0 + 1 : Nat) : Int)).toNat = 623 from rfl]
  dsimp only
  rw [e2, Out.bind_ok]
  unfold mtSet
  rw [st_blk (i := ((0 : Nat) : Int) + 1) (n := 1) rfl (by omega), ring_lo]
  refine ⟨_, rfl, 0, 624, rfl, by omega, blk_congr fun j hj => ?_⟩
  rcases j with _ | _ | j
  · simp [ring, mix]
  · simp [ring, mix, words_zero]
  · have el : 0 + Spec.rounds key + 623 + (j + 623 - (0 + Spec.rounds key + 623) % 623) % 623 = Spec.lastAt key (j + 1) := by
      unfold Spec.lastAt
      rw [Nat.zero_add, Nat.add_sub_cancel]
    simp only [ring, mix]
    rw [if_neg (by omega), Nat.zero_add (j + 1), words_first key j (by omega), el]

end Codon.Twister
