import Verif.NpBits.Lemmas

/-!
# C97: bits and indices of arrays
-/

namespace Codon.NpBits

/-- The two orders. -/
def Order (order : String) : Prop := order = "C" ∨ order = "F"

/-- C97: `ravel_multi_index` of a position inside is the number of elements before it in the order. -/
theorem c97_ravel (cs ds : List Int) (order : String) (ho : Order order) (h : Inside cs ds) :
    ravelMultiIndex cs ds "raise" order = .ok (rank order cs ds) := by
  have hp : ∀ d ∈ ds, 0 < d := by
    intro d hd
    induction h with
    | nil => cases hd
    | cons hcd _ ih =>
      rcases List.mem_cons.1 hd with rfl | hd
      · omega
      · exact ih hd
  have hl := h.length_eq
  have hany : (ds.any fun d => decide (d ≤ 0)) = false := by
    rw [List.any_eq_false]; intro d hd; have := hp d hd; simp; omega
  have hf : fixAll "raise" cs ds = .ok cs := by
    rcases fixAll_spec "raise" (.inl rfl) cs ds hp hl with ⟨js, h1, h2, _⟩ | ⟨_, h1, _⟩
    · rw [h1, fixed_inside h2]
    · exact absurd h h1
  rw [ravelMultiIndex, hany]
  rcases ho with rfl | rfl
  · simp [hl, hf, toIndex_eq, rankC_eq cs ds hl, rank]
  · simp [hl, hf, toIndex_eq, rank]

example : ravelMultiIndex [1, 2, 3] [2, 3, 4] "raise" "C" = .ok 23 ∧
    ravelMultiIndex [1, 0, 2] [2, 3, 4] "raise" "F" = .ok 13 := by decide
example : Inside [1, 2, 3] [2, 3, 4] := by
  repeat' constructor
  all_goals decide

/-- C97: with another mode each index is first brought into its range, by the rest of the division or to
the nearest. -/
theorem c97_modes (is ds : List Int) (mode order : String) (hp : ∀ d ∈ ds, 0 < d) (ho : Order order)
    (hl : is.length = ds.length) (hm : mode = "wrap" ∨ mode = "clip") :
    ∃ js, FixedAll mode is ds js ∧ Inside js ds ∧
      ravelMultiIndex is ds mode order = .ok (rank order js ds) := by
  have hany : (ds.any fun d => decide (d ≤ 0)) = false := by
    rw [List.any_eq_false]; intro d hd; have := hp d hd; simp; omega
  rcases fixAll_spec mode (.inr hm) is ds hp hl with ⟨js, h1, h2, h3⟩ | ⟨h1, _⟩
  · refine ⟨js, h2, h3, ?_⟩
    have hjl := h3.length_eq
    have hmm : ¬ (mode ≠ "raise" ∧ mode ≠ "wrap" ∧ mode ≠ "clip") := by
      rintro ⟨_, a, b⟩; rcases hm with h | h
      · exact a h
      · exact b h
    rw [ravelMultiIndex, hany]
    rcases ho with rfl | rfl
    · simp [hmm, hl, h1, toIndex_eq, rankC_eq js ds hjl, rank]
    · simp [hmm, hl, h1, toIndex_eq, rank]
  · rcases hm with h | h <;> rw [h] at h1 <;> simp at h1

example : ravelMultiIndex [-7, 5] [3, 4] "wrap" "C" = .ok 9 ∧
    ravelMultiIndex [-7, 5] [3, 4] "clip" "C" = .ok 3 := by decide

/-- C97: what `ravel_multi_index` refuses. -/
theorem c97_ravel_refused (is ds : List Int) (mode order : String)
    (h : (∃ d ∈ ds, d ≤ 0) ∨ ¬ Order order ∨ is.length ≠ ds.length ∨
      (mode ≠ "raise" ∧ mode ≠ "wrap" ∧ mode ≠ "clip") ∨ (mode = "raise" ∧ ¬ Inside is ds)) :
    ravelMultiIndex is ds mode order = .valueError := by
  rw [ravelMultiIndex]
  by_cases h1 : (ds.any fun d => decide (d ≤ 0)) = true
  · rw [if_pos h1]
  rw [if_neg h1]
  have hp : ∀ d ∈ ds, 0 < d := by
    intro d hd
    by_contra hc
    exact h1 (List.any_eq_true.2 ⟨d, hd, by simpa using hc⟩)
  by_cases h2 : mode ≠ "raise" ∧ mode ≠ "wrap" ∧ mode ≠ "clip"
  · rw [if_pos h2]
  rw [if_neg h2]
  by_cases h3 : order ≠ "C" ∧ order ≠ "F"
  · rw [if_pos h3]
  rw [if_neg h3]
  by_cases h4 : is.length ≠ ds.length
  · rw [if_pos h4]
  rw [if_neg h4]
  have ho : Order order := by
    by_cases a : order = "C"
    · exact .inl a
    · by_cases b : order = "F"
      · exact .inr b
      · exact absurd ⟨a, b⟩ h3
  rcases h with ⟨d, hd, hle⟩ | h | h | h | ⟨rfl, h⟩
  · have := hp d hd; omega
  · exact absurd ho h
  · exact absurd h h4
  · exact absurd h h2
  · rcases fixAll_spec "raise" (.inl rfl) is ds hp (by simpa using h4) with ⟨js, h5, h6, h7⟩ | ⟨_, _, h5⟩
    · rw [fixed_inside h6] at h7; exact absurd h7 h
    · rw [h5]

example : ravelMultiIndex [2, 0] [2, 3] "raise" "C" = .valueError := by decide

/-- C97: `unravel_index` finds the position with this number. -/
theorem c97_unravel (i : Int) (ds : List Int) (order : String) (ho : Order order)
    (hd : ∀ d ∈ ds, 0 ≤ d) (h0 : 0 ≤ i) (hi : i < size ds) :
    ∃ cs, unravelIndex i ds order = .ok cs ∧ Inside cs ds ∧ rank order cs ds = i := by
  have hp := pos_of_size hd (by omega)
  have hord : ¬ (order ≠ "C" ∧ order ≠ "F") := by
    rintro ⟨a, b⟩; rcases ho with h | h
    · exact a h
    · exact b h
  rw [unravelIndex, if_neg hord]
  cases ds with
  | nil =>
    simp only [size] at hi
    refine ⟨[], by simp; omega, .nil, ?_⟩
    rcases ho with rfl | rfl <;> simp [rank, rankC, rankF] <;> omega
  | cons d ds =>
    generalize hds : d :: ds = es at *
    have hne : ¬ es.length = 0 := by rw [← hds]; simp
    have hany : ¬ (es.any fun s => decide (s < 0)) = true := by
      intro h
      obtain ⟨x, hx, hlt⟩ := List.any_eq_true.1 h
      have := hd x hx
      simp at hlt; omega
    rw [if_neg hne, if_neg hany, foldl_size]
    simp only
    rw [if_neg (by omega)]
    rcases ho with rfl | rfl
    · obtain ⟨h1, h2⟩ := rank_toCoords (ds := es.reverse) i (by simpa using hp) h0
        (by rw [size_reverse]; exact hi)
      have h3 := inside_reverse h1
      rw [List.reverse_reverse] at h3
      refine ⟨_, by rw [if_pos rfl], h3, ?_⟩
      rw [rank, if_pos rfl, ← rankC_eq _ _ h3.length_eq, List.reverse_reverse, h2]
    · obtain ⟨h1, h2⟩ := rank_toCoords (ds := es) i hp h0 hi
      refine ⟨_, by rw [if_neg (by simp)], h1, ?_⟩
      rw [rank, if_neg (by simp), h2]

example : unravelIndex 23 [2, 3, 4] "C" = .ok [1, 2, 3] ∧ unravelIndex 13 [2, 3, 4] "F" = .ok [1, 0, 2] := by
  decide

/-- C97: other numbers are refused. -/
theorem c97_unravel_refused (i : Int) (ds : List Int) (order : String)
    (h : ¬ Order order ∨ (∃ d ∈ ds, d < 0) ∨ i < 0 ∨ i ≥ size ds) :
    unravelIndex i ds order = .valueError := by
  rw [unravelIndex]
  by_cases h1 : order ≠ "C" ∧ order ≠ "F"
  · rw [if_pos h1]
  rw [if_neg h1]
  have ho : Order order := by
    by_cases a : order = "C"
    · exact .inl a
    · by_cases b : order = "F"
      · exact .inr b
      · exact absurd ⟨a, b⟩ h1
  rcases h with h | h
  · exact absurd ho h
  by_cases h2 : ds.length = 0
  · have : ds = [] := by simpa using h2
    subst this
    simp only [size, List.not_mem_nil, false_and, exists_false, false_or] at h
    rw [if_pos h2, if_pos h]
  rw [if_neg h2]
  by_cases h3 : (ds.any fun s => decide (s < 0)) = true
  · rw [if_pos h3]
  rw [if_neg h3, foldl_size]
  simp only
  rcases h with ⟨d, hd, hlt⟩ | h
  · exact absurd (List.any_eq_true.2 ⟨d, hd, by simpa using hlt⟩) h3
  · rw [if_pos (by omega)]

/-- C97: the two are inverse to each other. -/
theorem c97_round_trip (cs ds : List Int) (order : String) (ho : Order order) (h : Inside cs ds) :
    ∃ i, ravelMultiIndex cs ds "raise" order = .ok i ∧ unravelIndex i ds order = .ok cs := by
  refine ⟨_, c97_ravel cs ds order ho h, ?_⟩
  have hfw : ∀ {cs ds : List Int}, Inside cs ds → 0 ≤ rankF cs ds ∧ rankF cs ds < size ds := by
    intro cs ds h
    induction h with
    | nil => simp [rankF, size]
    | @cons c d cs ds hcd _ ih =>
      rw [rankF, size]
      have h1 : 0 ≤ d * rankF cs ds := Int.mul_nonneg (by omega) ih.1
      have h2 : d * (rankF cs ds + 1) ≤ d * size ds := Int.mul_le_mul_of_nonneg_left (by omega) (by omega)
      rw [Int.mul_add] at h2
      omega
  have hnn : ∀ d ∈ ds, 0 ≤ d := by
    intro d hd
    induction h with
    | nil => cases hd
    | cons hcd _ ih =>
      rcases List.mem_cons.1 hd with rfl | hd
      · omega
      · exact ih hd
  have hb : 0 ≤ rank order cs ds ∧ rank order cs ds < size ds := by
    rcases ho with rfl | rfl
    · rw [rank, if_pos rfl, ← rankC_eq _ _ h.length_eq]
      have := hfw (inside_reverse h)
      rw [size_reverse] at this
      exact this
    · rw [rank, if_neg (by simp)]
      exact hfw h
  obtain ⟨cs', h1, h2, h3⟩ := c97_unravel _ ds order ho hnn hb.1 hb.2
  rw [h1]
  congr 1
  rcases ho with rfl | rfl
  · rw [rank, if_pos rfl, rank, if_pos rfl, ← rankC_eq _ _ h2.length_eq, ← rankC_eq _ _ h.length_eq] at h3
    have a := toCoords_rank (inside_reverse h2)
    have b := toCoords_rank (inside_reverse h)
    rw [h3, b] at a
    exact (List.reverse_injective a).symm
  · rw [rank, if_neg (by simp), rank, if_neg (by simp)] at h3
    rw [← toCoords_rank h2, h3, toCoords_rank h]

/-- C97: the length of a diagonal is the number of places on it. -/
theorem c97_diagonal (k : Int) (n m : Nat) :
    diagCount k n m =
      ((List.range n).countP fun (i : Nat) => decide (0 ≤ (i : Int) + k ∧ (i : Int) + k < m) : Nat) := by
  have e : (fun (i : Nat) => decide (0 ≤ (i : Int) + k ∧ (i : Int) + k < (m : Int)))
      = fun (i : Nat) => decide (-k ≤ (i : Int) ∧ (i : Int) < (m : Int) - k) := by
    funext i
    have : (0 ≤ (i : Int) + k ∧ (i : Int) + k < (m : Int)) ↔ (-k ≤ (i : Int) ∧ (i : Int) < (m : Int) - k) := by
      omega
    simp only [this]
  rw [e, count_range, diagCount]
  simp only
  by_cases h1 : k < (m : Int) ∧ k > -(n : Int)
  · rw [if_pos h1]
    by_cases h2 : k > 0
    · rw [if_pos h2]
      split <;> omega
    · rw [if_neg h2]
      by_cases h3 : k < 0
      · rw [if_pos h3]
        split <;> omega
      · rw [if_neg h3]; omega
  · rw [if_neg h1]; omega

example : diagCount 2 3 4 = 2 ∧ diagCount (-1) 3 4 = 2 ∧ diagCount 5 3 4 = 0 := by decide

/-- C97: `packbits` makes a byte of every eight elements, filled up with zeros, the first element in the
highest bit or with `little` in the lowest. -/
theorem c97_packbits (bits : List Bool) (little : Bool) (k : Nat) :
    (packbits bits little)[k]? =
      if k < (bits.length + 7) / 8 then some (byteOf little fun j => bits.getD (8 * k + j) false) else none :=
  pack_get little bits k

example : packbits [true, false, true, true, false, false, false, false, true] false = [176, 128] ∧
    packbits [true, false, true, true, false, false, false, false, true] true = [13, 1] := by decide

/-- C97: `unpackbits` gives the bits of the bytes one by one, and zeros behind. -/
theorem c97_unpackbits (a : List Nat) (count : Option Int) (little : Bool)
    (hc : ∀ c, count = some c → -((a.length : Int) * 8) ≤ c) :
    ∃ l, unpackbits a count little = .ok l ∧
      (l.length : Int) = bitCount a.length count ∧
      ∀ i, i < l.length → l[i]? = some (a.getD (i / 8) 0 / weight little (i % 8) % 2) := by
  cases count with
  | none =>
    refine ⟨_, rfl, by rw [unpack_length, bitCount]; omega, ?_⟩
    intro i hi
    rw [unpack_length] at hi
    exact unpack_get little a _ i hi
  | some c =>
    have := hc c rfl
    rw [unpackbits.eq_def]
    simp only
    by_cases h : c < 0
    · rw [if_pos h, if_neg (by omega)]
      refine ⟨_, rfl, by rw [unpack_length, bitCount, if_pos h]; omega, ?_⟩
      intro i hi
      rw [unpack_length] at hi
      exact unpack_get little a _ i hi
    · rw [if_neg h]
      refine ⟨_, rfl, by rw [unpack_length, bitCount, if_neg h]; omega, ?_⟩
      intro i hi
      rw [unpack_length] at hi
      exact unpack_get little a _ i hi

example : unpackbits [176] (some 10) false = .ok [1, 0, 1, 1, 0, 0, 0, 0, 0, 0] := by decide

/-- C97: a count that takes away more than there is is refused. -/
theorem c97_unpackbits_refused (a : List Nat) (c : Int) (little : Bool)
    (h : c < -((a.length : Int) * 8)) : unpackbits a (some c) little = .valueError := by
  rw [unpackbits.eq_def]
  simp only
  rw [if_pos (by omega), if_pos (by omega)]

/-- C97: unpacking what was packed gives the elements back as zeros and ones. -/
theorem c97_unpack_pack (bits : List Bool) (little : Bool) :
    unpackbits (packbits bits little) (some bits.length) little = .ok (bits.map Bool.toNat) := by
  rw [unpackbits.eq_def]
  simp only
  rw [if_neg (by omega), Int.toNat_natCast, unpack_pack]

/-- C97: packing what was unpacked gives the bytes back. -/
theorem c97_pack_unpack (a : List Nat) (little : Bool) (h : ∀ e ∈ a, e < 256) :
    ∃ l, unpackbits a none little = .ok l ∧ packbits (l.map (· != 0)) little = a := by
  refine ⟨_, rfl, ?_⟩
  rw [show ((a.length : Int) * 8).toNat = a.length * 8 by omega]
  exact pack_unpack little a h

example : packbits ([1, 0, 1, 1, 0, 0, 0, 0].map (· != 0)) false = [176] := by decide

end Codon.NpBits
