import Verif.NpBits.Spec
import Mathlib.Tactic.Ring
import Mathlib.Tactic.Linarith

/-! Helper lemmas about indices and bits. -/

namespace Codon.NpBits

/-! ### Indices -/

theorem toIndex_eq : ∀ (cs ds : List Int) (s idx : Int),
    toIndex cs ds s idx = idx + s * rankF cs ds := by
  intro cs
  induction cs with
  | nil => intro ds s idx; cases ds <;> simp [toIndex, rankF]
  | cons c cs ih =>
    intro ds s idx
    cases ds with
    | nil => simp [toIndex, rankF]
    | cons d ds => rw [toIndex, ih, rankF]; ring

theorem size_append : ∀ (a b : List Int), size (a ++ b) = size a * size b := by
  intro a
  induction a with
  | nil => intro b; simp [size]
  | cons x a ih => intro b; rw [List.cons_append, size, ih, size]; ring

theorem size_reverse : ∀ (a : List Int), size a.reverse = size a := by
  intro a
  induction a with
  | nil => rfl
  | cons x a ih => rw [List.reverse_cons, size_append, ih, size]; simp [size]; ring

theorem rankF_append : ∀ (a x b y : List Int), a.length = x.length →
    rankF (a ++ b) (x ++ y) = rankF a x + size x * rankF b y := by
  intro a
  induction a with
  | nil => intro x b y h; have : x = [] := by simpa using h.symm
           subst this; simp [rankF, size]
  | cons c a ih =>
    intro x b y h
    cases x with
    | nil => simp at h
    | cons d x =>
      rw [List.cons_append, List.cons_append, rankF, ih x b y (by simpa using h), rankF, size]
      ring

theorem rankC_eq : ∀ (cs ds : List Int), cs.length = ds.length →
    rankF cs.reverse ds.reverse = rankC cs ds := by
  intro cs
  induction cs with
  | nil => intro ds _; cases ds <;> simp [rankC, rankF]
  | cons c cs ih =>
    intro ds h
    cases ds with
    | nil => simp at h
    | cons d ds =>
      have hl : cs.length = ds.length := by simpa using h
      rw [List.reverse_cons, List.reverse_cons, rankF_append _ _ _ _ (by simp [hl]), ih ds hl, rankC,
        size_reverse]
      simp [rankF]; ring

theorem foldl_size : ∀ (ds : List Int) (a : Int), ds.foldl (· * ·) a = a * size ds := by
  intro ds
  induction ds with
  | nil => intro a; simp [size]
  | cons d ds ih => intro a; rw [List.foldl_cons, ih, size]; ring

theorem inside_reverse {cs ds : List Int} (h : Inside cs ds) : Inside cs.reverse ds.reverse :=
  List.rel_reverse h

theorem toCoords_rank : ∀ {cs ds : List Int}, Inside cs ds → toCoords (rankF cs ds) ds = cs := by
  intro cs ds h
  induction h with
  | nil => rfl
  | @cons c d cs ds hcd _ ih =>
    have h1 : (c + d * rankF cs ds) % d = c := by
      rw [Int.add_mul_emod_self_left]; exact Int.emod_eq_of_lt hcd.1 hcd.2
    have h2 : (c + d * rankF cs ds) / d = rankF cs ds := by
      rw [Int.add_mul_ediv_left _ _ (by omega), Int.ediv_eq_zero_of_lt hcd.1 hcd.2]; simp
    rw [rankF, toCoords, h1, h2, ih]

theorem size_pos : ∀ {ds : List Int}, (∀ d ∈ ds, 0 < d) → 0 < size ds := by
  intro ds
  induction ds with
  | nil => intro _; simp [size]
  | cons d ds ih =>
    intro h
    rw [size]
    exact Int.mul_pos (h d (by simp)) (ih fun x hx => h x (by simp [hx]))

theorem pos_of_size : ∀ {ds : List Int}, (∀ d ∈ ds, 0 ≤ d) → 0 < size ds → ∀ d ∈ ds, 0 < d := by
  intro ds
  induction ds with
  | nil => intro _ _ d hd; cases hd
  | cons e ds ih =>
    intro h hs d hd
    rw [size] at hs
    have he := h e (by simp)
    have he0 : 0 < e := by
      rcases Int.lt_or_eq_of_le he with h | h
      · exact h
      · rw [← h] at hs; simp at hs
    rcases List.mem_cons.1 hd with rfl | hd
    · exact he0
    · exact ih (fun x hx => h x (by simp [hx])) (Int.pos_of_mul_pos_right hs he0) d hd

theorem rank_toCoords : ∀ {ds : List Int} (i : Int), (∀ d ∈ ds, 0 < d) → 0 ≤ i → i < size ds →
    Inside (toCoords i ds) ds ∧ rankF (toCoords i ds) ds = i := by
  intro ds
  induction ds with
  | nil => intro i _ h1 h2; simp [size] at h2; exact ⟨.nil, by simp [toCoords, rankF]; omega⟩
  | cons d ds ih =>
    intro i h h1 h2
    have hd := h d (by simp)
    rw [size] at h2
    have h3 : i / d < size ds := Int.ediv_lt_of_lt_mul hd (by rw [Int.mul_comm]; exact h2)
    obtain ⟨h4, h5⟩ := ih (i / d) (fun x hx => h x (by simp [hx])) (Int.ediv_nonneg h1 (by omega)) h3
    rw [toCoords, rankF]
    refine ⟨.cons ⟨Int.emod_nonneg _ (by omega), Int.emod_lt_of_pos _ hd⟩ h4, ?_⟩
    rw [h5]
    exact Int.emod_add_mul_ediv i d

theorem wrapUp_spec {d : Int} (hd : 0 < d) : ∀ (f : Nat) (i : Int), (-i).toNat < f → i < d →
    wrapUp d f i = .ok (i % d) := by
  intro f
  induction f with
  | zero => intro i h; omega
  | succ f ih =>
    intro i h hlt
    rw [wrapUp]
    by_cases h0 : i < 0
    · rw [if_pos h0, ih (i + d) (by omega) (by omega), Int.add_emod_right]
    · rw [if_neg h0, Int.emod_eq_of_lt (by omega) hlt]

theorem wrapDown_spec {d : Int} (hd : 0 < d) : ∀ (f : Nat) (i : Int), i.toNat < f → 0 ≤ i →
    wrapDown d f i = .ok (i % d) := by
  intro f
  induction f with
  | zero => intro i h; omega
  | succ f ih =>
    intro i h hlt
    rw [wrapDown]
    by_cases h0 : i ≥ d
    · rw [if_pos h0, ih (i - d) (by omega) (by omega), Int.sub_emod_right]
    · rw [if_neg h0, Int.emod_eq_of_lt hlt (by omega)]

theorem fixIndex_spec {i d : Int} (hd : 0 < d) (mode : String)
    (hm : mode = "raise" ∨ mode = "wrap" ∨ mode = "clip") :
    (∃ j, fixIndex i d mode = .ok j ∧ Fixed mode i d j ∧ 0 ≤ j ∧ j < d) ∨
      (mode = "raise" ∧ (i < 0 ∨ i ≥ d) ∧ fixIndex i d mode = .valueError) := by
  rcases hm with rfl | rfl | rfl
  · by_cases h : i < 0 ∨ i ≥ d
    · exact .inr ⟨rfl, h, by simp [fixIndex, h]⟩
    · exact .inl ⟨i, by simp [fixIndex, h], .inl ⟨rfl, rfl, by omega, by omega⟩, by omega, by omega⟩
  · refine .inl ⟨i % d, ?_, .inr (.inl ⟨rfl, rfl⟩), Int.emod_nonneg _ (by omega), Int.emod_lt_of_pos _ hd⟩
    have e : ("wrap" = "raise") = False := by simp
    simp only [fixIndex, e, if_false, if_true]
    by_cases h : i < 0
    · rw [if_pos h, wrapUp_spec hd _ _ (by omega) (by omega)]
    · rw [if_neg h]
      by_cases h2 : i ≥ d
      · rw [if_pos h2, wrapDown_spec hd _ _ (by omega) (by omega)]
      · rw [if_neg h2, Int.emod_eq_of_lt (by omega) (by omega)]
  · refine .inl ⟨max 0 (min i (d - 1)), ?_, .inr (.inr ⟨rfl, rfl⟩), by omega, by omega⟩
    have e1 : ("clip" = "raise") = False := by simp
    have e2 : ("clip" = "wrap") = False := by simp
    simp only [fixIndex, e1, e2, if_false, if_true]
    by_cases h : i < 0
    · rw [if_pos h]; congr 1; omega
    · rw [if_neg h]
      by_cases h2 : i ≥ d
      · rw [if_pos h2]; congr 1; omega
      · rw [if_neg h2]; congr 1; omega

/-- Each index fixed. -/
inductive FixedAll (mode : String) : List Int → List Int → List Int → Prop
  | nil : FixedAll mode [] [] []
  | cons {i d j : Int} {is ds js : List Int} : Fixed mode i d j → FixedAll mode is ds js →
      FixedAll mode (i :: is) (d :: ds) (j :: js)

theorem fixAll_spec (mode : String) (hm : mode = "raise" ∨ mode = "wrap" ∨ mode = "clip") :
    ∀ (is ds : List Int), (∀ d ∈ ds, 0 < d) → is.length = ds.length →
      (∃ js, fixAll mode is ds = .ok js ∧ FixedAll mode is ds js ∧ Inside js ds) ∨
      (mode = "raise" ∧ ¬ Inside is ds ∧ fixAll mode is ds = .valueError) := by
  intro is
  induction is with
  | nil =>
    intro ds _ h
    have : ds = [] := by simpa using h.symm
    subst this
    exact .inl ⟨[], rfl, .nil, .nil⟩
  | cons i is ih =>
    intro ds hp h
    cases ds with
    | nil => simp at h
    | cons d ds =>
      rw [fixAll]
      rcases fixIndex_spec (i := i) (hp d (by simp)) mode hm with ⟨j, h1, h2, h3⟩ | ⟨h1, h2, h3⟩
      · rw [h1]
        rcases ih ds (fun x hx => hp x (by simp [hx])) (by simpa using h) with
          ⟨js, h4, h5, h6⟩ | ⟨h4, h5, h6⟩
        · exact .inl ⟨j :: js, by simp only [h4], .cons h2 h5, .cons h3 h6⟩
        · refine .inr ⟨h4, ?_, by simp only [h6]⟩
          intro hi
          cases hi with
          | cons _ hi => exact h5 hi
      · rw [h3]
        refine .inr ⟨h1, ?_, rfl⟩
        intro hi
        cases hi with
        | cons hi _ => omega

theorem fixed_inside {is ds js : List Int} (h : FixedAll "raise" is ds js) : js = is := by
  induction h with
  | nil => rfl
  | cons h _ ih =>
    rcases h with ⟨_, rfl, _⟩ | ⟨h, _⟩ | ⟨h, _⟩
    · rw [ih]
    · simp at h
    · simp at h

/-! ### Diagonals -/

theorem count_range (a b : Int) : ∀ (n : Nat),
    (((List.range n).countP fun (i : Nat) => decide (a ≤ (i : Int) ∧ (i : Int) < b) : Nat) : Int)
      = max 0 (min (n : Int) b - max 0 a) := by
  intro n
  induction n with
  | zero => simp only [List.range_zero, List.countP_nil]; omega
  | succ n ih =>
    rw [List.range_succ, List.countP_append]
    push_cast
    rw [ih]
    by_cases h : a ≤ (n : Int) ∧ (n : Int) < b
    · simp [List.countP_cons, h]; omega
    · simp only [List.countP_cons, List.countP_nil, decide_eq_false h]
      simp; omega

/-! ### Bits -/

theorem eight (P : List Bool → Prop) (h0 : P [])
    (h8 : ∀ b0 b1 b2 b3 b4 b5 b6 b7 r, P r → P (b0 :: b1 :: b2 :: b3 :: b4 :: b5 :: b6 :: b7 :: r))
    (hs : ∀ l, l ≠ [] → l.length < 8 → P l) : ∀ l, P l := by
  intro l
  induction hn : l.length using Nat.strongRecOn generalizing l with
  | _ n ih =>
    match l, hn with
    | [], _ => exact h0
    | b0 :: b1 :: b2 :: b3 :: b4 :: b5 :: b6 :: b7 :: r, hn =>
      exact h8 _ _ _ _ _ _ _ _ r (ih r.length (by simp at hn; omega) r rfl)
    | [_], _ => exact hs _ (by simp) (by simp)
    | [_, _], _ => exact hs _ (by simp) (by simp)
    | [_, _, _], _ => exact hs _ (by simp) (by simp)
    | [_, _, _, _], _ => exact hs _ (by simp) (by simp)
    | [_, _, _, _, _], _ => exact hs _ (by simp) (by simp)
    | [_, _, _, _, _, _], _ => exact hs _ (by simp) (by simp)
    | [_, _, _, _, _, _, _], _ => exact hs _ (by simp) (by simp)

/-- The bits of a list, with zeros behind. -/
def at' (l : List Bool) (j : Nat) : Bool := l.getD j false

theorem pack_full (little : Bool) (b0 b1 b2 b3 b4 b5 b6 b7 : Bool) (r : List Bool) :
    packbits (b0 :: b1 :: b2 :: b3 :: b4 :: b5 :: b6 :: b7 :: r) little =
      byteOf little (at' [b0, b1, b2, b3, b4, b5, b6, b7]) :: packbits r little := by
  have e : ∀ l b0 b1 b2 b3 b4 b5 b6 b7 : Bool,
      push l (push l (push l (push l (push l (push l (push l (push l 0 b0) b1) b2) b3) b4) b5) b6) b7
        = byteOf l (at' [b0, b1, b2, b3, b4, b5, b6, b7]) := by decide +kernel
  have e2 : ∀ l b0 b1 b2 b3 b4 b5 b6 b7 : Bool,
      finish l 8 (byteOf l (at' [b0, b1, b2, b3, b4, b5, b6, b7]))
        = byteOf l (at' [b0, b1, b2, b3, b4, b5, b6, b7]) := by decide +kernel
  cases r with
  | nil =>
    simp only [packbits, List.isEmpty_cons, Bool.false_eq_true, if_false, packLoop, List.isEmpty_nil,
      if_true]
    simp [e, e2]
  | cons x r =>
    simp only [packbits, List.isEmpty_cons, Bool.false_eq_true, if_false, packLoop]
    simp [e]

theorem pack_short (little : Bool) (l : List Bool) (h0 : l ≠ []) (h : l.length < 8) :
    packbits l little = [byteOf little (at' l)] := by
  match l, h0, h with
  | [a], _, _ => revert little a; decide +kernel
  | [a, b], _, _ => revert little a b; decide +kernel
  | [a, b, c], _, _ => revert little a b c; decide +kernel
  | [a, b, c, d], _, _ => revert little a b c d; decide +kernel
  | [a, b, c, d, e], _, _ => revert little a b c d e; decide +kernel
  | [a, b, c, d, e, f], _, _ => revert little a b c d e f; decide +kernel
  | [a, b, c, d, e, f, g], _, _ => revert little a b c d e f g; decide +kernel

theorem pack_get (little : Bool) : ∀ (l : List Bool) (k : Nat),
    (packbits l little)[k]? =
      if k < (l.length + 7) / 8 then some (byteOf little fun j => at' l (8 * k + j)) else none := by
  intro l
  refine eight (fun l => ∀ k, (packbits l little)[k]? =
      if k < (l.length + 7) / 8 then some (byteOf little fun j => at' l (8 * k + j)) else none) ?_ ?_ ?_ l
  · intro k
    simp [packbits]
  · intro b0 b1 b2 b3 b4 b5 b6 b7 r ih k
    rw [pack_full]
    cases k with
    | zero =>
      rw [if_pos (by simp only [List.length_cons]; omega)]
      simp [byteOf, List.range_succ, at']
    | succ k =>
      rw [List.getElem?_cons_succ, ih k]
      have e : ∀ j, at' (b0 :: b1 :: b2 :: b3 :: b4 :: b5 :: b6 :: b7 :: r) (8 * (k + 1) + j)
          = at' r (8 * k + j) := by
        intro j
        rw [show 8 * (k + 1) + j = 8 * k + j + 8 by omega]
        simp [at']
      simp only [e, List.length_cons]
      by_cases h : k < (r.length + 7) / 8
      · rw [if_pos h, if_pos (by omega)]
      · rw [if_neg h, if_neg (by omega)]
  · intro l h0 h8 k
    have hl : 0 < l.length := List.length_pos_iff.2 h0
    rw [pack_short little l h0 h8]
    cases k with
    | zero => rw [if_pos (by omega)]; simp
    | succ k => rw [if_neg (by omega)]; simp

theorem bits_byte (little : Bool) (b0 b1 b2 b3 b4 b5 b6 b7 : Bool) :
    bitsOf little (byteOf little (at' [b0, b1, b2, b3, b4, b5, b6, b7])) =
      [b0, b1, b2, b3, b4, b5, b6, b7].map Bool.toNat := by
  revert little b0 b1 b2 b3 b4 b5 b6 b7; decide +kernel

theorem bits_short (little : Bool) (l : List Bool) (h : l.length < 8) :
    (bitsOf little (byteOf little (at' l))).take l.length = l.map Bool.toNat := by
  match l, h with
  | [], _ => rfl
  | [a], _ => revert little a; decide +kernel
  | [a, b], _ => revert little a b; decide +kernel
  | [a, b, c], _ => revert little a b c; decide +kernel
  | [a, b, c, d], _ => revert little a b c d; decide +kernel
  | [a, b, c, d, e], _ => revert little a b c d e; decide +kernel
  | [a, b, c, d, e, f], _ => revert little a b c d e f; decide +kernel
  | [a, b, c, d, e, f, g], _ => revert little a b c d e f g; decide +kernel

theorem unpack_pack (little : Bool) : ∀ (l : List Bool),
    unpackLoop little (packbits l little) l.length = l.map Bool.toNat := by
  refine eight _ rfl ?_ ?_
  · intro b0 b1 b2 b3 b4 b5 b6 b7 r ih
    rw [pack_full, unpackLoop, if_neg (by simp), bits_byte]
    rw [List.take_of_length_le (by simp)]
    have : (b0 :: b1 :: b2 :: b3 :: b4 :: b5 :: b6 :: b7 :: r).length - 8 = r.length := by simp
    rw [this, ih]
    rfl
  · intro l h0 h8
    have hl : 0 < l.length := List.length_pos_iff.2 h0
    rw [pack_short little l h0 h8, unpackLoop, if_neg (by omega), bits_short little l h8, unpackLoop]
    rw [show l.length - 8 = 0 by omega]
    simp

theorem bitsOf_length (little : Bool) (e : Nat) : (bitsOf little e).length = 8 := by simp [bitsOf]

theorem unpack_length (little : Bool) : ∀ (a : List Nat) (n : Nat),
    (unpackLoop little a n).length = n := by
  intro a
  induction a with
  | nil => intro n; simp [unpackLoop]
  | cons e r ih =>
    intro n
    rw [unpackLoop]
    by_cases h : n = 0
    · rw [if_pos h, h]; rfl
    · rw [if_neg h, List.length_append, ih, List.length_take, bitsOf_length]; omega

theorem unpack_get (little : Bool) : ∀ (a : List Nat) (n i : Nat), i < n →
    (unpackLoop little a n)[i]? =
      some (a.getD (i / 8) 0 / weight little (i % 8) % 2) := by
  intro a
  induction a with
  | nil =>
    intro n i h
    rw [unpackLoop, List.getElem?_replicate, if_pos h]
    simp
  | cons e r ih =>
    intro n i h
    rw [unpackLoop, if_neg (by omega)]
    by_cases h8 : i < 8
    · rw [List.getElem?_append_left (by rw [List.length_take, bitsOf_length]; omega),
        List.getElem?_take_of_lt h]
      rw [show i / 8 = 0 by omega, show i % 8 = i by omega]
      simp only [bitsOf, List.getElem?_map, List.getElem?_range h8, Option.map_some, List.getD_cons_zero]
      cases little <;> rfl
    · have hl : ((bitsOf little e).take n).length = 8 := by rw [List.length_take, bitsOf_length]; omega
      rw [List.getElem?_append_right (by omega), hl, ih (n - 8) (i - 8) (by omega)]
      rw [show i / 8 = (i - 8) / 8 + 1 by omega, show i % 8 = (i - 8) % 8 by omega]
      simp

theorem byte_bits (little : Bool) : ∀ e, e < 256 →
    byteOf little (at' ((bitsOf little e).map (· != 0))) = e := by
  have h : ∀ (l : Bool) (e : Fin 256), byteOf l (at' ((bitsOf l e.1).map (· != 0))) = e.1 := by
    decide +kernel
  intro e he
  exact h little ⟨e, he⟩

theorem pack_unpack (little : Bool) : ∀ (a : List Nat), (∀ e ∈ a, e < 256) →
    packbits ((unpackLoop little a (a.length * 8)).map (· != 0)) little = a := by
  intro a
  induction a with
  | nil => intro _; rfl
  | cons e r ih =>
    intro h
    have hb : ∃ x0 x1 x2 x3 x4 x5 x6 x7, bitsOf little e = [x0, x1, x2, x3, x4, x5, x6, x7] :=
      ⟨_, _, _, _, _, _, _, _, rfl⟩
    have he := byte_bits little e (h e (by simp))
    obtain ⟨x0, x1, x2, x3, x4, x5, x6, x7, hx⟩ := hb
    rw [unpackLoop, if_neg (by simp), List.take_of_length_le (by rw [bitsOf_length, List.length_cons]; omega),
      show (e :: r).length * 8 - 8 = r.length * 8 by simp; omega]
    rw [hx] at he ⊢
    simp only [List.cons_append, List.nil_append, List.map_cons, List.map_nil] at he ⊢
    rw [pack_full, he, ih (fun x hx => h x (by simp [hx]))]

end Codon.NpBits
