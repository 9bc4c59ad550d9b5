import Verif.NpBus.Lemmas
import Verif.NpCal.Props

/-!
# C92: NumPy's business days
-/

namespace Codon.NpBus

open Codon.NpCal (monthNumber DayNo)

/-! ### The calendar -/

/-- A calendar made of a mask of seven days, not all closed, and of any list of holidays without NaT,
in any order and with repetitions, keeps in ascending order exactly those holidays which are open by
the mask; so its business days are the days open by the mask and not in the list. -/
theorem c92_calendar_partial {α : Type} (val : α → Int) (hv : ∀ a, val a ≠ nat) (wm : Nat)
    (hm : MaskOk wm) (holidays : List α) : ∃ hs, calendar val wm holidays = .ok hs ∧ Kept wm hs ∧
      ∀ d, Business wm hs d ↔ Business wm (holidays.map val) d := by
  obtain ⟨l, e1, e2, e3, _⟩ := Sort.c29_list_sort (swo_dtLt hv) none false false false holidays
  have hs : (l.map val).Pairwise (· ≤ ·) := by
    rw [List.pairwise_map]
    refine (e3 rfl).imp fun {a b} hab => ?_
    simp only [dtLt, hv a, hv b, or_self, if_false, decide_eq_false_iff_not] at hab
    omega
  have hn : ∀ d ∈ l.map val, d ≠ nat := by
    intro d hd
    obtain ⟨a, _, rfl⟩ := List.mem_map.1 hd
    exact hv a
  obtain ⟨t1, t2⟩ := trim_mem (wm := wm) _ nat hs (Or.inl rfl) hn
  refine ⟨trim wm (l.map val) nat, ?_, ⟨t1, fun d hd => ((t2 d).1 hd).2.2⟩, fun d => ?_⟩
  · simp [calendar, hm.1, e1, Out.of, Out.bind]
  · have hp : d ∈ l.map val ↔ d ∈ holidays.map val := (e2.map val).mem_iff
    constructor
    · rintro ⟨h1, h2⟩
      exact ⟨h1, fun h3 => h2 ((t2 d).2 ⟨hp.2 h3, hn d (hp.2 h3), h1⟩)⟩
    · rintro ⟨h1, h2⟩
      exact ⟨h1, fun h3 => h2 (hp.1 ((t2 d).1 h3).1)⟩

/-- Monday to Friday, with a Friday, given twice, a Saturday and a Thursday as holidays. -/
example : calendar id 31 [15, 9, 14, 15] = .ok [14, 15] := by decide +kernel

/-- A string of seven characters starting with `0` or `1` is read as digits: the day `j` is open if
the digit `j` is `1`; any other character is refused. -/
theorem c92_mask_digits (s : List Char) (h7 : s.length = 7)
    (h0 : s.head? = some '0' ∨ s.head? = some '1') :
    ((∀ c ∈ s, c = '0' ∨ c = '1') → ∃ wm, maskString s = some wm ∧
      Opens wm fun j => s[j]? = some '1') ∧
    ((∃ c ∈ s, c ≠ '0' ∧ c ≠ '1') → maskString s = none) := by
  obtain ⟨q1, q2⟩ := maskDigits_spec s 0 0
  have e : maskString s = maskDigits s 0 0 := by unfold maskString; rw [if_pos ⟨h7, h0⟩]
  rw [e]
  refine ⟨fun h => ?_, q2⟩
  obtain ⟨m, e1, e2⟩ := q1 h
  exact ⟨m, e1, fun j => by rw [e2]; simp⟩

example : maskString "1111100".toList = some 31 ∧ maskString "0000011".toList = some 96 ∧
    maskString "1111x00".toList = none := by decide +kernel

/-- Any other string has a mask exactly if it is made of names of days and blanks, and then the days
named, in any order and however often, are open. -/
theorem c92_mask_names (s : List Char)
    (h : ¬ (s.length = 7 ∧ (s.head? = some '0' ∨ s.head? = some '1'))) :
    (∀ ds, Names s ds → ∃ wm, maskString s = some wm ∧ Opens wm (· ∈ ds)) ∧
    (∀ wm, maskString s = some wm → ∃ ds, Names s ds) := by
  have e : maskString s = maskNames s 0 := by unfold maskString; rw [if_neg h]
  rw [e]
  refine ⟨fun ds hd => ?_, fun wm hw => of_maskNames _ s le_rfl _ _ hw⟩
  obtain ⟨m, e1, e2⟩ := maskNames_of hd 0
  exact ⟨m, e1, fun j => by rw [e2]; simp⟩

example : maskString " SatMon  Sat".toList = some 33 ∧ maskString "Mon Tu".toList = none ∧
    maskString "mon".toList = none := by decide +kernel

/-- The masks so read have no day after the seventh. -/
theorem c92_mask_small (s : List Char) (wm : Nat) (h : maskString s = some wm) : wm < 128 := by
  refine Nat.lt_pow_two_of_testBit (n := 7) wm fun j hj => ?_
  by_contra hc
  have hc : wm.testBit j = true := by simpa using hc
  by_cases hs : s.length = 7 ∧ (s.head? = some '0' ∨ s.head? = some '1')
  · obtain ⟨q1, q2⟩ := c92_mask_digits s hs.1 hs.2
    by_cases ha : ∀ c ∈ s, c = '0' ∨ c = '1'
    · obtain ⟨m, e1, e2⟩ := q1 ha
      rw [h] at e1
      cases e1
      have : s[j]? = some '1' := (e2 j).1 hc
      rw [List.getElem?_eq_none (by omega)] at this
      cases this
    · rw [q2 (by push Not at ha; exact ha)] at h
      cases h
  · obtain ⟨q1, q2⟩ := c92_mask_names s hs
    obtain ⟨ds, hd⟩ := q2 wm h
    obtain ⟨m, e1, e2⟩ := q1 ds hd
    rw [h] at e1
    cases e1
    exact absurd (names_lt hd j ((e2 j).1 hc)) (by omega)

/-- A mask of all zeros is refused. -/
theorem c92_empty_mask {α : Type} (val : α → Int) (holidays : List α) :
    calendar val 0 holidays = .valueError := rfl

/-- With a NaT among the holidays the claim about calendars is false: the list is not sorted, and
the day 8, a Friday and a holiday, is taken for a business day. -/
theorem c92_violation_nat_holiday : ∃ (holidays : List Int) (hs : List Int) (d : Int),
    calendar id 31 holidays = .ok hs ∧ d ∈ holidays ∧ isBusday 31 hs d = .ok true :=
  ⟨[14, 15, nat, 8], [14, 15, 8], 8, by decide +kernel, by decide, by decide +kernel⟩

/-! ### One day -/

/-- `is_busday`: a day other than NaT is a business day exactly if it is open by the mask and no
holiday; NaT is none. -/
theorem c92_is_busday (wm : Nat) (hs : List Int) (hk : Kept wm hs) (d : Int) :
    isBusday wm hs d = .ok (decide (d ≠ nat ∧ Business wm hs d)) := by
  unfold isBusday
  rw [open_spec hk.1 (by omega) (lowc_le _ _) le_rfl]
  by_cases h1 : d = nat <;> by_cases h2 : Business wm hs d <;> simp [Out.bind, h1, h2]

example : Kept 31 [14, 15] ∧ isBusday 31 [14, 15] 14 = .ok false ∧
    isBusday 31 [14, 15] 13 = .ok true := by
  refine ⟨⟨by decide, by decide⟩, by decide +kernel, by decide +kernel⟩

/-! ### Moving to a business day -/

/-- NaT stays NaT, or is refused with the roll `raise`. -/
theorem c92_roll_nat (py : Bool) (wm : Nat) (hs : List Int) (n : Nat) (r : Roll) :
    roll py wm hs n nat r = if r = .raise then .valueError else .ok (nat, 0) := by
  simp [roll]

/-- A business day stays, with every roll; another day is moved to the first business day after it
or before it, or to the one on the other side if that one is in another month; with the rolls `nat`
and `raise` it is NaT or refused.  The loops end, whatever the holidays. -/
theorem c92_roll (py : Bool) (wm : Nat) (hs : List Int) (hm : MaskOk wm) (hk : Kept wm hs) (d : Int)
    (hd : d ≠ nat) (r : Roll) : ∃ N x,
      (¬ Business wm hs d → r ≠ .nat → r ≠ .raise →
        Rolled (monthNumber py) (Business wm hs) d r x ∧ Business wm hs x) ∧
      ∀ n ≥ N,
        (Business wm hs d → roll py wm hs n d r = .ok (d, (d - 4) % 7)) ∧
        (¬ Business wm hs d →
          (r = .nat → roll py wm hs n d r = .ok (nat, (d - 4) % 7)) ∧
          (r = .raise → roll py wm hs n d r = .valueError) ∧
          (r ≠ .nat → r ≠ .raise → roll py wm hs n d r = .ok (x, (x - 4) % 7))) := by
  obtain ⟨a, Na, ha, ba, hNa⟩ := rollLoop_spec hm hk.1 true d
  obtain ⟨b, Nb, hb, bb, hNb⟩ := rollLoop_spec hm hk.1 false d
  have hN : ∀ n, ¬ Business wm hs d → roll py wm hs n d r = (match r with
        | .following => rollLoop wm hs true n d (dow d)
        | .modifiedFollowing =>
          (rollLoop wm hs true n d (dow d)).bind fun p =>
            if monthNumber py d ≠ monthNumber py p.1 then rollLoop wm hs false n d (dow d)
            else .ok p
        | .preceding => rollLoop wm hs false n d (dow d)
        | .modifiedPreceding =>
          (rollLoop wm hs false n d (dow d)).bind fun p =>
            if monthNumber py d ≠ monthNumber py p.1 then rollLoop wm hs true n d (dow d)
            else .ok p
        | .nat => .ok (nat, dow d)
        | .raise => .valueError) := by
    intro n h
    unfold roll
    rw [if_neg hd]
    simp only
    rw [open_spec hk.1 (by omega) (lowc_le _ _) le_rfl]
    change (if decide (Business wm hs d) = true then _ else _) = _
    rw [if_neg (by simp [h])]
    cases r <;> rfl
  have hB : ∀ n, Business wm hs d → roll py wm hs n d r = .ok (d, dow d) := by
    intro n h
    unfold roll
    rw [if_neg hd]
    simp only
    rw [open_spec hk.1 (by omega) (lowc_le _ _) le_rfl]
    simp [Out.bind, h]
  simp only [← dow_eq]
  suffices hx : ∃ x, (r ≠ .nat → r ≠ .raise →
        Rolled (monthNumber py) (Business wm hs) d r x ∧ Business wm hs x) ∧
      ∀ n ≥ Na + Nb, ¬ Business wm hs d → r ≠ .nat → r ≠ .raise →
        roll py wm hs n d r = .ok (x, dow x) by
    obtain ⟨x, hx1, hx2⟩ := hx
    refine ⟨Na + Nb, x, fun _ => hx1, fun n hn => ⟨hB n, fun h => ⟨fun e => ?_, fun e => ?_, hx2 n hn h⟩⟩⟩
    · rw [hN n h]; subst e; rfl
    · rw [hN n h]; subst e; rfl
  cases r with
  | following =>
    exact ⟨a, fun _ _ => ⟨ha, ba⟩, fun n hn h _ _ => by rw [hN n h]; exact hNa n (by omega)⟩
  | preceding =>
    exact ⟨b, fun _ _ => ⟨hb, bb⟩, fun n hn h _ _ => by rw [hN n h]; exact hNb n (by omega)⟩
  | modifiedFollowing =>
    by_cases hc : monthNumber py a = monthNumber py d
    · refine ⟨a, fun _ _ => ⟨⟨a, b, ha, hb, by rw [if_pos hc]⟩, ba⟩, fun n hn h _ _ => ?_⟩
      rw [hN n h]
      simp only [hNa n (by omega), Out.bind]
      rw [if_neg (by simp [hc])]
    · refine ⟨b, fun _ _ => ⟨⟨a, b, ha, hb, by rw [if_neg hc]⟩, bb⟩, fun n hn h _ _ => ?_⟩
      rw [hN n h]
      simp only [hNa n (by omega), Out.bind]
      rw [if_pos (Ne.symm hc), hNb n (by omega)]
  | modifiedPreceding =>
    by_cases hc : monthNumber py b = monthNumber py d
    · refine ⟨b, fun _ _ => ⟨⟨b, a, hb, ha, by rw [if_pos hc]⟩, bb⟩, fun n hn h _ _ => ?_⟩
      rw [hN n h]
      simp only [hNb n (by omega), Out.bind]
      rw [if_neg (by simp [hc])]
    · refine ⟨a, fun _ _ => ⟨⟨b, a, hb, ha, by rw [if_neg hc]⟩, ba⟩, fun n hn h _ _ => ?_⟩
      rw [hN n h]
      simp only [hNb n (by omega), Out.bind]
      rw [if_pos (Ne.symm hc), hNa n (by omega)]
  | nat => exact ⟨0, fun h => absurd rfl h, fun _ _ _ h => absurd rfl h⟩
  | raise => exact ⟨0, fun _ h => absurd rfl h, fun _ _ _ _ h => absurd rfl h⟩

/-- The months compared are those of the calendar. -/
theorem c92_month (py : Bool) (n y m d : Int) (h : DayNo y m d n) : monthNumber py n = m :=
  NpCal.c91_month_number py n y m d h

/-- 1970-01-31 is a Saturday; Monday after it is in February, so the modified roll goes back. -/
example : roll false 31 [] 10 30 .following = .ok (32, 0) ∧
    roll false 31 [] 10 30 .modifiedFollowing = .ok (29, 4) := by decide +kernel

/-! ### Counting on from a business day -/

/-- There is one `k`-th business day after, or before, a day. -/
theorem c92_nth_unique (B : Int → Prop) [DecidablePred B] (fwd : Bool) (d : Int) (k : Nat)
    (r r' : Int) (h : Nth B fwd d k r) (h' : Nth B fwd d k r') : r = r' := by
  obtain ⟨j, e1, e2, e3, e4⟩ := h
  obtain ⟨j', f1, f2, f3, f4⟩ := h'
  by_cases hk : k = 0
  · rw [e1, f1, e3 hk, f3 hk]
  · have hj : j ≠ 0 := by rintro rfl; simp at e2; omega
    have hj' : j' ≠ 0 := by rintro rfl; simp at f2; omega
    obtain ⟨i, rfl⟩ := Nat.exists_eq_succ_of_ne_zero hj
    obtain ⟨i', rfl⟩ := Nat.exists_eq_succ_of_ne_zero hj'
    have p1 : B (d + sgn fwd * ((i : Int) + 1)) := by
      have := e4 hk; rw [e1] at this; push_cast at this; exact this
    have p2 : B (d + sgn fwd * ((i' : Int) + 1)) := by
      have := f4 hk; rw [f1] at this; push_cast at this; exact this
    have c1 := Nat.count_succ (fun i : Nat => B (d + sgn fwd * (i + 1))) i
    have c2 := Nat.count_succ (fun i : Nat => B (d + sgn fwd * (i + 1))) i'
    simp only [p1, p2, if_true] at c1 c2
    have : i = i' := Nat.count_injective (p := fun i : Nat => B (d + sgn fwd * (i + 1))) p1 p2 (by
      simp only [Nat.succ_eq_add_one] at e2 f2; omega)
    rw [e1, f1, this]

/-- From a business day that the roll leads to, `busday_offset` goes to the business day that many
business days on (back, for a negative offset), with all holidays between left out of the count; the
loops end. -/
theorem c92_offset (py : Bool) (wm : Nat) (hs : List Int) (hm : MaskOk wm) (hk : Kept wm hs)
    (d off : Int) (r : Roll) (x : Int) (N : Nat) (hx : Business wm hs x) (hn : x ≠ nat)
    (hr : ∀ n ≥ N, roll py wm hs n d r = .ok (x, (x - 4) % 7)) :
    ∃ y M, Nth (Business wm hs) (decide (0 ≤ off)) x off.natAbs y ∧
      ∀ n ≥ M, offset py wm hs n d off r = .ok y := by
  have hp := hk.1
  obtain ⟨b, hb7, hbit⟩ := exists_bit hm
  have hc : 0 < popcnt wm := by
    unfold popcnt
    exact List.countP_pos_iff.2 ⟨b, by simp; omega, hbit⟩
  have hlow := lowc_succ hp x
  rw [if_neg hx.2] at hlow
  rcases lt_trichotomy off 0 with h0 | h0 | h0
  · -- back
    obtain ⟨k, rfl⟩ : ∃ k : Nat, off = -(k : Int) := ⟨off.natAbs, by omega⟩
    have hk0 : k ≠ 0 := by omega
    have hs0 : decide (0 ≤ -(k : Int)) = false := by simp; omega
    rw [hs0]
    have hdm := Nat.div_add_mod k (popcnt wm)
    have e1 : Int.tdiv (-(k : Int)) (popcnt wm) = -((k / popcnt wm : Nat) : Int) := by
      rw [Int.neg_tdiv]; rfl
    have e2 : Int.tmod (-(k : Int)) (popcnt wm) = -((k % popcnt wm : Nat) : Int) := by
      rw [Int.neg_tmod]; rfl
    generalize hq : k / popcnt wm = q at *
    generalize hrem : k % popcnt wm = m at *
    have cw := count_weeks hm.2 false x q
    have cs := count_split hk.2 (fun i : Nat => x + sgn false * (i + 1)) (7 * q)
    have ch := count_hol_bwd hp x (7 * q)
    have ce : Nat.count (fun i : Nat => x + sgn false * (i + 1) ∈ hs) (7 * q) =
        Nat.count (fun i : Nat => x - (i + 1) ∈ hs) (7 * q) := by
      refine cnt_congr _ fun i _ => ?_
      rw [show x + sgn false * ((i : Int) + 1) = x - (i + 1) by simp [sgn]; ring]
    generalize hD : x - ((7 * q : Nat) : Int) = D at *
    have hD' : D = x + sgn false * ((7 * q : Nat) : Int) := by rw [← hD]; simp [sgn]; ring
    have hle : lowc hs D ≤ lowc hs x := lowc_mono hs (by omega)
    generalize hh : Nat.count (fun i : Nat => x - (i + 1) ∈ hs) (7 * q) = H at *
    obtain ⟨y, M, hy, hM⟩ := offsetLoop_spec hm hp (lo := 0) (hi := lowc hs D) (lowc_le _ _) false
      (m + H) D (fun i => ⟨by omega, lowc_mono hs (by simp [sgn]; omega)⟩)
    refine ⟨y, M + N, ?_, fun n hn' => ?_⟩
    · rw [show (-(k : Int)).natAbs = (q * popcnt wm - H) + (m + H) by
        have := Nat.mul_comm q (popcnt wm)
        rw [Int.natAbs_neg, Int.natAbs_natCast]; omega]
      rw [hD'] at hy
      refine nth_trans ?_ (fun h1 h2 => ?_) (fun h1 h2 => ?_) hy
      · omega
      · -- the day the weeks lead to is a business day
        have hq0 : q ≠ 0 := by rintro rfl; simp at h2
        refine ⟨?_, ?_⟩
        · have := (masked_add wm x (-(q : Int))).2 hx.1
          rwa [show x + 7 * (-(q : Int)) = x + sgn false * ((7 * q : Nat) : Int) by
            simp [sgn]] at this
        · have hz : Nat.count (fun i : Nat => x - (i + 1) ∈ hs) (7 * q) = 0 := by omega
          have := Nat.count_iff_forall_not.1 hz (7 * q - 1) (by omega)
          rwa [show x - (((7 * q - 1 : Nat) : Int) + 1) = x + sgn false * ((7 * q : Nat) : Int) by
            simp [sgn]; omega] at this
      · have : q * popcnt wm = 0 := by omega
        rcases Nat.mul_eq_zero.1 this with h | h
        · omega
        · omega
    · unfold offset
      rw [hr n (by omega)]
      simp only [Out.bind]
      rw [if_neg hn, if_neg (by omega), if_pos (by omega)]
      rw [search_succ hp x _ _ _ (by omega) (lowc_le _ _) le_rfl (by unfold rounds; omega)]
      simp only [Out.of, e1, e2]
      rw [show x + -(q : Int) * 7 = D by rw [← hD]; push_cast; ring]
      have hl := lowc_le hs (x + 1)
      rw [search_id hp D _ _ _ (by omega) (by omega) (lowc_le _ _) (by unfold rounds; omega)]
      simp only
      have hdw : (x - 4) % 7 = dow D := by rw [dow_eq, ← hD]; omega
      rw [hdw, ← hM n (by omega)]
      congr 1
      simp [sgn]
      omega
  · subst h0
    refine ⟨x, N, ⟨0, by simp, by simp, by simp, by simp⟩, fun n hn' => ?_⟩
    unfold offset
    rw [hr n hn']
    simp [Out.bind, hn]
  · -- on
    obtain ⟨k, rfl⟩ : ∃ k : Nat, off = (k : Int) := ⟨off.natAbs, by omega⟩
    have hk0 : k ≠ 0 := by omega
    have hs0 : decide (0 ≤ (k : Int)) = true := by simp
    rw [hs0]
    have hdm := Nat.div_add_mod k (popcnt wm)
    have e1 : Int.tdiv (k : Int) (popcnt wm) = ((k / popcnt wm : Nat) : Int) := rfl
    have e2 : Int.tmod (k : Int) (popcnt wm) = ((k % popcnt wm : Nat) : Int) := rfl
    generalize hq : k / popcnt wm = q at *
    generalize hrem : k % popcnt wm = m at *
    have cw := count_weeks hm.2 true x q
    have cs := count_split hk.2 (fun i : Nat => x + sgn true * (i + 1)) (7 * q)
    have ch := count_hol_fwd hp (x + 1) (7 * q)
    have ce : Nat.count (fun i : Nat => x + sgn true * (i + 1) ∈ hs) (7 * q) =
        Nat.count (fun i : Nat => x + 1 + i ∈ hs) (7 * q) := by
      refine cnt_congr _ fun i _ => ?_
      rw [show x + sgn true * ((i : Int) + 1) = x + 1 + i by simp [sgn]; ring]
    generalize hD : x + ((7 * q : Nat) : Int) = D at *
    have hD' : D = x + sgn true * ((7 * q : Nat) : Int) := by rw [← hD]; simp [sgn]
    rw [show x + 1 + ((7 * q : Nat) : Int) = D + 1 by rw [← hD]; ring] at ch
    generalize hh : Nat.count (fun i : Nat => x + 1 + i ∈ hs) (7 * q) = H at *
    obtain ⟨y, M, hy, hM⟩ := offsetLoop_spec hm hp (lo := lowc hs (D + 1)) (hi := hs.length) le_rfl
      true (m + H) D (fun i => ⟨lowc_mono hs (by simp only [sgn, if_true]; omega), lowc_le _ _⟩)
    refine ⟨y, M + N, ?_, fun n hn' => ?_⟩
    · rw [show (k : Int).natAbs = (q * popcnt wm - H) + (m + H) by
        have := Nat.mul_comm q (popcnt wm)
        rw [Int.natAbs_natCast]; omega]
      rw [hD'] at hy
      refine nth_trans ?_ (fun h1 h2 => ?_) (fun h1 h2 => ?_) hy
      · omega
      · have hq0 : q ≠ 0 := by rintro rfl; simp at h2
        refine ⟨?_, ?_⟩
        · have := (masked_add wm x (q : Int)).2 hx.1
          rwa [show x + 7 * (q : Int) = x + sgn true * ((7 * q : Nat) : Int) by
            simp [sgn]] at this
        · have hz : Nat.count (fun i : Nat => x + 1 + i ∈ hs) (7 * q) = 0 := by omega
          have := Nat.count_iff_forall_not.1 hz (7 * q - 1) (by omega)
          rwa [show x + 1 + ((7 * q - 1 : Nat) : Int) = x + sgn true * ((7 * q : Nat) : Int) by
            simp [sgn]; omega] at this
      · have : q * popcnt wm = 0 := by omega
        rcases Nat.mul_eq_zero.1 this with h | h
        · omega
        · omega
    · unfold offset
      rw [hr n (by omega)]
      simp only [Out.bind]
      rw [if_neg hn, if_pos (by omega)]
      rw [search_id hp x _ _ _ (by omega) (lowc_le _ _) le_rfl (by unfold rounds; omega)]
      simp only [Out.of, e1, e2]
      rw [show x + (q : Int) * 7 = D by rw [← hD]; push_cast; ring]
      have hl := lowc_le hs (D + 1)
      rw [search_succ hp D _ _ _ (by omega) (lowc_le _ _) le_rfl (by unfold rounds; omega)]
      simp only
      have hdw : (x - 4) % 7 = dow D := by rw [dow_eq, ← hD]; omega
      rw [hdw, ← hM n (by omega)]
      congr 1
      simp [sgn]
      omega

/-- `busday_offset` of a day other than NaT, if it is a business day or the roll is one of the four
that move it: first to the day the roll says, `x`, and, if that is not the number of NaT, from there
to the business day that many business days on or back. -/
theorem c92_busday_offset (py : Bool) (wm : Nat) (hs : List Int) (hm : MaskOk wm) (hk : Kept wm hs)
    (d off : Int) (r : Roll) (hd : d ≠ nat) (hr : Business wm hs d ∨ (r ≠ .nat ∧ r ≠ .raise)) :
    ∃ x, (Business wm hs d ∧ x = d ∨
        ¬ Business wm hs d ∧ Rolled (monthNumber py) (Business wm hs) d r x) ∧
      (x ≠ nat → ∃ y M, Nth (Business wm hs) (decide (0 ≤ off)) x off.natAbs y ∧
        ∀ n ≥ M, offset py wm hs n d off r = .ok y) := by
  obtain ⟨N, x, h1, h2⟩ := c92_roll py wm hs hm hk d hd r
  by_cases hb : Business wm hs d
  · exact ⟨d, Or.inl ⟨hb, rfl⟩, fun hn =>
      c92_offset py wm hs hm hk d off r d N hb hn fun n hn' => (h2 n hn').1 hb⟩
  · obtain ⟨r1, r2⟩ := hr.resolve_left hb
    obtain ⟨q1, q2⟩ := h1 hb r1 r2
    exact ⟨x, Or.inr ⟨hb, q1⟩, fun hn =>
      c92_offset py wm hs hm hk d off r x N q2 hn fun n hn' => ((h2 n hn').2 hb).2.2 r1 r2⟩

/-- Seven business days on from a Monday, with the Thursday and the Friday of the week after as
holidays; and back again. -/
example : offset false 31 [14, 15] 20 4 7 .raise = .ok 13 ∧
    offset false 31 [14, 15] 20 13 1 .raise = .ok 18 ∧
    offset false 31 [14, 15] 20 18 (-8) .raise = .ok 4 := by decide +kernel

/-- If the roll gives NaT then so does `busday_offset`; if it refuses the day, so does
`busday_offset`. -/
theorem c92_offset_nat (py : Bool) (wm : Nat) (hs : List Int) (n : Nat) (d off : Int) (r : Roll) :
    (∀ w, roll py wm hs n d r = .ok (nat, w) → offset py wm hs n d off r = .ok nat) ∧
    (roll py wm hs n d r = .valueError → offset py wm hs n d off r = .valueError) := by
  constructor
  · intro w h; simp [offset, h, Out.bind]
  · intro h; simp [offset, h, Out.bind]

/-! ### Counting between two days -/

/-- `busday_count`: the number of business days from the first day on before the second; if the
second is before the first, minus the number of those after the second up to the first.  NaT is
refused. -/
theorem c92_count (wm : Nat) (hs : List Int) (hm : MaskOk wm) (hk : Kept wm hs) (b e : Int) :
    (b = nat ∨ e = nat → count wm hs b e = .valueError) ∧
    (b ≠ nat → e ≠ nat → b ≤ e → count wm hs b e = .ok (Between (Business wm hs) b e)) ∧
    (b ≠ nat → e ≠ nat → e < b →
      count wm hs b e = .ok (-(Between (Business wm hs) (e + 1) (b + 1) : Int))) := by
  refine ⟨fun h => by simp [count, h], fun h1 h2 h3 => ?_, fun h1 h2 h3 => ?_⟩
  · unfold count
    rw [if_neg (by simp [h1, h2])]
    by_cases he : b = e
    · subst he; simp [Between]
    · rw [if_neg he]
      have hg : ¬ b > e := by omega
      simp only [hg, if_false]
      exact count_between hm hk (by omega) (fun c => Out.ok c)
  · unfold count
    rw [if_neg (by simp [h1, h2]), if_neg (by omega)]
    have hg : b > e := h3
    simp only [hg, if_true]
    exact count_between hm hk (by omega) (fun c => Out.ok (-c))

example : count 31 [14, 15] 4 25 = .ok 13 ∧ count 31 [14, 15] 25 4 = .ok (-13) ∧
    Between (Business 31 [14, 15]) 4 25 = 13 := by decide +kernel

end Codon.NpBus
