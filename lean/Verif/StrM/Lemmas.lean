import Verif.StrM.Model
import Verif.StrM.Spec
import Verif.Slice.Props
import Verif.Str.SplitProps

/-! Lemmas about the model of the `str` methods. -/

namespace Codon.StrM

open Codon.Str (Str len emit finish slice MAX)
open Codon.Sort (rd wr)
open Codon.StrMSpec

theorem emit_ok {cap : Int} {out xs : Str} (h : len out + len xs ≤ cap) : emit cap out xs = some (out ++ xs) :=
  if_pos h

theorem finish_ok {cap : Int} {out : Str} (h : len out = cap) : finish cap out = some out := if_pos h

/-! ## Bytes -/

theorem bytes {P : UInt8 → Prop} (h : ∀ n, n < 256 → P (UInt8.ofNat n)) (c : UInt8) : P c := by
  have := h c.toNat c.toNat_lt
  rwa [UInt8.ofNat_toNat] at this

instance (c d) : Decidable (UpperOf c d) := by unfold UpperOf; infer_instance
instance (c d) : Decidable (LowerOf c d) := by unfold LowerOf; infer_instance

theorem cUpper_iff (c : UInt8) : cUpper c = true ↔ Upper c := by simp [cUpper, Upper]
theorem cLower_iff (c : UInt8) : cLower c = true ↔ Lower c := by simp [cLower, Lower]
theorem cDigit_iff (c : UInt8) : cDigit c = true ↔ Digit c := by simp [cDigit, Digit]
theorem cAlpha_iff (c : UInt8) : cAlpha c = true ↔ Letter c := by simp [cAlpha, Letter, cUpper_iff, cLower_iff]

theorem not_both (c : UInt8) : ¬ (Upper c ∧ Lower c) := by
  rintro ⟨⟨-, h1⟩, h2, -⟩
  have h1 : c.toNat ≤ 90 := h1
  have h2 : 97 ≤ c.toNat := h2
  omega

theorem toupper_spec (c : UInt8) : UpperOf c (cToupper c) := by
  revert c; refine bytes ?_; decide +kernel

theorem tolower_spec (c : UInt8) : LowerOf c (cTolower c) := by
  revert c; refine bytes ?_; decide +kernel

/-! ## Loops -/

theorem allLoop_iff (p : UInt8 → Bool) : ∀ s : Str, allLoop p s = true ↔ ∀ c ∈ s, p c = true
  | [] => by simp [allLoop]
  | c :: s => by
    rw [allLoop]
    by_cases h : p c = true
    · rw [h]; simp [allLoop_iff p s, h]
    · simp [h]

theorem casedLoop_iff (bad good : UInt8 → Bool) : ∀ (s : Str) (cased : Bool),
    casedLoop bad good s cased = true ↔ (cased = true ∨ ∃ c ∈ s, good c = true) ∧ ∀ c ∈ s, bad c = false
  | [], cased => by simp [casedLoop]
  | c :: s, cased => by
    rw [casedLoop]
    by_cases hb : bad c = true
    · simp [hb]
    · rw [if_neg hb, casedLoop_iff bad good s]
      cases cased <;> cases hg : good c <;> simp [hb, hg]

theorem mapLoop_spec (f : UInt8 → UInt8) (cap : Int) : ∀ (s out : Str), len out + len s ≤ cap →
    mapLoop f cap s out = some (out ++ s.map f)
  | [], out, _ => by simp [mapLoop]
  | c :: s, out, h => by
    have h : (out.length : Int) + ((s.length + 1 : Nat) : Int) ≤ cap := h
    rw [mapLoop, emit_ok (by show (out.length : Int) + ((1 : Nat) : Int) ≤ cap; omega)]
    show mapLoop f cap s (out ++ [f c]) = _
    rw [mapLoop_spec f cap s _ (by
      show ((out ++ [f c]).length : Int) + (s.length : Int) ≤ cap
      simp only [List.length_append, List.length_singleton]; omega)]
    simp

theorem map_finish (f : UInt8 → UInt8) (s : Str) :
    (if len s = 0 then some [] else do finish (len s) (← mapLoop f (len s) s [])) = some (s.map f) := by
  by_cases h : len s = 0
  · rw [if_pos h]
    have : s = [] := List.length_eq_zero_iff.1 (by have h : (s.length : Int) = 0 := h; omega)
    subst this; rfl
  · rw [if_neg h, mapLoop_spec f _ s [] (by show (0 : Int) + _ ≤ _; omega)]
    exact finish_ok (by simp [len])

theorem lower_eq (s : Str) : lower s = some (s.map cTolower) := map_finish _ s
theorem upper_eq (s : Str) : upper s = some (s.map cToupper) := map_finish _ s
theorem swapcase_eq (s : Str) : swapcase s = some (s.map swapByte) := map_finish _ s

theorem capitalize_eq : ∀ s : Str,
    capitalize s = some (match s with | [] => [] | c :: r => cToupper c :: r.map cTolower)
  | [] => rfl
  | c :: r => by
    have hp : len (c :: r) > 0 := by show ((r.length + 1 : Nat) : Int) > 0; omega
    rw [capitalize, if_pos hp]
    show (do
      let out ← emit (len (c :: r)) [] [cToupper c]
      finish (len (c :: r)) (← mapLoop cTolower (len (c :: r)) r out)) = _
    rw [emit_ok (by show (0 : Int) + 1 ≤ ((r.length + 1 : Nat) : Int); omega)]
    show (do finish (len (c :: r)) (← mapLoop cTolower (len (c :: r)) r [cToupper c])) = _
    rw [mapLoop_spec _ _ _ _ (by show (1 : Int) + (r.length : Int) ≤ ((r.length + 1 : Nat) : Int); omega)]
    show finish _ _ = _
    rw [finish_ok (by simp [len])]
    rfl

theorem bytewise_map {R : UInt8 → UInt8 → Prop} {f : UInt8 → UInt8} (h : ∀ c, R c (f c)) (s : Str) :
    Bytewise (fun _ => R) s (s.map f) := by
  refine ⟨List.length_map _, fun i c d hc hd => ?_⟩
  rw [List.getElem?_map, hc] at hd
  cases hd
  exact h c

/-- The bytes `title` writes. -/
def titleBytes : Str → Bool → Str
  | [], _ => []
  | c :: s, prev => (if prev then cTolower c else cToupper c) :: titleBytes s (cAlpha c)

theorem upper_not_lower (c : UInt8) (h : cUpper c = true) : cLower c = false := by
  have := not_both c
  rw [← cUpper_iff, ← cLower_iff] at this
  cases hl : cLower c
  · rfl
  · exact absurd ⟨h, hl⟩ this

theorem titleFill_spec (cap : Int) : ∀ (s : Str) (prev : Bool) (out : Str), len out + len s ≤ cap →
    titleFill cap s prev out = some (out ++ titleBytes s prev)
  | [], prev, out, _ => by simp [titleFill, titleBytes]
  | c :: s, prev, out, h => by
    have h : (out.length : Int) + ((s.length + 1 : Nat) : Int) ≤ cap := h
    have step : ∀ (d : UInt8) (p : Bool), (do titleFill cap s p (← emit cap out [d]))
        = some (out ++ d :: titleBytes s p) := by
      intro d p
      rw [emit_ok (by show (out.length : Int) + ((1 : Nat) : Int) ≤ cap; omega)]
      show titleFill cap s p (out ++ [d]) = _
      rw [titleFill_spec cap s p _ (by
        show ((out ++ [d]).length : Int) + (s.length : Int) ≤ cap
        simp only [List.length_append, List.length_singleton]; omega)]
      simp
    rw [titleFill, titleBytes]
    by_cases hl : cLower c = true
    · rw [if_pos hl, step]
      have hu : cUpper c = false := by
        cases hu : cUpper c
        · rfl
        · rw [upper_not_lower c hu] at hl; cases hl
      cases prev <;> simp [hl, hu, cAlpha, cTolower]
    · rw [if_neg hl]
      have hl : cLower c = false := by simpa using hl
      by_cases hu : cUpper c = true
      · rw [if_pos hu, step]
        cases prev <;> simp [hl, hu, cAlpha, cToupper]
      · rw [if_neg hu, step]
        have hu : cUpper c = false := by simpa using hu
        cases prev <;> simp [hl, hu, cAlpha, cToupper, cTolower]

theorem titleBytes_length : ∀ (s : Str) (p : Bool), (titleBytes s p).length = s.length
  | [], _ => rfl
  | c :: s, p => by rw [titleBytes, List.length_cons, titleBytes_length s, List.length_cons]

theorem title_eq (s : Str) : title s = some (titleBytes s false) := by
  by_cases h : len s = 0
  · have : s = [] := List.length_eq_zero_iff.1 (by have h : (s.length : Int) = 0 := h; omega)
    subst this; rfl
  · rw [title, if_neg h, titleFill_spec _ s _ [] (by show (0 : Int) + _ ≤ _; omega)]
    exact finish_ok (by simp [len, titleBytes_length])

theorem afterLetter_zero (s : Str) : ¬ AfterLetter s 0 := by rintro ⟨j, c, h, -⟩; omega

theorem afterLetter_one (c : UInt8) (s : Str) : AfterLetter (c :: s) 1 ↔ Letter c := by
  constructor
  · rintro ⟨j, d, h, hd, hl⟩
    obtain rfl : j = 0 := by omega
    cases hd; exact hl
  · intro h; exact ⟨0, c, rfl, rfl, h⟩

theorem afterLetter_succ (c : UInt8) (s : Str) (i : Nat) : AfterLetter (c :: s) (i + 2) ↔ AfterLetter s (i + 1) := by
  constructor
  · rintro ⟨j, d, h, hd, hl⟩
    obtain rfl : j = i + 1 := by omega
    exact ⟨i, d, rfl, hd, hl⟩
  · rintro ⟨j, d, h, hd, hl⟩
    exact ⟨j + 1, d, by omega, hd, hl⟩

open Classical in
theorem titleBytes_get : ∀ (s : Str) (p : Bool) (i : Nat) (c : UInt8), s[i]? = some c →
    (titleBytes s p)[i]? = some (if (i = 0 ∧ p = true) ∨ AfterLetter s i then cTolower c else cToupper c)
  | [], _, _, _, h => by simp at h
  | a :: s, p, 0, c, h => by
    cases h
    simp only [titleBytes, List.getElem?_cons_zero, true_and, afterLetter_zero, or_false]
  | a :: s, p, i + 1, c, h => by
    rw [titleBytes, List.getElem?_cons_succ, titleBytes_get s _ i c (by simpa using h)]
    congr 1
    have : ((i = 0 ∧ cAlpha a = true) ∨ AfterLetter s i) ↔ ((i + 1 = 0 ∧ p = true) ∨ AfterLetter (a :: s) (i + 1)) := by
      cases i with
      | zero => simp [afterLetter_zero, afterLetter_one, cAlpha_iff]
      | succ i => simp [afterLetter_succ]
    simp only [this]

theorem titleLoop_iff : ∀ (s : Str) (cased prev : Bool), titleLoop s cased prev = true ↔
    (cased = true ∨ ∃ c ∈ s, Letter c) ∧ ∀ i c, s[i]? = some c →
      (Upper c → ¬ ((i = 0 ∧ prev = true) ∨ AfterLetter s i)) ∧
      (Lower c → (i = 0 ∧ prev = true) ∨ AfterLetter s i)
  | [], cased, prev => by simp [titleLoop]
  | a :: s, cased, prev => by
    have tail : ∀ i : Nat, ((i = 0 ∧ cAlpha a = true) ∨ AfterLetter s i) ↔
        ((i + 1 = 0 ∧ prev = true) ∨ AfterLetter (a :: s) (i + 1)) := by
      intro i
      cases i with
      | zero => simp [afterLetter_zero, afterLetter_one, cAlpha_iff]
      | succ i => simp [afterLetter_succ]
    have key : ∀ (P : Nat → UInt8 → Prop), (∀ i c, (a :: s)[i]? = some c → P i c) ↔
        P 0 a ∧ ∀ i c, s[i]? = some c → P (i + 1) c := by
      intro P
      constructor
      · intro h; exact ⟨h 0 a rfl, fun i c hc => h (i + 1) c (by simpa using hc)⟩
      · rintro ⟨h0, h1⟩ i c hc
        cases i with
        | zero => cases hc; exact h0
        | succ i => exact h1 i c (by simpa using hc)
    rw [key]
    simp only [← tail]
    rw [titleLoop]
    by_cases hu : cUpper a = true
    · have hU := (cUpper_iff a).1 hu
      have hL : ¬ Lower a := fun h => not_both a ⟨hU, h⟩
      have ha : cAlpha a = true := by simp [cAlpha, hu]
      rw [if_pos hu]
      cases prev
      · rw [if_neg (by simp), titleLoop_iff s]
        simp [ha, hL, afterLetter_zero, Letter, hU]
      · simp [hU]
    · rw [if_neg hu]
      have hU : ¬ Upper a := fun h => hu ((cUpper_iff a).2 h)
      have hu : cUpper a = false := by simpa using hu
      by_cases hl : cLower a = true
      · have hL := (cLower_iff a).1 hl
        have ha : cAlpha a = true := by simp [cAlpha, hl]
        rw [if_pos hl]
        cases prev
        · simp [hL, afterLetter_zero]
        · rw [if_neg (by simp), titleLoop_iff s]
          simp [ha, hU, Letter, hL]
      · rw [if_neg hl]
        have hL : ¬ Lower a := fun h => hl ((cLower_iff a).2 h)
        have hl : cLower a = false := by simpa using hl
        have ha : cAlpha a = false := by simp [cAlpha, hl, hu]
        rw [titleLoop_iff s]
        simp [ha, hU, hL, Letter]

theorem identLoop_iff : ∀ s : Str, identLoop s = true ↔ ∀ c ∈ s, Letter c ∨ Digit c ∨ c = 95
  | [] => by simp [identLoop]
  | c :: s => by
    have h1 : isalpha [c] = cAlpha c := by
      show allLoop cAlpha [c] = _
      rw [allLoop, allLoop]; cases cAlpha c <;> rfl
    have h2 : isdecimal [c] = cDigit c := by
      show allLoop (fun c => decide (48 ≤ c.toNat ∧ c.toNat ≤ 57)) [c] = _
      rw [allLoop, allLoop]; show (if !cDigit c then _ else _) = _; cases cDigit c <;> rfl
    rw [identLoop, h1, h2]
    have e1 := cAlpha_iff c
    have e2 := cDigit_iff c
    have ih := identLoop_iff s
    by_cases a1 : cAlpha c = true
    · simp [a1, ih, e1.1 a1]
    · have n1 : ¬ Letter c := fun h => a1 (e1.2 h)
      by_cases a2 : cDigit c = true
      · simp [a1, a2, ih, e2.1 a2]
      · have n2 : ¬ Digit c := fun h => a2 (e2.2 h)
        by_cases a3 : c = 95
        · subst a3; simp [a1, a2, ih]
        · simp [a1, a2, a3, n1, n2]

/-! ## Padding -/

theorem buildRep_spec (cap : Int) (t : Str) : ∀ (n : Nat) (out : Str), len out + n * len t ≤ cap →
    buildRep cap t n out = some (out ++ (List.replicate n t).flatten)
  | 0, out, _ => by simp [buildRep]
  | n + 1, out, h => by
    have e : ((n + 1 : Nat) : Int) * len t = n * len t + len t := by push_cast; ring
    have p : 0 ≤ (n : Int) * len t := by positivity
    rw [e] at h
    rw [buildRep, emit_ok (by omega)]
    show buildRep cap t n (out ++ t) = _
    rw [buildRep_spec cap t n _ (by
      have : len (out ++ t) = len out + len t := by simp [len]
      omega)]
    simp [List.replicate_succ]

/-- A single byte, repeated. -/
theorem flatten_single (n : Nat) (c : UInt8) : (List.replicate n [c]).flatten = List.replicate n c := by
  induction n with
  | zero => rfl
  | succ n ih => simp [List.replicate_succ, ih]

theorem build_pad (s : Str) (c : UInt8) (l r : Nat) :
    build [([c], some l), (s, none), ([c], some r)]
      = some (List.replicate l c ++ s ++ List.replicate r c) := by
  have e : buildLen [([c], some (l : Int)), (s, none), ([c], some (r : Int))] 0 = (l : Int) + len s + r := by
    simp [buildLen, len]
  rw [build, e]
  show (do finish ((l : Int) + len s + r) (← buildLoop _ _ _)) = _
  have hb : buildLoop ((l : Int) + len s + r) [([c], some (l : Int)), (s, none), ([c], some (r : Int))] []
      = some (List.replicate l c ++ s ++ List.replicate r c) := by
    have e0 : len ([] : Str) = 0 := rfl
    have e1 : len ([c] : Str) = 1 := rfl
    have p : 0 ≤ len s := Int.natCast_nonneg _
    have el : len (List.replicate l c) = l := by simp [len]
    rw [buildLoop, Int.toNat_natCast, buildRep_spec _ _ _ _ (by rw [e0, e1]; omega)]
    simp only [flatten_single, List.nil_append, Option.bind_eq_bind, Option.bind_some]
    rw [buildLoop, emit_ok (by rw [el]; omega)]
    simp only [Option.bind_eq_bind, Option.bind_some]
    have e2 : len (List.replicate l c ++ s) = l + len s := by simp [len]
    rw [buildLoop, Int.toNat_natCast, buildRep_spec _ _ _ _ (by rw [e1, e2]; omega)]
    simp [flatten_single, buildLoop]
  rw [hb]
  exact finish_ok (by simp [len]; omega)

theorem build_right (s : Str) (c : UInt8) (r : Nat) :
    build [(s, none), ([c], some r)] = some (s ++ List.replicate r c) := by
  have h := build_pad s c 0 r
  simpa [build, buildLen, buildLoop, buildRep] using h

theorem build_left (s : Str) (c : UInt8) (l : Nat) :
    build [([c], some l), (s, none)] = some (List.replicate l c ++ s) := by
  have h := build_pad s c l 0
  simpa [build, buildLen, buildLoop, buildRep] using h

/-! ## Repetition -/

theorem mulLoop_spec (s : Str) (total : Int) : ∀ (n : Nat) (out : Str), len out + n * len s ≤ total →
    mulLoop s total n out = some (out ++ (List.replicate n s).flatten)
  | 0, out, _ => by simp [mulLoop]
  | n + 1, out, h => by
    have e : ((n + 1 : Nat) : Int) * len s = n * len s + len s := by push_cast; ring
    have p : 0 ≤ (n : Int) * len s := by positivity
    rw [e] at h
    rw [mulLoop, emit_ok (by omega)]
    show mulLoop s total n (out ++ s) = _
    rw [mulLoop_spec s total n _ (by
      have : len (out ++ s) = len out + len s := by simp [len]
      omega)]
    simp [List.replicate_succ]

/-! ## Slices -/

theorem rangeLoop_spec (s : Str) (cap : Int) : ∀ (l : List Nat) (out : Str), len out + l.length ≤ cap →
    (∀ x ∈ l, x < s.length) →
    rangeLoop s cap (l.map fun x : Nat => (x : Int)) out = some (out ++ l.filterMap (s[·]?))
  | [], out, _, _ => by simp [rangeLoop]
  | x :: l, out, h, hx => by
    have h : len out + ((l.length + 1 : Nat) : Int) ≤ cap := h
    have hr : rd s (x : Int) = some (s[x]'(hx x (by simp))) := by
      rw [rd, if_pos (by omega), Int.toNat_natCast, List.getElem?_eq_getElem (hx x (by simp))]
    rw [List.map_cons, rangeLoop, hr]
    simp only [Option.bind_eq_bind, Option.bind_some]
    have e1 : len [s[x]'(hx x (by simp))] = 1 := rfl
    rw [emit_ok (by rw [e1]; omega)]
    simp only [Option.bind_some]
    rw [rangeLoop_spec s cap l _ (by
      have : len (out ++ [s[x]'(hx x (by simp))]) = len out + 1 := by simp [len]
      omega) fun y hy => hx y (by simp [hy])]
    have : s[x]? = some (s[x]'(hx x (by simp))) := List.getElem?_eq_getElem _
    simp [List.filterMap_cons, this]

theorem filterMap_length (s : Str) : ∀ l : List Nat, (∀ x ∈ l, x < s.length) →
    (l.filterMap (s[·]?)).length = l.length
  | [], _ => rfl
  | x :: l, hx => by
    have : s[x]? = some (s[x]'(hx x (by simp))) := List.getElem?_eq_getElem _
    rw [List.filterMap_cons, this]
    simp [filterMap_length s l fun y hy => hx y (by simp [hy])]

theorem positions_lt {n : Nat} {start stop : Option Int} {k : Int} {x : Nat}
    (h : x ∈ SliceSpec.positions n start stop k) : x < n := by
  simp only [SliceSpec.positions] at h
  by_cases hk : 0 < k
  · rw [if_pos hk] at h; simpa using List.mem_range.1 (List.mem_filter.1 h).1
  · rw [if_neg hk] at h; simpa using List.mem_range.1 (List.mem_filter.1 (List.mem_reverse.1 h)).1

/-! ## `translate` -/

theorem transLen_spec (map : Table) : ∀ (s : Str) (m : Int),
    transLen map s m = m + ((s.flatMap (image map)).length : Int)
  | [], m => by simp [transLen]
  | c :: s, m => by
    rw [transLen, List.flatMap_cons, image]
    rcases h : map c.toNat with _ | _ | v
    · simp only []; rw [transLen_spec map s]; simp; omega
    · simp only []; rw [transLen_spec map s]; simp
    · simp only []; rw [transLen_spec map s]; simp [len]; omega

theorem transLoop_spec (map : Table) (cap : Int) : ∀ (s out : Str),
    len out + ((s.flatMap (image map)).length : Int) ≤ cap →
    transLoop map cap s out = some (out ++ s.flatMap (image map))
  | [], out, _ => by simp [transLoop]
  | c :: s, out, h => by
    have hi : ((((c :: s).flatMap (image map)).length : Nat) : Int)
        = ((image map c).length : Int) + ((s.flatMap (image map)).length : Int) := by
      rw [List.flatMap_cons, List.length_append]; push_cast; rfl
    rw [hi] at h
    have step : (do transLoop map cap s (← emit cap out (image map c)))
        = some (out ++ (c :: s).flatMap (image map)) := by
      rw [emit_ok (by show len out + ((image map c).length : Int) ≤ cap; omega)]
      show transLoop map cap s (out ++ image map c) = _
      rw [transLoop_spec map cap s _ (by
        have : len (out ++ image map c) = len out + (image map c).length := by simp [len]
        omega)]
      simp
    rw [transLoop]
    rcases hm : map c.toNat with _ | _ | v
    · have : image map c = [c] := by simp [image, hm]
      rw [this] at step; exact step
    · have e : image map c = [] := by simp [image, hm]
      simp only []
      rw [transLoop_spec map cap s out (by omega)]
      simp [e]
    · have : image map c = v := by simp [image, hm]
      rw [this] at step; exact step

/-! ## `expandtabs` -/

/-- The text from column `j` on. -/
def expand (ts : Int) : Str → Int → Str
  | [], _ => []
  | c :: s, j =>
    if c = 9 then
      if ts > 0 then List.replicate (ts - j.tmod ts).toNat 32 ++ expand ts s (j + (ts - j.tmod ts))
      else expand ts s j
    else c :: expand ts s (if c = 10 ∨ c = 13 then 0 else j + 1)

theorem incr_bounds {ts j : Int} (ht : 0 < ts) (hj : 0 ≤ j) : 0 < ts - j.tmod ts ∧ ts - j.tmod ts ≤ ts := by
  have := Int.tmod_lt_of_pos j ht
  have := Int.tmod_nonneg ts hj
  omega

theorem chk_ok {x : Int} (h0 : 0 ≤ x) (h1 : x ≤ MAX) : chk x = some x := by
  rw [chk, if_pos]
  have : (0 : Int) ≤ MAX := by decide
  omega

theorem measure_spec (ts : Int) (hts : ts ≤ MAX) : ∀ (s : Str) (i j : Int), 0 ≤ i → i ≤ MAX → 0 ≤ j → j ≤ MAX →
    measure ts s i j = some (if i + j + ((expand ts s j).length : Int) ≤ MAX
      then some (i + j + ((expand ts s j).length : Int)) else none)
  | [], i, j, hi, hi', hj, hj' => by
    rw [measure, expand]
    by_cases h : i > MAX - j
    · rw [if_pos h, if_neg (by simp; omega)]
    · rw [if_neg h, if_pos (by simp; omega), chk_ok (by omega) (by omega)]
      simp
  | c :: s, i, j, hi, hi', hj, hj' => by
    rw [measure, expand]
    by_cases hc : c = 9
    · rw [if_pos hc, if_pos hc]
      by_cases ht : ts > 0
      · obtain ⟨b0, b1⟩ := incr_bounds ht hj
        rw [if_pos ht, if_pos ht]
        simp only []
        have el : (((List.replicate (ts - j.tmod ts).toNat (32 : UInt8)
            ++ expand ts s (j + (ts - j.tmod ts))).length : Nat) : Int)
            = (ts - j.tmod ts) + ((expand ts s (j + (ts - j.tmod ts))).length : Int) := by
          rw [List.length_append, List.length_replicate]; push_cast; omega
        rw [el]
        by_cases h : j > MAX - (ts - j.tmod ts)
        · rw [if_pos h, if_neg (by omega)]
        · rw [if_neg h, chk_ok (by omega) (by omega)]
          simp only [Option.bind_eq_bind, Option.bind_some]
          rw [measure_spec ts hts s i _ hi hi' (by omega) (by omega)]
          have e : i + (j + (ts - j.tmod ts)) + ((expand ts s (j + (ts - j.tmod ts))).length : Int)
            = i + j + ((ts - j.tmod ts) + ((expand ts s (j + (ts - j.tmod ts))).length : Int)) := by ring
          rw [e]
      · rw [if_neg ht, if_neg ht]
        exact measure_spec ts hts s i j hi hi' hj hj'
    · rw [if_neg hc, if_neg hc]
      have el : ∀ x : Str, (((c :: x).length : Nat) : Int) = 1 + (x.length : Int) := by
        intro x; rw [List.length_cons]; push_cast; ring
      rw [el]
      by_cases h : j > MAX - 1
      · rw [if_pos h, if_neg (by omega)]
      · rw [if_neg h, chk_ok (by omega) (by omega)]
        simp only [Option.bind_eq_bind, Option.bind_some]
        by_cases hb : c = 10 ∨ c = 13
        · rw [if_pos hb, if_pos hb]
          by_cases h2 : i > MAX - (j + 1)
          · rw [if_pos h2, if_neg (by omega)]
          · rw [if_neg h2, chk_ok (by omega) (by omega)]
            simp only [Option.bind_some]
            rw [measure_spec ts hts s _ 0 (by omega) (by omega) (by omega) (by decide)]
            have e : i + (j + 1) + 0 + ((expand ts s 0).length : Int)
              = i + j + (1 + ((expand ts s 0).length : Int)) := by ring
            rw [e]
        · rw [if_neg hb, if_neg hb, measure_spec ts hts s i _ hi hi' (by omega) (by omega)]
          have e : i + (j + 1) + ((expand ts s (j + 1)).length : Int)
            = i + j + (1 + ((expand ts s (j + 1)).length : Int)) := by ring
          rw [e]

theorem spaces_spec (cap : Int) : ∀ (n : Nat) (out : Str), len out + n ≤ cap →
    spaces cap (n + 1) n out = some (out ++ List.replicate n 32)
  | 0, out, _ => by simp [spaces]
  | n + 1, out, h => by
    have h : len out + ((n + 1 : Nat) : Int) ≤ cap := h
    have e1 : len ([32] : Str) = 1 := rfl
    rw [spaces, if_neg (by omega), emit_ok (by rw [e1]; omega)]
    simp only [Option.bind_eq_bind, Option.bind_some]
    have e : ((n + 1 : Nat) : Int) - 1 = n := by omega
    rw [e, spaces_spec cap n _ (by
      have : len (out ++ [32]) = len out + 1 := by simp [len]
      omega)]
    simp [List.replicate_succ]

theorem fillTabs_spec (ts cap : Int) (hts : ts ≤ MAX) (hcap : cap ≤ MAX) : ∀ (s : Str) (j : Int) (out : Str),
    0 ≤ j → j ≤ len out → len out + ((expand ts s j).length : Int) ≤ cap →
    fillTabs ts cap s j out = some (out ++ expand ts s j)
  | [], j, out, _, _, _ => by simp [fillTabs, expand]
  | c :: s, j, out, hj, hj', h => by
    rw [fillTabs]
    rw [expand] at h ⊢
    by_cases hc : c = 9
    · rw [if_pos hc] at h ⊢
      rw [if_pos hc]
      by_cases ht : ts > 0
      · obtain ⟨b0, b1⟩ := incr_bounds ht hj
        rw [if_pos ht] at h ⊢
        rw [if_pos ht]
        have el : (((List.replicate (ts - j.tmod ts).toNat (32 : UInt8)
            ++ expand ts s (j + (ts - j.tmod ts))).length : Nat) : Int)
            = (ts - j.tmod ts) + ((expand ts s (j + (ts - j.tmod ts))).length : Int) := by
          rw [List.length_append, List.length_replicate]; push_cast; omega
        rw [el] at h
        simp only []
        rw [chk_ok (by omega) (by omega)]
        simp only [Option.bind_eq_bind, Option.bind_some]
        have hs := spaces_spec cap (ts - j.tmod ts).toNat out (by omega)
        rw [Int.toNat_of_nonneg (by omega)] at hs
        rw [hs]
        simp only [Option.bind_some]
        have hl : len (out ++ List.replicate (ts - j.tmod ts).toNat 32) = len out + (ts - j.tmod ts) := by
          show ((out ++ List.replicate (ts - j.tmod ts).toNat 32).length : Int) = (out.length : Int) + _
          rw [List.length_append, List.length_replicate]; push_cast; omega
        rw [fillTabs_spec ts cap hts hcap s _ _ (by omega) (by omega) (by omega)]
        simp
      · rw [if_neg ht] at h ⊢
        rw [if_neg ht]
        exact fillTabs_spec ts cap hts hcap s j out hj hj' h
    · rw [if_neg hc] at h ⊢
      rw [if_neg hc]
      have el : ∀ x : Str, (((c :: x).length : Nat) : Int) = 1 + (x.length : Int) := by
        intro x; rw [List.length_cons]; push_cast; ring
      rw [el] at h
      have e1 : len ([c] : Str) = 1 := rfl
      have hl : len (out ++ [c]) = len out + 1 := by simp [len]
      rw [chk_ok (by omega) (by omega)]
      simp only [Option.bind_eq_bind, Option.bind_some]
      rw [emit_ok (by rw [e1]; omega)]
      simp only [Option.bind_some]
      have p : 0 ≤ len out := Int.natCast_nonneg _
      by_cases hb : c = 10 ∨ c = 13
      · rw [if_pos hb] at h ⊢
        rw [if_pos hb, fillTabs_spec ts cap hts hcap s _ _ (by omega) (by omega) (by omega)]
        simp
      · rw [if_neg hb] at h ⊢
        rw [if_neg hb, fillTabs_spec ts cap hts hcap s _ _ (by omega) (by omega) (by omega)]
        simp

theorem column_nil : column [] = 0 := rfl

theorem column_break (o : Str) {c : UInt8} (h : c = 10 ∨ c = 13) : column (o ++ [c]) = 0 := by
  rw [column, List.reverse_append, List.reverse_singleton, List.singleton_append, List.takeWhile_cons,
    if_neg (by rcases h with rfl | rfl <;> simp)]
  rfl

theorem column_char (o : Str) {c : UInt8} (h : ¬ (c = 10 ∨ c = 13)) : column (o ++ [c]) = column o + 1 := by
  rw [column, List.reverse_append, List.reverse_singleton, List.singleton_append, List.takeWhile_cons,
    if_pos (by simpa [not_or] using h)]
  rfl

theorem column_spaces (o : Str) : ∀ n : Nat, column (o ++ List.replicate n 32) = column o + n
  | 0 => by simp
  | n + 1 => by
    rw [List.replicate_succ', ← List.append_assoc, column_char _ (by decide), column_spaces o n]; rfl

theorem expand_spec (ts : Int) : ∀ (s s0 o : Str), Expanded ts s0 o →
    Expanded ts (s0 ++ s) (o ++ expand ts s (column o))
  | [], s0, o, h => by simpa [expand] using h
  | c :: s, s0, o, h => by
    have e : s0 ++ c :: s = (s0 ++ [c]) ++ s := by simp
    rw [e, expand]
    by_cases hc : c = 9
    · subst hc
      rw [if_pos rfl]
      by_cases ht : ts > 0
      · obtain ⟨b0, b1⟩ := incr_bounds ht (Int.natCast_nonneg (column o))
        rw [if_pos ht]
        obtain ⟨k, hk⟩ : ∃ k : Nat, ts - ((column o : Nat) : Int).tmod ts = k :=
          ⟨(ts - ((column o : Nat) : Int).tmod ts).toNat, (Int.toNat_of_nonneg (by omega)).symm⟩
        have hd : ts ∣ ((column o + k : Nat) : Int) := by
          have e2 : ((column o + k : Nat) : Int) = ts * ((column o : Int).tdiv ts + 1) := by
            have := Int.mul_tdiv_add_tmod (column o : Int) ts
            push_cast; rw [← hk, mul_add]; omega
          exact ⟨_, e2⟩
        have h' : Expanded ts (s0 ++ [9]) (o ++ List.replicate k 32) := by
          refine Expanded.tab h ht (by omega) hd ?_
          intro k' p0 p1 hd'
          have hs : ts ∣ ((k - k' : Nat) : Int) := by
            have : ((k - k' : Nat) : Int) = ((column o + k : Nat) : Int) - ((column o + k' : Nat) : Int) := by
              push_cast [Nat.le_of_lt p1]; ring
            rw [this]; exact Int.dvd_sub hd hd'
          have := Int.le_of_dvd (by omega) hs
          omega
        rw [hk, Int.toNat_natCast]
        have ih := expand_spec ts s _ _ h'
        rw [column_spaces, List.append_assoc o] at ih
        push_cast at ih
        exact ih
      · rw [if_neg ht]
        exact expand_spec ts s _ _ (Expanded.drop h (by omega))
    · rw [if_neg hc]
      have ih := expand_spec ts s _ _ (Expanded.char h hc)
      rw [List.append_assoc o] at ih
      by_cases hb : c = 10 ∨ c = 13
      · rw [column_break o hb] at ih
        rw [if_pos hb]; exact ih
      · rw [column_char o hb] at ih
        rw [if_neg hb]; push_cast at ih; exact ih

end Codon.StrM
