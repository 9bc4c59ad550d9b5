import Mathlib.Data.List.Basic
/-!
# The bit sets of the reaching-definitions analysis

`BitSet` of `codon/cir/analyze/dataflow/reaching.cpp`, lines 65-119: an array of 64-bit words.  The model of the
analysis uses functions from numbers to truth values; here the words are shown to represent them.
An access outside of the array is undefined behaviour: `none`.
-/
namespace Codon.Flow.BitSet

abbrev Word := BitVec 64

/-- reaching.cpp:67 `allocSize` -/
def allocSize (size : Nat) : Nat := (size + 64 - 1) / 64

/-- reaching.cpp:71: the constructor -/
def mk (size : Nat) : List Word := List.replicate (allocSize size) 0

/-- reaching.cpp:79 `set` -/
def set (w : List Word) (bit : Nat) : Option (List Word) :=
  match w[bit / 64]? with
  | none => none
  | some x => some (w.set (bit / 64) (x ||| ((1 : Word) <<< (bit % 64))))

/-- reaching.cpp:81-83 `get` -/
def get (w : List Word) (bit : Nat) : Option Bool :=
  match w[bit / 64]? with
  | none => none
  | some x => some (x &&& ((1 : Word) <<< (bit % 64)) != 0)

/-- reaching.cpp:85-88 `equals`, on arrays of one size -/
def equals (u v : List Word) : Bool := u == v

/-- reaching.cpp:100-107 `update` -/
def update (u v : List Word) : List Word := List.zipWith (fun p q => p ||| q) u v

/-- reaching.cpp:109-116 `subtract` -/
def subtract (u v : List Word) : List Word := List.zipWith (fun p q => p &&& ~~~q) u v

/-- `w` represents the set `s` of numbers below `size`. -/
structure Rep (size : Nat) (w : List Word) (s : Nat → Bool) : Prop where
  length : w.length = allocSize size
  bits : ∀ i x, w[i]? = some x → ∀ j, j < 64 → x.getLsbD j = s (64 * i + j)
  bound : ∀ b, size ≤ b → s b = false

theorem div_lt {size b : Nat} (h : b < size) : b / 64 < allocSize size := by
  unfold allocSize; omega

theorem lsb_one_shift (k j : Nat) (hk : k < 64) (hj : j < 64) :
    ((1 : Word) <<< k).getLsbD j = decide (j = k) := by
  rw [BitVec.getLsbD_shiftLeft, show (1 : Word) = 1#64 from rfl, BitVec.getLsbD_one]
  by_cases h : j = k
  · subst h; simp [hj]
  · simp [h, hj]; omega

theorem rep_mk (size : Nat) : Rep size (mk size) (fun _ => false) := by
  refine ⟨by simp [mk], ?_, by simp⟩
  intro i x h j _
  have := List.mem_of_getElem? h
  simp [mk] at this
  rw [this.2]
  simp

theorem rep_get {size : Nat} {w : List Word} {s : Nat → Bool} (h : Rep size w s) {b : Nat} (hb : b < size) :
    get w b = some (s b) := by
  have hl : b / 64 < w.length := by rw [h.length]; exact div_lt hb
  unfold get
  rw [List.getElem?_eq_getElem hl]
  simp only [Option.some.injEq]
  have hb' := h.bits (b / 64) _ (List.getElem?_eq_getElem hl) (b % 64) (by omega)
  rw [show 64 * (b / 64) + b % 64 = b by omega] at hb'
  rw [← hb']
  have key : ∀ x : Word, ∀ k, k < 64 → (x &&& ((1 : Word) <<< k) != 0) = x.getLsbD k := by
    intro x k hk
    cases hx : x.getLsbD k with
    | true =>
      simp only [bne_iff_ne, ne_eq]
      intro he
      have := congrArg (fun y : Word => y.getLsbD k) he
      rw [BitVec.getLsbD_and, lsb_one_shift k k hk hk, hx] at this
      simp at this
    | false =>
      have : x &&& ((1 : Word) <<< k) = 0 := by
        apply BitVec.eq_of_getLsbD_eq
        intro i hi
        rw [BitVec.getLsbD_and, lsb_one_shift k i hk hi]
        by_cases h : i = k
        · subst h; simp [hx]
        · simp [h]
      rw [this]; rfl
  exact key _ _ (by omega)

theorem rep_set {size : Nat} {w : List Word} {s : Nat → Bool} (h : Rep size w s) {b : Nat} (hb : b < size) :
    ∃ w', set w b = some w' ∧ Rep size w' (fun c => c == b || s c) := by
  have hl : b / 64 < w.length := by rw [h.length]; exact div_lt hb
  unfold set
  rw [List.getElem?_eq_getElem hl]
  refine ⟨_, rfl, by simpa using h.length, ?_, ?_⟩
  · intro i x hx j hj
    rw [List.getElem?_set] at hx
    by_cases hi : b / 64 = i
    · subst hi
      rw [if_pos rfl, if_pos hl] at hx
      simp only [Option.some.injEq] at hx
      subst hx
      rw [BitVec.getLsbD_or, h.bits _ _ (List.getElem?_eq_getElem hl) j hj,
        lsb_one_shift _ _ (by omega) hj, Bool.or_comm]
      congr 1
      rw [Bool.eq_iff_iff]
      simp
      omega
    · rw [if_neg hi] at hx
      rw [h.bits i x hx j hj]
      have : (64 * i + j == b) = false := by simp; omega
      rw [this]
      rfl
  · intro c hc
    simp [h.bound c hc]
    omega

theorem rep_update {size : Nat} {u v : List Word} {s t : Nat → Bool} (h : Rep size u s) (k : Rep size v t) :
    Rep size (update u v) (fun b => s b || t b) := by
  refine ⟨by simp [update, h.length, k.length], ?_, fun b hb => by simp [h.bound b hb, k.bound b hb]⟩
  intro i x hx j hj
  unfold update at hx
  rw [List.getElem?_zipWith] at hx
  split at hx
  · rename_i p q hp hq
    simp at hx
    subst hx
    rw [BitVec.getLsbD_or, h.bits i p hp j hj, k.bits i q hq j hj]
  · cases hx

theorem rep_subtract {size : Nat} {u v : List Word} {s t : Nat → Bool} (h : Rep size u s) (k : Rep size v t) :
    Rep size (subtract u v) (fun b => s b && !t b) := by
  refine ⟨by simp [subtract, h.length, k.length], ?_, fun b hb => by simp [h.bound b hb]⟩
  intro i x hx j hj
  unfold subtract at hx
  rw [List.getElem?_zipWith] at hx
  split at hx
  · rename_i p q hp hq
    simp at hx
    subst hx
    rw [BitVec.getLsbD_and, BitVec.getLsbD_not, h.bits i p hp j hj, k.bits i q hq j hj]
    simp [hj]
  · cases hx

/-- Comparing the words compares the sets. -/
theorem rep_equals {size : Nat} {u v : List Word} {s t : Nat → Bool} (h : Rep size u s) (k : Rep size v t) :
    equals u v = true ↔ ∀ b, b < size → s b = t b := by
  unfold equals
  rw [beq_iff_eq]
  constructor
  · rintro rfl b hb
    have h1 := rep_get h hb
    rw [rep_get k hb] at h1
    simpa using h1.symm
  · intro hst
    have hall : ∀ b, s b = t b := by
      intro b
      by_cases hb : b < size
      · exact hst b hb
      · rw [h.bound b (by omega), k.bound b (by omega)]
    apply List.ext_getElem?
    intro i
    by_cases hi : i < allocSize size
    · have hu : i < u.length := by rw [h.length]; exact hi
      have hv : i < v.length := by rw [k.length]; exact hi
      rw [List.getElem?_eq_getElem hu, List.getElem?_eq_getElem hv]
      congr 1
      apply BitVec.eq_of_getLsbD_eq
      intro j hj
      rw [h.bits i _ (List.getElem?_eq_getElem hu) j hj, k.bits i _ (List.getElem?_eq_getElem hv) j hj, hall]
    · rw [List.getElem?_eq_none (by rw [h.length]; omega), List.getElem?_eq_none (by rw [k.length]; omega)]

/-- **C05**, the representation: the operations that the analysis uses on its arrays of words do what
the model takes them to do, and stay inside the arrays, for sets of any size. -/
theorem c05_bitset_operations (size : Nat) (u v : List Word) (s t : Nat → Bool) (hu : Rep size u s)
    (hv : Rep size v t) (b : Nat) (hb : b < size) :
    get u b = some (s b) ∧ (∃ w, set u b = some w ∧ Rep size w fun c => c == b || s c) ∧
    Rep size (update u v) (fun c => s c || t c) ∧ Rep size (subtract u v) (fun c => s c && !t c) ∧
    (equals u v = true ↔ ∀ c, c < size → s c = t c) :=
  ⟨rep_get hu hb, rep_set hu hb, rep_update hu hv, rep_subtract hu hv, rep_equals hu hv⟩

/-- Bits 3 and 70 of a set of 100. -/
example : ((set (mk 100) 3).bind fun w => (set w 70).map fun w =>
    (get w 3, get w 70, get w 6, get w 64)) = some (some true, some true, some false, some false) := by decide

end Codon.Flow.BitSet
