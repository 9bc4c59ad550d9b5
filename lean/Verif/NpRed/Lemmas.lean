import Verif.NpRed.Laws
import Verif.NpRed.Claim
import Verif.Numpy.ViewProps
/-!
# The argument `axis`; groups with elements
-/
namespace Codon.NpRed
open Codon.Numpy Codon.NpLine Codon.SliceSpec
variable {V S O T : Type}

theorem axesOf_ok (n : Nat) (axis : Axis) (ax : List Nat) (h : AxesOf n axis ax) : (∀ k ∈ ax, k < n) ∧ ax.Nodup := by
  cases axis with
  | all => rw [show ax = List.range n from h]; exact ⟨fun k hk => List.mem_range.mp hk, List.nodup_range⟩
  | one i =>
    rcases h with ⟨_, _, rfl⟩ | ⟨k, hk, rfl⟩
    · simp
    · exact ⟨fun j hj => by simp only [List.mem_singleton] at hj; subst hj; exact hk.1, by simp⟩
  | many l =>
    obtain ⟨h1, h2⟩ := h
    refine ⟨fun k hk => ?_, h2⟩
    clear h2
    induction h1 with
    | nil => cases hk
    | cons hx _ ih =>
      rcases List.mem_cons.mp hk with rfl | hk
      · exact hx.1
      · exact ih hk

theorem names_rel (n : Nat) (i : Int) (k : Nat) : Names n i k ↔ (-(n : Int) ≤ i ∧ i < n) ∧ (rel n i).toNat = k := by
  unfold Names rel
  split <;> omega

theorem names_many (n : Nat) : ∀ (l : List Int) (ax : List Nat), List.Forall₂ (Names n) l ax ↔ (∀ x ∈ l, -(n : Int) ≤ x ∧ x < n) ∧ (l.map (rel n)).map Int.toNat = ax
  | [], ax => by
    constructor
    · intro h; cases h; simp
    · rintro ⟨_, h⟩; rw [← h]; exact .nil
  | i :: l, ax => by
    constructor
    · intro h
      cases h with
      | cons h1 h2 =>
        obtain ⟨h3, h4⟩ := (names_rel n i _).mp h1
        obtain ⟨h5, h6⟩ := (names_many n l _).mp h2
        refine ⟨fun x hx => ?_, by simp only [List.map_cons, h4, h6]⟩
        rcases List.mem_cons.mp hx with rfl | hx
        · exact h3
        · exact h5 x hx
    · rintro ⟨h1, h2⟩
      rw [← h2]
      exact .cons ((names_rel n i _).mpr ⟨h1 i (by simp), rfl⟩) ((names_many n l _).mpr ⟨fun x hx => h1 x (by simp [hx]), rfl⟩)

theorem rel_nodup (n : Nat) (l : List Int) (h : ∀ x ∈ l, -(n : Int) ≤ x ∧ x < n) : ((l.map (rel n)).map Int.toNat).Nodup ↔ (l.map (rel n)).Nodup := by
  constructor
  · exact fun hh => List.Nodup.of_map _ hh
  · intro hh
    refine List.Nodup.map_on (fun x hx y hy he => ?_) hh
    obtain ⟨i, hi, rfl⟩ := List.mem_map.mp hx
    obtain ⟨j, hj, rfl⟩ := List.mem_map.mp hy
    have h1 := h i hi
    have h2 := h j hj
    unfold rel at he ⊢
    split at he <;> split at he <;> (try split) <;> (try split) <;> omega

theorem reduce_axes (R : Redux V S O) (w wo : Int) (a : Arr) (h : Heap V) (axis : Axis) (ax : List Nat) (wh : Option (Arr × Heap Bool)) (ho : Heap O) (junk : Int → O)
    (hax : AxesOf a.shape.length axis ax) : reduce R w wo a h axis wh ho junk = reduceAxes R w wo a h ax wh ho junk := by
  cases axis with
  | all =>
    rw [show ax = List.range _ from hax]
    unfold reduce
    cases a.shape <;> rfl
  | one i =>
    rcases hax with ⟨hn, hi, rfl⟩ | ⟨k, hk, rfl⟩
    · unfold reduce
      rw [List.length_eq_zero_iff.mp hn]
      simp only []
      rw [if_neg (by omega)]
    · obtain ⟨h1, h2⟩ := (names_rel _ _ _).mp hk
      have hl := hk.1
      have hax : axes a.shape.length (.one i) = .ok [k] := by
        simp only [axes]
        rw [if_neg (by omega)]
        exact congrArg (fun x => Except.ok [x]) h2
      unfold reduce
      cases hs : a.shape with
      | nil => rw [hs] at hl; simp at hl
      | cons x s =>
        rw [hs] at hax
        simp only [hax]
        rfl
  | many l =>
    obtain ⟨h1, h2⟩ := hax
    obtain ⟨h3, h4⟩ := (names_many _ _ _).mp h1
    have hd : hasDuplicate (l.map (rel a.shape.length)) = false := by
      rw [← h4, rel_nodup _ _ h3] at h2
      have := hasDuplicate_iff (l.map (rel a.shape.length))
      cases hh : hasDuplicate (l.map (rel a.shape.length)) with
      | false => rfl
      | true => exact absurd h2 (this.mp hh)
    have hax : axes a.shape.length (.many l) = .ok ax := by
      unfold axes
      simp only [mapM_norm l _ h3]
      rw [if_neg (by rw [hd]; simp), h4]
    unfold reduce
    cases hs : a.shape with
    | nil => rw [hs] at hax; simp only [hax]; rfl
    | cons x s => rw [hs] at hax; simp only [hax]; rfl

theorem answer_ok (R : Redux V S O) (dom : List V → Prop) (P : List V → O → Prop) (law : Law R dom P) (w wo : Int) (hwo : 0 < wo) (a : Arr) (h : Heap V) (hwf : a.WF h)
    (axis : Axis) (ax : List Nat) (hax : AxesOf a.shape.length axis ax) (wh : Option (Arr × Heap Bool)) (hm : MaskOk a wh) (ho : Heap O) (junk : Int → O)
    (hne : count a.shape = 0 → R.raises = false) (hdom : ∀ idx vs, Valid idx (outPart ax a.shape) → Group h a wh ax idx vs → dom vs)
    (hs : Sym dom P ∨ (wh = none ∧ R.loop = none ∧ R.gradual = none ∧ ∀ idx, Straight w (sub a (maskOf ax a.shape.length) idx))) :
    Answer P h a wh ax ho (reduce R w wo a h axis wh ho junk) := by
  rw [reduce_axes R w wo a h axis ax wh ho junk hax]
  obtain ⟨h1, h2⟩ := axesOf_ok _ _ _ hax
  exact reduceAxes_ok R dom P law w wo hwo a h hwf ax h1 h2 wh hm ho junk hne hdom hs

theorem answer_imp {P Q : List V → O → Prop} (hPQ : ∀ vs o, P vs o → Q vs o) {h : Heap V} {a : Arr} {wh : Option (Arr × Heap Bool)} {ax : List Nat} {ho : Heap O} {res : Except Fail (Ans O)}
    (hA : Answer P h a wh ax ho res) : Answer Q h a wh ax ho res := by
  refine ⟨fun hl => ?_, fun hl => ?_⟩
  · obtain ⟨o, vs, h1, h2, h3⟩ := hA.1 hl
    exact ⟨o, vs, h1, h2, hPQ _ _ h3⟩
  · obtain ⟨h', r, h1, val, h2, h3⟩ := hA.2 hl
    refine ⟨h', r, h1, val, h2, fun idx hi => ?_⟩
    obtain ⟨vs, h4, h5⟩ := h3 idx hi
    exact ⟨vs, h4, hPQ _ _ h5⟩

/-- Every element of the result has an element that belongs to it. -/
theorem group_exists (a : Arr) (h : Heap V) (hwf : a.WF h) (hc : count a.shape ≠ 0) (ax : List Nat) (idx : List Int) (hi : Valid idx (outPart ax a.shape)) :
    ∃ c, Valid c a.shape ∧ outPart ax c = idx := by
  rw [outPart_eq] at hi
  have hml := maskOf_length ax a.shape.length
  have pos : ∀ (s : List Int), (∀ n ∈ s, 0 ≤ n) → count s ≠ 0 → ∀ n ∈ s, 0 < n := by
    intro s
    induction s with
    | nil => intro _ _ n hn; cases hn
    | cons x s ih =>
      intro h1 h2 n hn
      have h3 : x ≠ 0 ∧ count s ≠ 0 := by
        constructor
        · rintro rfl; exact h2 (by rw [count_cons, Int.zero_mul])
        · intro hz; exact h2 (by rw [count_cons, hz, Int.mul_zero])
      rcases List.mem_cons.mp hn with rfl | hn
      · have := h1 n (by simp); omega
      · exact ih (fun n hn => h1 n (by simp [hn])) h3.2 n hn
  have zeros : ∀ (s : List Int), (∀ n ∈ s, 0 < n) → Valid (s.map fun _ => 0) s := by
    intro s
    induction s with
    | nil => intro _; trivial
    | cons x s ih => intro h1; exact ⟨⟨le_rfl, h1 x (by simp)⟩, ih fun n hn => h1 n (by simp [hn])⟩
  have ht := zeros (gone (maskOf ax a.shape.length) a.shape) fun n hn => pos _ hwf.nonneg hc n (gone_mem _ _ _ hn)
  obtain ⟨h1, h2, _⟩ := weave_valid _ _ _ _ hml hi ht
  refine ⟨_, h1, ?_⟩
  rw [outPart_eq, Valid.length h1]
  exact h2

theorem group_ne {h : Heap V} {a : Arr} {wh : Option (Arr × Heap Bool)} {ax : List Nat} {idx : List Int} {vs : List V} (hg : Group h a wh ax idx vs)
    (hc : ∃ c, Valid c a.shape ∧ outPart ax c = idx ∧ Selected wh c) : vs ≠ [] := by
  obtain ⟨cs, _, h2, h3⟩ := hg
  obtain ⟨c, hc⟩ := hc
  have hm := (h2 c).mpr hc
  rintro rfl
  cases cs with
  | nil => cases hm
  | cons x cs =>
    have := mapM_some_map _ _ _ h3
    simp at this

theorem straight_one (w : Int) (a : Arr) (k : Nat) (hk : k < a.shape.length) (idx : List Int) : Straight w (sub a (maskOf [k] a.shape.length) idx) := by
  left
  have := (stay_one a.shape k hk).2
  simp only [sub]
  rw [this]
  rfl

end Codon.NpRed
