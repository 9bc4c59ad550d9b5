import Verif.Numpy.CopyLemmas
import Verif.Numpy.ReshapeSpec
import Mathlib.Data.List.Forall2
/-!
# Lemmas on the unknown dimension of `reshape`
-/
namespace Codon.Numpy

theorem count_foldr (l : List Int) : l.foldr (· * ·) 1 = count l := by
  induction l with
  | nil => rfl
  | cons n ns ih => rw [List.foldr_cons, ih, count_cons]

theorem known_all : ∀ (ds : List Int) (i k : Int) (u : Option Int), (∀ d ∈ ds, 0 ≤ d) → knownLoop ds i k u = some (k * count ds, u)
  | [], i, k, u, _ => by simp [knownLoop, count_nil]
  | d :: ds, i, k, u, h => by
    have hd := h d (by simp)
    rw [knownLoop.eq_def]; dsimp only
    rw [if_neg (by omega), known_all ds _ _ _ fun e he => h e (by simp [he]), count_cons, mul_assoc]

theorem known_neg : ∀ (p : List Int) (d : Int) (q : List Int) (i k j : Int), d < 0 → knownLoop (p ++ d :: q) i k (some j) = none
  | [], d, q, i, k, j, hd => by rw [List.nil_append, knownLoop, if_pos hd]
  | e :: p, d, q, i, k, j, hd => by
    rw [List.cons_append, knownLoop]
    split
    · rfl
    · exact known_neg p d q _ _ j hd

theorem known_one : ∀ (p : List Int) (d : Int) (q : List Int) (i k : Int), d < 0 → (∀ e ∈ p, 0 ≤ e) →
    knownLoop (p ++ d :: q) i k none = knownLoop q (i + p.length + 1) (k * count p) (some (i + p.length))
  | [], d, q, i, k, hd, _ => by rw [List.nil_append, knownLoop, if_pos hd]; simp [count_nil]
  | e :: p, d, q, i, k, hd, h => by
    have he := h e (by simp)
    rw [List.cons_append, knownLoop, if_neg (by omega), known_one p d q _ _ hd fun x hx => h x (by simp [hx]), count_cons, List.length_cons]
    push_cast
    rw [mul_assoc]
    have e1 : i + 1 + (p.length : Int) = i + (p.length + 1) := by ring
    rw [e1]

theorem neg_cases : ∀ ds : List Int, (∀ d ∈ ds, 0 ≤ d) ∨ ∃ p d q, ds = p ++ d :: q ∧ d < 0 ∧ ∀ e ∈ p, 0 ≤ e
  | [] => Or.inl (by simp)
  | d :: ds => by
    by_cases hd : d < 0
    · exact Or.inr ⟨[], d, ds, rfl, hd, by simp⟩
    · rcases neg_cases ds with h | ⟨p, e, q, rfl, he, hp⟩
      · refine Or.inl fun x hx => ?_
        rcases List.mem_cons.mp hx with rfl | hx
        · omega
        · exact h x hx
      · refine Or.inr ⟨d :: p, e, q, rfl, he, fun x hx => ?_⟩
        rcases List.mem_cons.mp hx with rfl | hx
        · omega
        · exact hp x hx

theorem fixUnknown_gen (n : Int) (ns : List Int) : fixUnknown n ns = match knownLoop ns 0 1 none with
    | none => none
    | some (known, some i) => if known = 0 ∨ n.tmod known ≠ 0 then none else some (ns.set i.toNat (n.tdiv known))
    | some (known, none) => if n ≠ known then none else some ns := by
  cases ns with
  | nil => simp only [fixUnknown, knownLoop]
  | cons d ns =>
    cases ns with
    | cons e ns => rfl
    | nil =>
      simp only [fixUnknown, knownLoop]
      by_cases hd : d < 0
      · simp only [if_pos hd]; simp
      · simp only [if_neg hd]
        by_cases hn : d = n
        · simp [hn]
        · rw [if_pos hn, if_pos (by omega)]

theorem fits_all : ∀ (p s : List Int), (∀ d ∈ p, 0 ≤ d) → (List.Forall₂ (fun d e : Int => 0 ≤ e ∧ (0 ≤ d → e = d)) p s ↔ s = p)
  | [], s, _ => by rw [List.forall₂_nil_left_iff]
  | d :: p, s, h => by
    have hd := h d (by simp)
    rw [List.forall₂_cons_left_iff]
    constructor
    · rintro ⟨e, s', ⟨_, he⟩, hs', rfl⟩
      rw [(fits_all p s' fun x hx => h x (by simp [hx])).mp hs', he hd]
    · rintro rfl
      exact ⟨d, p, ⟨hd, fun _ => rfl⟩, (fits_all p p fun x hx => h x (by simp [hx])).mpr rfl, rfl⟩

theorem fits_one : ∀ (p : List Int) (d : Int) (q s : List Int), (∀ e ∈ p, 0 ≤ e) → d < 0 → (∀ e ∈ q, 0 ≤ e) →
    (List.Forall₂ (fun d e : Int => 0 ≤ e ∧ (0 ≤ d → e = d)) (p ++ d :: q) s ↔ ∃ e, 0 ≤ e ∧ s = p ++ e :: q)
  | [], d, q, s, _, hd, hq => by
    rw [List.nil_append, List.forall₂_cons_left_iff]
    constructor
    · rintro ⟨e, s', ⟨he, _⟩, hs', rfl⟩
      exact ⟨e, he, by rw [(fits_all q s' hq).mp hs']; rfl⟩
    · rintro ⟨e, he, rfl⟩
      exact ⟨e, q, ⟨he, by omega⟩, (fits_all q q hq).mpr rfl, rfl⟩
  | x :: p, d, q, s, hp, hd, hq => by
    have hx := hp x (by simp)
    rw [List.cons_append, List.forall₂_cons_left_iff]
    constructor
    · rintro ⟨y, s', ⟨_, hy⟩, hs', rfl⟩
      obtain ⟨e, he, rfl⟩ := (fits_one p d q s' (fun z hz => hp z (by simp [hz])) hd hq).mp hs'
      exact ⟨e, he, by rw [hy hx]; rfl⟩
    · rintro ⟨e, he, rfl⟩
      exact ⟨x, p ++ e :: q, ⟨hx, fun _ => rfl⟩, (fits_one p d q _ (fun z hz => hp z (by simp [hz])) hd hq).mpr ⟨e, he, rfl⟩, rfl⟩

theorem filter_nonneg (p : List Int) (h : ∀ d ∈ p, 0 ≤ d) : p.filter (· < 0) = [] := by
  rw [List.filter_eq_nil_iff]; intro a ha; have := h a ha; simpa using this

/-- `_fix_unknown_dimension` answers exactly the proper requests. -/
theorem fix_spec (n : Int) (hn : 0 ≤ n) (req s : List Int) : fixUnknown n req = some s ↔ Requests n req s := by
  rw [fixUnknown_gen]
  simp only [Requests, Fits, count_foldr]
  rcases neg_cases req with hall | ⟨p, d, q, rfl, hd, hp⟩
  · rw [known_all _ _ _ _ hall]
    simp only [one_mul, fits_all req _ hall, filter_nonneg req hall]
    constructor
    · intro h
      by_cases hc : n = count req
      · simp only [hc, ne_eq, not_true, if_false, Option.some.injEq] at h; subst h
        exact ⟨by simp, ⟨rfl, hc.symm⟩, fun s' hs' => hs'.1⟩
      · simp [hc] at h
    · rintro ⟨_, ⟨rfl, hc⟩, _⟩
      simp [hc]
  · rcases neg_cases q with hq | ⟨q1, e, q2, rfl, he, hq1⟩
    · rw [known_one p d q 0 1 hd hp, known_all q _ _ _ hq]
      simp only [one_mul, zero_add, Int.toNat_natCast, fits_one p d q _ hp hd hq]
      have hlen : ((p ++ d :: q).filter (· < 0)).length ≤ 1 := by
        rw [List.filter_append, List.filter_cons, filter_nonneg p hp, filter_nonneg q hq]; simp [hd]
      have hset : ∀ x, (p ++ d :: q).set p.length x = p ++ x :: q := fun x => by simp
      have hcnt : ∀ x, count (p ++ x :: q) = x * (count p * count q) := fun x => by rw [count_append, count_cons]; ring
      have hk : 0 ≤ count p * count q := mul_nonneg (count_nonneg p hp) (count_nonneg q hq)
      simp only [hset, hlen, true_and]
      generalize count p * count q = k at *
      constructor
      · intro h
        by_cases hc : k = 0 ∨ n.tmod k ≠ 0
        · simp [hc] at h
        · rw [if_neg hc, Option.some.injEq] at h
          push Not at hc
          subst h
          have hmul : n.tdiv k * k = n := by
            have h2 := Int.mul_tdiv_add_tmod n k
            rw [hc.2] at h2; linarith [mul_comm (n.tdiv k) k]
          refine ⟨⟨⟨_, Int.tdiv_nonneg hn hk, rfl⟩, by rw [hcnt, hmul]⟩, ?_⟩
          rintro s' ⟨⟨x, hx, rfl⟩, hc'⟩
          rw [hcnt] at hc'
          have : x = n.tdiv k := mul_right_cancel₀ hc.1 (by rw [hc', hmul])
          rw [this]
      · rintro ⟨⟨⟨x, hx, rfl⟩, hc⟩, hu⟩
        rw [hcnt] at hc
        have hk0 : k ≠ 0 := by
          rintro rfl
          have := hu (p ++ (x + 1) :: q) ⟨⟨x + 1, by omega, rfl⟩, by rw [hcnt]; simpa using hc⟩
          simp at this
        have h1 : n.tmod k = 0 := by rw [← hc]; exact Int.mul_tmod_left x k
        have h2 : n.tdiv k = x := by rw [← hc]; exact Int.mul_tdiv_cancel x hk0
        rw [if_neg (by simp [hk0, h1]), h2]
    · rw [known_one p d _ 0 1 hd hp, known_neg q1 e q2 _ _ _ he]
      constructor
      · intro h; simp at h
      · rintro ⟨h, _⟩
        exfalso
        rw [List.filter_append, List.filter_cons, List.filter_append, List.filter_cons] at h
        simp [hd, he] at h
        omega

theorem fits_self (n : Int) (s : List Int) (h : ∀ d ∈ s, 0 ≤ d) (hc : count s = n) : Requests n s s := by
  simp only [Requests, Fits, count_foldr, fits_all s _ h, filter_nonneg s h]
  exact ⟨by simp, ⟨trivial, hc⟩, fun s' hs' => hs'.1⟩

theorem Requests.nonneg {n : Int} {req s : List Int} (h : Requests n req s) : ∀ d ∈ s, 0 ≤ d := by
  have : ∀ (req s : List Int), List.Forall₂ (fun d e : Int => 0 ≤ e ∧ (0 ≤ d → e = d)) req s → ∀ d ∈ s, 0 ≤ d := by
    intro req s hf
    induction hf with
    | nil => simp
    | cons hx _ ih =>
      intro d hd
      rcases List.mem_cons.mp hd with rfl | hd
      · exact hx.1
      · exact ih d hd
  exact this _ _ h.2.1.1

theorem Requests.count {n : Int} {req s : List Int} (h : Requests n req s) : count s = n := by
  rw [← count_foldr]; exact h.2.1.2

end Codon.Numpy
