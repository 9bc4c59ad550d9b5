import Verif.ListM.Model
import Verif.ListM.Spec
import Verif.Slice.Lemmas
import Mathlib.Tactic.Ring
import Mathlib.Data.List.Induction
import Mathlib.Tactic.Linarith

namespace Codon.ListM

open Spec

section
set_option linter.unusedSectionVars false
set_option linter.unusedSimpArgs false
variable {T : Type}

/-- The list object holds the sequence `xs`. -/
def Rel (l : L T) (xs : List T) : Prop := ∃ r, l = ⟨xs.map some ++ r, xs.length⟩

theorem Rel.len {l : L T} {xs : List T} (h : Rel l xs) : l.len = xs.length := by
  obtain ⟨r, rfl⟩ := h; rfl

theorem get_ok {xs : List T} {r : Block T} {n i : Int} (h0 : 0 ≤ i) (h1 : i.toNat < xs.length) :
    (L.mk (xs.map some ++ r) n).get i = .ok xs[i.toNat] := ld_map h0 h1

theorem get_mid {a b : List T} {y : T} {r : Block T} {n : Int} {i : Int} (hi : i = a.length) :
    (L.mk ((a ++ y :: b).map some ++ r) n).get i = .ok y := by
  subst hi
  rw [get_ok (by omega) (by simp)]; simp

theorem idxCheck_ok {l : L T} {i : Int} (h0 : 0 ≤ i) (h1 : i < l.len) : l.idxCheck i = .ok () := by
  unfold L.idxCheck; rw [if_neg (by omega)]

theorem idxCheck_exc {l : L T} {i : Int} (h : ¬ (0 ≤ i ∧ i < l.len)) :
    l.idxCheck i = .exc .indexError := by
  unfold L.idxCheck; rw [if_pos (by omega)]

theorem pos_some {n : Nat} {i : Int} {p : Nat} (h : pos n i = some p) :
    (if i < 0 then i + n else i) = (p : Int) ∧ p < n := by
  unfold pos at h
  simp only at h
  generalize (if i < 0 then i + (n : Int) else i) = j at h ⊢
  split at h
  · cases h; omega
  · cases h

theorem pos_none {n : Nat} {i : Int} (h : pos n i = none) :
    ¬ (0 ≤ (if i < 0 then i + n else i) ∧ (if i < 0 then i + (n : Int) else i) < n) := by
  unfold pos at h
  simp only at h
  generalize (if i < 0 then i + (n : Int) else i) = j at h ⊢
  split at h
  · cases h
  · assumption

theorem getItem_rel {l : L T} {xs : List T} (h : Rel l xs) (i : Int) :
    getItem l i = match pos xs.length i with
      | some p => match xs[p]? with | some v => .ok v | none => .ub
      | none => .exc .indexError := by
  obtain ⟨r, rfl⟩ := h
  unfold getItem
  cases hp : pos xs.length i with
  | none =>
    have := pos_none hp
    simp only
    rw [idxCheck_exc this]; rfl
  | some p =>
    obtain ⟨h1, h2⟩ := pos_some hp
    simp only [h1]
    rw [idxCheck_ok (by omega) (by simp; exact h2)]
    simp only [Out.bind_ok]
    rw [get_ok (by omega) (by simpa using h2)]
    simp [h2]

theorem setItem_rel {l : L T} {xs : List T} (h : Rel l xs) (i : Int) (v : T) :
    match pos xs.length i with
      | some p => ∃ l', setItem l i v = .ok l' ∧ Rel l' (xs.set p v)
      | none => setItem l i v = .exc .indexError := by
  obtain ⟨r, rfl⟩ := h
  unfold setItem
  cases hp : pos xs.length i with
  | none =>
    have := pos_none hp
    simp only
    rw [idxCheck_exc this]; rfl
  | some p =>
    obtain ⟨h1, h2⟩ := pos_some hp
    simp only [h1]
    rw [idxCheck_ok (by omega) (by simp; exact h2)]
    simp only [Out.bind_ok, L.set]
    rw [st_map (by omega) (by simpa using h2)]
    refine ⟨_, rfl, r, ?_⟩
    simp

theorem shiftLeft_eq : ∀ (b : List T) (a r : Block T) (x : Option T) (n : Int),
    ∃ y, shiftLeft ⟨a ++ x :: (b.map some ++ r), n⟩ a.length b.length
      = .ok ⟨a ++ b.map some ++ y :: r, n⟩ := by
  intro b
  induction b with
  | nil => intro a r x n; exact ⟨x, by simp [shiftLeft]⟩
  | cons y b ih =>
    intro a r x n
    obtain ⟨z, hz⟩ := ih (a ++ [some y]) r (some y) n
    refine ⟨z, ?_⟩
    simp only [List.length_cons, shiftLeft, L.get, L.set, List.map_cons, List.cons_append]
    have e1 : ld (ε := Err) (a ++ x :: some y :: (List.map some b ++ r)) (↑a.length + 1) = .ok y := by
      have := ld_append (ε := Err) (a := a ++ [x]) (b := List.map some b ++ r) (x := y)
        (i := (a.length : Int) + 1) (by simp)
      simpa using this
    rw [e1]
    simp only [Out.bind_ok]
    rw [st_append (by rfl)]
    simp only [Out.bind_ok, Out.pure_eq]
    simpa using hz

theorem delItem_nat {xs : List T} {r : Block T} {p : Nat} (hp : p < xs.length) :
    ∃ l', delItem ⟨xs.map some ++ r, xs.length⟩ (p : Int) = .ok l' ∧ Rel l' (xs.eraseIdx p) := by
  unfold delItem
  simp only [show ¬ ((p : Int) < 0) by omega, if_false]
  rw [idxCheck_ok (by omega) (by simp; exact hp)]
  simp only [Out.bind_ok]
  obtain ⟨y, hy⟩ := shiftLeft_eq (xs.drop (p + 1)) ((xs.take p).map some) r (some xs[p])
    xs.length
  have hxs : xs.map some ++ r =
      (xs.take p).map some ++ some xs[p] :: ((xs.drop (p + 1)).map some ++ r) := by
    conv_lhs => rw [← List.take_append_drop p xs, List.drop_eq_getElem_cons hp]
    simp only [List.map_append, List.map_cons, List.append_assoc, List.cons_append]
  have hlen : ((xs.length : Int) - 1 - p).toNat = (xs.drop (p + 1)).length := by
    simp; omega
  have hpl : (p : Int) = ((xs.take p).map some).length := by simp; omega
  rw [hxs, hlen]
  conv => enter [1, l', 1, 1, 1, 2]; rw [hpl]
  rw [hy]
  refine ⟨_, rfl, y :: r, ?_⟩
  rw [List.eraseIdx_eq_take_drop_succ]
  simp
  omega

theorem delItem_rel {l : L T} {xs : List T} (h : Rel l xs) (i : Int) :
    match pos xs.length i with
      | some p => ∃ l', delItem l i = .ok l' ∧ Rel l' (xs.eraseIdx p)
      | none => delItem l i = .exc .indexError := by
  obtain ⟨r, rfl⟩ := h
  cases hp : pos xs.length i with
  | none =>
    have := pos_none hp
    simp only
    unfold delItem
    simp only
    rw [idxCheck_exc this]; rfl
  | some p =>
    obtain ⟨h1, h2⟩ := pos_some hp
    have : delItem ⟨xs.map some ++ r, xs.length⟩ i = delItem ⟨xs.map some ++ r, xs.length⟩ (p : Int) := by
      unfold delItem
      simp only [h1, show ¬ ((p : Int) < 0) by omega, if_false]
    simp only
    rw [this]
    exact delItem_nat h2

theorem resize_grow {xs : List T} {r : Block T} {n : Int} (hn : (xs.length : Int) ≤ n) :
    ∃ r', L.resize ⟨xs.map some ++ r, xs.length⟩ n = .ok ⟨xs.map some ++ r', xs.length⟩ ∧
      xs.length + r'.length = n.toNat := by
  unfold L.resize reallocB
  rw [if_pos (by omega)]
  refine ⟨r.take (n.toNat - xs.length) ++ List.replicate (n.toNat - (xs.length + r.length)) none, ?_, ?_⟩
  · simp only [Out.bind_ok, Out.pure_eq]
    rw [List.take_append, List.take_of_length_le (by simp; omega)]
    simp
  · simp; omega

theorem resizeIfFull_rel {l : L T} {xs : List T} (h : Rel l xs) :
    ∃ c r, l.resizeIfFull = .ok ⟨xs.map some ++ c :: r, xs.length⟩ := by
  obtain ⟨r, rfl⟩ := h
  unfold L.resizeIfFull L.cap
  split
  · obtain ⟨r', h1, h2⟩ := resize_grow (xs := xs) (r := r)
      (n := if (1 + 3 * (xs.length : Int)).tdiv 2 ≤ 0 then 1 else (1 + 3 * (xs.length : Int)).tdiv 2)
      (by rw [Int.tdiv_eq_ediv_of_nonneg (by omega)]; split <;> omega)
    cases r' with
    | nil =>
      exfalso
      rw [Int.tdiv_eq_ediv_of_nonneg (by omega)] at h2
      simp at h2
      split at h2 <;> omega
    | cons c r' => exact ⟨c, r', h1⟩
  · rename_i hne
    cases r with
    | nil => exact absurd (by simp) hne
    | cons c r => exact ⟨c, r, rfl⟩

theorem append_rel {l : L T} {xs : List T} (h : Rel l xs) (x : T) :
    ∃ l', append l x = .ok l' ∧ Rel l' (xs ++ [x]) := by
  obtain ⟨c, r, e⟩ := resizeIfFull_rel h
  unfold append
  rw [e]
  simp only [Out.bind_ok, L.set]
  rw [st_append (by simp)]
  exact ⟨_, rfl, r, by simp⟩

theorem extend_rel {l : L T} {xs : List T} (h : Rel l xs) (ys : List T) :
    ∃ l', extend l ys = .ok l' ∧ Rel l' (xs ++ ys) := by
  induction ys generalizing l xs with
  | nil => exact ⟨l, rfl, by simpa using h⟩
  | cons y ys ih =>
    obtain ⟨l1, e1, e2⟩ := append_rel h y
    obtain ⟨l2, f1, f2⟩ := ih e2
    refine ⟨l2, ?_, by simpa using f2⟩
    unfold extend
    rw [e1]; exact f1

theorem shiftRight_eq (a : Block T) (n : Int) : ∀ (b : List T) (r : Block T) (c : Option T),
    ∃ y, shiftRight ⟨a ++ (b.map some ++ c :: r), n⟩ ((a.length + b.length : Nat) : Int) b.length
      = .ok ⟨a ++ y :: (b.map some ++ r), n⟩ := by
  intro b
  induction b using List.reverseRecOn with
  | nil => intro r c; exact ⟨c, by simp [shiftRight]⟩
  | append_singleton b y ih =>
    intro r c
    obtain ⟨z, hz⟩ := ih (some y :: r) (some y)
    refine ⟨z, ?_⟩
    simp only [List.length_append, List.length_singleton, shiftRight, L.get, L.set]
    have e1 : ld (ε := Err) (a ++ (List.map some (b ++ [y]) ++ c :: r))
        (((a.length + (b.length + 1) : Nat) : Int) - 1) = .ok y := by
      have := ld_append (ε := Err) (a := a ++ b.map some) (b := c :: r) (x := y)
        (i := (((a.length + (b.length + 1) : Nat) : Int) - 1)) (by simp; omega)
      simpa using this
    have e2 : st (ε := Err) (a ++ (List.map some (b ++ [y]) ++ c :: r))
        (((a.length + (b.length + 1) : Nat) : Int)) y
        = .ok (a ++ (b.map some ++ some y :: some y :: r)) := by
      have := st_append (ε := Err) (a := a ++ (b.map some ++ [some y])) (b := r) (c := c) (x := y)
        (i := (((a.length + (b.length + 1) : Nat) : Int))) (by simp)
      simpa using this
    rw [e1]
    simp only [Out.bind_ok]
    rw [e2]
    simp only [Out.bind_ok, Out.pure_eq]
    have : (((a.length + (b.length + 1) : Nat) : Int) - 1) = ((a.length + b.length : Nat) : Int) := by
      omega
    rw [this]
    simpa using hz

theorem insert_rel {l : L T} {xs : List T} (h : Rel l xs) (i : Int) (x : T) :
    ∃ l', insert l i x = .ok l' ∧
      Rel l' (xs.take (insPos xs.length i) ++ x :: xs.drop (insPos xs.length i)) := by
  have hlen := h.len
  obtain ⟨c, r, e⟩ := resizeIfFull_rel h
  unfold insert
  rw [e, hlen]
  simp only [Out.bind_ok]
  have hp : (if (if i < 0 then if i + (xs.length : Int) < 0 then 0 else i + (xs.length : Int) else i) > (xs.length : Int)
      then (xs.length : Int) else
      (if i < 0 then if i + (xs.length : Int) < 0 then 0 else i + (xs.length : Int) else i))
      = ((insPos xs.length i : Nat) : Int) := by
    unfold insPos Codon.SliceSpec.clamp Codon.SliceSpec.rel
    omega
  rw [hp]
  generalize hq : insPos xs.length i = p
  have hple : p ≤ xs.length := by
    subst hq
    unfold insPos Codon.SliceSpec.clamp
    omega
  have hsplit : xs.map some ++ c :: r =
      (xs.take p).map some ++ ((xs.drop p).map some ++ c :: r) := by
    conv_lhs => rw [← List.take_append_drop p xs]
    simp only [List.map_append, List.map_cons, List.append_assoc, List.cons_append]
  obtain ⟨y, hy⟩ := shiftRight_eq ((xs.take p).map some) xs.length (xs.drop p) r c
  have h1 : ((xs.length : Int) - (p : Int)).toNat = (xs.drop p).length := by simp
  have h2 : (((List.map some (List.take p xs)).length + (List.drop p xs).length : Nat) : Int)
      = xs.length := by simp; omega
  rw [h2] at hy
  rw [hsplit, h1, hy]
  simp only [Out.bind_ok, L.set]
  rw [st_append (by simp; omega)]
  refine ⟨_, rfl, r, ?_⟩
  simp
  omega

theorem pop_rel {l : L T} {xs : List T} (h : Rel l xs) (i : Int) :
    match pos xs.length i with
      | some p => ∃ l' v, pop l i = .ok (l', v) ∧ xs[p]? = some v ∧ Rel l' (xs.eraseIdx p)
      | none => pop l i = .exc .indexError := by
  obtain ⟨r, rfl⟩ := h
  unfold pop
  cases hp : pos xs.length i with
  | none =>
    have := pos_none hp
    simp only
    split
    · rfl
    · rw [idxCheck_exc this]; rfl
  | some p =>
    obtain ⟨h1, h2⟩ := pos_some hp
    obtain ⟨l', e1, e2⟩ := delItem_nat (r := r) h2
    simp only [h1]
    rw [if_neg (by omega), idxCheck_ok (by omega) (by simp; exact h2)]
    simp only [Out.bind_ok]
    rw [get_ok (by omega) (by simpa using h2)]
    simp only [Out.bind_ok, e1]
    exact ⟨l', xs[p], by simp, by simp [h2], e2⟩

theorem clear_rel {l : L T} {xs : List T} (_h : Rel l xs) : Rel (clear l) [] :=
  ⟨l.mem, by simp [clear]⟩

theorem iterFrom_eq : ∀ (b a : List T) (r : Block T) (n : Int),
    iterFrom ⟨(a ++ b).map some ++ r, n⟩ a.length b.length = .ok b := by
  intro b
  induction b with
  | nil => intro a r n; rfl
  | cons y b ih =>
    intro a r n
    have := ih (a ++ [y]) r n
    simp only [List.length_cons, iterFrom]
    rw [get_mid rfl]
    simp only [Out.bind_ok]
    have e : (a ++ y :: b) = (a ++ [y]) ++ b := by simp
    rw [e, show ((a.length : Int) + 1) = ((a ++ [y]).length : Int) by simp, this]
    simp

theorem iter_rel {l : L T} {xs : List T} (h : Rel l xs) : iter l = .ok xs := by
  obtain ⟨r, rfl⟩ := h
  simpa [iter] using iterFrom_eq xs [] r xs.length

theorem revFrom_eq (r : Block T) (n : Int) : ∀ (b c : List T),
    revFrom ⟨(b ++ c).map some ++ r, n⟩ ((b.length : Int) - 1) b.length = .ok b.reverse := by
  intro b
  induction b using List.reverseRecOn with
  | nil => intro c; rfl
  | append_singleton b y ih =>
    intro c
    have := ih (y :: c)
    simp only [List.length_append, List.length_singleton, revFrom]
    have e : (b ++ [y] ++ c) = b ++ y :: c := by simp
    rw [e, get_mid (by omega)]
    simp only [Out.bind_ok]
    rw [show (((b.length + 1 : Nat) : Int) - 1 - 1) = (b.length : Int) - 1 by omega, this]
    simp

theorem reversed_rel {l : L T} {xs : List T} (h : Rel l xs) : reversed l = .ok xs.reverse := by
  obtain ⟨r, rfl⟩ := h
  simpa [reversed] using revFrom_eq r xs.length xs []

theorem findFrom_eq [DecidableEq T] (x : T) : ∀ (b a : List T) (r : Block T) (n : Int),
    findFrom ⟨(a ++ b).map some ++ r, n⟩ x a.length b.length =
      .ok ((b.findIdx? (fun y => decide (y = x))).map fun i => ((a.length + i : Nat) : Int)) := by
  intro b
  induction b with
  | nil => intro a r n; rfl
  | cons y b ih =>
    intro a r n
    have := ih (a ++ [y]) r n
    simp only [List.length_cons, findFrom]
    rw [get_ok (by omega) (by simp)]
    simp only [Out.bind_ok]
    rw [List.findIdx?_cons]
    by_cases hy : y = x
    · simp [hy]
    · have e : (a ++ y :: b) = (a ++ [y]) ++ b := by simp
      have h1 : (a ++ y :: b)[(a.length : Int).toNat]'(by simp) ≠ x := by simpa using hy
      rw [if_neg h1, e, show ((a.length : Int) + 1) = ((a ++ [y]).length : Int) by simp, this]
      simp only [hy, decide_false, Bool.false_eq_true, if_false, Option.map_map]
      congr 1
      congr 1
      funext i
      simp
      omega

theorem findFrom_rel [DecidableEq T] {l : L T} {xs : List T} (h : Rel l xs) (x : T) :
    findFrom l x 0 l.len.toNat =
      .ok ((xs.findIdx? (fun y => decide (y = x))).map fun i : Nat => (i : Int)) := by
  obtain ⟨r, rfl⟩ := h
  have := findFrom_eq x xs [] r xs.length
  simp only [List.nil_append, List.length_nil, Nat.zero_add] at this
  exact this

theorem countFrom_eq [DecidableEq T] (x : T) : ∀ (b a : List T) (r : Block T) (n c : Int),
    countFrom ⟨(a ++ b).map some ++ r, n⟩ x a.length c b.length = .ok (c + b.count x) := by
  intro b
  induction b with
  | nil => intro a r n c; simp [countFrom]
  | cons y b ih =>
    intro a r n c
    have := ih (a ++ [y]) r n
    simp only [List.length_cons, countFrom]
    rw [get_mid rfl]
    simp only [Out.bind_ok]
    have e : (a ++ y :: b) = (a ++ [y]) ++ b := by simp
    rw [e, show ((a.length : Int) + 1) = ((a ++ [y]).length : Int) by simp, this]
    by_cases hy : y = x
    · simp [hy, List.count_cons]; omega
    · simp [hy, List.count_cons]

theorem count_rel [DecidableEq T] {l : L T} {xs : List T} (h : Rel l xs) (x : T) :
    count l x = .ok (xs.count x) := by
  obtain ⟨r, rfl⟩ := h
  simpa [count] using countFrom_eq x xs [] r xs.length 0

theorem reverseLoop_eq (r : Block T) : ∀ (k : Nat) (m a c : List T), m.length = k → a.length = c.length →
    reverseLoop ⟨(a ++ m ++ c).map some ++ r, ((a ++ m ++ c).length : Int)⟩ a.length (m.length / 2) =
      .ok ⟨(a ++ m.reverse ++ c).map some ++ r, ((a ++ m ++ c).length : Int)⟩ := by
  intro k
  induction k using Nat.strongRecOn with
  | _ k ih =>
  intro m a c hk hac
  match m with
  | [] => simp [reverseLoop]
  | [x] => simp [reverseLoop]
  | x :: y :: m' =>
    obtain ⟨m2, z, hz⟩ : ∃ m2 z, y :: m' = m2 ++ [z] :=
      ⟨(y :: m').dropLast, (y :: m').getLast (by simp), (List.dropLast_append_getLast (by simp)).symm⟩
    rw [hz]
    have hl2 : (x :: (m2 ++ [z])).length / 2 = m2.length / 2 + 1 := by simp; omega
    have hklen : m2.length < k := by
      have := congrArg List.length hz
      simp at this hk; omega
    have hrec := ih m2.length hklen m2 (a ++ [z]) (x :: c) rfl (by simp; omega)
    rw [hl2]
    simp only [reverseLoop]
    have g1 : (L.mk ((a ++ (x :: (m2 ++ [z])) ++ c).map some ++ r)
        ((a ++ (x :: (m2 ++ [z])) ++ c).length : Int)).get a.length = .ok x := by
      rw [get_ok (by omega) (by simp)]; simp
    have g2 : (L.mk ((a ++ (x :: (m2 ++ [z])) ++ c).map some ++ r)
        ((a ++ (x :: (m2 ++ [z])) ++ c).length : Int)).get
          (((a ++ (x :: (m2 ++ [z])) ++ c).length : Int) - a.length - 1) = .ok z := by
      have := ld_append (ε := Err) (a := (a ++ x :: m2).map some) (b := c.map some ++ r) (x := z)
        (i := (((a ++ (x :: (m2 ++ [z])) ++ c).length : Int) - a.length - 1)) (by simp; omega)
      simpa [L.get] using this
    have s1 : (L.mk ((a ++ (x :: (m2 ++ [z])) ++ c).map some ++ r)
        ((a ++ (x :: (m2 ++ [z])) ++ c).length : Int)).set a.length z
        = .ok ⟨(a ++ (z :: (m2 ++ [z])) ++ c).map some ++ r,
            ((a ++ (x :: (m2 ++ [z])) ++ c).length : Int)⟩ := by
      have := st_append (ε := Err) (a := a.map some) (b := (m2 ++ [z] ++ c).map some ++ r)
        (c := some x) (x := z) (i := (a.length : Int)) (by simp)
      simp only [L.set]
      simp only [List.map_append, List.map_cons, List.append_assoc, List.cons_append,
        List.nil_append, List.map_nil] at this ⊢
      rw [this]; rfl
    have s2 : (L.mk ((a ++ (z :: (m2 ++ [z])) ++ c).map some ++ r)
            ((a ++ (x :: (m2 ++ [z])) ++ c).length : Int)).set
          (((a ++ (x :: (m2 ++ [z])) ++ c).length : Int) - a.length - 1) x
        = .ok ⟨((a ++ [z]) ++ m2 ++ (x :: c)).map some ++ r,
            ((a ++ (x :: (m2 ++ [z])) ++ c).length : Int)⟩ := by
      have := st_append (ε := Err) (a := (a ++ z :: m2).map some) (b := c.map some ++ r)
        (c := some z) (x := x)
        (i := (((a ++ (x :: (m2 ++ [z])) ++ c).length : Int) - a.length - 1)) (by simp; omega)
      simp only [L.set]
      simp only [List.map_append, List.map_cons, List.append_assoc, List.cons_append,
        List.nil_append, List.map_nil] at this ⊢
      rw [this]; rfl
    rw [g1]
    simp only [Out.bind_ok]
    rw [g2]
    simp only [Out.bind_ok]
    rw [s1]
    simp only [Out.bind_ok]
    rw [s2]
    simp only [Out.bind_ok]
    have hle : ((a ++ (x :: (m2 ++ [z])) ++ c).length : Int) = ((a ++ [z] ++ m2 ++ x :: c).length : Int) := by
      simp
    rw [hle, show ((a.length : Int) + 1) = ((a ++ [z]).length : Int) by simp, hrec]
    congr 2
    simp

theorem reverse_rel {l : L T} {xs : List T} (h : Rel l xs) :
    ∃ l', reverse l = .ok l' ∧ Rel l' xs.reverse := by
  obtain ⟨r, rfl⟩ := h
  have := reverseLoop_eq r xs.length xs [] [] rfl rfl
  simp only [List.nil_append, List.append_nil, List.length_nil] at this
  refine ⟨_, ?_, r, rfl⟩
  unfold reverse
  have h2 : ((xs.length : Int).tdiv 2).toNat = xs.length / 2 := by
    rw [Int.tdiv_eq_ediv_of_nonneg (by omega)]; omega
  simp only [h2]
  rw [show (0 : Int) = ((0 : Nat) : Int) from rfl, this]
  simp

theorem copy_rel {l : L T} {xs : List T} (h : Rel l xs) : copy l = .ok l := by
  obtain ⟨r, rfl⟩ := h
  unfold copy alloc L.cap
  rw [if_pos (by omega)]
  simp only [Out.bind_ok]
  have := memcpyB_eq (ε := Err) (p := ([] : Block T))
    (q := List.replicate (((xs.map some ++ r).length : Int)).toNat none) (t := [])
    (a := []) (b := xs.map some ++ r) (c := []) (d := 0) (s := 0)
    (n := ((xs.map some ++ r).length : Int)) rfl rfl rfl (by rw [List.length_replicate]; rfl)
  simp only [List.nil_append, List.append_nil] at this
  rw [this]; rfl

theorem eqFrom_eq [DecidableEq T] (r r' : Block T) (n n' : Int) : ∀ (b b' a a' : List T),
    a.length = a'.length → b.length = b'.length →
    eqFrom ⟨(a ++ b).map some ++ r, n⟩ ⟨(a' ++ b').map some ++ r', n'⟩ a.length b.length =
      .ok (decide (b = b')) := by
  intro b
  induction b with
  | nil =>
    intro b' a a' ha hb
    cases b' with
    | nil => simp [eqFrom]
    | cons => simp at hb
  | cons y b ih =>
    intro b' a a' ha hb
    cases b' with
    | nil => simp at hb
    | cons y' b' =>
      have := ih b' (a ++ [y]) (a' ++ [y']) (by simp [ha]) (by simpa using hb)
      simp only [List.length_cons, eqFrom]
      rw [get_ok (by omega) (by simp)]
      simp only [Out.bind_ok]
      rw [get_ok (by omega) (by simp [ha])]
      simp only [Out.bind_ok]
      have h1 : (a ++ y :: b)[(a.length : Int).toNat]'(by simp) = y := by simp
      have h2 : (a' ++ y' :: b')[(a.length : Int).toNat]'(by simp [ha]) = y' := by simp [ha]
      rw [h1, h2]
      by_cases hy : y = y'
      · rw [if_neg (by simpa using hy)]
        have e : (a ++ y :: b) = (a ++ [y]) ++ b := by simp
        have e' : (a' ++ y' :: b') = (a' ++ [y']) ++ b' := by simp
        rw [e, e', show ((a.length : Int) + 1) = ((a ++ [y]).length : Int) by simp, this]
        simp [hy]
      · rw [if_pos (by simpa using hy)]
        simp [hy]

theorem eq_rel [DecidableEq T] {l l' : L T} {xs ys : List T} (h : Rel l xs) (h' : Rel l' ys) :
    eq l l' = .ok (decide (xs = ys)) := by
  obtain ⟨r, rfl⟩ := h
  obtain ⟨r', rfl⟩ := h'
  unfold eq
  by_cases hl : xs.length = ys.length
  · rw [if_neg (by simpa using hl)]
    have := eqFrom_eq r r' xs.length ys.length xs ys [] [] rfl hl
    simpa using this
  · rw [if_pos (by simpa using fun h => hl (by omega))]
    have : xs ≠ ys := fun h => hl (by rw [h])
    simp [this]

theorem new_rel : ∃ l, new = .ok l ∧ Rel l ([] : List T) :=
  ⟨⟨List.replicate 10 none, 0⟩, rfl, List.replicate 10 none, rfl⟩

theorem newCap_rel (n : Int) : ∃ r, newCap n = .ok ⟨r, 0⟩ ∧ (r : Block T).length = n.toNat := by
  unfold newCap alloc
  refine ⟨List.replicate n.toNat none, ?_, by simp⟩
  by_cases hn : n < 0
  · rw [if_pos hn, if_pos (by omega)]
    have : n.toNat = 0 := by omega
    simp [this]
  · rw [if_neg hn, if_pos (by omega)]; rfl

theorem add_rel {l l' : L T} {xs ys : List T} (h : Rel l xs) (h' : Rel l' ys) :
    ∃ v, add l l' = .ok v ∧ Rel v (xs ++ ys) := by
  obtain ⟨r, rfl⟩ := h
  obtain ⟨r', rfl⟩ := h'
  unfold add
  obtain ⟨q, e1, e2⟩ := newCap_rel (T := T) ((xs.length : Int) + ys.length)
  simp only
  rw [e1]
  simp only [Out.bind_ok]
  have h1 := memcpyB_eq (ε := Err) (p := ([] : Block T)) (q := q.take xs.length)
    (t := q.drop xs.length) (a := []) (b := xs.map some) (c := r) (d := 0) (s := 0)
    (n := (xs.length : Int)) rfl rfl (by simp) (by simp; omega)
  simp only [List.nil_append, List.take_append_drop] at h1
  rw [h1]
  simp only [Out.bind_ok]
  have h2 := memcpyB_eq (ε := Err) (p := xs.map some) (q := q.drop xs.length)
    (t := []) (a := []) (b := ys.map some) (c := r') (d := (xs.length : Int)) (s := 0)
    (n := (ys.length : Int)) (by simp) rfl (by simp) (by simp; omega)
  simp only [List.nil_append, List.append_nil] at h2
  rw [h2]
  exact ⟨_, rfl, [], by simp⟩

theorem iadd_room {xs ys : List T} {r r' : Block T} (hr : ys.length ≤ r.length) :
    memcpyB (ε := Err) (xs.map some ++ r) xs.length (ys.map some ++ r') 0 ys.length =
      .ok ((xs ++ ys).map some ++ r.drop ys.length) := by
  have h2 := memcpyB_eq (ε := Err) (p := xs.map some) (q := r.take ys.length)
    (t := r.drop ys.length) (a := []) (b := ys.map some) (c := r') (d := (xs.length : Int)) (s := 0)
    (n := (ys.length : Int)) (by simp) rfl (by simp) (by simp; omega)
  simp only [List.nil_append, List.take_append_drop] at h2
  rw [h2]; simp

theorem grow_to {xs : List T} {r : Block T} (n : Nat) :
    ∃ r', L.growTo ⟨xs.map some ++ r, xs.length⟩ ((xs.length + n : Nat) : Int) =
      .ok ⟨xs.map some ++ r', xs.length⟩ ∧ n ≤ r'.length := by
  unfold L.growTo
  by_cases hc : (L.mk (xs.map some ++ r) (xs.length : Int)).cap < ((xs.length + n : Nat) : Int)
  · rw [if_pos hc]
    obtain ⟨r', h1, h2⟩ := resize_grow (xs := xs) (r := r) (n := ((xs.length + n : Nat) : Int)) (by omega)
    exact ⟨r', h1, by omega⟩
  · rw [if_neg hc]
    refine ⟨r, rfl, ?_⟩
    simp [L.cap] at hc
    omega

theorem iadd_rel {l l' : L T} {xs ys : List T} (h : Rel l xs) (h' : Rel l' ys) :
    ∃ v, iadd l l' = .ok v ∧ Rel v (xs ++ ys) := by
  obtain ⟨r, rfl⟩ := h
  obtain ⟨r', rfl⟩ := h'
  unfold iadd
  obtain ⟨r2, e1, e2⟩ := grow_to (xs := xs) (r := r) ys.length
  simp only [show (xs.length : Int) + ys.length = ((xs.length + ys.length : Nat) : Int) by simp]
  rw [e1]
  simp only [Out.bind_ok]
  rw [iadd_room e2]
  exact ⟨_, rfl, r2.drop ys.length, by simp⟩

theorem iaddSelf_rel {l : L T} {xs : List T} (h : Rel l xs) :
    ∃ v, iaddSelf l = .ok v ∧ Rel v (xs ++ xs) := by
  obtain ⟨r, rfl⟩ := h
  unfold iaddSelf
  obtain ⟨r2, e1, e2⟩ := grow_to (xs := xs) (r := r) xs.length
  simp only [show (xs.length : Int) + xs.length = ((xs.length + xs.length : Nat) : Int) by simp]
  rw [e1]
  simp only [Out.bind_ok]
  rw [iadd_room e2]
  exact ⟨_, rfl, r2.drop xs.length, by simp⟩

theorem appendCells_eq (r : Block T) (n : Int) : ∀ (b a : List T) (v : L T) (vs : List T), Rel v vs →
    ∃ v', appendCells v ⟨(a ++ b).map some ++ r, n⟩ a.length b.length = .ok v' ∧
      Rel v' (vs ++ b) := by
  intro b
  induction b with
  | nil => intro a v vs h; exact ⟨v, rfl, by simpa using h⟩
  | cons y b ih =>
    intro a v vs h
    obtain ⟨v1, e1, e2⟩ := append_rel h y
    obtain ⟨v2, f1, f2⟩ := ih (a ++ [y]) v1 _ e2
    refine ⟨v2, ?_, by simpa using f2⟩
    simp only [List.length_cons, appendCells]
    rw [get_ok (by omega) (by simp)]
    simp only [Out.bind_ok]
    have h1 : (a ++ y :: b)[(a.length : Int).toNat]'(by simp) = y := by simp
    rw [h1, e1]
    simp only [Out.bind_ok]
    have e : (a ++ y :: b) = (a ++ [y]) ++ b := by simp
    rw [e, show ((a.length : Int) + 1) = ((a ++ [y]).length : Int) by simp]
    exact f1

theorem mulLoop_rel {l : L T} {xs : List T} (h : Rel l xs) : ∀ (n : Nat) (v : L T) (vs : List T),
    Rel v vs → ∃ v', mulLoop v l n = .ok v' ∧ Rel v' (vs ++ (List.replicate n xs).flatten) := by
  obtain ⟨r, rfl⟩ := h
  intro n
  induction n with
  | zero => intro v vs hv; exact ⟨v, rfl, by simpa using hv⟩
  | succ n ih =>
    intro v vs hv
    obtain ⟨v1, e1, e2⟩ := appendCells_eq r xs.length xs [] v vs hv
    obtain ⟨v2, f1, f2⟩ := ih v1 _ e2
    refine ⟨v2, ?_, by simpa [List.replicate_succ] using f2⟩
    simp only [mulLoop]
    simp only [List.nil_append, List.length_nil] at e1
    have : ((xs.length : Int)).toNat = xs.length := by simp
    rw [this, show (0 : Int) = ((0 : Nat) : Int) from rfl, e1]
    exact f1

theorem mul_rel {l : L T} {xs : List T} (h : Rel l xs) (n : Int) :
    ∃ v, mul l n = .ok v ∧ Rel v (List.replicate n.toNat xs).flatten := by
  unfold mul
  by_cases hn : n ≤ 0
  · rw [if_pos hn]
    obtain ⟨v, h1, h2⟩ := new_rel (T := T)
    have : n.toNat = 0 := by omega
    exact ⟨v, h1, by simpa [this] using h2⟩
  · rw [if_neg hn]
    obtain ⟨q, e1, -⟩ := newCap_rel (T := T) (l.len * n)
    rw [e1]
    obtain ⟨v, f1, f2⟩ := mulLoop_rel h n.toNat ⟨q, 0⟩ [] ⟨q, rfl⟩
    exact ⟨v, f1, by simpa using f2⟩

theorem imulInner_eq (n : Int) : ∀ (b a zs : List T) (r : Block T), b.length ≤ r.length →
    imulInner ⟨((a ++ b) ++ zs ++ a).map some ++ r, n⟩
      (((a ++ b) ++ zs ++ a).length : Int) a.length b.length =
      .ok ⟨((a ++ b) ++ zs ++ (a ++ b)).map some ++ r.drop b.length, n⟩ := by
  intro b
  induction b with
  | nil => intro a zs r _; simp [imulInner]
  | cons y b ih =>
    intro a zs r hr
    cases r with
    | nil => simp at hr
    | cons c r =>
      have := ih (a ++ [y]) zs r (by simpa using hr)
      simp only [List.length_cons, imulInner]
      rw [get_ok (by omega) (by simp)]
      simp only [Out.bind_ok, L.set]
      have h1 : ((a ++ y :: b) ++ zs ++ a)[(a.length : Int).toNat]'(by simp) = y := by simp
      rw [h1, st_append (by simp)]
      simp only [Out.bind_ok, Out.pure_eq]
      have e2 : (List.map some ((a ++ y :: b) ++ zs ++ a) ++ some y :: r) =
          (((a ++ [y]) ++ b) ++ zs ++ (a ++ [y])).map some ++ r := by simp
      rw [e2, show ((((a ++ y :: b) ++ zs ++ a).length : Int) + 1)
          = (((((a ++ [y]) ++ b) ++ zs ++ (a ++ [y])).length : Nat) : Int) by simp; omega,
        show ((a.length : Int) + 1) = ((a ++ [y]).length : Int) by simp, this]
      congr 2
      simp

theorem imulOuter_eq (n : Int) (xs : List T) : ∀ (k : Nat) (zs : List T) (r : Block T),
    k * xs.length ≤ r.length →
    ∃ r', imulOuter ⟨(xs ++ zs).map some ++ r, n⟩ xs.length ((xs ++ zs).length : Int) k =
      .ok ⟨(xs ++ zs ++ (List.replicate k xs).flatten).map some ++ r', n⟩ := by
  intro k
  induction k with
  | zero => intro zs r _; exact ⟨r, by simp [imulOuter]⟩
  | succ k ih =>
    intro zs r hr
    have hr2 : xs.length + k * xs.length ≤ r.length := by rw [Nat.succ_mul] at hr; omega
    have h1 := imulInner_eq n xs [] zs r (by omega)
    simp only [List.nil_append, List.append_nil, List.length_nil] at h1
    obtain ⟨r', h2⟩ := ih (zs ++ xs) (r.drop xs.length) (by simp; omega)
    refine ⟨r', ?_⟩
    simp only [imulOuter]
    have : ((xs.length : Int)).toNat = xs.length := by simp
    rw [this, show (0 : Int) = ((0 : Nat) : Int) from rfl, h1]
    simp only [Out.bind_ok]
    rw [List.append_assoc, show ((xs ++ zs).length : Int) + xs.length = ((xs ++ (zs ++ xs)).length : Int) by
      simp; omega, h2]
    congr 2
    simp [List.replicate_succ]

theorem imul_rel {l : L T} {xs : List T} (h : Rel l xs) (n : Int) :
    ∃ v, imul l n = .ok v ∧ Rel v (List.replicate n.toNat xs).flatten := by
  unfold imul
  by_cases h1 : n = 1
  · subst h1
    exact ⟨l, by simp, by simpa using h⟩
  · rw [if_neg h1]
    by_cases hn : n ≤ 0
    · rw [if_pos hn]
      have : n.toNat = 0 := by omega
      exact ⟨_, rfl, by simpa [this] using clear_rel h⟩
    · rw [if_neg hn]
      obtain ⟨r, rfl⟩ := h
      obtain ⟨k, rfl⟩ : ∃ k : Nat, n = ((k + 1 : Nat) : Int) := ⟨(n - 1).toNat, by omega⟩
      obtain ⟨r2, e1, e2⟩ := grow_to (xs := xs) (r := r) (k * xs.length)
      have hc : ((k + 1 : Nat) : Int) * (xs.length : Int) = ((xs.length + k * xs.length : Nat) : Int) := by
        push_cast; ring
      simp only [hc]
      rw [e1]
      simp only [Out.bind_ok]
      obtain ⟨r', h2⟩ := imulOuter_eq (xs.length : Int) xs k [] r2 e2
      simp only [List.append_nil] at h2
      have hk : (((k + 1 : Nat) : Int) - 1).toNat = k := by omega
      rw [hk, h2]
      refine ⟨_, rfl, r', ?_⟩
      simp [List.replicate_succ]

end

end Codon.ListM
