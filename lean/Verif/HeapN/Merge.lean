import Verif.HeapN.Lemmas

/-! Lemmas for C84: `merge`. -/

namespace Codon.HeapN
open Heapq

section
variable {T : Type}

theorem heapreplace_root {E : Type} {lt : E → E → Bool} {h h' : List E} {x r : E}
    (e : heapreplace lt h x = some (r, h')) : h[0]? = some r := by
  unfold heapreplace at e
  cases h0 : h[0]? with
  | none => rw [h0] at e; cases e
  | some t =>
    rw [h0] at e
    simp only [Option.bind_eq_bind, Option.bind_some] at e
    cases hp : put h 0 x with
    | none => rw [hp] at e; cases e
    | some q =>
      rw [hp] at e
      simp only [Option.bind_some] at e
      cases hs : siftup lt q 0 with
      | none => rw [hs] at e; cases e
      | some q' => rw [hs] at e; cases e; rfl

theorem heappop_root {E : Type} {lt : E → E → Bool} {h h' : List E} {r : E}
    (e : heappop lt h = some (r, h')) : h[0]? = some r := by
  match h, e with
  | [], e => cases e
  | [a], e => cases e; rfl
  | a :: b :: t, e =>
    unfold heappop at e
    cases hl : (a :: b :: t).getLast? with
    | none => rw [hl] at e; cases e
    | some l =>
      rw [hl] at e
      simp only [Option.bind_eq_bind, Option.bind_some, List.dropLast_cons₂, ne_eq, reduceCtorEq, not_false_eq_true,
        if_true, List.getElem?_cons_zero] at e
      rw [put_some (by simp)] at e
      simp only [Option.bind_some] at e
      cases hs : siftup lt ((a :: (b :: t).dropLast).set 0 l) 0 with
      | none => rw [hs] at e; cases e
      | some q' => rw [hs] at e; cases e; rfl

/-- The order of the heap. -/
def hl (less : Item T → Item T → Bool) (reverse : Bool) (a b : Item T) : Bool := if reverse then less b a else less a b

/-- What the proofs need of the order of the items; `g` gives the position of an item from its `order`. -/
structure MOk (less : Item T → Item T → Bool) (reverse : Bool) (kl : T → T → Bool) : Prop where
  swoK : SWO kl
  swo : SWO (hl less reverse)
  less : ∀ a b, a.order ≠ b.order → hl less reverse a b = (kl a.value b.value || (!kl b.value a.value &&
    decide (a.order * (if reverse then -1 else 1) < b.order * (if reverse then -1 else 1))))

def pos (reverse : Bool) (a : Item T) : Int := a.order * (if reverse then -1 else 1)

def stream (a : Item T) : List T := a.value :: a.rest

def Asc (kl : T → T → Bool) (xs : List T) : Prop := xs.Pairwise fun a b => kl b a = false

variable {less : Item T → Item T → Bool} {reverse : Bool} {kl : T → T → Bool}

theorem heapify_eq (items : List (Item T)) :
    (if reverse then heapifyMax less items else heapify less items) = heapify (hl less reverse) items := by
  cases reverse with
  | false => rfl
  | true =>
    cases items with
    | nil => simp [heapifyMax, heapify, heapifyMaxFrom, heapifyFrom]
    | cons it t => exact (c27_max_variants (lt := less) (it :: t) it).1

theorem heappop_eq (items : List (Item T)) :
    (if reverse then heappopMax less items else heappop less items) = heappop (hl less reverse) items := by
  cases reverse with
  | false => rfl
  | true =>
    cases items with
    | nil => rfl
    | cons it t => exact (c27_max_variants (lt := less) (it :: t) it).2.1

theorem heapreplace_eq (items : List (Item T)) (x : Item T) :
    (if reverse then heapreplaceMax less items x else heapreplace less items x) =
      heapreplace (hl less reverse) items x := by
  cases reverse with
  | false => rfl
  | true => exact (c27_max_variants (lt := less) items x).2.2

theorem sortOf_least (A B : List T) (v : T) (hA : ∀ a ∈ A, kl v a = true) (hB : ∀ b ∈ B, kl b v = false)
    (ho : SWO kl) : sortOf kl (A ++ v :: B) = v :: sortOf kl (A ++ B) := by
  revert hB
  refine snoc_ind (P := fun B => (∀ b ∈ B, kl b v = false) → sortOf kl (A ++ v :: B) = v :: sortOf kl (A ++ B)) ?_ ?_ B
  · intro _
    rw [sortOf_snoc, List.append_nil]
    cases hM : sortOf kl A with
    | nil => rfl
    | cons m M =>
      have : m ∈ A := (sortOf_spec ho A).perm.subset (by rw [hM]; simp)
      rw [insP, if_pos (hA m this)]
  · intro B b ih hB
    rw [← List.cons_append, ← List.append_assoc, sortOf_snoc, ih (fun c hc => hB c (by simp [hc])),
      ← List.append_assoc, sortOf_snoc, insP, if_neg (by rw [hB b (by simp)]; simp)]

theorem sortOf_asc (ho : SWO kl) : ∀ {xs : List T}, Asc kl xs → sortOf kl xs = xs
  | [], _ => rfl
  | x :: xs, h => by
    have h' := List.pairwise_cons.mp h
    have := sortOf_least (kl := kl) [] xs x (by simp) h'.1 ho
    simp only [List.nil_append] at this
    rw [this, sortOf_asc ho h'.2]

/-- The streams in the order of their positions. -/
structure MInv (less : Item T → Item T → Bool) (reverse : Bool) (items L : List (Item T)) : Prop where
  heap : IsHeap (hl less reverse) items
  perm : items.Perm L
  asc : L.Pairwise fun a b => pos reverse a < pos reverse b

theorem root_split (ok : MOk less reverse kl) {items L : List (Item T)} {m : Item T} (hi : MInv less reverse items L)
    (h0 : items[0]? = some m) : ∃ A B, L = A ++ m :: B ∧
      ((∀ a ∈ L, Asc kl (stream a)) → sortOf kl (L.flatMap stream) =
        m.value :: sortOf kl (A.flatMap stream ++ (m.rest ++ B.flatMap stream))) := by
  have hm : m ∈ items := List.mem_of_getElem? h0
  obtain ⟨A, B, hL⟩ := List.append_of_mem (hi.perm.subset hm)
  refine ⟨A, B, hL, fun hs => ?_⟩
  have hleast : ∀ y ∈ L, hl less reverse y m = false := fun y hy =>
    root_least ok.swo (isHeap_iff.mp hi.heap) h0 y (hi.perm.symm.subset hy)
  have hasc := hi.asc
  rw [hL] at hasc
  have hA : ∀ a ∈ A, pos reverse a < pos reverse m := fun a ha => (List.pairwise_append.mp hasc).2.2 a ha m (by simp)
  have hB : ∀ b ∈ B, pos reverse m < pos reverse b := (List.pairwise_cons.mp (List.pairwise_append.mp hasc).2.1).1
  have key : L.flatMap stream = A.flatMap stream ++ m.value :: (m.rest ++ B.flatMap stream) := by
    rw [hL]; simp [stream]
  rw [key, sortOf_least _ _ _ ?_ ?_ ok.swoK]
  · intro x hx
    obtain ⟨a, ha, hxa⟩ := List.mem_flatMap.mp hx
    have hp := hA a ha
    have h1 := hleast a (by rw [hL]; simp [ha])
    rw [ok.less _ _ (by intro h; simp [pos, h] at hp)] at h1
    unfold pos at hp
    simp only [hp, decide_true, Bool.and_true, Bool.or_eq_false_iff, Bool.not_eq_false'] at h1
    rcases List.mem_cons.mp hxa with rfl | hxr
    · exact h1.2
    · have := (List.pairwise_cons.mp (hs a (by rw [hL]; simp [ha]))).1 x hxr
      exact ok.swoK.lt_of_lt_of_le h1.2 this
  · intro x hx
    rcases List.mem_append.mp hx with hx | hx
    · exact (List.pairwise_cons.mp (hs m (by rw [hL]; simp))).1 x hx
    · obtain ⟨b, hb, hxb⟩ := List.mem_flatMap.mp hx
      have hp := hB b hb
      have h1 := hleast b (by rw [hL]; simp [hb])
      rw [ok.less _ _ (by intro h; simp [pos, h] at hp)] at h1
      simp only [Bool.or_eq_false_iff] at h1
      rcases List.mem_cons.mp hxb with rfl | hxr
      · exact h1.1
      · have := (List.pairwise_cons.mp (hs b (by rw [hL]; simp [hb]))).1 x hxr
        exact ok.swoK.negTrans this h1.1

theorem asc_replace {A B : List (Item T)} {m m' : Item T} (h : (A ++ m :: B).Pairwise fun a b => pos reverse a < pos reverse b)
    (e : pos reverse m' = pos reverse m) : (A ++ m' :: B).Pairwise fun a b => pos reverse a < pos reverse b := by
  rw [List.pairwise_append, List.pairwise_cons] at h ⊢
  refine ⟨h.1, ⟨fun b hb => by rw [e]; exact h.2.1.1 b hb, h.2.1.2⟩, ?_⟩
  intro a ha b hb
  rcases List.mem_cons.mp hb with rfl | hb
  · rw [e]; exact h.2.2 a ha m (by simp)
  · exact h.2.2 a ha b (by simp [hb])

theorem mergeInner_spec (ok : MOk less reverse kl) : ∀ (n : Nat) (items L : List (Item T)),
    MInv less reverse items L → L ≠ [] → (L.flatMap stream).length ≤ n →
    ∃ (ys : List T) (items' L' : List (Item T)), mergeInner less reverse n items = some (ys, items') ∧
      MInv less reverse items' L' ∧ L'.length + 1 = L.length ∧
      (ys ++ L'.flatMap stream).Perm (L.flatMap stream) ∧
      ((∀ a ∈ L, Asc kl (stream a)) → (∀ a ∈ L', Asc kl (stream a)) ∧
        sortOf kl (L.flatMap stream) = ys ++ sortOf kl (L'.flatMap stream)) := by
  intro n
  induction n with
  | zero =>
    intro items L _ hne hn
    obtain ⟨a, L, rfl⟩ := List.exists_cons_of_ne_nil hne
    simp [stream] at hn
  | succ n ih =>
    intro items L hi hne hn
    have hne' : items ≠ [] := by rintro rfl; exact hne (List.nil_perm.mp hi.perm)
    obtain ⟨m, t, hcons⟩ := List.exists_cons_of_ne_nil hne'
    have h0 : items[0]? = some m := by rw [hcons]; rfl
    obtain ⟨A, B, hL, hsort⟩ := root_split ok hi h0
    unfold mergeInner
    rw [h0]
    simp only [Option.bind_eq_bind, Option.bind_some, heappop_eq, heapreplace_eq]
    cases hr : m.rest with
    | nil =>
      obtain ⟨x, items', q1, q2, q3, -⟩ := c27_heappop ok.swo items hne' hi.heap
      have hx : x = m := by have := heappop_root q1; rw [h0] at this; cases this; rfl
      subst hx
      simp only [q1, Option.bind_some]
      have hasc := hi.asc
      rw [hL] at hasc
      refine ⟨[x.value], items', A ++ B, rfl, ⟨q3, ?_, ?_⟩, ?_, ?_, ?_⟩
      · refine List.Perm.cons_inv (a := x) (q2.symm.trans (hi.perm.trans ?_))
        rw [hL]; exact List.perm_middle
      · exact hasc.sublist (List.Sublist.append_left (List.sublist_cons_self _ _) _)
      · rw [hL]; simp; omega
      · rw [hL]
        simp only [List.flatMap_append, List.flatMap_cons, stream, hr, List.singleton_append]
        exact List.perm_middle.symm
      · intro hs
        refine ⟨fun a ha => hs a ?_, ?_⟩
        · rw [hL]; rcases List.mem_append.mp ha with h | h <;> simp [h]
        · rw [hsort hs, hr]; simp
    | cons v rest =>
      obtain ⟨x, items', q1, q2, q3, -, -⟩ := c27_heapreplace ok.swo items ⟨v, m.order, rest⟩ hne' hi.heap
      have hx : x = m := by have := heapreplace_root q1; rw [h0] at this; cases this; rfl
      subst hx
      simp only [q1, Option.bind_some]
      have hi' : MInv less reverse items' (A ++ ⟨v, x.order, rest⟩ :: B) := by
        refine ⟨q3, ?_, ?_⟩
        · refine List.Perm.cons_inv (a := x) (q2.trans ((hi.perm.cons _).trans ?_))
          rw [hL]
          exact ((List.perm_middle).cons _).trans ((List.Perm.swap _ _ _).trans ((List.perm_middle.symm).cons _))
        · have := hi.asc
          rw [hL] at this
          exact asc_replace this rfl
      have hlen : ((A ++ (⟨v, x.order, rest⟩ : Item T) :: B).flatMap stream).length ≤ n := by
        rw [hL] at hn
        simp only [List.flatMap_append, List.flatMap_cons, stream, hr, List.length_append, List.length_cons] at hn ⊢
        omega
      obtain ⟨ys, items'', L'', f1, f2, f3, f4, f5⟩ := ih items' _ hi' (by simp) hlen
      simp only [f1, Option.bind_some]
      refine ⟨x.value :: ys, items'', L'', rfl, f2, ?_, ?_, ?_⟩
      · rw [f3, hL]; simp
      · rw [hL]
        refine (f4.cons x.value).trans ?_
        simp only [List.flatMap_append, List.flatMap_cons, stream, hr]
        exact List.perm_middle.symm
      · intro hs
        have hs' : ∀ a ∈ A ++ (⟨v, x.order, rest⟩ : Item T) :: B, Asc kl (stream a) := by
          intro a ha
          rcases List.mem_append.mp ha with h | h
          · exact hs a (by rw [hL]; simp [h])
          · rcases List.mem_cons.mp h with rfl | h
            · have := hs x (by rw [hL]; simp)
              rw [stream, hr] at this
              exact (List.pairwise_cons.mp this).2
            · exact hs a (by rw [hL]; simp [h])
        refine ⟨(f5 hs').1, ?_⟩
        rw [hsort hs, hr, List.cons_append]
        congr 1
        refine Eq.trans ?_ (f5 hs').2
        simp [stream]

theorem mergeOuter_spec (ok : MOk less reverse kl) (total : Nat) : ∀ (n : Nat) (items L : List (Item T)),
    MInv less reverse items L → L.length < n → (L.flatMap stream).length ≤ total →
    ∃ out : List T, mergeOuter less reverse total n items = some out ∧ out.Perm (L.flatMap stream) ∧
      ((∀ a ∈ L, Asc kl (stream a)) → out = sortOf kl (L.flatMap stream)) := by
  intro n
  induction n with
  | zero => intro items L _ h; omega
  | succ n ih =>
    intro items L hi hn ht
    have hl := hi.perm.length_eq
    unfold mergeOuter
    by_cases h : items.length > 1
    · rw [if_pos h]
      obtain ⟨ys, items', L', f1, f2, f3, f4, f5⟩ := mergeInner_spec ok total items L hi
        (by rintro rfl; simp at hl; rw [hl] at h; simp at h) ht
      obtain ⟨out, g1, g2, g3⟩ := ih items' L' f2 (by omega) (by
        have := f4.length_eq
        rw [List.length_append] at this; omega)
      refine ⟨ys ++ out, by simp [f1, g1], (g2.append_left ys).trans f4, fun hs => ?_⟩
      rw [(f5 hs).2, g3 (f5 hs).1]
    · rw [if_neg h]
      match items, hi.perm, h with
      | [], hp, _ =>
        rw [List.nil_perm.mp hp]
        exact ⟨[], rfl, List.Perm.refl _, fun _ => rfl⟩
      | [it], hp, _ =>
        rw [← List.singleton_perm.mp hp]
        refine ⟨stream it, rfl, by simp, fun hs => ?_⟩
        have := sortOf_asc ok.swoK (hs it (by simp))
        simpa using this.symm
      | _ :: _ :: _, _, h => simp at h

theorem firstItems_spec : ∀ (its : List (List T)) (o : Int),
    (firstItems reverse o its).flatMap stream = its.flatten ∧
    (∀ a ∈ firstItems reverse o its, stream a ∈ its) ∧
    (∀ a ∈ firstItems reverse o its, o ≤ pos reverse a) ∧
    (firstItems reverse o its).Pairwise fun a b => pos reverse a < pos reverse b
  | [], o => by simp [firstItems]
  | [] :: its, o => by
    obtain ⟨h1, h2, h3, h4⟩ := firstItems_spec its (o + 1)
    refine ⟨by simpa [firstItems] using h1, ?_, ?_, by simpa [firstItems] using h4⟩
    · intro a ha; exact List.mem_cons_of_mem _ (h2 a ha)
    · intro a ha; have := h3 a ha; omega
  | (v :: rest) :: its, o => by
    obtain ⟨h1, h2, h3, h4⟩ := firstItems_spec its (o + 1)
    have hp : pos reverse (⟨v, o * (if reverse then -1 else 1), rest⟩ : Item T) = o := by
      cases reverse <;> simp [pos]
    refine ⟨?_, ?_, ?_, ?_⟩
    · rw [firstItems, List.flatMap_cons, h1]; simp [stream]
    · intro a ha
      rcases List.mem_cons.mp ha with rfl | ha
      · simp [stream]
      · exact List.mem_cons_of_mem _ (h2 a ha)
    · intro a ha
      rcases List.mem_cons.mp ha with rfl | ha
      · rw [hp]; omega
      · have := h3 a ha; omega
    · rw [firstItems, List.pairwise_cons]
      refine ⟨fun a ha => ?_, h4⟩
      rw [hp]; have := h3 a ha; omega

theorem merge_spec (ok : MOk less reverse kl) (its : List (List T)) :
    ∃ out : List T, merge less reverse its = some out ∧ out.Perm its.flatten ∧
      ((∀ xs ∈ its, Asc kl xs) → out = sortOf kl its.flatten) := by
  obtain ⟨h1, h2, -, h4⟩ := firstItems_spec (reverse := reverse) its 0
  obtain ⟨items, q1, q2, q3⟩ := c27_heapify ok.swo (firstItems reverse 0 its)
  obtain ⟨out, f1, f2, f3⟩ := mergeOuter_spec ok (its.flatten.length + 1) (items.length + 1) items (firstItems reverse 0 its)
    ⟨q3, q2, h4⟩ (by rw [q2.length_eq]; omega) (by rw [h1]; omega)
  rw [h1] at f2 f3
  refine ⟨out, ?_, f2, fun hs => f3 fun a ha => hs _ (h2 a ha)⟩
  unfold merge
  simp only [heapify_eq, q1, Option.bind_eq_bind, Option.bind_some, f1]

end

end Codon.HeapN
