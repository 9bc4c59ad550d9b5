import Verif.WithM.Spec

namespace Codon.WithM

variable {U : Type} (S : Sem U)

/-- The lowered statement from the first item on: the names of the items in order. -/
def nest : List (Nat × Name) → Stmt → Stmt
  | [], c => c
  | (e, x) :: l, c => .seq (.assign x e) (.seq (.enter x) (.tryFinally (nest l c) (.exit x)))

theorem nest_snoc (l : List (Nat × Name)) (e : Nat) (x : Name) (c : Stmt) :
    nest (l ++ [(e, x)]) c = nest l (.seq (.assign x e) (.seq (.enter x) (.tryFinally c (.exit x)))) := by
  induction l with
  | nil => rfl
  | cons a l ih => obtain ⟨e', x'⟩ := a; simp only [List.cons_append, nest, ih]

/-- The names given by the loop, first item first. -/
def names : List (Nat × Option Nat) → Nat → List (Nat × Name)
  | [], _ => []
  | (e, x) :: items, next => names items (itemName x next).2 ++ [(e, (itemName x next).1)]

theorem lowerLoop_eq : ∀ (items : List (Nat × Option Nat)) (next : Nat) (c : Option Stmt), items ≠ [] ∨ c ≠ none →
    lowerLoop items next c = some (nest (names items next) (c.getD .suite))
  | [], _, none, h => absurd h (by simp)
  | [], _, some c, _ => rfl
  | (e, x) :: items, next, c, _ => by
    rw [lowerLoop]
    simp only []
    rw [lowerLoop_eq items (itemName x next).2 _ (Or.inr (by simp)), names, nest_snoc]
    rfl

/-- The shape of the names: same expressions, targets as given, temporaries distinct and not below `next`. -/
inductive Names : List (Nat × Option Nat) → List (Nat × Name) → Prop
  | nil : Names [] []
  | user {e x items l} : Names items l → Names ((e, some x) :: items) ((e, .user x) :: l)
  | temp {e n items l} : Names items l → (∀ p ∈ l, p.2 ≠ .temp n) → Names ((e, none) :: items) ((e, .temp n) :: l)

theorem names_lt : ∀ (items : List (Nat × Option Nat)) (next : Nat) (p : Nat × Name), p ∈ names items next →
    ∀ n, p.2 = .temp n → next ≤ n
  | [], _, _, h, _, _ => absurd h (by simp [names])
  | (e, x) :: items, next, p, h, n, hn => by
    rw [names] at h
    rcases List.mem_append.mp h with h | h
    · have := names_lt items _ p h n hn
      cases x with
      | none => simp only [itemName] at this; omega
      | some x => simpa [itemName] using this
    · simp only [List.mem_singleton] at h
      subst h
      cases x with
      | none => simp only [itemName, Name.temp.injEq] at hn; omega
      | some x => simp [itemName] at hn

theorem Names.snoc {items l} (h : Names items l) (e : Nat) (x : Option Nat) (y : Name)
    (hy : (∃ z, x = some z ∧ y = .user z) ∨ (x = none ∧ ∃ n, y = .temp n ∧ ∀ p ∈ l, p.2 ≠ .temp n)) :
    Names (items ++ [(e, x)]) (l ++ [(e, y)]) := by
  induction h with
  | nil =>
    rcases hy with ⟨z, rfl, rfl⟩ | ⟨rfl, n, rfl, -⟩
    · exact .user .nil
    · exact .temp .nil (by simp)
  | user _ ih =>
    refine .user (ih ?_)
    rcases hy with h | ⟨rfl, n, rfl, h⟩
    · exact Or.inl h
    · exact Or.inr ⟨rfl, n, rfl, fun p hp => h p (List.mem_cons_of_mem _ hp)⟩
  | @temp e' m items l _ hm ih =>
    refine .temp (ih ?_) ?_
    · rcases hy with h | ⟨rfl, n, rfl, h⟩
      · exact Or.inl h
      · exact Or.inr ⟨rfl, n, rfl, fun p hp => h p (List.mem_cons_of_mem _ hp)⟩
    · intro p hp
      rcases List.mem_append.mp hp with hp | hp
      · exact hm p hp
      · simp only [List.mem_singleton] at hp
        subst hp
        rcases hy with ⟨z, -, rfl⟩ | ⟨-, n, rfl, h⟩
        · simp
        · intro he
          exact h (e', .temp m) (by simp) (by simpa using he.symm)

theorem names_Names : ∀ (items : List (Nat × Option Nat)) (next : Nat), Names items.reverse (names items next)
  | [], _ => .nil
  | (e, x) :: items, next => by
    rw [List.reverse_cons, names]
    refine (names_Names items _).snoc e x _ ?_
    cases x with
    | some z => exact Or.inl ⟨z, rfl, rfl⟩
    | none =>
      refine Or.inr ⟨rfl, next, rfl, fun p hp he => ?_⟩
      have := names_lt items _ p hp next he
      simp only [itemName] at this
      omega

theorem runWith_eq (items : List (Nat × Option Nat)) (next : Nat) (h : items ≠ []) :
    ∃ l, Names items l ∧ ∀ w, runWith S items next w = exec S (nest l .suite) w := by
  refine ⟨names items.reverse next, ?_, ?_⟩
  · have := names_Names items.reverse next
    rwa [List.reverse_reverse] at this
  · intro w
    rw [runWith, lower, lowerLoop_eq _ _ _ (Or.inl (by simpa using h))]
    rfl

/-- Temporaries of other statements stay. -/
theorem nest_temp : ∀ (l : List (Nat × Name)) (w : World U) (o : Out) (w' : World U) (n : Nat),
    (∀ p ∈ l, p.2 ≠ .temp n) → exec S (nest l .suite) w = some (o, w') → w'.temp n = w.temp n
  | [], w, o, w', n, _, h => by
    simp only [nest, exec] at h
    split at h
    · cases h
    · cases h; rfl
  | (e, x) :: l, w, o, w', n, hn, h => by
    simp only [nest, exec] at h
    rcases he : S.expr e w.u with _ | ⟨y | m, u1⟩
    · simp [he] at h
    · simp only [he, Option.some.injEq, Prod.mk.injEq] at h; rw [← h.2]
    · simp only [he] at h
      have hx : x ≠ .temp n := hn (e, x) (by simp)
      have hs : ∀ u m, (World.set S ⟨u, w.temp⟩ x m).temp n = w.temp n := by
        intro u m
        cases x with
        | user x => rfl
        | temp k =>
          have : n ≠ k := fun h => hx (by rw [h])
          simp [World.set, this]
      have hs1 := hs u1 m
      generalize World.set S ⟨u1, w.temp⟩ x m = w1 at h hs1
      rcases hent : S.enter (w1.get S x) w1.u with _ | ⟨y | v, u2⟩
      · simp [hent, callStmt] at h
      · simp only [hent, callStmt, Option.some.injEq, Prod.mk.injEq] at h; rw [← h.2]; exact hs1
      · simp only [hent, callStmt] at h
        rcases hb : exec S (nest l .suite) ⟨u2, w1.temp⟩ with _ | ⟨o2, w2⟩
        · simp [hb] at h
        · have ih := nest_temp l _ o2 w2 n (fun p hp => hn p (List.mem_cons_of_mem _ hp)) hb
          simp only [hb] at h
          rcases hex : S.exit (w2.get S x) w2.u with _ | ⟨y | v', u3⟩
          · simp [hex] at h
          · simp only [hex, Option.some.injEq, Prod.mk.injEq] at h
            rw [← h.2]; exact ih.trans hs1
          · simp only [hex, Option.some.injEq, Prod.mk.injEq] at h
            rw [← h.2]; exact ih.trans hs1

/-- A variable that no code and no item assigns stays. -/
theorem nest_user (hv : Vars S) {x : Nat} (hx : Untouched S x) : ∀ (l : List (Nat × Name)) (w : World U) (o : Out)
    (w' : World U), (∀ p ∈ l, p.2 ≠ .user x) → exec S (nest l .suite) w = some (o, w') → S.get w'.u x = S.get w.u x
  | [], w, o, w', _, h => by
    simp only [nest, exec] at h
    split at h
    · cases h
    · rename_i hs
      cases h; exact hx.suite _ _ _ hs
  | (e, y) :: l, w, o, w', hn, h => by
    simp only [nest, exec] at h
    rcases he : S.expr e w.u with _ | ⟨z | m, u1⟩
    · simp [he] at h
    · simp only [he, Option.some.injEq, Prod.mk.injEq] at h; rw [← h.2]; exact hx.expr _ _ _ _ he
    · simp only [he] at h
      have hy : y ≠ .user x := hn (e, y) (by simp)
      have hs1 : S.get (World.set S ⟨u1, w.temp⟩ y m).u x = S.get w.u x := by
        rw [← hx.expr _ _ _ _ he]
        cases y with
        | user y =>
          have : x ≠ y := fun h => hy (by rw [h])
          simp only [World.set]
          rw [hv, if_neg this]
        | temp k => rfl
      generalize World.set S ⟨u1, w.temp⟩ y m = w1 at h hs1
      rcases hent : S.enter (w1.get S y) w1.u with _ | ⟨z | v, u2⟩
      · simp [hent, callStmt] at h
      · simp only [hent, callStmt, Option.some.injEq, Prod.mk.injEq] at h
        rw [← h.2]; exact (hx.enter _ _ _ _ hent).trans hs1
      · simp only [hent, callStmt] at h
        have hs2 := (hx.enter _ _ _ _ hent).trans hs1
        rcases hb : exec S (nest l .suite) ⟨u2, w1.temp⟩ with _ | ⟨o2, w2⟩
        · simp [hb] at h
        · have ih := (nest_user hv hx l _ o2 w2 (fun p hp => hn p (List.mem_cons_of_mem _ hp)) hb).trans hs2
          simp only [hb] at h
          rcases hex : S.exit (w2.get S y) w2.u with _ | ⟨z | v', u3⟩
          · simp [hex] at h
          · simp only [hex, Option.some.injEq, Prod.mk.injEq] at h
            rw [← h.2]; exact (hx.exit _ _ _ _ hex).trans ih
          · simp only [hex, Option.some.injEq, Prod.mk.injEq] at h
            rw [← h.2]; exact (hx.exit _ _ _ _ hex).trans ih

/-- What the program can see of a result. -/
def view (r : Option (Out × World U)) : SRes U := r.map fun r => (r.1, r.2.u)

theorem leave_eq {pyExit : Nat → Option Nat → U → Res Bool U} (hp : PlainExit S pyExit) (m : Nat)
    (r : Option (Out × World U)) (x : Name) (hm : ∀ o w, r = some (o, w) → w.get S x = m) :
    view (match r with
      | none => none
      | some (o, w) =>
        match callStmt w (S.exit (w.get S x) w.u) with
        | some (.normal, w) => some (o, w)
        | r => r) = pyLeave pyExit m (view r) := by
  match r with
  | none => rfl
  | some (o, w) =>
    simp only []
    rw [hm o w rfl]
    have h : ∀ e, pyExit m e w.u = (S.exit m w.u).map fun r => (r.1.map fun _ => false, r.2) := fun e => hp m e w.u
    cases o <;>
    · simp only [view, Option.map_some, pyLeave, h]
      rcases S.exit m w.u with _ | ⟨y | v, u⟩ <;> rfl

theorem erase_cases {α β U : Type} {a : Res α U} {b : Res β U} (h : erase a = erase b) :
    (a = none ∧ b = none) ∨ (∃ x u, a = some (.error x, u) ∧ b = some (.error x, u)) ∨
    (∃ v v' u, a = some (.ok v, u) ∧ b = some (.ok v', u)) := by
  rcases a with _ | ⟨x | v, u⟩ <;> rcases b with _ | ⟨x' | v', u'⟩ <;> simp [erase, Except.map] at h ⊢
  · exact h
  · exact h

theorem nest_py (hv : Vars S) {pyEnter : Nat → U → Res Nat U} (hse : SameEnter S pyEnter) {pyExit : Nat → Option Nat → U → Res Bool U} (hp : PlainExit S pyExit)
    {items : List (Nat × Option Nat)} {l : List (Nat × Name)} (hl : Names items l) :
    (∀ x ∈ targets items, PlainEnter S pyEnter x) → (∀ x ∈ targets items, Untouched S x) → (targets items).Nodup →
    ∀ w, view (exec S (nest l .suite) w) = pyWith S pyEnter pyExit items w.u := by
  induction hl with
  | nil =>
    intro _ _ _ w
    simp only [nest, exec, pyWith]
    rcases S.suite w.u with _ | ⟨o, u⟩ <;> rfl
  | @user e x items l hl ih =>
    intro he hu hd w
    have ht : targets ((e, some x) :: items) = x :: targets items := rfl
    rw [ht] at he hu hd
    have hx : ∀ p ∈ l, p.2 ≠ .user x := by
      intro p hp' heq
      apply (List.nodup_cons.mp hd).1
      clear ih hd hu he
      induction hl with
      | nil => simp at hp'
      | @user e' y items l _ ih =>
        show x ∈ y :: targets items
        rcases List.mem_cons.mp hp' with rfl | hp'
        · cases heq; simp
        · exact List.mem_cons_of_mem _ (ih rfl hp')
      | temp _ _ ih =>
        rcases List.mem_cons.mp hp' with rfl | hp'
        · cases heq
        · exact ih rfl hp'
    have ih := ih (fun y hy => he y (by simp [hy])) (fun y hy => hu y (by simp [hy])) (List.nodup_cons.mp hd).2
    have he := he x (by simp)
    have hux := hu x (by simp)
    rw [pyWith]
    simp only [nest, exec]
    rcases S.expr e w.u with _ | ⟨y | m, u1⟩
    · rfl
    · rfl
    · simp only [bindS, World.set, World.get]
      rw [hv, if_pos rfl]
      rw [he.blind]
      rcases erase_cases (hse m u1) with ⟨h1, h2⟩ | ⟨y, u2, h1, h2⟩ | ⟨v, v', u2, h1, h2⟩
      · rw [h1, h2]; rfl
      · exact absurd h2 (he.ok _ _ _ _)
      · obtain rfl := he.self _ _ _ _ h1
        rw [h1, h2]
        refine (leave_eq S hp v (exec S (nest l .suite) ⟨S.set u2 x v, w.temp⟩) (.user x) ?_).trans ?_
        rotate_left
        · rw [ih]; rfl
        · intro o w' hw'
          have := nest_user S hv hux l _ o w' hx hw'
          rw [hv, if_pos rfl] at this
          exact this
  | @temp e n items l hl hn ih =>
    intro he hu hd w
    have ih := ih he hu hd
    rw [pyWith]
    simp only [nest, exec]
    rcases S.expr e w.u with _ | ⟨y | m, u1⟩
    · rfl
    · rfl
    · simp only [bindS, World.set, World.get]
      simp only [if_true]
      rcases erase_cases (hse m u1) with ⟨h1, h2⟩ | ⟨y, u2, h1, h2⟩ | ⟨v, v', u2, h1, h2⟩
      · rw [h1, h2]; rfl
      · rw [h1, h2]; rfl
      · rw [h1, h2]
        refine (leave_eq S hp m (exec S (nest l .suite)
          ⟨u2, fun k => if k = n then m else w.temp k⟩) (.temp n) ?_).trans ?_
        rotate_left
        · rw [ih]; rfl
        · intro o w' hw'
          have := nest_temp S l _ o w' n hn hw'
          simpa [World.get] using this

theorem nest_balance {d : U → Int} (hc : Counts S d) : ∀ (l : List (Nat × Name)) (w : World U) (o : Out)
    (w' : World U), exec S (nest l .suite) w = some (o, w') → d w'.u = d w.u
  | [], w, o, w', h => by
    simp only [nest, exec] at h
    split at h
    · cases h
    · rename_i hs
      cases h; exact hc.suite _ _ _ hs
  | (e, y) :: l, w, o, w', h => by
    simp only [nest, exec] at h
    rcases he : S.expr e w.u with _ | ⟨z | m, u1⟩
    · simp [he] at h
    · simp only [he, Option.some.injEq, Prod.mk.injEq] at h; rw [← h.2]; exact hc.expr _ _ _ _ he
    · simp only [he] at h
      have hs1 : d (World.set S ⟨u1, w.temp⟩ y m).u = d w.u := by
        rw [← hc.expr _ _ _ _ he]
        cases y with
        | user y => exact hc.set _ _ _
        | temp k => rfl
      generalize World.set S ⟨u1, w.temp⟩ y m = w1 at h hs1
      rcases hent : S.enter (w1.get S y) w1.u with _ | ⟨z | v, u2⟩
      · simp [hent, callStmt] at h
      · simp only [hent, callStmt, Option.some.injEq, Prod.mk.injEq] at h
        rw [← h.2]; exact (hc.enterErr _ _ _ _ hent).trans hs1
      · simp only [hent, callStmt] at h
        have hs2 : d u2 = d w.u + 1 := by rw [hc.enterOk _ _ _ _ hent, hs1]
        rcases hb : exec S (nest l .suite) ⟨u2, w1.temp⟩ with _ | ⟨o2, w2⟩
        · simp [hb] at h
        · have ih : d w2.u = d w.u + 1 := (nest_balance hc l _ o2 w2 hb).trans hs2
          simp only [hb] at h
          rcases hex : S.exit (w2.get S y) w2.u with _ | ⟨z | v', u3⟩
          · simp [hex] at h
          · simp only [hex, Option.some.injEq, Prod.mk.injEq] at h
            rw [← h.2]; have := hc.exit _ _ _ _ hex; show d u3 = _; omega
          · simp only [hex, Option.some.injEq, Prod.mk.injEq] at h
            rw [← h.2]; have := hc.exit _ _ _ _ hex; show d u3 = _; omega

end Codon.WithM
