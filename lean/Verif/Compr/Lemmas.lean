import Verif.Compr.Spec

/-! # Lemmas about the lowering of comprehensions and displays -/

namespace Codon.Compr

variable {X T V C E W : Type}

/-- What an outcome shows: the container or the exception, and the world. -/
inductive Sees : Out V C E W → Ans E W C → Prop where
  | ok {s : St V C} {c : C} {w : W} (h : s.coll = some c) : Sees (.ok s w) (.ok c, w)
  | raise (e : E) (w : W) : Sees (.raise e w) (.error e, w)

theorem andThen_ok {α : Type} {r : Ans E W α} {a : α} {w : W} (h : r = (.ok a, w))
    (f : α → W → Out V C E W) : andThen r f = f a w := by subst h; rfl

theorem andThen_err {α : Type} {r : Ans E W α} {e : E} {w : W} (h : r = (.error e, w))
    (f : α → W → Out V C E W) : andThen r f = .raise e w := by subst h; rfl

/-- Two evaluations in a row are one. -/
theorem andThen_bind {α β : Type} (r : Ans E W α) (g : α → W → Ans E W β)
    (f : β → W → Out V C E W) :
    andThen r (fun a w => andThen (g a w) f) = andThen (r.bind g) f := by
  obtain ⟨r, w⟩ := r
  cases r <;> rfl

theorem next_ok (o : Out V C E W) : (o.next fun s w => .ok s w) = o := by
  cases o <;> rfl

theorem exec_wrap1 (L : Lang X T V C E W) (n : Nat) (a : Stmt X T) (s : St V C) (w : W) :
    exec L n (.seq a .skip) s w = exec L n a s w := by
  simp only [exec]
  exact next_ok _

theorem sees_put (L : Lang X T V C E W) {r : Ans E W C} (s : St V C) :
    Sees (andThen r fun c w => (.ok { s with coll := some c } w : Out V C E W)) r := by
  obtain ⟨r, w⟩ := r
  cases r with
  | ok c => exact .ok rfl
  | error e => exact .raise e w

/-- The call at the innermost place puts the element in. -/
theorem sees_final (L : Lang X T V C E W) (hp : Pairs L) (k : Kind) (e : Elt X) (hf : e.fits k)
    (n : Nat) {s : St V C} {c : C} (hs : s.coll = some c) (w : W) :
    Sees (exec L n (finalCall k e : Stmt X T) s w) (putElt L k e c w) := by
  cases e with
  | one x =>
    have h : exec L n (finalCall k (.one x) : Stmt X T) s w =
        andThen (L.eval x w) (fun v w => andThen (L.add k c v w)
          fun c w => .ok { s with coll := some c } w) := by
      cases k
      · simp [finalCall, exec, execCall, evalArg, evalElt, have_, hs, callFn]
      · simp [finalCall, exec, execCall, evalArg, evalElt, have_, hs, callFn]
      · exact absurd rfl hf
    rw [h, andThen_bind]
    exact sees_put L s
  | pair x y =>
    have hk : k = .dict := hf
    subst hk
    have h : exec L n (finalCall .dict (.pair x y) : Stmt X T) s w =
        andThen (L.eval x w) (fun a w => andThen (L.eval y w) fun b w =>
          andThen (L.setitem c a b w) fun c w => .ok { s with coll := some c } w) := by
      simp [finalCall, exec, execCall, evalArg, evalElt, have_, hs, callFn, (hp _ _).1, (hp _ _).2]
    rw [h]
    have h2 : (fun (a : V) w => andThen (L.eval y w) fun b w =>
          andThen (L.setitem c a b w) fun c w =>
            (.ok { s with coll := some c } w : Out V C E W)) =
        fun a w => andThen ((L.eval y w).bind fun b w => L.setitem c a b w) fun c w =>
          .ok { s with coll := some c } w := by
      funext a w
      exact andThen_bind _ _ _
    rw [h2, andThen_bind]
    exact sees_put L s

/-- The clauses nested around the call. -/
def nest (k : Kind) (e : Elt X) (cs : List (Clause X T)) : Stmt X T :=
  setFinal (finalCall k) (form e cs)

theorem exec_nest_wrap (L : Lang X T V C E W) (n : Nat) (k : Kind) (e : Elt X)
    (cs : List (Clause X T)) (s : St V C) (w : W) :
    exec L n (setFinal (finalCall k) (wrap (form e cs))) s w = exec L n (nest k e cs) s w := by
  match cs with
  | [] => rfl
  | .for_ t x :: r => exact exec_wrap1 L n _ s w
  | .if_ x :: r => exact exec_wrap1 L n _ s w

theorem exec_nest_nil (L : Lang X T V C E W) (n : Nat) (k : Kind) (e : Elt X)
    (s : St V C) (w : W) :
    exec L n (nest k e ([] : List (Clause X T))) s w = exec L n (finalCall k e : Stmt X T) s w :=
  exec_wrap1 L n _ s w

/-- A run of the rest of a loop, at most `j` steps of it. -/
def runLoop (L : Lang X T V C E W) (n : Nat) (k : Kind) (e : Elt X) (t : T) (it : V)
    (cs : List (Clause X T)) (j : Nat) (s : St V C) (w : W) : Out V C E W :=
  loop L (store L (some t)) (fun s w => exec L n (nest k e cs) s w) it j s w

theorem exec_nest_for (L : Lang X T V C E W) (n : Nat) (k : Kind) (e : Elt X) (t : T) (x : X)
    (cs : List (Clause X T)) (s : St V C) (w : W) :
    exec L n (nest k e (.for_ t x :: cs)) s w =
      andThen ((L.eval x w).bind L.iter) fun it w => runLoop L n k e t it cs n s w := by
  rw [← andThen_bind]
  simp only [nest, form, setFinal, exec, source, runLoop]
  congr 1
  funext v w
  congr 1
  funext it w
  congr 1
  funext s w
  exact exec_nest_wrap L n k e cs s w

theorem exec_nest_if (L : Lang X T V C E W) (n : Nat) (k : Kind) (e : Elt X) (x : X)
    (cs : List (Clause X T)) (s : St V C) (w : W) :
    exec L n (nest k e (.if_ x :: cs)) s w =
      andThen ((L.eval x w).bind L.truth) fun q w =>
        if q then exec L n (nest k e cs) s w else .ok s w := by
  rw [← andThen_bind]
  simp only [nest, form, setFinal, exec]
  congr 1
  funext v w
  congr 1
  funext q w
  rw [exec_nest_wrap]
  rfl

theorem runLoop_succ (L : Lang X T V C E W) (n : Nat) (k : Kind) (e : Elt X) (t : T) (it : V)
    (cs : List (Clause X T)) (j : Nat) (s : St V C) (w : W) :
    runLoop L n k e t it cs (j + 1) s w = andThen (L.next it w) fun o w =>
      match o with
      | none => .ok s w
      | some v => andThen (L.bind t v w) fun _ w =>
        (exec L n (nest k e cs) s w).next fun s w => runLoop L n k e t it cs j s w := by
  simp only [runLoop, loop]
  congr 1
  funext o w
  cases o with
  | none => rfl
  | some v =>
    simp only [store]
    rcases hr : L.bind t v w with ⟨r, w'⟩
    cases r <;> rfl

/-- A run of a task. -/
def runTask (L : Lang X T V C E W) (k : Kind) (e : Elt X) (n j : Nat) :
    Task X T V → St V C → W → Out V C E W
  | .clauses cs, s, w => exec L n (nest k e cs) s w
  | .loop t it cs, s, w => runLoop L n k e t it cs j s w

/-- What the relation says, the nested statements do. -/
theorem runs_exec (L : Lang X T V C E W) (hp : Pairs L) (k : Kind) (e : Elt X) (hf : e.fits k)
    {task : Task X T V} {c : C} {w : W} {r : Ans E W C}
    (h : Runs L (putElt L k e) task c w r) :
    ∃ N, ∀ n j, N ≤ n → N ≤ j → ∀ s : St V C, s.coll = some c →
      Sees (runTask L k e n j task s w) r := by
  induction h with
  | act c w =>
    refine ⟨0, fun n j _ _ s hs => ?_⟩
    simp only [runTask, exec_nest_nil]
    exact sees_final L hp k e hf n hs w
  | ifErr h =>
    refine ⟨0, fun n j _ _ s hs => ?_⟩
    simp only [runTask, exec_nest_if, andThen_err h]
    exact .raise _ _
  | ifNo h =>
    refine ⟨0, fun n j _ _ s hs => ?_⟩
    simp only [runTask, exec_nest_if, andThen_ok h]
    exact .ok hs
  | ifYes h _ ih =>
    obtain ⟨N, ih⟩ := ih
    refine ⟨N, fun n j hn hj s hs => ?_⟩
    simp only [runTask, exec_nest_if, andThen_ok h]
    exact ih n j hn hj s hs
  | forErr h =>
    refine ⟨0, fun n j _ _ s hs => ?_⟩
    simp only [runTask, exec_nest_for, andThen_err h]
    exact .raise _ _
  | forOk h _ ih =>
    obtain ⟨N, ih⟩ := ih
    refine ⟨N, fun n j hn hj s hs => ?_⟩
    simp only [runTask, exec_nest_for, andThen_ok h]
    exact ih n n hn hn s hs
  | nextErr h =>
    refine ⟨1, fun n j _ hj s hs => ?_⟩
    obtain ⟨j, rfl⟩ : ∃ i, j = i + 1 := ⟨j - 1, by omega⟩
    simp only [runTask, runLoop_succ, andThen_err h]
    exact .raise _ _
  | stop h =>
    refine ⟨1, fun n j _ hj s hs => ?_⟩
    obtain ⟨j, rfl⟩ : ∃ i, j = i + 1 := ⟨j - 1, by omega⟩
    simp only [runTask, runLoop_succ, andThen_ok h]
    exact .ok hs
  | bindErr h hb =>
    refine ⟨1, fun n j _ hj s hs => ?_⟩
    obtain ⟨j, rfl⟩ : ∃ i, j = i + 1 := ⟨j - 1, by omega⟩
    simp only [runTask, runLoop_succ, andThen_ok h, andThen_err hb]
    exact .raise _ _
  | bodyErr h hb _ ih =>
    obtain ⟨N, ih⟩ := ih
    refine ⟨N + 1, fun n j hn hj s hs => ?_⟩
    obtain ⟨j, rfl⟩ : ∃ i, j = i + 1 := ⟨j - 1, by omega⟩
    have := ih n n (by omega) (by omega) s hs
    simp only [runTask, runLoop_succ, andThen_ok h, andThen_ok hb] at this ⊢
    generalize exec L n (nest k e _) s _ = o at this ⊢
    cases this
    exact .raise _ _
  | step h hb _ _ ih ih2 =>
    obtain ⟨N, ih⟩ := ih
    obtain ⟨N2, ih2⟩ := ih2
    refine ⟨N + N2 + 1, fun n j hn hj s hs => ?_⟩
    obtain ⟨j, rfl⟩ : ∃ i, j = i + 1 := ⟨j - 1, by omega⟩
    have h1 := ih n n (by omega) (by omega) s hs
    simp only [runTask, runLoop_succ, andThen_ok h, andThen_ok hb] at h1 ⊢
    generalize exec L n (nest k e _) s _ = o at h1 ⊢
    cases h1 with
    | ok hc => exact ih2 n j (by omega) (by omega) _ hc

theorem ans_cases {α : Type} (r : Ans E W α) :
    (∃ a w, r = (.ok a, w)) ∨ ∃ e w, r = (.error e, w) := by
  obtain ⟨r, w⟩ := r
  cases r with
  | ok a => exact .inl ⟨a, w, rfl⟩
  | error e => exact .inr ⟨e, w, rfl⟩

/-- What the nested statements do, the relation says; a loop, given this of its body. -/
theorem loop_runs (L : Lang X T V C E W) (k : Kind) (e : Elt X) (cs : List (Clause X T)) (n : Nat)
    (hb : ∀ (s : St V C) (c : C) (w : W), s.coll = some c → exec L n (nest k e cs) s w ≠ .more →
      ∃ r, Sees (exec L n (nest k e cs) s w) r ∧ Runs L (putElt L k e) (.clauses cs) c w r)
    (t : T) (it : V) :
    ∀ (j : Nat) (s : St V C) (c : C) (w : W), s.coll = some c →
      runLoop L n k e t it cs j s w ≠ .more →
      ∃ r, Sees (runLoop L n k e t it cs j s w) r ∧
        Runs L (putElt L k e) (.loop t it cs) c w r := by
  intro j
  induction j with
  | zero => intro s c w hs h; exact absurd rfl h
  | succ j ih =>
    intro s c w hs h
    rw [runLoop_succ] at h ⊢
    rcases ans_cases (L.next it w) with ⟨o, w1, hn⟩ | ⟨x, w1, hn⟩
    · rw [andThen_ok hn] at h ⊢
      cases o with
      | none => exact ⟨_, .ok hs, .stop hn⟩
      | some v =>
        dsimp only at h ⊢
        rcases ans_cases (L.bind t v w1) with ⟨u, w2, hv⟩ | ⟨x, w2, hv⟩
        · rw [andThen_ok hv] at h ⊢
          have hne : exec L n (nest k e cs) s w2 ≠ .more := by
            intro h0
            rw [h0] at h
            exact h rfl
          obtain ⟨r, hsee, hr⟩ := hb s c w2 hs hne
          generalize exec L n (nest k e cs) s w2 = o at h hsee ⊢
          cases hsee with
          | ok hc =>
            obtain ⟨r, h1, h2⟩ := ih _ _ _ hc h
            exact ⟨r, h1, .step hn hv hr h2⟩
          | raise x w3 => exact ⟨_, .raise _ _, .bodyErr hn hv hr⟩
        · rw [andThen_err hv]
          exact ⟨_, .raise _ _, .bindErr hn hv⟩
    · rw [andThen_err hn]
      exact ⟨_, .raise _ _, .nextErr hn⟩

theorem exec_runs (L : Lang X T V C E W) (hp : Pairs L) (k : Kind) (e : Elt X) (hf : e.fits k)
    (n : Nat) (cs : List (Clause X T)) :
    ∀ (s : St V C) (c : C) (w : W), s.coll = some c → exec L n (nest k e cs) s w ≠ .more →
      ∃ r, Sees (exec L n (nest k e cs) s w) r ∧ Runs L (putElt L k e) (.clauses cs) c w r := by
  induction cs with
  | nil =>
    intro s c w hs _
    rw [exec_nest_nil]
    exact ⟨_, sees_final L hp k e hf n hs w, .act c w⟩
  | cons a cs ih =>
    intro s c w hs h
    cases a with
    | if_ x =>
      rw [exec_nest_if] at h ⊢
      rcases ans_cases ((L.eval x w).bind L.truth) with ⟨q, w1, hq⟩ | ⟨y, w1, hq⟩
      · rw [andThen_ok hq] at h ⊢
        cases q with
        | true =>
          obtain ⟨r, h1, h2⟩ := ih s c w1 hs h
          exact ⟨r, h1, .ifYes hq h2⟩
        | false => exact ⟨_, .ok hs, .ifNo hq⟩
      · rw [andThen_err hq]
        exact ⟨_, .raise _ _, .ifErr hq⟩
    | for_ t x =>
      rw [exec_nest_for] at h ⊢
      rcases ans_cases ((L.eval x w).bind L.iter) with ⟨it, w1, hq⟩ | ⟨y, w1, hq⟩
      · rw [andThen_ok hq] at h ⊢
        obtain ⟨r, h1, h2⟩ := loop_runs L k e cs n ih t it n s c w1 hs h
        exact ⟨r, h1, .forOk hq h2⟩
      · rw [andThen_err hq]
        exact ⟨_, .raise _ _, .forErr hq⟩

theorem loopCount_wrap (s : Stmt X T) : loopCount (wrap s) = loopCount s := by
  cases s <;> rfl

theorem loopCount_form (e : Elt X) (cs : List (Clause X T)) :
    loopCount (form e cs) = cs.length := by
  induction cs with
  | nil => rfl
  | cons a r ih =>
    cases a <;> simp only [form, loopCount, loopCount_wrap, ih, List.length_cons]

theorem value_sees {L : Lang X T V C E W} {n : Nat} {p : Stmt X T} {w : W} {r : Ans E W C}
    (h : Sees (exec L n p {} w) r) : value L n p w = some (some r) := by
  unfold value
  generalize exec L n p {} w = o at h ⊢
  cases h with
  | ok hc => simp [hc]
  | raise => rfl

theorem value_more {L : Lang X T V C E W} {n : Nat} {p : Stmt X T} {w : W}
    {a : Option (Ans E W C)} (h : value L n p w = some a) : exec L n p {} w ≠ .more := by
  intro h0
  simp [value, h0] at h

/-- From the two directions for one statement to `Computes`. -/
theorem computes_of {L : Lang X T V C E W} {p : Stmt X T} {w : W} {R : Ans E W C → Prop}
    (h1 : ∀ r, R r → ∃ N, ∀ n, N ≤ n → Sees (exec L n p {} w) r)
    (h2 : ∀ n, exec L n p {} w ≠ .more → ∃ r, Sees (exec L n p {} w) r ∧ R r) :
    Computes L p w R := by
  constructor
  · intro r hr
    obtain ⟨N, hN⟩ := h1 r hr
    exact ⟨N, fun n hn => value_sees (hN n hn)⟩
  · intro n a ha
    obtain ⟨r, hs, hr⟩ := h2 n (value_more ha)
    rw [value_sees hs] at ha
    exact ⟨r, (Option.some.inj ha).symm, hr⟩

theorem computes_plain (L : Lang X T V C E W) (hp : Pairs L) (k : Kind) (e : Elt X)
    (hf : e.fits k) (cs : List (Clause X T)) (w : W) :
    Computes L (.seq (.new k none) (.seq (nest k e cs) .skip)) w (Comprehends L k e cs w) := by
  have he : ∀ n, exec L n (.seq (.new k none) (.seq (nest k e cs) .skip)) ({} : St V C) w =
      exec L n (nest k e cs) { coll := some (L.new k) } w := fun n => exec_wrap1 L n _ _ _
  apply computes_of
  · intro r hr
    obtain ⟨N, hN⟩ := runs_exec L hp k e hf hr
    refine ⟨N, fun n hn => ?_⟩
    rw [he]
    exact hN n n hn hn _ rfl
  · intro n h
    rw [he] at h ⊢
    exact exec_runs L hp k e hf n cs _ _ w rfl h

theorem exec_fast (L : Lang X T V C E W) (n : Nat) (k : Kind) (e : Elt X) (t : T) (x : X) (w : W)
    (hl : ∀ w v w', L.eval x w = (.ok v, w') → ∃ m, L.len v w' = (.ok m, w')) :
    ∃ s : St V C, s.coll = some (L.new k) ∧
      exec L n (.seq (.setIter x) (.seq (.newLen k) (.seq
        (.for_ (some t) .var (setFinal (finalCall k) (wrap (form e ([] : List (Clause X T)))))) .skip)))
        ({} : St V C) w =
      andThen ((L.eval x w).bind L.iter) fun it w => runLoop L n k e t it [] n s w := by
  rcases ans_cases (L.eval x w) with ⟨v, w1, hv⟩ | ⟨y, w1, hv⟩
  · obtain ⟨m, hm⟩ := hl w v w1 hv
    refine ⟨{ coll := some (L.new k), src := some v }, rfl, ?_⟩
    have : (L.eval x w).bind L.iter = L.iter v w1 := by rw [hv]; rfl
    rw [this]
    simp only [exec, andThen_ok hv, have_, source]
    simp only [Out.next, andThen_ok hm]
    exact next_ok _
  · refine ⟨{ coll := some (L.new k) }, rfl, ?_⟩
    have : (L.eval x w).bind L.iter = (.error y, w1) := by rw [hv]; rfl
    rw [this]
    simp only [exec, andThen_err hv, Out.next]
    rfl

theorem computes_fast (L : Lang X T V C E W) (hp : Pairs L) (e : Elt X)
    (hf : e.fits .list) (t : T) (x : X) (w : W)
    (hl : ∀ w v w', L.eval x w = (.ok v, w') → ∃ m, L.len v w' = (.ok m, w')) :
    Computes L (.seq (.setIter x) (.seq (.newLen .list) (.seq
      (.for_ (some t) .var (setFinal (finalCall .list) (wrap (form e ([] : List (Clause X T))))))
      .skip))) w (Comprehends L .list e [.for_ t x] w) := by
  apply computes_of
  · intro r hr
    cases hr with
    | forErr h =>
      refine ⟨0, fun n _ => ?_⟩
      obtain ⟨s, hs, he⟩ := exec_fast L n .list e t x w hl
      rw [he, andThen_err h]
      exact .raise _ _
    | forOk h hr =>
      obtain ⟨N, hN⟩ := runs_exec L hp .list e hf hr
      refine ⟨N, fun n hn => ?_⟩
      obtain ⟨s, hs, he⟩ := exec_fast L n .list e t x w hl
      rw [he, andThen_ok h]
      exact hN n n hn hn s hs
  · intro n h
    obtain ⟨s, hs, he⟩ := exec_fast L n .list e t x w hl
    rw [he] at h ⊢
    rcases ans_cases ((L.eval x w).bind L.iter) with ⟨it, w1, hq⟩ | ⟨y, w1, hq⟩
    · rw [andThen_ok hq] at h ⊢
      obtain ⟨r, h1, h2⟩ := loop_runs L .list e [] n (exec_runs L hp .list e hf n []) t it n s _ w1
        hs h
      exact ⟨r, h1, .forOk hq h2⟩
    · rw [andThen_err hq]
      exact ⟨_, .raise _ _, .forErr hq⟩

/-! ### Displays -/

/-- A star loop of a display: `put` is what its body does with the item. -/
theorem drains_loop (L : Lang X T V C E W) (put : V → C → W → Ans E W C)
    (body : St V C → W → Out V C E W)
    (hb : ∀ (s : St V C) v c w, s.tmp = some v → s.coll = some c → Sees (body s w) (put v c w))
    {it : V} {c : C} {w : W} {r : Ans E W C} (h : Drains L put it c w r) :
    ∃ N, ∀ j, N ≤ j → ∀ s : St V C, s.coll = some c →
      Sees (loop L (store L none) body it j s w) r := by
  induction h with
  | nextErr h =>
    refine ⟨1, fun j hj s hs => ?_⟩
    obtain ⟨j, rfl⟩ : ∃ i, j = i + 1 := ⟨j - 1, by omega⟩
    simp only [loop, andThen_err h]
    exact .raise _ _
  | stop h =>
    refine ⟨1, fun j hj s hs => ?_⟩
    obtain ⟨j, rfl⟩ : ∃ i, j = i + 1 := ⟨j - 1, by omega⟩
    simp only [loop, andThen_ok h]
    exact .ok hs
  | @putErr c w v w1 e w2 h hp =>
    refine ⟨1, fun j hj s hs => ?_⟩
    obtain ⟨j, rfl⟩ : ∃ i, j = i + 1 := ⟨j - 1, by omega⟩
    have := hb { s with tmp := some v } v c w1 rfl hs
    simp only [loop, andThen_ok h, store, Out.next]
    rw [hp] at this
    generalize body { s with tmp := some v } w1 = o at this ⊢
    cases this
    exact .raise _ _
  | @step c w v w1 c2 w2 r h hp _ ih =>
    obtain ⟨N, ih⟩ := ih
    refine ⟨N + 1, fun j hj s hs => ?_⟩
    obtain ⟨j, rfl⟩ : ∃ i, j = i + 1 := ⟨j - 1, by omega⟩
    have := hb { s with tmp := some v } v c w1 rfl hs
    simp only [loop, andThen_ok h, store, Out.next]
    rw [hp] at this
    generalize body { s with tmp := some v } w1 = o at this ⊢
    cases this with
    | ok hc => exact ih j (by omega) _ hc

theorem loop_drains (L : Lang X T V C E W) (put : V → C → W → Ans E W C)
    (body : St V C → W → Out V C E W)
    (hb : ∀ (s : St V C) v c w, s.tmp = some v → s.coll = some c → Sees (body s w) (put v c w))
    (it : V) : ∀ (j : Nat) (s : St V C) (c : C) (w : W), s.coll = some c →
      loop L (store L none) body it j s w ≠ .more →
      ∃ r, Sees (loop L (store L none) body it j s w) r ∧ Drains L put it c w r := by
  intro j
  induction j with
  | zero => intro s c w _ h; exact absurd rfl h
  | succ j ih =>
    intro s c w hs h
    rcases ans_cases (L.next it w) with ⟨o, w1, hn⟩ | ⟨x, w1, hn⟩
    · cases o with
      | none =>
        simp only [loop, andThen_ok hn]
        exact ⟨_, .ok hs, .stop hn⟩
      | some v =>
        have hsee := hb { s with tmp := some v } v c w1 rfl hs
        simp only [loop, andThen_ok hn, store, Out.next] at h ⊢
        generalize hr : put v c w1 = r at hsee
        generalize body { s with tmp := some v } w1 = o at h hsee ⊢
        cases hsee with
        | ok hc =>
          obtain ⟨r, h1, h2⟩ := ih _ _ _ hc h
          exact ⟨r, h1, .step hn hr h2⟩
        | raise x w2 => exact ⟨_, .raise _ _, .putErr hn hr⟩
    · simp only [loop, andThen_err hn]
      exact ⟨_, .raise _ _, .nextErr hn⟩

/-- The body of the loop for `*e`. -/
theorem sees_star (L : Lang X T V C E W) (n : Nat) (k : Kind) (hk : k ≠ .dict) (s : St V C) (v : V)
    (c : C) (w : W) (ht : s.tmp = some v) (hs : s.coll = some c) :
    Sees (exec L n (.seq (.call k [.tmp] false) .skip : Stmt X T) s w) (L.add k c v w) := by
  rw [exec_wrap1]
  have h : exec L n (.call k [.tmp] false : Stmt X T) s w =
      andThen (L.add k c v w) fun c w => .ok { s with coll := some c } w := by
    cases k
    · simp [exec, execCall, evalArg, have_, ht, hs, callFn]
    · simp [exec, execCall, evalArg, have_, ht, hs, callFn]
    · exact absurd rfl hk
  rw [h]
  exact sees_put L s

/-- The body of the loop for `**e`. -/
theorem sees_dstar (L : Lang X T V C E W) (n : Nat) (s : St V C) (v : V)
    (c : C) (w : W) (ht : s.tmp = some v) (hs : s.coll = some c) :
    Sees (exec L n (.seq (.call .dict [.tmp0, .tmp1] false) .skip : Stmt X T) s w)
      (L.setitem c (L.fst v) (L.snd v) w) := by
  rw [exec_wrap1]
  have h : exec L n (.call .dict [.tmp0, .tmp1] false : Stmt X T) s w =
      andThen (L.setitem c (L.fst v) (L.snd v) w) fun c w => .ok { s with coll := some c } w := by
    simp [exec, execCall, evalArg, have_, ht, hs, callFn]
  rw [h]
  exact sees_put L s

theorem sees_elt (L : Lang X T V C E W) (hp : Pairs L) (k : Kind) (e : Elt X) (hf : e.fits k)
    (n : Nat) {s : St V C} {c : C} (hs : s.coll = some c) (w : W) :
    Sees (exec L n (itemStmt k (.elt e) : Stmt X T) s w) (putElt L k e c w) := by
  cases e with
  | one x =>
    have hk : k ≠ .dict := hf
    have : (itemStmt k (.elt (.one x)) : Stmt X T) = finalCall k (.one x) := by
      cases k
      · rfl
      · rfl
      · exact absurd rfl hk
    rw [this]
    exact sees_final L hp k _ hf n hs w
  | pair x y =>
    have hk : k = .dict := hf
    subst hk
    simp only [itemStmt, if_true, exec, execCall, evalArg, evalElt, putElt]
    rcases ans_cases (L.eval x w) with ⟨a, w1, h1⟩ | ⟨y, w1, h1⟩
    · rw [andThen_ok h1, h1]
      simp only [Ans.bind]
      rcases ans_cases (L.eval y w1) with ⟨b, w2, h2⟩ | ⟨y, w2, h2⟩
      · rw [andThen_ok h2, h2]
        simp only [have_, hs, List.nil_append, List.singleton_append, callFn, (hp _ _).1, (hp _ _).2,
          Bool.false_eq_true, if_false]
        exact sees_put L { s with lead := some (L.pair a b) }
      · rw [andThen_err h2, h2]
        exact .raise _ _
    · rw [andThen_err h1, h1]
      exact .raise _ _

theorem puts_exec (L : Lang X T V C E W) (hp : Pairs L) (k : Kind) (i : Item X) (hf : i.fits k)
    {c : C} {w : W} {r : Ans E W C} (h : Puts L k i c w r) :
    ∃ N, ∀ n, N ≤ n → ∀ s : St V C, s.coll = some c →
      Sees (exec L n (itemStmt k i : Stmt X T) s w) r := by
  cases h with
  | elt e c w => exact ⟨0, fun n _ s hs => sees_elt L hp k e hf n hs w⟩
  | starErr h =>
    refine ⟨0, fun n _ s hs => ?_⟩
    simp only [itemStmt, exec, source, andThen_bind, andThen_err h]
    exact .raise _ _
  | dstarErr h =>
    refine ⟨0, fun n _ s hs => ?_⟩
    simp only [itemStmt, exec, source, andThen_bind, andThen_err h]
    exact .raise _ _
  | star h hr =>
    have hd : ∀ n, ∃ N, ∀ j, N ≤ j → ∀ s : St V C, s.coll = some c → _ := fun n =>
      drains_loop L _ (fun s w => exec L n (.seq (.call k [.tmp] false) .skip : Stmt X T) s w)
        (fun s v c w ht hs => sees_star L n k hf s v c w ht hs) hr
    obtain ⟨N, hN⟩ := hd 0
    refine ⟨N, fun n hn s hs => ?_⟩
    have := hN n hn s hs
    simp only [itemStmt, exec, source, andThen_bind, andThen_ok h] at this ⊢
    exact this
  | dstar h hr =>
    have hk : k = .dict := hf
    subst hk
    obtain ⟨N, hN⟩ := drains_loop L _
      (fun s w => exec L 0 (.seq (.call .dict [.tmp0, .tmp1] false) .skip : Stmt X T) s w)
      (fun s v c w ht hs => sees_dstar L 0 s v c w ht hs) hr
    refine ⟨N, fun n hn s hs => ?_⟩
    have := hN n hn s hs
    simp only [itemStmt, exec, source, andThen_bind, andThen_ok h] at this ⊢
    exact this

theorem exec_puts (L : Lang X T V C E W) (hp : Pairs L) (k : Kind) (i : Item X) (hf : i.fits k)
    (n : Nat) {s : St V C} {c : C} (hs : s.coll = some c) (w : W)
    (h : exec L n (itemStmt k i : Stmt X T) s w ≠ .more) :
    ∃ r, Sees (exec L n (itemStmt k i : Stmt X T) s w) r ∧ Puts L k i c w r := by
  cases i with
  | elt e => exact ⟨_, sees_elt L hp k e hf n hs w, .elt e c w⟩
  | star x =>
    rcases ans_cases ((L.eval x w).bind L.iter) with ⟨it, w1, hq⟩ | ⟨y, w1, hq⟩
    · simp only [itemStmt, exec, source, andThen_bind, andThen_ok hq] at h ⊢
      obtain ⟨r, h1, h2⟩ := loop_drains L _
        (fun s w => exec L n (.seq (.call k [.tmp] false) .skip : Stmt X T) s w)
        (fun s v c w ht hs => sees_star L n k hf s v c w ht hs) it n s c w1 hs h
      exact ⟨r, h1, .star hq h2⟩
    · simp only [itemStmt, exec, source, andThen_bind, andThen_err hq]
      exact ⟨_, .raise _ _, .starErr hq⟩
  | dstar x =>
    have hk : k = .dict := hf
    subst hk
    rcases ans_cases ((L.eval x w).bind L.items) with ⟨it, w1, hq⟩ | ⟨y, w1, hq⟩
    · simp only [itemStmt, exec, source, andThen_bind, andThen_ok hq] at h ⊢
      obtain ⟨r, h1, h2⟩ := loop_drains L _
        (fun s w => exec L n (.seq (.call .dict [.tmp0, .tmp1] false) .skip : Stmt X T) s w)
        (fun s v c w ht hs => sees_dstar L n s v c w ht hs) it n s c w1 hs h
      exact ⟨r, h1, .dstar hq h2⟩
    · simp only [itemStmt, exec, source, andThen_bind, andThen_err hq]
      exact ⟨_, .raise _ _, .dstarErr hq⟩

/-- The items one after another. -/
def body (k : Kind) (is : List (Item X)) : Stmt X T :=
  is.foldr (fun i r => .seq (itemStmt k i) r) .skip

theorem putsAll_exec (L : Lang X T V C E W) (hp : Pairs L) (k : Kind) {is : List (Item X)}
    {c : C} {w : W} {r : Ans E W C} (h : PutsAll L k is c w r) (hf : ∀ i ∈ is, i.fits k) :
    ∃ N, ∀ n, N ≤ n → ∀ s : St V C, s.coll = some c →
      Sees (exec L n (body k is : Stmt X T) s w) r := by
  induction h with
  | nil c w => exact ⟨0, fun n _ s hs => .ok hs⟩
  | @err i is c w e w' h =>
    obtain ⟨N, hN⟩ := puts_exec (T := T) L hp k i (hf i (by simp)) h
    refine ⟨N, fun n hn s hs => ?_⟩
    have := hN n hn s hs
    simp only [body, List.foldr_cons, exec]
    generalize exec L n (itemStmt k i : Stmt X T) s w = o at this ⊢
    cases this
    exact .raise _ _
  | @cons i is c w c' w' r h _ ih =>
    obtain ⟨N, hN⟩ := puts_exec (T := T) L hp k i (hf i (by simp)) h
    obtain ⟨N2, hN2⟩ := ih fun i hi => hf i (by simp [hi])
    refine ⟨N + N2, fun n hn s hs => ?_⟩
    have := hN n (by omega) s hs
    simp only [body, List.foldr_cons, exec]
    generalize exec L n (itemStmt k i : Stmt X T) s w = o at this ⊢
    cases this with
    | ok hc => exact hN2 n (by omega) _ hc

theorem exec_putsAll (L : Lang X T V C E W) (hp : Pairs L) (k : Kind) (n : Nat)
    (is : List (Item X)) (hf : ∀ i ∈ is, i.fits k) :
    ∀ {s : St V C} {c : C} (_ : s.coll = some c) (w : W),
      exec L n (body k is : Stmt X T) s w ≠ .more →
      ∃ r, Sees (exec L n (body k is : Stmt X T) s w) r ∧ PutsAll L k is c w r := by
  induction is with
  | nil => intro s c hs w _; exact ⟨_, .ok hs, .nil c w⟩
  | cons i is ih =>
    intro s c hs w h
    simp only [body, List.foldr_cons, exec] at h ⊢
    have hne : exec L n (itemStmt k i : Stmt X T) s w ≠ .more := by
      intro h0
      rw [h0] at h
      exact h rfl
    obtain ⟨r, h1, h2⟩ := exec_puts L hp k i (hf i (by simp)) n hs w hne
    generalize exec L n (itemStmt k i : Stmt X T) s w = o at h h1 ⊢
    cases h1 with
    | ok hc =>
      obtain ⟨r, h3, h4⟩ := ih (fun i hi => hf i (by simp [hi])) hc _ h
      exact ⟨r, h3, .cons h2 h4⟩
    | raise e w1 => exact ⟨_, .raise _ _, .err h2⟩

end Codon.Compr
