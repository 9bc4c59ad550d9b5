import Verif.Async.Queue
import Verif.Async.Heap
import Verif.Async.Spec
/-!
Histories of an event loop: helper lemmas.
-/
namespace Codon.Async
universe u v
variable {W : Type u} {K : Type v}

theorem ranNodes_append (a b : List (Ev W K)) : ranNodes (a ++ b) = ranNodes a ++ ranNodes b := List.flatMap_append

theorem lostNodes_append (a b : List (Ev W K)) : lostNodes (a ++ b) = lostNodes a ++ lostNodes b := List.flatMap_append

theorem fired_append (a b : List (Ev W K)) : fired (a ++ b) = fired a ++ fired b := List.flatMap_append

theorem enqueued_append (a b : List (Ev W K)) : enqueued (a ++ b) = enqueued a ++ enqueued b := List.flatMap_append

theorem Gave.mono {es : List (Ev W K)} {n : Nat} {w : W} (h : Gave es n w) (es' : List (Ev W K)) : Gave (es ++ es') n w := by
  cases h with
  | soon h => exact .soon (List.mem_append_left _ h)
  | timer h k => exact .timer (by rw [fired_append]; exact List.mem_append_left _ h) (List.mem_append_left _ k)

variable [LinearOrder K]

/-- What holds after a history. -/
structure G (es : List (Ev W K)) (s : Loop W K) (L : List Nat) : Prop where
  inv : Inv s L
  heap : IsHeap s.heap
  cap : s.heap.length ≤ s.cap
  cap0 : s.closed = false → 0 < s.cap
  shut : s.closed = true → s.heap = []
  order : (ranNodes es ++ L).Pairwise (· < ·)
  bound : ∀ n ∈ ranNodes es, n < s.numNodes
  works : ∀ n nd w, s.nodes n = some nd → nd.work = some w → Gave es n w
  acct : s.closed = false → ∀ n, n < s.numNodes → n ∈ ranNodes es ∨ n ∈ L ∨ Ev.cancelledHandle n ∈ es ∨ n ∈ lostNodes es
  talloc : ∀ t, (s.timers t).isSome = true ↔ t < s.numTimers
  tmade : ∀ t k w, Ev.timer t k w ∈ es → t < s.numTimers
  tuniq : ∀ t k w k' w', Ev.timer t k w ∈ es → Ev.timer t k' w' ∈ es → k = k' ∧ w = w'
  theap : ∀ k t, (k, t) ∈ s.heap → ∃ w, Ev.timer t k w ∈ es
  tnodup : ((fired es).map (fun f => f.2.1) ++ s.heap.map (·.2)).Nodup
  tacct : s.closed = false → ∀ t k w, Ev.timer t k w ∈ es → (k, t) ∈ s.heap ∨ ∃ o, (k, t, o) ∈ fired es
  allocs : enqueued es = List.range s.numNodes
  tfired : ∀ f ∈ fired es, f.2.1 < s.numTimers
  twork : ∀ t w, s.timers t = some (some w) → ∃ k, Ev.timer t k w ∈ es

theorem G.init : G [] (Async.init : Loop W K) [] := by
  refine ⟨⟨?_, ?_, ?_, rfl, rfl, List.nodup_nil, fun _ => rfl⟩, ?_, ?_, ?_, ?_, List.Pairwise.nil, ?_, ?_, ?_, ?_, ?_, ?_, ?_, List.nodup_nil, ?_, ?_, ?_, ?_⟩ <;>
    simp [Async.init, IsHeap, ranNodes, enqueued, fired]

/-- What `_enqueue_timers` does. -/
theorem enqueueTimers_ok (now : K) : ∀ (fuel : Nat) (s : Loop W K) (L : List Nat), Inv s L → IsHeap s.heap → s.heap.length ≤ fuel →
    (s.closed = true → s.heap = []) → (∀ k t, (k, t) ∈ s.heap → (s.timers t).isSome = true) →
    ∃ l s' M, enqueueTimers fuel now s = some (l, s') ∧ Inv s' (L ++ M) ∧ IsHeap s'.heap ∧ s'.timers = s.timers ∧ s'.numTimers = s.numTimers ∧
      s'.cap = s.cap ∧ s'.stop = s.stop ∧ s'.closed = s.closed ∧
      s.heap.Perm (l.map (fun f => (f.1, f.2.1)) ++ s'.heap) ∧ (∀ f ∈ l, f.1 ≤ now) ∧ l.Pairwise (fun a b => a.1 ≤ b.1) ∧
      (∀ x ∈ s'.heap, now < x.1) ∧ M = List.range' s.numNodes (s'.numNodes - s.numNodes) ∧ s.numNodes ≤ s'.numNodes ∧
      (∀ f ∈ l, ∀ n, f.2.2 = some n → ∃ w, s.timers f.2.1 = some (some w)) ∧
      (∀ f ∈ l, f.2.2 = none → s.timers f.2.1 = some none) ∧
      (∀ n nd w, s'.nodes n = some nd → nd.work = some w → (∃ nd0, s.nodes n = some nd0 ∧ nd0.work = some w) ∨
        ∃ f ∈ l, f.2.2 = some n ∧ s.timers f.2.1 = some (some w)) ∧
      (∀ n nd, s.nodes n = some nd → nd.work = none → ∃ nd', s'.nodes n = some nd' ∧ nd'.work = none) ∧
      l.filterMap (fun x => x.2.2) = M := by
  intro fuel
  induction fuel with
  | zero =>
    intro s L hI hH hf hcl ht
    have hn : s.heap = [] := List.length_eq_zero_iff.mp (by omega)
    refine ⟨[], s, [], ?_, by simpa using hI, hH, rfl, rfl, rfl, rfl, rfl, ?_, ?_, ?_, ?_, ?_, ?_, ?_, ?_, ?_, ?_, rfl⟩ <;> try simp [hn]
    · rw [enqueueTimers]; simp [hn]
    · intro n nd w h1 h2; exact ⟨nd, h1, h2⟩
    · intro n nd h1 h2; exact ⟨nd, h1, h2⟩
  | succ fuel ih =>
    intro s L hI hH hf hcl ht
    cases hh : s.heap with
    | nil =>
      refine ⟨[], s, [], ?_, by simpa using hI, hH, rfl, rfl, rfl, rfl, rfl, ?_, ?_, ?_, ?_, ?_, ?_, ?_, ?_, ?_, ?_, rfl⟩ <;> try simp [hh]
      · rw [enqueueTimers]; simp [hh]
      · intro n nd w h1 h2; exact ⟨nd, h1, h2⟩
      · intro n nd h1 h2; exact ⟨nd, h1, h2⟩
    | cons x rest =>
      rw [hh] at hH hf
      have hc : s.closed = false := by
        cases hx : s.closed with
        | false => rfl
        | true => rw [hcl hx] at hh; cases hh
      by_cases hx : x.1 ≤ now
      · obtain ⟨b, hp, hb2, hb3⟩ := pop_ok hH
        have hxm : (s.timers x.2).isSome = true := ht x.1 x.2 (by rw [hh]; exact List.mem_cons_self ..)
        have hbt : ∀ k t, (k, t) ∈ b → (s.timers t).isSome = true := fun k t hm => ht k t (by rw [hh]; exact List.mem_cons_of_mem _ (hb2.mem_iff.mp hm))
        have hbl := hb2.length_eq
        have hroot : ∀ y ∈ b, x.1 ≤ y.1 := by
          intro y hy
          have hy' : y ∈ x :: rest := List.mem_cons_of_mem _ (hb2.mem_iff.mp hy)
          obtain ⟨i, hi⟩ := List.getElem?_of_mem hy'
          exact hH.root (r := x) rfl i y hi
        simp only [List.length_cons] at hf
        cases htx : s.timers x.2 with
        | none => rw [htx] at hxm; cases hxm
        | some ow =>
          cases ow with
          | none =>
            obtain ⟨l, s', M, e1, e2, e3, e4, e5, e6, e7, e8, e9, e10, e11, e12, e13, e14, e15, e16, e17, e18, e19⟩ :=
              ih { s with heap := b } L ⟨hI.alloc, hI.links, hI.out, hI.head, hI.tail, hI.nodup, hI.shut⟩ hb3 (by simp only; omega)
                (by simp [hc]) hbt
            refine ⟨(x.1, x.2, none) :: l, s', M, ?_, e2, e3, e4, e5, e6, e7, e8, ?_, ?_, ?_, e12, e13, e14, ?_, ?_, ?_, e18, by simpa using e19⟩
            · rw [enqueueTimers]
              simp only [hh, hx, if_true, hp, htx, e1]
            · simp only [List.map_cons, List.cons_append]
              exact (hb2.symm.trans e9).cons x
            · intro f hf
              rcases List.mem_cons.mp hf with rfl | hf
              · exact hx
              · exact e10 f hf
            · rw [List.pairwise_cons]
              refine ⟨fun f hf => hroot (f.1, f.2.1) (e9.mem_iff.mpr (List.mem_append_left _ (List.mem_map.mpr ⟨f, hf, rfl⟩))), e11⟩
            · intro f hf n hn
              rcases List.mem_cons.mp hf with rfl | hf
              · cases hn
              · exact e15 f hf n hn
            · intro f hf hn
              rcases List.mem_cons.mp hf with rfl | hf
              · exact htx
              · exact e16 f hf hn
            · intro n nd w h1 h2
              rcases e17 n nd w h1 h2 with h | ⟨f, hf, h3, h4⟩
              · exact Or.inl h
              · exact Or.inr ⟨f, List.mem_cons_of_mem _ hf, h3, h4⟩
          | some w =>
            obtain ⟨s1, q1, q2, q3, q4, q5, q6, q7, q8, q9, q10, q11⟩ := enqueue_ok (s := { s with heap := b }) (L := L)
              ⟨hI.alloc, hI.links, hI.out, hI.head, hI.tail, hI.nodup, hI.shut⟩ hc w
            simp only at q3 q4 q5 q6 q7 q8 q9
            obtain ⟨l, s', M, e1, e2, e3, e4, e5, e6, e7, e8, e9, e10, e11, e12, e13, e14, e15, e16, e17, e18, e19⟩ :=
              ih s1 _ q2 (by rw [q6]; exact hb3) (by rw [q6]; omega) (by rw [q9, hc]; intro h; cases h) (by rw [q4, q6]; exact hbt)
            rw [q4] at e15 e16 e17
            refine ⟨(x.1, x.2, some s.numNodes) :: l, s', s.numNodes :: M, ?_, ?_, e3, e4.trans q4, e5.trans q5, e6.trans q7, e7.trans q8, e8.trans q9,
              ?_, ?_, ?_, e12, ?_, by omega, ?_, ?_, ?_, ?_, by simpa using e19⟩
            · rw [enqueueTimers]
              simp only [hh, hx, if_true, hp, htx, q1, e1]
            · rw [List.append_cons]
              exact e2
            · simp only [List.map_cons, List.cons_append]
              rw [q6] at e9
              exact (hb2.symm.trans e9).cons x
            · intro f hf
              rcases List.mem_cons.mp hf with rfl | hf
              · exact hx
              · exact e10 f hf
            · rw [List.pairwise_cons]
              rw [q6] at e9
              refine ⟨fun f hf => hroot (f.1, f.2.1) (e9.mem_iff.mpr (List.mem_append_left _ (List.mem_map.mpr ⟨f, hf, rfl⟩))), e11⟩
            · rw [e13, q3, show s'.numNodes - s.numNodes = (s'.numNodes - (s.numNodes + 1)) + 1 by omega, List.range'_succ]
            · intro f hf n hn
              rcases List.mem_cons.mp hf with rfl | hf
              · exact ⟨w, htx⟩
              · exact e15 f hf n hn
            · intro f hf hn
              rcases List.mem_cons.mp hf with rfl | hf
              · cases hn
              · exact e16 f hf hn
            · intro n nd w' h1 h2
              rcases e17 n nd w' h1 h2 with ⟨nd0, h3, h4⟩ | ⟨f, hf, h3, h4⟩
              · by_cases hn : n = s.numNodes
                · subst hn
                  obtain ⟨nd1, k1, k2⟩ := q11
                  simp only at k1
                  rw [h3] at k1
                  cases k1
                  rw [h4] at k2
                  cases k2
                  exact Or.inr ⟨_, List.mem_cons_self .., rfl, htx⟩
                · obtain ⟨nd1, k1, k2⟩ := q10 n nd0 h3 hn
                  exact Or.inl ⟨nd1, k1, by rw [← k2]; exact h4⟩
              · exact Or.inr ⟨f, List.mem_cons_of_mem _ hf, h3, h4⟩
            · intro n nd h1 h2
              have hn : n < s.numNodes := (hI.alloc n).mp (by rw [h1]; rfl)
              obtain ⟨nd1, k1⟩ := Option.isSome_iff_exists.mp ((q2.alloc n).mpr (by omega))
              obtain ⟨nd2, k3, k4⟩ := q10 n nd1 k1 (by simp only; omega)
              simp only at k3
              rw [h1] at k3
              cases k3
              exact e18 n nd1 k1 (k4.trans h2)
      · refine ⟨[], s, [], ?_, by simpa using hI, by rw [hh]; exact hH, rfl, rfl, rfl, rfl, rfl, ?_, ?_, ?_, ?_, ?_, ?_, ?_, ?_, ?_, ?_, rfl⟩ <;> try simp [hh]
        · rw [enqueueTimers]; simp [hh, hx]
        · refine ⟨not_le.mp hx, fun k t hm => ?_⟩
          obtain ⟨i, hi⟩ := List.getElem?_of_mem (List.mem_cons_of_mem x hm)
          exact lt_of_lt_of_le (not_le.mp hx) (hH.root (r := x) rfl i _ hi)
        · intro n nd w h1 h2; exact ⟨nd, h1, h2⟩
        · intro n nd h1 h2; exact ⟨nd, h1, h2⟩

/-! ### One operation -/

theorem pairwise_snoc {l : List Nat} {n : Nat} (h : l.Pairwise (· < ·)) (hb : ∀ x ∈ l, x < n) : (l ++ [n]).Pairwise (· < ·) := by
  rw [List.pairwise_append]
  exact ⟨h, List.pairwise_singleton _ _, fun a ha b hb' => by rw [List.mem_singleton.mp hb']; exact hb a ha⟩

theorem G.ltAll {es : List (Ev W K)} {s : Loop W K} {L : List Nat} (h : G es s L) : ∀ n ∈ ranNodes es ++ L, n < s.numNodes := by
  intro n hn
  rcases List.mem_append.mp hn with hn | hn
  · exact h.bound n hn
  · exact h.inv.lt hn

/-- An event that shows nothing new and a state that differs in nothing of interest. -/
theorem G.quiet {es : List (Ev W K)} {s s' : Loop W K} {L L' : List Nat} (h : G es s L) {e : Ev W K} (hI : Inv s' L') (hF : Frame s s')
    (hr : ranNodes [e] = []) (hf : fired [e] = []) (hq : enqueued [e] = []) (ht : ∀ t k w, e ≠ .timer t k w)
    (hL : L'.Sublist L) (hc : ∀ n ∈ L, n ∈ L' ∨ e = .cancelledHandle n) : G (es ++ [e]) s' L' := by
  refine ⟨hI, ?_, ?_, ?_, ?_, ?_, ?_, ?_, ?_, ?_, ?_, ?_, ?_, ?_, ?_, ?_, ?_, ?_⟩
  · rw [hF.heap]; exact h.heap
  · rw [hF.heap, hF.cap]; exact h.cap
  · rw [hF.closed, hF.cap]; exact h.cap0
  · rw [hF.closed, hF.heap]; exact h.shut
  · rw [ranNodes_append, hr, List.append_nil]
    exact h.order.sublist ((List.Sublist.refl _).append hL)
  · rw [ranNodes_append, hr, List.append_nil, hF.numNodes]; exact h.bound
  · intro n nd w h1 h2
    obtain ⟨nd0, h3, h4⟩ := hF.work n nd h1
    rcases h4 with h4 | h4
    · exact (h.works n nd0 w h3 (h4 ▸ h2)).mono _
    · rw [h2] at h4; cases h4
  · intro hcl n hn
    rw [hF.numNodes] at hn
    rw [hF.closed] at hcl
    rw [ranNodes_append, hr, List.append_nil, lostNodes_append]
    rcases h.acct hcl n hn with h1 | h1 | h1 | h1
    · exact Or.inl h1
    · rcases hc n h1 with h2 | h2
      · exact Or.inr (Or.inl h2)
      · exact Or.inr (Or.inr (Or.inl (List.mem_append_right _ (by rw [h2]; exact List.mem_singleton.mpr rfl))))
    · exact Or.inr (Or.inr (Or.inl (List.mem_append_left _ h1)))
    · exact Or.inr (Or.inr (Or.inr (List.mem_append_left _ h1)))
  · rw [hF.timers, hF.numTimers]; exact h.talloc
  · intro t k w hm
    rw [hF.numTimers]
    rcases List.mem_append.mp hm with hm | hm
    · exact h.tmade t k w hm
    · exact absurd (List.mem_singleton.mp hm).symm (ht t k w)
  · intro t k w k' w' hm hm'
    rcases List.mem_append.mp hm with hm | hm
    · rcases List.mem_append.mp hm' with hm' | hm'
      · exact h.tuniq t k w k' w' hm hm'
      · exact absurd (List.mem_singleton.mp hm').symm (ht _ _ _)
    · exact absurd (List.mem_singleton.mp hm).symm (ht t k w)
  · intro k t hm
    rw [hF.heap] at hm
    obtain ⟨w, hw⟩ := h.theap k t hm
    exact ⟨w, List.mem_append_left _ hw⟩
  · rw [fired_append, hf, List.append_nil, hF.heap]; exact h.tnodup
  · intro hcl t k w hm
    rw [hF.closed] at hcl
    rw [hF.heap, fired_append, hf, List.append_nil]
    rcases List.mem_append.mp hm with hm | hm
    · exact h.tacct hcl t k w hm
    · exact absurd (List.mem_singleton.mp hm).symm (ht t k w)
  · rw [enqueued_append, hq, List.append_nil, hF.numNodes]; exact h.allocs
  · rw [fired_append, hf, List.append_nil, hF.numTimers]; exact h.tfired
  · intro t w hw
    rw [hF.timers] at hw
    obtain ⟨k, hk⟩ := h.twork t w hw
    exact ⟨k, List.mem_append_left _ hk⟩

theorem Frame.refl (s : Loop W K) : Frame s s := ⟨rfl, rfl, rfl, rfl, rfl, rfl, rfl, fun _ nd hn => ⟨nd, hn, Or.inl rfl⟩⟩

theorem soon_ok {es : List (Ev W K)} {s : Loop W K} {L : List Nat} (h : G es s L) (w : W) : ∃ e s' L',
    doOp (.soon w) s = some (e, s') ∧ G (es ++ [e]) s' L' ∧ (s.closed = false → e = .scheduled s.numNodes w) := by
  cases hc : s.closed with
  | true =>
    refine ⟨.error .runtime, s, L, by simp [doOp, hc], h.quiet h.inv (Frame.refl s) rfl rfl rfl (by simp) (List.Sublist.refl _)
      (fun n hn => Or.inl hn), by simp⟩
  | false =>
    obtain ⟨s', q1, q2, q3, q4, q5, q6, q7, q8, q9, q10, q11⟩ := enqueue_ok h.inv hc w
    refine ⟨.scheduled s.numNodes w, s', _, by simp [doOp, hc, q1], ⟨q2, ?_, ?_, ?_, ?_, ?_, ?_, ?_, ?_, ?_, ?_, ?_, ?_, ?_, ?_, ?_, ?_, ?_⟩, fun _ => rfl⟩
    · rw [q6]; exact h.heap
    · rw [q6, q7]; exact h.cap
    · rw [q9, q7]; exact h.cap0
    · rw [q9, q6]; exact h.shut
    · rw [ranNodes_append]
      show (ranNodes es ++ [] ++ (L ++ [s.numNodes])).Pairwise _
      rw [List.append_nil, ← List.append_assoc]
      exact pairwise_snoc h.order h.ltAll
    · rw [ranNodes_append]
      show ∀ n ∈ ranNodes es ++ [], _
      rw [List.append_nil, q3]
      exact fun n hn => Nat.lt_succ_of_lt (h.bound n hn)
    · intro n nd w' h1 h2
      by_cases hn : n = s.numNodes
      · subst hn
        obtain ⟨nd1, k1, k2⟩ := q11
        rw [h1] at k1
        cases k1
        rw [h2] at k2
        cases k2
        exact .soon (List.mem_append_right _ (List.mem_singleton.mpr rfl))
      · obtain ⟨nd0, k1, k2⟩ := q10 n nd h1 hn
        exact (h.works n nd0 w' k1 (k2 ▸ h2)).mono _
    · intro hcl n hn
      rw [ranNodes_append, lostNodes_append]
      show n ∈ ranNodes es ++ [] ∨ _ ∨ _ ∨ n ∈ lostNodes es ++ []
      rw [List.append_nil, List.append_nil]
      by_cases he : n = s.numNodes
      · exact Or.inr (Or.inl (by simp [he]))
      · rcases h.acct hc n (by omega) with h1 | h1 | h1 | h1
        · exact Or.inl h1
        · exact Or.inr (Or.inl (List.mem_append_left _ h1))
        · exact Or.inr (Or.inr (Or.inl (List.mem_append_left _ h1)))
        · exact Or.inr (Or.inr (Or.inr h1))
    · rw [q4, q5]; exact h.talloc
    · intro t k w hm
      rw [q5]
      rcases List.mem_append.mp hm with hm | hm
      · exact h.tmade t k w hm
      · simp at hm
    · intro t k w k' w' hm hm'
      exact h.tuniq t k w k' w' (by simpa using hm) (by simpa using hm')
    · intro k t hm
      rw [q6] at hm
      obtain ⟨w, hw⟩ := h.theap k t hm
      exact ⟨w, List.mem_append_left _ hw⟩
    · rw [fired_append, q6]
      show ((fired es ++ []).map _ ++ _).Nodup
      rw [List.append_nil]
      exact h.tnodup
    · intro hcl t k w hm
      rw [q6, fired_append]
      show _ ∨ ∃ o, _ ∈ fired es ++ []
      rw [List.append_nil]
      exact h.tacct hc t k w (by simpa using hm)
    · rw [enqueued_append, h.allocs, q3, List.range_succ]
      rfl
    · rw [fired_append, q5]
      show ∀ f ∈ fired es ++ [], _
      rw [List.append_nil]
      exact h.tfired
    · intro t w' hw
      rw [q4] at hw
      obtain ⟨k, hk⟩ := h.twork t w' hw
      exact ⟨k, List.mem_append_left _ hk⟩

theorem later_ok {es : List (Ev W K)} {s : Loop W K} {L : List Nat} (h : G es s L) (w : W) (k : K) : ∃ e s' L',
    doOp (.later w k) s = some (e, s') ∧ G (es ++ [e]) s' L' ∧ (s.closed = false → e = .timer s.numTimers k w) := by
  cases hc : s.closed with
  | true =>
    refine ⟨.error .runtime, s, L, by simp [doOp, hc], h.quiet h.inv (Frame.refl s) rfl rfl rfl (by simp) (List.Sublist.refl _)
      (fun n hn => Or.inl hn), by simp⟩
  | false =>
    obtain ⟨b, cap', q1, q2, q3, q4, q5⟩ := push_ok h.heap h.cap (h.cap0 hc) (k, s.numTimers)
    have hmem : ∀ x, x ∈ b ↔ x ∈ s.heap ∨ x = (k, s.numTimers) := fun x => by rw [q2.mem_iff]; simp
    refine ⟨.timer s.numTimers k w,
      { s with timers := upd s.timers s.numTimers (some w), numTimers := s.numTimers + 1, heap := b, cap := cap' }, L, by simp [doOp, hc, q1],
      ⟨⟨h.inv.alloc, h.inv.links, h.inv.out, h.inv.head, h.inv.tail, h.inv.nodup, h.inv.shut⟩, q3, q4, fun _ => q5, ?_, ?_, ?_, ?_, ?_, ?_, ?_, ?_, ?_, ?_, ?_, ?_, ?_, ?_⟩, fun _ => rfl⟩
    · simp [hc]
    · rw [ranNodes_append]
      show (ranNodes es ++ [] ++ L).Pairwise _
      rw [List.append_nil]
      exact h.order
    · rw [ranNodes_append]
      show ∀ n ∈ ranNodes es ++ [], _
      rw [List.append_nil]
      exact h.bound
    · intro n nd w' h1 h2
      exact (h.works n nd w' h1 h2).mono _
    · intro hcl n hn
      rw [ranNodes_append, lostNodes_append]
      show n ∈ ranNodes es ++ [] ∨ _ ∨ _ ∨ n ∈ lostNodes es ++ []
      rw [List.append_nil, List.append_nil]
      rcases h.acct hc n hn with h1 | h1 | h1 | h1
      · exact Or.inl h1
      · exact Or.inr (Or.inl h1)
      · exact Or.inr (Or.inr (Or.inl (List.mem_append_left _ h1)))
      · exact Or.inr (Or.inr (Or.inr h1))
    · intro t
      have := h.talloc t
      simp only [upd]
      by_cases ht : t = s.numTimers
      · simp [ht]
      · rw [if_neg ht, this]; omega
    · intro t k' w' hm
      simp only [List.mem_append, List.mem_singleton, Ev.timer.injEq] at hm
      rcases hm with hm | ⟨hm, _⟩
      · exact Nat.lt_succ_of_lt (h.tmade t k' w' hm)
      · simp only [hm]; omega
    · intro t k1 w1 k2 w2 hm hm'
      simp only [List.mem_append, List.mem_singleton, Ev.timer.injEq] at hm hm'
      rcases hm with hm | ⟨ha, hb, hcc⟩ <;> rcases hm' with hm' | ⟨ha', hb', hc'⟩
      · exact h.tuniq t k1 w1 k2 w2 hm hm'
      · exact absurd (h.tmade _ _ _ hm) (by omega)
      · exact absurd (h.tmade _ _ _ hm') (by omega)
      · exact ⟨hb.trans hb'.symm, hcc.trans hc'.symm⟩
    · intro k' t hm
      rcases (hmem _).mp hm with hm | hm
      · obtain ⟨w, hw⟩ := h.theap k' t hm
        exact ⟨w, List.mem_append_left _ hw⟩
      · cases hm
        exact ⟨w, List.mem_append_right _ (List.mem_singleton.mpr rfl)⟩
    · rw [fired_append]
      show ((fired es ++ []).map _ ++ b.map (·.2)).Nodup
      rw [List.append_nil]
      have p1 : (b.map (·.2)).Perm (s.heap.map (·.2) ++ [s.numTimers]) := by
        have := q2.map (·.2)
        simpa using this
      rw [(p1.append_left ((fired es).map (fun f => f.2.1))).nodup_iff, ← List.append_assoc, List.nodup_append]
      refine ⟨h.tnodup, by simp, ?_⟩
      intro a ha b hb
      rw [List.mem_singleton.mp hb]
      rintro rfl
      have hlt : ∀ t, (t ∈ (fired es).map (fun f => f.2.1) ++ s.heap.map (·.2)) → t < s.numTimers := by
        intro t ht
        rcases List.mem_append.mp ht with ht | ht
        · obtain ⟨f, hf, rfl⟩ := List.mem_map.mp ht
          exact h.tfired f hf
        · obtain ⟨x, hx, rfl⟩ := List.mem_map.mp ht
          obtain ⟨w, hw⟩ := h.theap x.1 x.2 hx
          exact h.tmade _ _ _ hw
      exact absurd (hlt _ ha) (by omega)
    · intro hcl t k' w' hm
      rw [fired_append]
      show _ ∨ ∃ o, _ ∈ fired es ++ []
      rw [List.append_nil]
      simp only [List.mem_append, List.mem_singleton, Ev.timer.injEq] at hm
      rcases hm with hm | ⟨rfl, rfl, rfl⟩
      · rcases h.tacct hc t k' w' hm with h1 | h1
        · exact Or.inl ((hmem _).mpr (Or.inl h1))
        · exact Or.inr h1
      · exact Or.inl ((hmem _).mpr (Or.inr rfl))
    · rw [enqueued_append, h.allocs]
      show _ ++ [] = _
      rw [List.append_nil]
    · rw [fired_append]
      show ∀ f ∈ fired es ++ [], _
      rw [List.append_nil]
      exact fun f hf => Nat.lt_succ_of_lt (h.tfired f hf)
    · intro t w' hw
      simp only [upd] at hw
      split at hw
      · rename_i ht
        cases hw
        exact ⟨k, List.mem_append_right _ (by rw [ht]; exact List.mem_singleton.mpr rfl)⟩
      · obtain ⟨k', hk⟩ := h.twork t w' hw
        exact ⟨k', List.mem_append_left _ hk⟩

theorem unlink_err {s s' : Loop W K} {a : Nat} {e : Err} (h : unlink s a = some (some e, s')) : e = .value := by
  unfold unlink at h
  repeat' split at h
  all_goals first
    | (cases h; done)
    | (cases h; rfl)

theorem cancelHandle_ok {es : List (Ev W K)} {s : Loop W K} {L : List Nat} (h : G es s L) {n : Nat} {nd : WNode W} (hn : s.nodes n = some nd) :
    ∃ e s' L', doOp (.cancelHandle n) s = some (e, s') ∧ G (es ++ [e]) s' L' ∧ (e = .cancelledHandle n ∨ e = .error .value) ∧
      (n ∈ L → e = .cancelledHandle n) ∧ (n ∉ L → nd.work ≠ none → L ≠ [] → e = .error .value) ∧
      (∀ nd', s'.nodes n = some nd' → nd'.work = none) := by
  by_cases hm : n ∈ L
  · obtain ⟨k, hk⟩ := List.getElem?_of_mem hm
    obtain ⟨s', q1, q2, q3, q4⟩ := unlink_mem h.inv hk
    refine ⟨.cancelledHandle n, s', L.eraseIdx k, by simp [doOp, q1], h.quiet q2 q3 rfl rfl rfl (by simp) (List.eraseIdx_sublist ..) ?_, Or.inl rfl, fun _ => rfl, fun hx => absurd hm hx, q4⟩
    intro m hmL
    by_cases he : m = n
    · exact Or.inr (by rw [he])
    · left
      obtain ⟨i, hi⟩ := List.getElem?_of_mem hmL
      have : i ≠ k := fun e => he (by subst e; rw [hk] at hi; exact (Option.some.inj hi).symm)
      rw [List.mem_iff_getElem?]
      by_cases hik : i < k
      · exact ⟨i, by rw [List.getElem?_eraseIdx, if_pos hik, hi]⟩
      · exact ⟨i - 1, by rw [List.getElem?_eraseIdx, if_neg (by omega), show i - 1 + 1 = i by omega, hi]⟩
  · obtain ⟨e, s', q1, q2, q3, q4, q5⟩ := unlink_not_mem h.inv hm hn
    cases e with
    | none =>
      refine ⟨.cancelledHandle n, s', L, by simp [doOp, q1], h.quiet q2 q3 rfl rfl rfl (by simp) (List.Sublist.refl _) (fun _ hx => Or.inl hx), Or.inl rfl,
        fun _ => rfl, fun _ h1 h2 => ?_, q5⟩
      rcases q4.mp rfl with h3 | h3
      · exact absurd h3 h1
      · exact absurd h3 h2
    | some e =>
      have he : e = .value := by
        simp only [cancelHandle, hn] at q1
        split at q1
        · cases q1
        · exact unlink_err q1
      subst he
      exact ⟨.error .value, s', L, by simp [doOp, q1], h.quiet q2 q3 rfl rfl rfl (by simp) (List.Sublist.refl _) (fun _ hx => Or.inl hx), Or.inr rfl,
        fun hx => absurd hx hm, fun _ _ _ => rfl, q5⟩

/-- A state that differs in the work of timers, the flags and what is left of a closed loop. -/
theorem G.flags {es : List (Ev W K)} {s s' : Loop W K} {L L' : List Nat} (h : G es s L) {e : Ev W K} (hI : Inv s' L')
    (hr : ranNodes [e] = []) (hf : fired [e] = []) (hq : enqueued [e] = []) (ht : ∀ t k w, e ≠ .timer t k w)
    (hnodes : s'.nodes = s.nodes) (hnum : s'.numNodes = s.numNodes) (hnt : s'.numTimers = s.numTimers)
    (htm : ∀ t, s'.timers t = s.timers t ∨ (s.timers t).isSome = true ∧ s'.timers t = some none)
    (hcase : (s'.heap = s.heap ∧ L' = L ∧ s'.cap = s.cap ∧ s'.closed = s.closed) ∨ (s'.heap = [] ∧ L' = [] ∧ s'.closed = true)) :
    G (es ++ [e]) s' L' := by
  refine ⟨hI, ?_, ?_, ?_, ?_, ?_, ?_, ?_, ?_, ?_, ?_, ?_, ?_, ?_, ?_, ?_, ?_, ?_⟩
  · rcases hcase with ⟨h1, _⟩ | ⟨h1, _⟩
    · rw [h1]; exact h.heap
    · rw [h1]; intro j x y _ hy; simp at hy
  · rcases hcase with ⟨h1, _, h3, _⟩ | ⟨h1, _⟩
    · rw [h1, h3]; exact h.cap
    · rw [h1]; exact Nat.zero_le _
  · intro hc
    rcases hcase with ⟨_, _, h3, h4⟩ | ⟨_, _, h3⟩
    · rw [h3]; exact h.cap0 (h4 ▸ hc)
    · rw [h3] at hc; cases hc
  · intro hc
    rcases hcase with ⟨h1, _, _, h4⟩ | ⟨h1, _⟩
    · rw [h1]; exact h.shut (h4 ▸ hc)
    · exact h1
  · rw [ranNodes_append, hr, List.append_nil]
    rcases hcase with ⟨_, h2, _⟩ | ⟨_, h2, _⟩
    · rw [h2]; exact h.order
    · rw [h2, List.append_nil]
      exact h.order.sublist (List.sublist_append_left ..)
  · rw [ranNodes_append, hr, List.append_nil, hnum]; exact h.bound
  · intro n nd w h1 h2
    rw [hnodes] at h1
    exact (h.works n nd w h1 h2).mono _
  · intro hcl n hn
    rcases hcase with ⟨_, h2, _, h4⟩ | ⟨_, _, h3⟩
    · rw [hnum] at hn
      rw [h4] at hcl
      rw [ranNodes_append, hr, List.append_nil, lostNodes_append, h2]
      rcases h.acct hcl n hn with h1 | h1 | h1 | h1
      · exact Or.inl h1
      · exact Or.inr (Or.inl h1)
      · exact Or.inr (Or.inr (Or.inl (List.mem_append_left _ h1)))
      · exact Or.inr (Or.inr (Or.inr (List.mem_append_left _ h1)))
    · rw [h3] at hcl; cases hcl
  · intro t
    rw [hnt, ← h.talloc t]
    rcases htm t with h1 | ⟨h1, h2⟩
    · rw [h1]
    · rw [h2, h1]; simp
  · intro t k w hm
    rw [hnt]
    rcases List.mem_append.mp hm with hm | hm
    · exact h.tmade t k w hm
    · exact absurd (List.mem_singleton.mp hm).symm (ht t k w)
  · intro t k w k' w' hm hm'
    rcases List.mem_append.mp hm with hm | hm
    · rcases List.mem_append.mp hm' with hm' | hm'
      · exact h.tuniq t k w k' w' hm hm'
      · exact absurd (List.mem_singleton.mp hm').symm (ht _ _ _)
    · exact absurd (List.mem_singleton.mp hm).symm (ht t k w)
  · intro k t hm
    rcases hcase with ⟨h1, _⟩ | ⟨h1, _⟩
    · rw [h1] at hm
      obtain ⟨w, hw⟩ := h.theap k t hm
      exact ⟨w, List.mem_append_left _ hw⟩
    · rw [h1] at hm; cases hm
  · rw [fired_append, hf, List.append_nil]
    rcases hcase with ⟨h1, _⟩ | ⟨h1, _⟩
    · rw [h1]; exact h.tnodup
    · rw [h1]
      exact h.tnodup.sublist (by simp)
  · intro hcl t k w hm
    rcases hcase with ⟨h1, h2, _, h4⟩ | ⟨_, _, h3⟩
    · rw [h4] at hcl
      rw [h1, fired_append, hf, List.append_nil]
      rcases List.mem_append.mp hm with hm | hm
      · exact h.tacct hcl t k w hm
      · exact absurd (List.mem_singleton.mp hm).symm (ht t k w)
    · rw [h3] at hcl; cases hcl
  · rw [enqueued_append, hq, List.append_nil, hnum]; exact h.allocs
  · rw [fired_append, hf, List.append_nil, hnt]; exact h.tfired
  · intro t w hw
    rcases htm t with h1 | ⟨_, h2⟩
    · rw [h1] at hw
      obtain ⟨k, hk⟩ := h.twork t w hw
      exact ⟨k, List.mem_append_left _ hk⟩
    · rw [h2] at hw; cases hw

theorem cancelTimer_ok {es : List (Ev W K)} {s : Loop W K} {L : List Nat} (h : G es s L) {t : Nat} (ht : (s.timers t).isSome = true) :
    ∃ s', doOp (.cancelTimer t) s = some (.cancelledTimer t, s') ∧ G (es ++ [.cancelledTimer t]) s' L ∧ s'.timers t = some none := by
  cases hx : s.timers t with
  | none => rw [hx] at ht; cases ht
  | some ow =>
    cases ow with
    | none =>
      exact ⟨s, by simp [doOp, cancelTimer, hx], h.quiet h.inv (Frame.refl s) rfl rfl rfl (by simp) (List.Sublist.refl _) (fun _ hn => Or.inl hn), hx⟩
    | some w =>
      refine ⟨{ s with timers := upd s.timers t none }, by simp [doOp, cancelTimer, hx], h.flags (L' := L)
        ⟨h.inv.alloc, h.inv.links, h.inv.out, h.inv.head, h.inv.tail, h.inv.nodup, h.inv.shut⟩ rfl rfl rfl (by simp) rfl rfl rfl ?_
        (Or.inl ⟨rfl, rfl, rfl, rfl⟩), by simp [upd]⟩
      intro t'
      by_cases he : t' = t
      · right; rw [he, hx]; simp [upd]
      · left; simp [upd, he]

theorem flag_ok {es : List (Ev W K)} {s : Loop W K} {L : List Nat} (h : G es s L) (o : Op W K) (ho : o = .stop ∨ o = .run ∨ o = .close) :
    ∃ e s' L', doOp o s = some (e, s') ∧ G (es ++ [e]) s' L' ∧ s'.nodes = s.nodes ∧ s'.timers = s.timers ∧ (e = .done ∨ e = .error .runtime) := by
  have hq : ∀ e : Ev W K, e = .done ∨ e = .error .runtime → G (es ++ [e]) s L := by
    rintro e (rfl | rfl) <;> exact h.quiet h.inv (Frame.refl s) rfl rfl rfl (by simp) (List.Sublist.refl _) (fun _ hn => Or.inl hn)
  rcases ho with rfl | rfl | rfl
  · exact ⟨.done, _, L, rfl, h.flags (L' := L) ⟨h.inv.alloc, h.inv.links, h.inv.out, h.inv.head, h.inv.tail, h.inv.nodup, h.inv.shut⟩ rfl rfl rfl
      (by simp) rfl rfl rfl (fun _ => Or.inl rfl) (Or.inl ⟨rfl, rfl, rfl, rfl⟩), rfl, rfl, Or.inl rfl⟩
  · cases hc : s.closed with
    | true => exact ⟨.error .runtime, s, L, by simp [doOp, hc], hq _ (Or.inr rfl), rfl, rfl, Or.inr rfl⟩
    | false =>
      exact ⟨.done, { s with stop := false }, L, by simp [doOp, hc], h.flags (L' := L)
        ⟨h.inv.alloc, h.inv.links, h.inv.out, h.inv.head, h.inv.tail, h.inv.nodup, h.inv.shut⟩ rfl rfl rfl
        (by simp) rfl rfl rfl (fun _ => Or.inl rfl) (Or.inl ⟨rfl, rfl, rfl, rfl⟩), rfl, rfl, Or.inl rfl⟩
  · cases hc : s.closed with
    | true => exact ⟨.done, s, L, by simp [doOp, hc], hq _ (Or.inl rfl), rfl, rfl, Or.inl rfl⟩
    | false =>
      exact ⟨.done, { s with head := none, tail := none, heap := [], cap := 0, closed := true, stop := true }, [], by simp [doOp, hc],
        h.flags (L' := []) ⟨h.inv.alloc, fun i n hi => by simp at hi, fun hx => by simp at hx, rfl, rfl, List.nodup_nil, fun _ => rfl⟩ rfl rfl rfl
        (by simp) rfl rfl rfl (fun _ => Or.inl rfl) (Or.inr ⟨rfl, rfl, rfl⟩), rfl, rfl, Or.inl rfl⟩

/-- What one step did. -/
structure Stepped (es : List (Ev W K)) (now : K) (s : Loop W K) (f : List (K × Nat × Option Nat)) (r : Ran W) (s' : Loop W K) (L' : List Nat) : Prop where
  due : ∀ x ∈ f, x.1 ≤ now
  pending : ∀ x ∈ f, (x.1, x.2.1) ∈ s.heap
  sorted : f.Pairwise (fun a b => a.1 ≤ b.1)
  rest : ∀ x ∈ s'.heap, now < x.1
  live : ∀ x ∈ f, ∀ n, x.2.2 = some n → ∃ w, s.timers x.2.1 = some (some w)
  dead : ∀ x ∈ f, x.2.2 = none → s.timers x.2.1 = some none
  timers : s'.timers = s.timers
  flags : s'.closed = s.closed ∧ s'.stop = s.stop
  idle : r = .idle → L' = []
  stopped : ∀ x, r = .stopped x → s.stop = true
  ran : ∀ n w, r = .ran n w → ∃ w0, w = some w0 ∧ Gave (es ++ [.stepped now f r]) n w0
  none_ : ∀ n nd, s.nodes n = some nd → nd.work = none → (∀ w, r ≠ .ran n w) ∧ ∃ nd', s'.nodes n = some nd' ∧ nd'.work = none

theorem range_append (a b : Nat) (h : a ≤ b) : List.range a ++ List.range' a (b - a) = List.range b := by
  have := List.range'_append_1 (s := 0) (m := a) (n := b - a)
  rw [Nat.zero_add, Nat.add_sub_cancel' h] at this
  rw [List.range_eq_range', List.range_eq_range', this]

theorem step_ok {es : List (Ev W K)} {s : Loop W K} {L : List Nat} (h : G es s L) (now : K) : ∃ f r s' L',
    doOp (.step now) s = some (.stepped now f r, s') ∧ G (es ++ [.stepped now f r]) s' L' ∧ Stepped es now s f r s' L' := by
  obtain ⟨l, s1, M, e1, e2, e3, e4, e5, e6, e7, e8, e9, e10, e11, e12, e13, e14, e15, e16, e17, e18, e19⟩ :=
    enqueueTimers_ok now s.heap.length s L h.inv h.heap (Nat.le_refl _) h.shut (fun k t hm => by
      obtain ⟨w, hw⟩ := h.theap k t hm
      exact (h.talloc t).mpr (h.tmade t k w hw))
  have hmemh : ∀ x, x ∈ s1.heap → x ∈ s.heap := fun x hx => e9.mem_iff.mpr (List.mem_append_right _ hx)
  have hmeml : ∀ f ∈ l, (f.1, f.2.1) ∈ s.heap := fun f hf => e9.mem_iff.mpr (List.mem_append_left _ (List.mem_map.mpr ⟨f, hf, rfl⟩))
  have hlen : s1.heap.length ≤ s.heap.length := by rw [e9.length_eq, List.length_append]; omega
  have hM : ∀ n, n ∈ M ↔ s.numNodes ≤ n ∧ n < s1.numNodes := by
    intro n
    rw [e13, List.mem_range'_1]
    omega
  have hord : (ranNodes es ++ (L ++ M)).Pairwise (· < ·) := by
    rw [← List.append_assoc, List.pairwise_append]
    refine ⟨h.order, by rw [e13]; exact List.pairwise_lt_range' , fun a ha b hb => ?_⟩
    exact Nat.lt_of_lt_of_le (h.ltAll a ha) ((hM b).mp hb).1
  -- everything but the queue, for any outcome of the step
  have main : ∀ (r : Ran W) (s' : Loop W K) (L' : List Nat), Inv s' L' → Frame s1 s' →
      (ranNodes [(.stepped now l r : Ev W K)] ++ L' = L ++ M ∨ ranNodes [(.stepped now l r : Ev W K)] = [] ∧ L'.Sublist (L ++ M)) →
      (∀ n ∈ L ++ M, n ∈ ranNodes [(.stepped now l r : Ev W K)] ∨ n ∈ L' ∨ n ∈ lostNodes [(.stepped now l r : Ev W K)]) →
      G (es ++ [.stepped now l r]) s' L' := by
    intro r s' L' hI hF hL hA
    have hfe : fired [(.stepped now l r : Ev W K)] = l := by simp [fired]
    have hcl : s'.closed = s.closed := hF.closed.trans e8
    have hnum := hF.numNodes
    refine ⟨hI, by rw [hF.heap]; exact e3, by rw [hF.heap, hF.cap, e6]; exact Nat.le_trans hlen h.cap, by rw [hcl, hF.cap, e6]; exact h.cap0, ?_, ?_, ?_, ?_, ?_, ?_, ?_, ?_, ?_, ?_, ?_, ?_, ?_, ?_⟩
    · intro hc
      rw [hcl] at hc
      have := h.shut hc
      rw [this] at hlen
      rw [hF.heap]
      exact List.length_eq_zero_iff.mp (Nat.le_zero.mp hlen)
    · rw [ranNodes_append, List.append_assoc]
      rcases hL with hL | ⟨hL1, hL2⟩
      · rw [hL]; exact hord
      · rw [hL1, List.nil_append]
        exact hord.sublist ((List.Sublist.refl _).append hL2)
    · rw [ranNodes_append, hnum]
      intro n hn
      rcases List.mem_append.mp hn with hn | hn
      · exact Nat.lt_of_lt_of_le (h.bound n hn) e14
      · rcases hL with hL | ⟨hL1, _⟩
        · exact e2.lt (by rw [← hL]; exact List.mem_append_left _ hn)
        · rw [hL1] at hn; cases hn
    · intro n nd w h1 h2
      obtain ⟨nd1, h3, h4⟩ := hF.work n nd h1
      rcases h4 with h4 | h4
      · rcases e17 n nd1 w h3 (h4 ▸ h2) with ⟨nd0, h5, h6⟩ | ⟨f, hf, h5, h6⟩
        · exact (h.works n nd0 w h5 h6).mono _
        · obtain ⟨k, hk⟩ := h.twork _ _ h6
          obtain ⟨w', hw'⟩ := h.theap f.1 f.2.1 (hmeml f hf)
          obtain ⟨hk1, hk2⟩ := h.tuniq _ _ _ _ _ hk hw'
          subst hk1 hk2
          refine .timer (t := f.2.1) (k := f.1) ?_ (List.mem_append_left _ hw')
          rw [fired_append, hfe]
          exact List.mem_append_right _ (by rw [← h5]; exact hf)
      · rw [h2] at h4; cases h4
    · intro hc n hn
      rw [hcl] at hc
      rw [hnum] at hn
      rw [ranNodes_append, lostNodes_append]
      have key : n ∈ L ++ M → n ∈ ranNodes es ++ ranNodes [(.stepped now l r : Ev W K)] ∨ n ∈ L' ∨ Ev.cancelledHandle n ∈ es ++ [.stepped now l r] ∨
          n ∈ lostNodes es ++ lostNodes [(.stepped now l r : Ev W K)] := fun hm => by
        rcases hA n hm with h1 | h1 | h1
        · exact Or.inl (List.mem_append_right _ h1)
        · exact Or.inr (Or.inl h1)
        · exact Or.inr (Or.inr (Or.inr (List.mem_append_right _ h1)))
      by_cases hlt : n < s.numNodes
      · rcases h.acct hc n hlt with h1 | h1 | h1 | h1
        · exact Or.inl (List.mem_append_left _ h1)
        · exact key (List.mem_append_left _ h1)
        · exact Or.inr (Or.inr (Or.inl (List.mem_append_left _ h1)))
        · exact Or.inr (Or.inr (Or.inr (List.mem_append_left _ h1)))
      · exact key (List.mem_append_right _ ((hM n).mpr ⟨by omega, hn⟩))
    · rw [hF.timers, hF.numTimers, e4, e5]; exact h.talloc
    · intro t k w hm
      rw [hF.numTimers, e5]
      exact h.tmade t k w (by simpa using hm)
    · intro t k w k' w' hm hm'
      exact h.tuniq t k w k' w' (by simpa using hm) (by simpa using hm')
    · intro k t hm
      rw [hF.heap] at hm
      obtain ⟨w, hw⟩ := h.theap k t (hmemh _ hm)
      exact ⟨w, List.mem_append_left _ hw⟩
    · rw [fired_append, hfe, hF.heap, List.map_append, List.append_assoc]
      have p1 := e9.map (·.2)
      rw [List.map_append, List.map_map] at p1
      exact ((p1.append_left _).nodup_iff).mp h.tnodup
    · intro hc t k w hm
      rw [hcl] at hc
      rw [fired_append, hfe, hF.heap]
      rcases h.tacct hc t k w (by simpa using hm) with h1 | ⟨o, h1⟩
      · rcases List.mem_append.mp (e9.mem_iff.mp h1) with h2 | h2
        · obtain ⟨f, hf, h3⟩ := List.mem_map.mp h2
          refine Or.inr ⟨f.2.2, List.mem_append_right _ ?_⟩
          cases h3
          exact hf
        · exact Or.inl h2
      · exact Or.inr ⟨o, List.mem_append_left _ h1⟩
    · rw [enqueued_append, h.allocs, hnum]
      show List.range s.numNodes ++ (l.filterMap _ ++ []) = _
      rw [List.append_nil, e19, e13]
      exact range_append _ _ e14
    · rw [fired_append, hfe, hF.numTimers, e5]
      intro f hf
      rcases List.mem_append.mp hf with hf | hf
      · exact h.tfired f hf
      · obtain ⟨w, hw⟩ := h.theap _ _ (hmeml f hf)
        exact h.tmade _ _ _ hw
    · intro t w hw
      rw [hF.timers, e4] at hw
      obtain ⟨k, hk⟩ := h.twork t w hw
      exact ⟨k, List.mem_append_left _ hk⟩
  cases ht : s1.tail with
  | none =>
    have hnil : L ++ M = [] := by
      cases hq : L ++ M with
      | nil => rfl
      | cons a as =>
        have := e2.tail
        rw [ht, hq] at this
        simp at this
    rw [hnil] at e2
    have hd : ∀ r : Ran W, ranNodes [(.stepped now l r : Ev W K)] = [] → (if s1.stop then .stopped none else .idle) = r →
        ∃ s' L', doOp (.step now) s = some (.stepped now l r, s') ∧ G (es ++ [.stepped now l r]) s' L' ∧ Stepped es now s l r s' L' := by
      intro r hr hr'
      refine ⟨s1, [], by simp [doOp, step, e1, ht, hr'], main r s1 [] e2 (Frame.refl s1) (Or.inr ⟨hr, List.nil_sublist _⟩) (by rw [hnil]; simp),
        ⟨e10, hmeml, e11, e12, e15, e16, e4, ⟨e8, e7⟩, fun _ => rfl, ?_, ?_, ?_⟩⟩
      · intro x hx
        rw [e7] at hr'
        cases hst : s.stop with
        | true => rfl
        | false => rw [hst] at hr'; simp only [Bool.false_eq_true, if_false] at hr'; rw [← hr'] at hx; cases hx
      · intro n w hx
        rw [hx] at hr'
        split at hr' <;> cases hr'
      · intro n nd h1 h2
        refine ⟨fun w hx => ?_, e18 n nd h1 h2⟩
        rw [hx] at hr'
        split at hr' <;> cases hr'
    obtain ⟨s', L', h1, h2, h3⟩ := hd (if s1.stop then .stopped none else .idle) (by split <;> rfl) rfl
    exact ⟨l, _, s', L', h1, h2, h3⟩
  | some t =>
    cases hq : L ++ M with
    | nil =>
      have := e2.tail
      rw [ht, hq] at this
      cases this
    | cons n Q =>
      rw [hq] at e2
      obtain ⟨w, s', nd, d1, d2, d3, d4, d5⟩ := dequeue_ok e2
      have hg : Gave (es ++ [.stepped now l (.ran n (some w))]) n w := by
        have hI1 : Inv s1 (L ++ M) := hq ▸ e2
        have := main .idle s1 (L ++ M) hI1 (Frame.refl s1) (Or.inr ⟨rfl, List.Sublist.refl _⟩) (fun m hm => Or.inr (Or.inl hm))
        have hgv := this.works n nd w d2 d3
        cases hgv with
        | soon hx => exact .soon (by simpa using hx)
        | timer hx hy =>
          refine .timer (by rw [fired_append] at hx ⊢; exact hx) (by simpa using hy)
      have hnw : ∀ m nd, s.nodes m = some nd → nd.work = none → m ≠ n ∧ ∃ nd', s'.nodes m = some nd' ∧ nd'.work = none := by
        intro m nd0 h1 h2
        obtain ⟨nd1, h3, h4⟩ := e18 m nd0 h1 h2
        refine ⟨fun e => ?_, ?_⟩
        · subst e
          rw [d2] at h3
          cases h3
          rw [d3] at h4
          cases h4
        · have hlt : m < s1.numNodes := (e2.alloc m).mp (by rw [h3]; rfl)
          obtain ⟨nd2, k1⟩ := Option.isSome_iff_exists.mp ((d4.alloc m).mpr (by rw [d5.numNodes]; exact hlt))
          obtain ⟨nd3, k2, k3⟩ := d5.work m nd2 k1
          rw [h3] at k2
          cases k2
          exact ⟨nd2, k1, by rcases k3 with k3 | k3; exact k3.trans h4; exact k3⟩
      cases hst : s1.stop with
      | true =>
        have hst' : s'.stop = true := d5.stop.trans hst
        refine ⟨l, .stopped (some (n, some w)), s', Q, by simp [doOp, step, e1, ht, d1, hst'], main _ s' Q d4 d5 (Or.inr ⟨rfl, by rw [hq]; exact List.sublist_cons_self ..⟩) ?_,
          ⟨e10, hmeml, e11, by rw [d5.heap]; exact e12, e15, e16, d5.timers.trans e4, ⟨d5.closed.trans e8, d5.stop.trans e7⟩, (fun hx => by cases hx), fun _ _ => e7 ▸ hst, (fun n w hx => by cases hx), ?_⟩⟩
        · intro m hm
          rw [hq] at hm
          rcases List.mem_cons.mp hm with rfl | hm
          · exact Or.inr (Or.inr (by simp [lostNodes]))
          · exact Or.inr (Or.inl hm)
        · intro m nd0 h1 h2
          exact ⟨(fun w hx => by cases hx), (hnw m nd0 h1 h2).2⟩
      | false =>
        have hst' : s'.stop = false := d5.stop.trans hst
        refine ⟨l, .ran n (some w), s', Q, by simp [doOp, step, e1, ht, d1, hst'], main _ s' Q d4 d5 (Or.inl (by rw [hq]; rfl)) ?_,
          ⟨e10, hmeml, e11, by rw [d5.heap]; exact e12, e15, e16, d5.timers.trans e4, ⟨d5.closed.trans e8, d5.stop.trans e7⟩, (fun hx => by cases hx), (fun x hx => by cases hx), ?_, ?_⟩⟩
        · intro m hm
          rw [hq] at hm
          rcases List.mem_cons.mp hm with rfl | hm
          · exact Or.inl (by simp [ranNodes])
          · exact Or.inr (Or.inl hm)
        · intro n' w' hx
          cases hx
          exact ⟨w, rfl, hg⟩
        · intro m nd0 h1 h2
          obtain ⟨h3, h4⟩ := hnw m nd0 h1 h2
          exact ⟨fun w hx => by cases hx; exact h3 rfl, h4⟩

/-- What is cancelled stays so, and is not run; the flags change by `stop`, `run_forever` and `close` only. -/
structure Keeps (s : Loop W K) (o : Op W K) (e : Ev W K) (s' : Loop W K) : Prop where
  nodes : ∀ n nd, s.nodes n = some nd → nd.work = none → n ∉ ranNodes [e] ∧ ∃ nd', s'.nodes n = some nd' ∧ nd'.work = none
  timers : ∀ t, s.timers t = some none → s'.timers t = some none ∧ ∀ k n, (k, t, some n) ∉ fired [e]
  tnew : ∀ t, s'.timers t = some none → s.timers t = some none ∨ e = .cancelledTimer t
  closed : o ≠ .close → s'.closed = s.closed
  stop : s'.stop = true → s.stop = true ∨ o = .stop ∨ o = .close
  lost : lostNodes [e] ≠ [] → s.stop = true
  hcancel : ∀ n, e = .cancelledHandle n → ∃ nd', s'.nodes n = some nd' ∧ nd'.work = none
  tcancel : ∀ t, e = .cancelledTimer t → s'.timers t = some none

omit [LinearOrder K] in
theorem Keeps.frame {s s' : Loop W K} {n : Nat} {e : Ev W K} (h1 : ∀ n, (s.nodes n).isSome = true → (s'.nodes n).isSome = true) (h2 : Frame s s')
    (hn : (s.nodes n).isSome = true) (hc : ∀ nd', s'.nodes n = some nd' → nd'.work = none)
    (he : e = .cancelledHandle n ∨ e = .error .value) : Keeps s (.cancelHandle n) e s' := by
  have hr : ranNodes [e] = [] := by rcases he with rfl | rfl <;> rfl
  have hf : fired [e] = [] := by rcases he with rfl | rfl <;> rfl
  have hl : lostNodes [e] = [] := by rcases he with rfl | rfl <;> rfl
  refine ⟨fun n nd hn hw => ⟨by rw [hr]; simp, ?_⟩, fun t ht => ⟨by rw [h2.timers]; exact ht, by rw [hf]; simp⟩,
    fun t ht => Or.inl (by rw [← h2.timers]; exact ht), fun _ => h2.closed, fun hx => Or.inl (h2.stop ▸ hx), fun hx => absurd hl hx, ?_, ?_⟩
  · obtain ⟨nd', k1⟩ := Option.isSome_iff_exists.mp (h1 n (by rw [hn]; rfl))
    obtain ⟨nd0, k2, k3⟩ := h2.work n nd' k1
    rw [hn] at k2
    cases k2
    exact ⟨nd', k1, by rcases k3 with k3 | k3; exact k3.trans hw; exact k3⟩
  · rintro m hm
    rcases he with rfl | rfl
    · cases hm
      obtain ⟨nd', k1⟩ := Option.isSome_iff_exists.mp (h1 n hn)
      exact ⟨nd', k1, hc nd' k1⟩
    · cases hm
  · rintro m hm
    rcases he with rfl | rfl <;> cases hm

omit [LinearOrder K] in
theorem Keeps.same {s s' : Loop W K} {o : Op W K} {e : Ev W K} (h1 : s'.nodes = s.nodes) (h2 : s'.timers = s.timers)
    (he : e = .done ∨ e = .error .runtime) (hc : o ≠ .close → s'.closed = s.closed) (hs : s'.stop = true → s.stop = true ∨ o = .stop ∨ o = .close) :
    Keeps s o e s' := by
  have hr : ranNodes [e] = [] := by rcases he with rfl | rfl <;> rfl
  have hf : fired [e] = [] := by rcases he with rfl | rfl <;> rfl
  have hl : lostNodes [e] = [] := by rcases he with rfl | rfl <;> rfl
  exact ⟨fun n nd hn hw => ⟨by rw [hr]; simp, nd, by rw [h1]; exact hn, hw⟩, fun t ht => ⟨by rw [h2]; exact ht, by rw [hf]; simp⟩,
    fun t ht => Or.inl (h2 ▸ ht), hc, hs, fun hx => absurd hl hx, (fun n hx => by rcases he with rfl | rfl <;> cases hx), (fun n hx => by rcases he with rfl | rfl <;> cases hx)⟩

/-- Everything an operation may do. -/
theorem doOp_ok {es : List (Ev W K)} {s : Loop W K} {L : List Nat} (h : G es s L) (o : Op W K) (hn : ∀ n, o = .cancelHandle n → n < s.numNodes)
    (ht : ∀ t, o = .cancelTimer t → t < s.numTimers) : ∃ e s' L', doOp o s = some (e, s') ∧ G (es ++ [e]) s' L' ∧ Keeps s o e s' := by
  cases o with
  | soon w =>
    obtain ⟨e, s', L', h1, h2, h3⟩ := soon_ok h w
    refine ⟨e, s', L', h1, h2, ?_⟩
    cases hc : s.closed with
    | true =>
      simp only [doOp, hc, if_true, Option.some.injEq, Prod.mk.injEq] at h1
      obtain ⟨rfl, rfl⟩ := h1
      exact Keeps.same rfl rfl (Or.inr rfl) (fun _ => rfl) Or.inl
    | false =>
      have he := h3 hc
      subst he
      obtain ⟨s2, q1, q2, q3, q4, q5, q6, q7, q8, q9, q10, q11⟩ := enqueue_ok h.inv hc w
      simp only [doOp, hc, q1, Bool.false_eq_true, if_false, Option.some.injEq, Prod.mk.injEq] at h1
      obtain ⟨-, rfl⟩ := h1
      refine ⟨fun n nd k1 k2 => ⟨by simp [ranNodes], ?_⟩, fun t k => ⟨by rw [q4]; exact k, by simp [fired]⟩, fun t k => Or.inl (q4 ▸ k),
        fun _ => q9, fun hx => Or.inl (q8 ▸ hx), fun hx => absurd rfl hx, (fun n hx => by cases hx), (fun n hx => by cases hx)⟩
      have hlt : n < s.numNodes := (h.inv.alloc n).mp (by rw [k1]; rfl)
      obtain ⟨nd', k3⟩ := Option.isSome_iff_exists.mp ((q2.alloc n).mpr (by omega))
      obtain ⟨nd0, k4, k5⟩ := q10 n nd' k3 (by omega)
      rw [k1] at k4
      cases k4
      exact ⟨nd', k3, k5.trans k2⟩
  | later w k =>
    obtain ⟨e, s', L', h1, h2, h3⟩ := later_ok h w k
    refine ⟨e, s', L', h1, h2, ?_⟩
    simp only [doOp] at h1
    split at h1
    · simp only [Option.some.injEq, Prod.mk.injEq] at h1
      obtain ⟨rfl, rfl⟩ := h1
      exact Keeps.same rfl rfl (Or.inr rfl) (fun _ => rfl) Or.inl
    · split at h1
      · cases h1
      · simp only [Option.some.injEq, Prod.mk.injEq] at h1
        obtain ⟨rfl, rfl⟩ := h1
        refine ⟨fun n nd k1 k2 => ⟨by simp [ranNodes], nd, k1, k2⟩, fun t k => ⟨?_, by simp [fired]⟩, ?_,
          fun _ => rfl, Or.inl, fun hx => absurd rfl hx, (fun n hx => by cases hx), (fun n hx => by cases hx)⟩
        · have : t < s.numTimers := (h.talloc t).mp (by rw [k]; rfl)
          show upd s.timers s.numTimers (some w) t = _
          rw [upd, if_neg (by omega)]
          exact k
        · intro t ht
          by_cases hx : t = s.numTimers
          · simp [upd, hx] at ht
          · simp only [upd, if_neg hx] at ht
            exact Or.inl ht
  | cancelHandle n =>
    obtain ⟨nd, hnd⟩ := Option.isSome_iff_exists.mp ((h.inv.alloc n).mpr (hn n rfl))
    obtain ⟨e, s', L', h1, h2, h3, -, -, h4⟩ := cancelHandle_ok h hnd
    refine ⟨e, s', L', h1, h2, ?_⟩
    have hal : ∀ m, (s.nodes m).isSome = true → s'.numNodes = s.numNodes → (s'.nodes m).isSome = true := fun m hm hx => by
      rw [h2.inv.alloc, hx]; exact (h.inv.alloc m).mp hm
    have hst : ∀ s2 e2, cancelHandle s n = some (e2, s2) → s2 = s' := by
      intro s2 e2 hx
      simp only [doOp, hx] at h1
      cases e2 <;> (simp only [Option.some.injEq, Prod.mk.injEq] at h1; exact h1.2)
    by_cases hm : n ∈ L
    · obtain ⟨k, hk⟩ := List.getElem?_of_mem hm
      obtain ⟨s2, q1, q2, q3, q4⟩ := unlink_mem h.inv hk
      have := hst _ _ q1
      subst this
      exact Keeps.frame (fun m hm => hal m hm q3.numNodes) q3 (by rw [hnd]; rfl) h4 h3
    · obtain ⟨e2, s2, q1, q2, q3, q4, q5⟩ := unlink_not_mem h.inv hm hnd
      have := hst _ _ q1
      subst this
      exact Keeps.frame (fun m hm => hal m hm q3.numNodes) q3 (by rw [hnd]; rfl) h4 h3
  | cancelTimer t =>
    obtain ⟨s', h1, h2, h3⟩ := cancelTimer_ok h ((h.talloc t).mpr (ht t rfl))
    refine ⟨_, s', L, h1, h2, ?_⟩
    have key : s'.nodes = s.nodes ∧ s'.closed = s.closed ∧ s'.stop = s.stop ∧ ∀ x, x ≠ t → s'.timers x = s.timers x := by
      simp only [doOp, cancelTimer] at h1
      split at h1
      · cases h1
      · rename_i s2 heq
        simp only [Option.some.injEq, Prod.mk.injEq, true_and] at h1
        subst h1
        split at heq
        · cases heq
        · cases heq; exact ⟨rfl, rfl, rfl, fun _ _ => rfl⟩
        · cases heq
          exact ⟨rfl, rfl, rfl, fun x hx => by simp [upd, hx]⟩
    obtain ⟨k1, k2, k3, k4⟩ := key
    refine ⟨fun n nd j1 j2 => ⟨by simp [ranNodes], nd, by rw [k1]; exact j1, j2⟩, fun x k => ⟨?_, by simp [fired]⟩, ?_,
      fun _ => k2, fun hx => Or.inl (k3 ▸ hx), fun hx => absurd rfl hx, (fun n hx => by cases hx), (fun n hx => by cases hx; exact h3)⟩
    · by_cases hx : x = t
      · rw [hx]; exact h3
      · rw [k4 x hx]; exact k
    · intro x k
      by_cases hx : x = t
      · exact Or.inr (by rw [hx])
      · exact Or.inl (by rw [← k4 x hx]; exact k)
  | stop =>
    obtain ⟨e, s', L', h1, h2, h3, h4, h5⟩ := flag_ok h .stop (Or.inl rfl)
    refine ⟨e, s', L', h1, h2, Keeps.same h3 h4 h5 (fun _ => ?_) (fun _ => Or.inr (Or.inl rfl))⟩
    simp only [doOp, Option.some.injEq, Prod.mk.injEq] at h1
    rw [← h1.2]
  | run =>
    obtain ⟨e, s', L', h1, h2, h3, h4, h5⟩ := flag_ok h .run (Or.inr (Or.inl rfl))
    refine ⟨e, s', L', h1, h2, Keeps.same h3 h4 h5 (fun _ => ?_) ?_⟩
    · simp only [doOp] at h1
      split at h1 <;> (simp only [Option.some.injEq, Prod.mk.injEq] at h1; rw [← h1.2])
    · simp only [doOp] at h1
      split at h1 <;> simp only [Option.some.injEq, Prod.mk.injEq] at h1
      · rw [← h1.2]; exact Or.inl
      · rw [← h1.2]; intro hx; simp at hx
  | close =>
    obtain ⟨e, s', L', h1, h2, h3, h4, h5⟩ := flag_ok h .close (Or.inr (Or.inr rfl))
    exact ⟨e, s', L', h1, h2, Keeps.same h3 h4 h5 (fun hx => absurd rfl hx) (fun _ => Or.inr (Or.inr rfl))⟩
  | step now =>
    obtain ⟨f, r, s', L', h1, h2, h3⟩ := step_ok h now
    refine ⟨_, s', L', h1, h2, ⟨fun n nd k1 k2 => ⟨?_, (h3.none_ n nd k1 k2).2⟩, fun t k => ⟨by rw [h3.timers]; exact k, fun d n hm => ?_⟩,
      fun t k => Or.inl (h3.timers ▸ k), fun _ => h3.flags.1, fun hx => Or.inl (h3.flags.2 ▸ hx), ?_, (fun n hx => by cases hx), (fun n hx => by cases hx)⟩⟩
    · intro hm
      cases r with
      | ran m w =>
        simp only [ranNodes, List.flatMap_cons, List.flatMap_nil, List.append_nil, List.mem_singleton] at hm
        subst hm
        exact (h3.none_ n nd k1 k2).1 w rfl
      | idle => simp [ranNodes] at hm
      | stopped x => simp [ranNodes] at hm
    · have hm : (d, t, some n) ∈ f := by simpa [fired] using hm
      obtain ⟨w, hw⟩ := h3.live _ hm n rfl
      rw [k] at hw
      cases hw
    · intro hx
      cases r with
      | ran m w => exact absurd rfl hx
      | idle => exact absurd rfl hx
      | stopped x => exact h3.stopped x rfl

/-- Which operations make sense: only objects that exist are cancelled. -/
theorem doOp_some {s : Loop W K} {o : Op W K} {e : Ev W K} {s' : Loop W K} (h : doOp o s = some (e, s')) :
    (∀ n, o = .cancelHandle n → (s.nodes n).isSome = true) ∧ (∀ t, o = .cancelTimer t → (s.timers t).isSome = true) := by
  constructor
  · rintro n rfl
    cases hx : s.nodes n with
    | some _ => rfl
    | none => simp [doOp, cancelHandle, hx] at h
  · rintro n rfl
    cases hx : s.timers n with
    | some _ => rfl
    | none => simp [doOp, cancelTimer, hx] at h

theorem doOp_G {es : List (Ev W K)} {s : Loop W K} {L : List Nat} (h : G es s L) {o : Op W K} {e : Ev W K} {s' : Loop W K}
    (hd : doOp o s = some (e, s')) : (∃ L', G (es ++ [e]) s' L') ∧ Keeps s o e s' := by
  obtain ⟨e2, s2, L', h1, h2, h3⟩ := doOp_ok h o (fun n hx => (h.inv.alloc n).mp ((doOp_some hd).1 n hx)) (fun t hx => (h.talloc t).mp ((doOp_some hd).2 t hx))
  rw [hd] at h1
  cases h1
  exact ⟨⟨L', h2⟩, h3⟩

/-- `Keeps` for a history. -/
structure KeepsAll (s : Loop W K) (os : List (Op W K)) (es : List (Ev W K)) (s' : Loop W K) : Prop where
  nodes : ∀ n nd, s.nodes n = some nd → nd.work = none → n ∉ ranNodes es ∧ ∃ nd', s'.nodes n = some nd' ∧ nd'.work = none
  timers : ∀ t, s.timers t = some none → s'.timers t = some none ∧ ∀ k n, (k, t, some n) ∉ fired es
  tnew : ∀ t, s'.timers t = some none → s.timers t = some none ∨ .cancelledTimer t ∈ es
  closed : .close ∉ os → s'.closed = s.closed
  stop : .stop ∉ os → .close ∉ os → s'.stop = true → s.stop = true
  lost : .stop ∉ os → .close ∉ os → s.stop = false → lostNodes es = []
  hcancel : ∀ n, .cancelledHandle n ∈ es → ∃ nd', s'.nodes n = some nd' ∧ nd'.work = none
  tcancel : ∀ t, .cancelledTimer t ∈ es → s'.timers t = some none

theorem runOps_G : ∀ {os : List (Op W K)} {es0 : List (Ev W K)} {s : Loop W K} {L : List Nat}, G es0 s L → ∀ {es s'}, runOps os s = some (es, s') →
    (∃ L', G (es0 ++ es) s' L') ∧ KeepsAll s os es s'
  | [], es0, s, L, h, es, s', hr => by
    cases hr
    exact ⟨⟨L, by simpa using h⟩, fun n nd h1 h2 => ⟨by simp [ranNodes], nd, h1, h2⟩, fun t ht => ⟨ht, by simp [fired]⟩, fun t ht => Or.inl ht, fun _ => rfl,
      fun _ _ hx => hx, fun _ _ _ => rfl, by simp, by simp⟩
  | o :: os, es0, s, L, h, es, s', hr => by
    simp only [runOps] at hr
    split at hr
    · cases hr
    · rename_i e s1 hd
      split at hr
      · cases hr
      · rename_i es1 s2 h2
        simp only [Option.some.injEq, Prod.mk.injEq] at hr
        obtain ⟨rfl, rfl⟩ := hr
        obtain ⟨⟨L1, g1⟩, k1⟩ := doOp_G h hd
        obtain ⟨⟨L2, g2⟩, k2⟩ := runOps_G g1 h2
        refine ⟨⟨L2, by simpa using g2⟩, ?_, ?_, ?_, ?_, ?_, ?_, ?_, ?_⟩
        · intro n nd hn hw
          obtain ⟨c1, nd', c2, c3⟩ := k1.nodes n nd hn hw
          obtain ⟨d1, d2⟩ := k2.nodes n nd' c2 c3
          refine ⟨fun hm => ?_, d2⟩
          rw [← List.singleton_append, ranNodes_append] at hm
          rcases List.mem_append.mp hm with hm | hm
          · exact c1 hm
          · exact d1 hm
        · intro t ht
          obtain ⟨c1, c2⟩ := k1.timers t ht
          obtain ⟨d1, d2⟩ := k2.timers t c1
          refine ⟨d1, fun k n hm => ?_⟩
          rw [← List.singleton_append, fired_append] at hm
          rcases List.mem_append.mp hm with hm | hm
          · exact c2 k n hm
          · exact d2 k n hm
        · intro t ht
          rcases k2.tnew t ht with hx | hx
          · rcases k1.tnew t hx with hx | hx
            · exact Or.inl hx
            · exact Or.inr (by rw [hx]; exact List.mem_cons_self ..)
          · exact Or.inr (List.mem_cons_of_mem _ hx)
        · intro hc
          rw [List.mem_cons, not_or] at hc
          exact (k2.closed hc.2).trans (k1.closed (fun e => hc.1 e.symm))
        · intro hs hc hx
          rw [List.mem_cons, not_or] at hc hs
          rcases k1.stop (k2.stop hs.2 hc.2 hx) with hx | hx | hx
          · exact hx
          · exact absurd hx.symm hs.1
          · exact absurd hx.symm hc.1
        · intro hs hc hx
          rw [List.mem_cons, not_or] at hc hs
          rw [← List.singleton_append, lostNodes_append, List.append_eq_nil_iff]
          constructor
          · by_contra hy
            have := k1.lost hy
            rw [hx] at this
            cases this
          · refine k2.lost hs.2 hc.2 ?_
            cases hy : s1.stop with
            | false => rfl
            | true =>
              rcases k1.stop hy with hz | hz | hz
              · rw [hx] at hz; cases hz
              · exact absurd hz.symm hs.1
              · exact absurd hz.symm hc.1
        · intro n hn
          rcases List.mem_cons.mp hn with hn | hn
          · obtain ⟨nd, c1, c2⟩ := k1.hcancel n hn.symm
            exact (k2.nodes n nd c1 c2).2
          · exact k2.hcancel n hn
        · intro t hn
          rcases List.mem_cons.mp hn with hn | hn
          · exact (k2.timers t (k1.tcancel t hn.symm)).1
          · exact k2.tcancel t hn

/-- Each event belongs to an operation. -/
theorem runOps_split : ∀ {os : List (Op W K)} {s : Loop W K} {es1 es2 : List (Ev W K)} {e : Ev W K} {s' : Loop W K},
    runOps os s = some (es1 ++ e :: es2, s') → ∃ os1 o os2 sa sb, os = os1 ++ o :: os2 ∧ runOps os1 s = some (es1, sa) ∧
      doOp o sa = some (e, sb) ∧ runOps os2 sb = some (es2, s')
  | [], s, es1, es2, e, s', hr => by simp [runOps] at hr
  | o :: os, s, es1, es2, e, s', hr => by
    simp only [runOps] at hr
    split at hr
    · cases hr
    · rename_i e0 s1 hd
      split at hr
      · cases hr
      · rename_i es0 s2 h2
        simp only [Option.some.injEq, Prod.mk.injEq] at hr
        obtain ⟨h3, rfl⟩ := hr
        cases es1 with
        | nil =>
          simp only [List.nil_append, List.cons.injEq] at h3
          obtain ⟨rfl, rfl⟩ := h3
          exact ⟨[], o, os, s, s1, rfl, rfl, hd, h2⟩
        | cons x es1 =>
          simp only [List.cons_append, List.cons.injEq] at h3
          obtain ⟨rfl, rfl⟩ := h3
          obtain ⟨os1, o1, os2, sa, sb, a1, a2, a3, a4⟩ := runOps_split h2
          exact ⟨o :: os1, o1, os2, sa, sb, by rw [a1]; rfl, by simp [runOps, hd, a2], a3, a4⟩

theorem stepped_op {o : Op W K} {s s' : Loop W K} {now : K} {f : List (K × Nat × Option Nat)} {r : Ran W}
    (h : doOp o s = some (.stepped now f r, s')) : o = .step now := by
  cases o with
  | step now' =>
    simp only [doOp] at h
    split at h
    · cases h
    · cases h; rfl
  | stop => cases h
  | soon w' => simp only [doOp] at h; repeat' split at h
               all_goals cases h
  | later w' k => simp only [doOp] at h; repeat' split at h
                  all_goals cases h
  | cancelHandle m => simp only [doOp] at h; repeat' split at h
                      all_goals cases h
  | cancelTimer m => simp only [doOp] at h; repeat' split at h
                     all_goals cases h
  | run => simp only [doOp] at h; repeat' split at h
           all_goals cases h
  | close => simp only [doOp] at h; repeat' split at h
             all_goals cases h

/-- What is known around a step in a history. -/
theorem at_step {os : List (Op W K)} {a b : List (Ev W K)} {now : K} {f : List (K × Nat × Option Nat)} {r : Ran W} {s : Loop W K}
    (h : runOps os Async.init = some (a ++ .stepped now f r :: b, s)) : ∃ os1 os2 sa L sb L', os = os1 ++ .step now :: os2 ∧ G a sa L ∧
      G (a ++ [.stepped now f r]) sb L' ∧ Stepped a now sa f r sb L' ∧ KeepsAll Async.init os1 a sa ∧ KeepsAll sb os2 b s := by
  obtain ⟨os1, o, os2, sa, sb, rfl, h1, h2, h3⟩ := runOps_split h
  obtain ⟨⟨L, g⟩, k1⟩ := runOps_G G.init h1
  rw [List.nil_append] at g
  have ho := stepped_op h2
  subst ho
  obtain ⟨f', r', s', L', q1, q2, q3⟩ := step_ok g now
  rw [h2] at q1
  cases q1
  exact ⟨os1, os2, sa, L, sb, L', rfl, g, q2, q3, k1, (runOps_G q2 h3).2⟩

end Codon.Async
