import Verif.Async.Model
/-!
The linked list of the event loop holds a queue.
-/
namespace Codon.Async
universe u v
variable {W : Type u} {K : Type v}

/-- The links in memory are those of the queue `L`. -/
structure Inv (s : Loop W K) (L : List Nat) : Prop where
  alloc : ∀ n, (s.nodes n).isSome = true ↔ n < s.numNodes
  links : ∀ i n, L[i]? = some n → ∃ w, s.nodes n = some ⟨some w, if i = 0 then none else L[i - 1]?, L[i + 1]?⟩
  out : s.closed = false → ∀ n nd, s.nodes n = some nd → n ∉ L → nd.work ≠ none → nd.prev = none
  head : s.head = L[0]?
  tail : s.tail = L[L.length - 1]?
  nodup : L.Nodup
  shut : s.closed = true → L = []

theorem Inv.lt {s : Loop W K} {L : List Nat} (h : Inv s L) {n : Nat} (hn : n ∈ L) : n < s.numNodes := by
  obtain ⟨i, hi⟩ := List.getElem?_of_mem hn
  obtain ⟨w, hw⟩ := h.links i n hi
  exact (h.alloc n).mp (by rw [hw]; rfl)

theorem idx_unique {L : List Nat} (h : L.Nodup) {i j n : Nat} (hi : L[i]? = some n) (hj : L[j]? = some n) : i = j := by
  obtain ⟨a, ha⟩ := List.getElem?_eq_some_iff.mp hi
  obtain ⟨b, hb⟩ := List.getElem?_eq_some_iff.mp hj
  exact (List.getElem_inj h).mp (ha.trans hb.symm)

theorem enqueue_ok {s : Loop W K} {L : List Nat} (h : Inv s L) (hcl : s.closed = false) (w : W) : ∃ s', enqueue s w = some (s.numNodes, s') ∧
    Inv s' (L ++ [s.numNodes]) ∧ s'.numNodes = s.numNodes + 1 ∧ s'.timers = s.timers ∧ s'.numTimers = s.numTimers ∧ s'.heap = s.heap ∧
    s'.cap = s.cap ∧ s'.stop = s.stop ∧ s'.closed = s.closed ∧
    (∀ n nd, s'.nodes n = some nd → n ≠ s.numNodes → ∃ nd0, s.nodes n = some nd0 ∧ nd.work = nd0.work) ∧
    (∃ nd, s'.nodes s.numNodes = some nd ∧ nd.work = some w) := by
  have hnew : s.numNodes ∉ L := fun hm => Nat.lt_irrefl _ (h.lt hm)
  rcases List.eq_nil_or_concat L with rfl | ⟨L0, t, rfl⟩
  · have ht : s.tail = none := h.tail
    simp only [enqueue, ht]
    refine ⟨_, rfl, ⟨?_, ?_, ?_, rfl, rfl, by simp, by simp [hcl]⟩, rfl, rfl, rfl, rfl, rfl, rfl, rfl, ?_, ?_⟩
    · intro n
      have := h.alloc n
      by_cases hn : n = s.numNodes
      · simp [upd, hn]
      · simp only [upd, if_neg hn, this]; omega
    · intro i n hi
      cases i with
      | zero =>
        simp only [List.nil_append, List.getElem?_cons_zero, Option.some.injEq] at hi
        subst hi
        exact ⟨w, by simp [upd]⟩
      | succ i => simp at hi
    · intro hc n nd hn hm hw
      simp only [List.nil_append, List.mem_singleton] at hm
      simp only [upd, if_neg hm] at hn
      exact h.out hc n nd hn (by simp) hw
    · intro n nd hn hne
      simp only [upd, if_neg hne] at hn
      exact ⟨nd, hn, rfl⟩
    · exact ⟨⟨some w, none, none⟩, by simp only [upd, if_true], rfl⟩
  · have hL : (L0.concat t)[L0.length]? = some t := by simp
    obtain ⟨wt, hwt⟩ := h.links L0.length t hL
    have ht : s.tail = some t := by rw [h.tail]; simp
    have hne : t ≠ s.numNodes := fun e => hnew (e ▸ by simp)
    have hnx : (L0.concat t)[L0.length + 1]? = none := by simp
    simp only [enqueue, ht, setPrev, setNext, upd, if_true, if_neg hne, hwt]
    refine ⟨_, rfl, ⟨?_, ?_, ?_, ?_, ?_, ?_, by simp [hcl]⟩, rfl, rfl, rfl, rfl, rfl, rfl, rfl, ?_, ?_⟩
    · intro n
      have := h.alloc n
      have := h.lt (n := t) (by simp)
      grind [upd]
    · intro i n hi
      have hl := h.links i n
      have hu := fun hh : (L0.concat t)[i]? = some t => idx_unique h.nodup hh hL
      simp only [List.concat_eq_append] at *
      by_cases h1 : i < L0.length
      · grind [upd]
      · by_cases h2 : i = L0.length
        · grind [upd]
        · by_cases h3 : i = L0.length + 1
          · grind [upd]
          · grind [upd]
    · intro hc n nd hn hm hw
      simp only [List.concat_eq_append] at *
      have := h.out hc n
      grind [upd]
    · have := h.head
      grind [upd]
    · simp
    · have := h.nodup
      grind [upd]
    · grind [upd]
    · grind [upd]

/-- Everything but the links and the queue is the same; work may only have been cleared. -/
structure Frame (s s' : Loop W K) : Prop where
  numNodes : s'.numNodes = s.numNodes
  timers : s'.timers = s.timers
  numTimers : s'.numTimers = s.numTimers
  heap : s'.heap = s.heap
  cap : s'.cap = s.cap
  stop : s'.stop = s.stop
  closed : s'.closed = s.closed
  work : ∀ n nd, s'.nodes n = some nd → ∃ nd0, s.nodes n = some nd0 ∧ (nd.work = nd0.work ∨ nd.work = none)

theorem dequeue_ok {s : Loop W K} {h : Nat} {L : List Nat} (hI : Inv s (h :: L)) : ∃ w s' nd, dequeue s = some (h, some w, s') ∧
    s.nodes h = some nd ∧ nd.work = some w ∧ Inv s' L ∧ Frame s s' := by
  have hh : s.head = some h := hI.head
  obtain ⟨w, hw⟩ := hI.links 0 h rfl
  have hnd := hI.nodup
  cases L with
  | nil =>
    refine ⟨w, { s with head := none, tail := none }, _, ?_, hw, rfl, ⟨hI.alloc, ?_, ?_, rfl, rfl, List.nodup_nil, fun _ => rfl⟩,
      ⟨rfl, rfl, rfl, rfl, rfl, rfl, rfl, fun n nd hn => ⟨nd, hn, Or.inl rfl⟩⟩⟩
    · simp [dequeue, hh, hw]
    · intro i n hi; simp at hi
    · intro hc n nd hn _ hx
      by_cases he : n = h
      · subst he
        simp only at hn
        rw [hw] at hn
        cases hn
        rfl
      · exact hI.out hc n nd hn (by simpa using he) hx
  | cons x L =>
    obtain ⟨wx, hx⟩ := hI.links 1 x rfl
    have hne : h ≠ x := fun e => by subst e; simp at hnd
    simp only [dequeue, hh, hw, setPrev, setNext, hx, upd, if_neg hne, List.getElem?_cons_succ, List.getElem?_cons_zero]
    have hcl := hI.shut
    refine ⟨w, _, _, rfl, rfl, rfl, ⟨?_, ?_, ?_, ?_, ?_, ?_, by grind⟩, ⟨rfl, rfl, rfl, rfl, rfl, rfl, rfl, ?_⟩⟩
    · intro n
      have := hI.alloc n
      grind [upd]
    · intro i n hi
      have hl := hI.links (i + 1) n
      have h0 := fun hh : (h :: x :: L)[i + 1]? = some x => idx_unique hnd hh (j := 1) rfl
      grind [upd]
    · intro hc n nd hn hm hw
      have := hI.out hc n
      grind [upd]
    · grind
    · have := hI.tail
      grind
    · grind
    · grind [upd]

theorem unlink_mem {s : Loop W K} {L : List Nat} (hI : Inv s L) {k a : Nat} (hk : L[k]? = some a) : ∃ s',
    cancelHandle s a = some (none, s') ∧ Inv s' (L.eraseIdx k) ∧ Frame s s' ∧ ∀ nd, s'.nodes a = some nd → nd.work = none := by
  obtain ⟨w, hw⟩ := hI.links k a hk
  have hnd := hI.nodup
  have hkl : k < L.length := (List.getElem?_eq_some_iff.mp hk).1
  obtain ⟨h, hh⟩ : ∃ h, s.head = some h := ⟨L[0], by rw [hI.head]; simp⟩
  obtain ⟨t, ht⟩ : ∃ t, s.tail = some t := ⟨L[L.length - 1], by rw [hI.tail]; simp⟩
  have h0 : L[0]? = some h := by rw [← hI.head, hh]
  have hl : L[L.length - 1]? = some t := by rw [← hI.tail, ht]
  have u0 : a = h ↔ k = 0 := ⟨fun e => idx_unique hnd hk (e ▸ h0), fun e => by subst e; rw [hk] at h0; exact Option.some.inj h0⟩
  have ul : a = t ↔ k = L.length - 1 := ⟨fun e => idx_unique hnd hk (e ▸ hl), fun e => by subst e; rw [hk] at hl; exact Option.some.inj hl⟩
  have hcl := hI.shut
  simp only [cancelHandle, hw, unlink, hh, ht, upd, if_true]
  have hE : ∀ i, (L.eraseIdx k)[i]? = if i < k then L[i]? else L[i + 1]? := fun i => List.getElem?_eraseIdx
  have hEl : (L.eraseIdx k).length = L.length - 1 := by rw [List.length_eraseIdx, if_pos hkl]
  have hEn : (L.eraseIdx k).Nodup := hnd.eraseIdx k
  have hEm : ∀ n, n ∈ L → n ≠ a → n ∈ L.eraseIdx k := by
    intro n hn hne
    obtain ⟨i, hi⟩ := List.getElem?_of_mem hn
    have : i ≠ k := fun e => hne (by subst e; rw [hk] at hi; exact (Option.some.inj hi).symm)
    rw [List.mem_iff_getElem?]
    by_cases hik : i < k
    · exact ⟨i, by rw [hE, if_pos hik, hi]⟩
    · exact ⟨i - 1, by rw [hE, if_neg (by omega), show i - 1 + 1 = i by omega, hi]⟩
  by_cases hk0 : k = 0
  · have hah : a = h := u0.mpr hk0
    simp only [if_pos hah]
    subst hk0
    cases hx : L[0 + 1]? with
    | none =>
      have hl1 : L.length = 1 := by
        have := List.getElem?_eq_none_iff.mp hx
        omega
      have hnil : L.eraseIdx 0 = [] := List.length_eq_zero_iff.mp (by omega)
      refine ⟨_, rfl, ?_, ⟨rfl, rfl, rfl, rfl, rfl, rfl, rfl, ?_⟩, ?_⟩
      · rw [hnil]
        refine ⟨?_, ?_, ?_, rfl, rfl, List.nodup_nil, fun _ => rfl⟩
        · intro n
          have := hI.alloc n
          grind [upd]
        · intro i n hi; simp at hi
        · intro hc n nd hn hm hx
          have := hI.out hc n
          have := hEm n
          grind [upd]
      · grind [upd]
      · grind [upd]
    | some x =>
      obtain ⟨wx, hwx⟩ := hI.links 1 x hx
      have hne : x ≠ a := fun e => by subst e; exact absurd (idx_unique hnd hk hx) (by omega)
      simp only [setPrev, setNext, upd, if_neg hne, hwx, if_true, if_neg (Ne.symm hne)]
      refine ⟨_, rfl, ⟨?_, ?_, ?_, ?_, ?_, hEn, by grind⟩, ⟨rfl, rfl, rfl, rfl, rfl, rfl, rfl, ?_⟩, ?_⟩
      · intro n
        have := hI.alloc n
        grind [upd]
      · intro i n hi
        rw [hE] at hi
        have hl := hI.links (i + 1) n (by simpa using hi)
        have h0 := fun hh : L[i + 1]? = some x => idx_unique hnd hh (j := 1) hx
        have h1 := fun hh : L[i + 1]? = some a => idx_unique hnd hh (j := 0) hk
        simp only [hE]
        grind [upd]
      · intro hc n nd hn hm hw
        have := hI.out hc n
        have := hEm n
        grind [upd]
      · simp only [hE]; grind
      · have := hI.tail
        simp only [hE, hEl]
        grind
      · grind [upd]
      · grind [upd]
  · have hah : ¬ a = h := fun e => hk0 (u0.mp e)
    obtain ⟨p, hp⟩ : ∃ p, L[k - 1]? = some p := ⟨L[k - 1], by simp⟩
    obtain ⟨wp, hwp⟩ := hI.links (k - 1) p hp
    have hpa : p ≠ a := fun e => by subst e; exact absurd (idx_unique hnd hk hp) (by omega)
    have hk1 : k - 1 + 1 = k := by omega
    rw [hk1, hk] at hwp
    simp only [if_neg hah, if_neg hk0, hp]
    by_cases hkt : k = L.length - 1
    · have hat : a = t := ul.mpr hkt
      simp only [if_pos hat, setNext, setPrev, upd, if_neg hpa, if_neg (Ne.symm hpa), hwp, if_true]
      refine ⟨_, rfl, ⟨?_, ?_, ?_, ?_, ?_, hEn, by grind⟩, ⟨rfl, rfl, rfl, rfl, rfl, rfl, rfl, ?_⟩, ?_⟩
      · intro n
        have := hI.alloc n
        grind [upd]
      · intro i n hi
        have hik : i < k := by
          have := (List.getElem?_eq_some_iff.mp hi).1
          omega
        rw [hE, if_pos hik] at hi
        have hl := hI.links i n hi
        have h0 := fun hh : L[i]? = some p => idx_unique hnd hh (j := k - 1) hp
        have h1 := fun hh : L[i]? = some a => idx_unique hnd hh (j := k) hk
        have h2 : L[k + 1]? = none := List.getElem?_eq_none_iff.mpr (by omega)
        have h3 : ∀ j, j = k + 1 → L[j]? = none := fun j hj => hj ▸ h2
        simp only [hE]
        grind [upd]
      · intro hc n nd hn hm hw
        have := hI.out hc n
        have := hEm n
        grind [upd]
      · simp only [hE]; grind
      · simp only [hE, hEl]
        grind
      · grind [upd]
      · grind [upd]
    · have hat : ¬ a = t := fun e => hkt (ul.mp e)
      obtain ⟨x, hx⟩ : ∃ x, L[k + 1]? = some x := ⟨L[k + 1]'(by omega), by simp⟩
      obtain ⟨wx, hwx⟩ := hI.links (k + 1) x hx
      have hxa : x ≠ a := fun e => by subst e; exact absurd (idx_unique hnd hk hx) (by omega)
      have hxp : x ≠ p := fun e => by subst e; exact absurd (idx_unique hnd hp hx) (by omega)
      simp only [if_neg hat, setNext, setPrev, upd, if_neg hpa, if_neg (Ne.symm hpa), hwp, if_neg hxa, if_neg hxp, hx, hwx]
      refine ⟨_, rfl, ⟨?_, ?_, ?_, ?_, ?_, hEn, by grind⟩, ⟨rfl, rfl, rfl, rfl, rfl, rfl, rfl, ?_⟩, ?_⟩
      · intro n
        have := hI.alloc n
        grind [upd]
      · intro i n hi
        by_cases hik : i < k
        · rw [hE, if_pos hik] at hi
          have hl := hI.links i n hi
          have h0 := fun hh : L[i]? = some p => idx_unique hnd hh (j := k - 1) hp
          have h1 := fun hh : L[i]? = some a => idx_unique hnd hh (j := k) hk
          have h2 := fun hh : L[i]? = some x => idx_unique hnd hh (j := k + 1) hx
          simp only [hE]
          grind [upd]
        · rw [hE, if_neg hik] at hi
          have hl := hI.links (i + 1) n hi
          have h0 := fun hh : L[i + 1]? = some p => idx_unique hnd hh (j := k - 1) hp
          have h1 := fun hh : L[i + 1]? = some a => idx_unique hnd hh (j := k) hk
          have h2 := fun hh : L[i + 1]? = some x => idx_unique hnd hh (j := k + 1) hx
          simp only [hE]
          grind [upd]
      · intro hc n nd hn hm hw
        have := hI.out hc n
        have := hEm n
        grind [upd]
      · simp only [hE]; grind
      · simp only [hE, hEl]
        grind
      · grind [upd]
      · grind [upd]

theorem unlink_not_mem {s : Loop W K} {L : List Nat} (hI : Inv s L) {a : Nat} {nd : WNode W} (ha : a ∉ L) (hn : s.nodes a = some nd) : ∃ e s',
    cancelHandle s a = some (e, s') ∧ Inv s' L ∧ Frame s s' ∧ (e = none ↔ nd.work = none ∨ L = []) ∧ ∀ nd, s'.nodes a = some nd → nd.work = none := by
  by_cases hw : nd.work = none
  · refine ⟨none, s, by simp [cancelHandle, hn, hw], hI, ⟨rfl, rfl, rfl, rfl, rfl, rfl, rfl, fun n nd hn => ⟨nd, hn, Or.inl rfl⟩⟩, by simp [hw], ?_⟩
    intro nd' hn'
    rw [hn] at hn'
    cases hn'
    exact hw
  · have hI' : Inv { s with nodes := upd s.nodes a { nd with work := none } } L := by
      refine ⟨?_, ?_, ?_, hI.head, hI.tail, hI.nodup, hI.shut⟩
      · intro n
        have := hI.alloc n
        grind [upd]
      · intro i n hi
        have := hI.links i n hi
        have : n ≠ a := fun e => ha (e ▸ List.mem_of_getElem? hi)
        grind [upd]
      · intro hc n nd hn hm hw
        have := hI.out hc n
        grind [upd]
    have hF : Frame s { s with nodes := upd s.nodes a { nd with work := none } } := by
      refine ⟨rfl, rfl, rfl, rfl, rfl, rfl, rfl, ?_⟩
      grind [upd]
    obtain ⟨w, hw'⟩ := Option.ne_none_iff_exists'.mp hw
    have hc : cancelHandle s a = unlink { s with nodes := upd s.nodes a { nd with work := none } } a := by
      simp [cancelHandle, hn, hw']
    have hlast : ∀ nd', upd s.nodes a { nd with work := none } a = some nd' → nd'.work = none := by grind [upd]
    cases L with
    | nil =>
      refine ⟨none, _, ?_, hI', hF, by simp, hlast⟩
      have : s.head = none := hI.head
      rw [hc]
      simp [unlink, this]
    | cons h L =>
      have hcl : s.closed = false := by
        cases hx : s.closed with
        | false => rfl
        | true => exact absurd (hI.shut hx) (by simp)
      have hp : nd.prev = none := hI.out hcl a nd hn ha hw
      have hh : s.head = some h := hI.head
      obtain ⟨t, ht⟩ : ∃ t, (h :: L)[(h :: L).length - 1]? = some t := ⟨(h :: L)[(h :: L).length - 1], by simp⟩
      have ht' : s.tail = some t := hI.tail.trans ht
      have n1 : ¬ a = h := fun e => ha (e ▸ List.mem_cons_self ..)
      have n2 : ¬ a = t := fun e => ha (e ▸ List.mem_of_getElem? ht)
      refine ⟨some .value, _, ?_, hI', hF, by simp [hw], hlast⟩
      rw [hc]
      simp [unlink, hh, ht', upd, n1, n2, hp]

end Codon.Async
