import Verif.Twister.Seeding
/-! # Several generators -/
namespace Codon.Twister

variable {F : Type}

/-- A generator or saved state as the specification has it. -/
def Shows (heap : List (Block Word)) (p : Nat) (next : Option F) (y : Spec.G F) : Prop :=
  next = y.spare ∧ ∃ d, heap[p]? = some d ∧ St (Spec.words y.key) (624 + y.pos) d

structure Rel (w : World F) (a : Spec.W F) : Prop where
  gl : w.gens.length = a.gens.length
  sl : w.saved.length = a.saved.length
  gens : ∀ (g : Nat) (x : Gen F) (y : Spec.G F), w.gens[g]? = some x → a.gens[g]? = some y → Shows w.heap x.data x.gaussNext y
  saved : ∀ (s : Nat) (q : Nat × Option F) (y : Spec.G F), w.saved[s]? = some q → a.saved[s]? = some y → Shows w.heap q.1 q.2 y
  inj : ∀ (g h : Nat) (x y : Gen F), w.gens[g]? = some x → w.gens[h]? = some y → x.data = y.data → g = h
  sep : ∀ (g s : Nat) (x : Gen F) (q : Nat × Option F), w.gens[g]? = some x → w.saved[s]? = some q → x.data ≠ q.1

theorem St.len {x : Nat → Word} {p : Nat} {d : Block Word} (h : St x p d) : d.length = 625 := by
  obtain ⟨_, _, _, _, rfl⟩ := h
  exact blk_length _

theorem rel_empty : Rel (F := F) ⟨[], [], []⟩ {} := by
  constructor <;> simp

theorem rel_put {w : World F} {a : Spec.W F} (r : Rel w a) {g : Nat} {x : Gen F} {y y' : Spec.G F} {n : Option F} {d : Block Word}
    (hx : w.gens[g]? = some x) (hy : a.gens[g]? = some y) (hn : n = y'.spare) (hd : St (Spec.words y'.key) (624 + y'.pos) d) :
    Rel (w.put g ⟨x.data, n⟩ d) { a with gens := a.gens.set g y' } := by
  have lg : g < w.gens.length := (List.getElem?_eq_some_iff.1 hx).1
  have lp : x.data < w.heap.length := by
    obtain ⟨_, d0, h0, _⟩ := r.gens g x y hx hy
    exact (List.getElem?_eq_some_iff.1 h0).1
  have key : ∀ (h : Nat) (x' : Gen F), (w.gens.set g ⟨x.data, n⟩)[h]? = some x' → ∃ z : Gen F, w.gens[h]? = some z ∧ z.data = x'.data := by
    intro h x' hx'
    rw [List.getElem?_set] at hx'
    by_cases c : g = h
    · subst c
      rw [if_pos rfl, if_pos lg] at hx'
      cases hx'
      exact ⟨x, hx, rfl⟩
    · rw [if_neg c] at hx'
      exact ⟨x', hx', rfl⟩
  constructor
  · simp [World.put, r.gl]
  · simp [World.put, r.sl]
  · intro h x1 y1 h1 h2
    simp only [World.put] at h1 h2 ⊢
    rw [List.getElem?_set] at h1 h2
    by_cases c : g = h
    · subst c
      rw [if_pos rfl, if_pos lg] at h1
      rw [if_pos rfl, if_pos (r.gl ▸ lg)] at h2
      cases h1; cases h2
      exact ⟨hn, d, by simp [lp], hd⟩
    · rw [if_neg c] at h1 h2
      obtain ⟨e, d1, e1, s1⟩ := r.gens h x1 y1 h1 h2
      refine ⟨e, d1, ?_, s1⟩
      rw [List.getElem?_set, if_neg (fun q => c (r.inj g h x x1 hx h1 q))]
      exact e1
  · intro s q y1 h1 h2
    simp only [World.put] at h1 h2 ⊢
    obtain ⟨e, d1, e1, s1⟩ := r.saved s q y1 h1 h2
    refine ⟨e, d1, ?_, s1⟩
    rw [List.getElem?_set, if_neg (r.sep g s x q hx h1)]
    exact e1
  · intro g1 g2 x1 x2 h1 h2 e
    obtain ⟨z1, hz1, e1⟩ := key g1 x1 h1
    obtain ⟨z2, hz2, e2⟩ := key g2 x2 h2
    exact r.inj g1 g2 z1 z2 hz1 hz2 (by rw [e1, e2, e])
  · intro g1 s x1 q h1 h2
    obtain ⟨z1, hz1, e1⟩ := key g1 x1 h1
    rw [← e1]
    exact r.sep g1 s z1 q hz1 h2

theorem memcpy_all {d s : Block Word} (hd : d.length = 625) (hs : s.length = 625) :
    memcpyB (ε := Empty) d 0 s 0 (N + 1) = .ok s := by
  unfold memcpyB N
  rw [if_neg (by omega), if_pos (by omega)]
  have h1 : (s.drop (0 : Int).toNat).take ((624 : Int) + 1).toNat = s := by
    rw [List.take_of_length_le (by simp; omega)]; simp
  have h2 : d.drop ((0 : Int) + (624 + 1)).toNat = [] := List.drop_eq_nil_iff.2 (by simp; omega)
  rw [h1, h2]
  simp

theorem alloc_len : ∃ p : Block Word, alloc (ε := Empty) (N + 1) = .ok p ∧ p.length = 625 :=
  ⟨List.replicate 625 none, rfl, List.length_replicate ..⟩

theorem res53_st {x : Nat → Word} (hx : Rec x) (fl : Floats F) {pos : Nat} {d : Block Word} (h : St x pos d) :
    ∃ d', res53 fl d = .ok (fl.res53 (Spec.temper (x pos) >>> 5) (Spec.temper (x (pos + 1)) >>> 6), d') ∧ St x (pos + 2) d' := by
  obtain ⟨d1, e1, s1⟩ := genrand_st hx h
  obtain ⟨d2, e2, s2⟩ := genrand_st hx s1
  exact ⟨d2, by unfold res53; rw [e1, Out.bind_ok, e2]; rfl, s2⟩

theorem float_st (fl : Floats F) (y : Spec.G F) (k : Nat) {d : Block Word} (h : St (Spec.words y.key) (624 + y.pos + k) d) :
    ∃ d', res53 fl d = .ok (Spec.float fl y k, d') ∧ St (Spec.words y.key) (624 + y.pos + k + 2) d' := by
  obtain ⟨d', e, s⟩ := res53_st (words_rec y.key) fl h
  refine ⟨d', ?_, s⟩
  rw [e]
  unfold Spec.float Spec.stream
  rw [show 624 + (y.pos + k) = 624 + y.pos + k by omega, show 624 + (y.pos + k + 1) = 624 + y.pos + k + 1 by omega]

theorem gen_none {w : World F} {a : Spec.W F} (r : Rel w a) {g : Nat} (h : a.gens[g]? = none) : genAt w g = .ub := by
  have : w.gens[g]? = none := by
    rw [List.getElem?_eq_none_iff] at h ⊢
    rw [r.gl]; exact h
  unfold genAt
  rw [this]

theorem gen_some {w : World F} {a : Spec.W F} (r : Rel w a) {g : Nat} {y : Spec.G F} (h : a.gens[g]? = some y) :
    ∃ x d, w.gens[g]? = some x ∧ genAt w g = .ok x ∧ blockAt w x.data = .ok d ∧ x.gaussNext = y.spare ∧
      w.heap[x.data]? = some d ∧ St (Spec.words y.key) (624 + y.pos) d := by
  have lg : g < w.gens.length := by rw [r.gl]; exact (List.getElem?_eq_some_iff.1 h).1
  obtain ⟨e, d, hd, s⟩ := r.gens g w.gens[g] y (List.getElem?_eq_getElem lg) h
  refine ⟨w.gens[g], d, List.getElem?_eq_getElem lg, ?_, ?_, e, hd, s⟩
  · unfold genAt; rw [List.getElem?_eq_getElem lg]
  · unfold blockAt; rw [hd]

theorem keyLoop_nil {d : Block Word} {i : Int} {n : Nat} : keyLoop [] d i 0 (n + 1) = .ub := by
  unfold keyLoop
  cases mtGet d i with
  | ub => rfl
  | exc e => exact e.elim
  | ok a =>
    rw [Out.bind_ok]
    cases mtGet d (i - 1) with
    | ub => rfl
    | exc e => exact e.elim
    | ok b => rfl

theorem initArray_nil (d : Block Word) : initArray d [] = .ub := by
  unfold initArray
  cases initU32 d 19650218 with
  | ub => rfl
  | exc e => exact e.elim
  | ok a =>
    rw [Out.bind_ok, show (if N > (([] : List Word).length : Int) then N.toNat else ([] : List Word).length) = 623 + 1 from rfl, keyLoop_nil]
    rfl

theorem rel_new {w : World F} {a : Spec.W F} (r : Rel w a) {key : List Word} {d : Block Word} (hd : St (Spec.words key) 624 d) :
    Rel { w with heap := w.heap ++ [d], gens := w.gens ++ [⟨w.heap.length, none⟩] } { a with gens := a.gens ++ [⟨key, 0, none⟩] } := by
  have hg : ∀ (g : Nat) (x : Gen F), w.gens[g]? = some x → x.data < w.heap.length := by
    intro g x h
    have : g < a.gens.length := r.gl ▸ (List.getElem?_eq_some_iff.1 h).1
    obtain ⟨_, d, e, _⟩ := r.gens g x a.gens[g] h (List.getElem?_eq_getElem this)
    exact (List.getElem?_eq_some_iff.1 e).1
  have hs : ∀ (g : Nat) (x : Nat × Option F), w.saved[g]? = some x → x.1 < w.heap.length := by
    intro g x h
    have : g < a.saved.length := r.sl ▸ (List.getElem?_eq_some_iff.1 h).1
    obtain ⟨_, d, e, _⟩ := r.saved g x a.saved[g] h (List.getElem?_eq_getElem this)
    exact (List.getElem?_eq_some_iff.1 e).1
  have spl : ∀ (g : Nat) (x : Gen F), (w.gens ++ [⟨w.heap.length, none⟩])[g]? = some x →
      w.gens[g]? = some x ∨ g = w.gens.length ∧ x = ⟨w.heap.length, none⟩ := by
    intro g x h
    rw [List.getElem?_append] at h
    split_ifs at h with c
    · exact .inl h
    · refine .inr ?_
      obtain ⟨c1, c2⟩ := List.getElem?_eq_some_iff.1 h
      have c3 : g - w.gens.length = 0 := by simp only [List.length_cons, List.length_nil] at c1; omega
      simp only [c3] at c2
      exact ⟨by omega, c2.symm⟩
  constructor
  · simp [r.gl]
  · exact r.sl
  · intro g x y h1 h2
    rcases spl g x h1 with h | ⟨rfl, rfl⟩
    · have lg := (List.getElem?_eq_some_iff.1 h).1
      rw [List.getElem?_append_left (r.gl ▸ lg)] at h2
      obtain ⟨e, d1, e1, s1⟩ := r.gens g x y h h2
      exact ⟨e, d1, by rw [List.getElem?_append_left (hg g x h)]; exact e1, s1⟩
    · rw [r.gl] at h2
      simp only [List.getElem?_concat_length] at h2
      cases h2
      exact ⟨rfl, d, by simp, hd⟩
  · intro s q y h1 h2
    obtain ⟨e, d1, e1, s1⟩ := r.saved s q y h1 h2
    exact ⟨e, d1, by rw [List.getElem?_append_left (hs s q h1)]; exact e1, s1⟩
  · intro g1 g2 x1 x2 h1 h2 e
    rcases spl g1 x1 h1 with h1' | ⟨rfl, rfl⟩ <;> rcases spl g2 x2 h2 with h2' | ⟨rfl, rfl⟩
    · exact r.inj g1 g2 x1 x2 h1' h2' e
    · have := hg _ _ h1'; simp only at e; omega
    · have := hg _ _ h2'; simp only at e; omega
    · rfl
  · intro g s x q h1 h2
    rcases spl g x h1 with h | ⟨rfl, rfl⟩
    · exact r.sep g s x q h h2
    · have := hs _ _ h2; simp only; omega

theorem rel_save {w : World F} {a : Spec.W F} (r : Rel w a) {y : Spec.G F} {d : Block Word} {n : Option F} (hn : n = y.spare)
    (hd : St (Spec.words y.key) (624 + y.pos) d) :
    Rel { w with heap := w.heap ++ [d], saved := w.saved ++ [(w.heap.length, n)] } { a with saved := a.saved ++ [y] } := by
  have hg : ∀ (g : Nat) (x : Gen F), w.gens[g]? = some x → x.data < w.heap.length := by
    intro g x h
    have : g < a.gens.length := r.gl ▸ (List.getElem?_eq_some_iff.1 h).1
    obtain ⟨_, d, e, _⟩ := r.gens g x a.gens[g] h (List.getElem?_eq_getElem this)
    exact (List.getElem?_eq_some_iff.1 e).1
  have hs : ∀ (g : Nat) (x : Nat × Option F), w.saved[g]? = some x → x.1 < w.heap.length := by
    intro g x h
    have : g < a.saved.length := r.sl ▸ (List.getElem?_eq_some_iff.1 h).1
    obtain ⟨_, d, e, _⟩ := r.saved g x a.saved[g] h (List.getElem?_eq_getElem this)
    exact (List.getElem?_eq_some_iff.1 e).1
  have spl : ∀ (g : Nat) (x : Nat × Option F), (w.saved ++ [(w.heap.length, n)])[g]? = some x →
      w.saved[g]? = some x ∨ g = w.saved.length ∧ x = (w.heap.length, n) := by
    intro g x h
    rw [List.getElem?_append] at h
    split_ifs at h with c
    · exact .inl h
    · refine .inr ?_
      obtain ⟨c1, c2⟩ := List.getElem?_eq_some_iff.1 h
      have c3 : g - w.saved.length = 0 := by simp only [List.length_cons, List.length_nil] at c1; omega
      simp only [c3] at c2
      exact ⟨by omega, c2.symm⟩
  constructor
  · exact r.gl
  · simp [r.sl]
  · intro g x z h1 h2
    obtain ⟨e, d1, e1, s1⟩ := r.gens g x z h1 h2
    exact ⟨e, d1, by rw [List.getElem?_append_left (hg g x h1)]; exact e1, s1⟩
  · intro s q z h1 h2
    rcases spl s q h1 with h | ⟨rfl, rfl⟩
    · have lg := (List.getElem?_eq_some_iff.1 h).1
      rw [List.getElem?_append_left (r.sl ▸ lg)] at h2
      obtain ⟨e, d1, e1, s1⟩ := r.saved s q z h h2
      exact ⟨e, d1, by rw [List.getElem?_append_left (hs s q h)]; exact e1, s1⟩
    · rw [r.sl] at h2
      simp only [List.getElem?_concat_length] at h2
      cases h2
      exact ⟨hn, d, by simp, hd⟩
  · exact r.inj
  · intro g s x q h1 h2
    rcases spl s q h2 with h | ⟨rfl, rfl⟩
    · exact r.sep g s x q h1 h
    · have := hg _ _ h1; simp only; omega

/-- What a result of the model has to do with one of the specification. -/
def Agrees (r : R (Obs F × World F)) : Option (Obs F × Spec.W F) → Prop
  | none => r = .ub
  | some (o, a) => ∃ w, r = .ok (o, w) ∧ Rel w a

theorem step_rel (fl : Floats F) {w : World F} {a : Spec.W F} (r : Rel w a) (op : Op F) : Agrees (step fl w op) (Spec.step fl a op) := by
  cases op with
  | new key =>
    obtain ⟨p, ep, lp⟩ := alloc_len
    unfold step Spec.step
    dsimp only
    rw [ep, Out.bind_ok]
    by_cases c : key = []
    · subst c
      rw [if_pos rfl, initArray_nil]; rfl
    · obtain ⟨d, e, s⟩ := initArray_st c lp
      rw [if_neg c, e, Out.bind_ok]
      exact ⟨_, rfl, rel_new r s⟩
  | seed g key =>
    unfold step Spec.step
    dsimp only
    cases hy : a.gens[g]? with
    | none =>
      rw [gen_none r hy]
      by_cases c : key = []
      · rw [if_pos c]; rfl
      · rw [if_neg c]; rfl
    | some y =>
      obtain ⟨x, d, hx, e1, e2, e3, hp, s⟩ := gen_some r hy
      rw [e1, Out.bind_ok, e2, Out.bind_ok]
      by_cases c : key = []
      · subst c
        rw [if_pos rfl, initArray_nil]; rfl
      · obtain ⟨d', e, s'⟩ := initArray_st c s.len
        rw [if_neg c, e, Out.bind_ok]
        exact ⟨_, rfl, rel_put r hx hy rfl s'⟩
  | word g =>
    unfold step Spec.step
    dsimp only
    cases hy : a.gens[g]? with
    | none => rw [gen_none r hy]; rfl
    | some y =>
      obtain ⟨x, d, hx, e1, e2, e3, hp, s⟩ := gen_some r hy
      obtain ⟨d', e, s'⟩ := genrand_st (words_rec y.key) s
      rw [e1, Out.bind_ok, e2, Out.bind_ok, e, Out.bind_ok]
      exact ⟨_, rfl, rel_put r hx hy e3 s'⟩
  | random g =>
    unfold step Spec.step
    dsimp only
    cases hy : a.gens[g]? with
    | none => rw [gen_none r hy]; rfl
    | some y =>
      obtain ⟨x, d, hx, e1, e2, e3, hp, s⟩ := gen_some r hy
      obtain ⟨d', e, s'⟩ := float_st fl y 0 s
      rw [e1, Out.bind_ok, e2, Out.bind_ok, e, Out.bind_ok]
      exact ⟨_, rfl, rel_put r hx hy e3 s'⟩
  | gauss g mu sigma =>
    unfold step Spec.step
    dsimp only
    cases hy : a.gens[g]? with
    | none => rw [gen_none r hy]; rfl
    | some y =>
      obtain ⟨x, d, hx, e1, e2, e3, hp, s⟩ := gen_some r hy
      rw [e1, Out.bind_ok, e2, Out.bind_ok, e3]
      simp only [Option.map_some]
      cases hs : y.spare with
      | some z => exact ⟨_, rfl, rel_put (n := none) (y' := { y with spare := none }) r hx hy rfl s⟩
      | none =>
        obtain ⟨d1, f1, s1⟩ := float_st fl y 0 s
        obtain ⟨d2, f2, s2⟩ := float_st fl y 2 s1
        unfold gauss
        dsimp only
        rw [f1, Out.bind_ok, f2, Out.bind_ok]
        exact ⟨_, rfl, rel_put (y' := ⟨y.key, y.pos + 4, _⟩) r hx hy rfl s2⟩
  | getstate g =>
    unfold step Spec.step
    dsimp only
    cases hy : a.gens[g]? with
    | none => rw [gen_none r hy]; rfl
    | some y =>
      obtain ⟨x, d, hx, e1, e2, e3, hp, s⟩ := gen_some r hy
      obtain ⟨p, ep, lp⟩ := alloc_len
      rw [e1, Out.bind_ok, ep, Out.bind_ok, e2, Out.bind_ok, memcpy_all lp s.len, Out.bind_ok]
      exact ⟨_, rfl, rel_save r e3 s⟩
  | setstate g k =>
    unfold step Spec.step
    dsimp only
    cases hy : a.gens[g]? with
    | none => rw [gen_none r hy]; rfl
    | some y =>
      obtain ⟨x, d, hx, e1, e2, e3, hp, s⟩ := gen_some r hy
      rw [e1, Out.bind_ok]
      cases hz : a.saved[k]? with
      | none =>
        have : w.saved[k]? = none := by
          rw [List.getElem?_eq_none_iff] at hz ⊢
          rw [r.sl]; exact hz
        rw [this]; rfl
      | some z =>
        have lk : k < w.saved.length := by rw [r.sl]; exact (List.getElem?_eq_some_iff.1 hz).1
        have hq : w.saved[k]? = some (w.saved[k].1, w.saved[k].2) := List.getElem?_eq_getElem lk
        obtain ⟨e, d', hd', s'⟩ := r.saved k _ z hq hz
        have e4 : blockAt w w.saved[k].1 = .ok d' := by
          unfold blockAt; simp only at hd'; rw [hd']
        rw [hq]
        dsimp only
        rw [e2, Out.bind_ok, e4, Out.bind_ok, memcpy_all s.len s'.len, Out.bind_ok]
        exact ⟨_, rfl, rel_put r hx hy e s'⟩

def AgreesL (r : R (List (Obs F) × World F)) : Option (List (Obs F) × Spec.W F) → Prop
  | none => r = .ub
  | some (o, a) => ∃ w, r = .ok (o, w) ∧ Rel w a

theorem run_rel (fl : Floats F) : ∀ (ops : List (Op F)) {w : World F} {a : Spec.W F}, Rel w a → AgreesL (run fl w ops) (Spec.run fl a ops) := by
  intro ops
  induction ops with
  | nil => intro w a r; exact ⟨w, rfl, r⟩
  | cons op ops ih =>
    intro w a r
    have hs := step_rel fl r op
    unfold run Spec.run
    cases hm : Spec.step fl a op with
    | none =>
      rw [hm] at hs
      unfold Agrees at hs
      rw [hs]; rfl
    | some q =>
      obtain ⟨o, a'⟩ := q
      rw [hm] at hs
      obtain ⟨w', e, r'⟩ := hs
      have hr := ih r'
      rw [e, Out.bind_ok]
      simp only [Option.bind_some]
      cases hn : Spec.run fl a' ops with
      | none =>
        rw [hn] at hr
        unfold AgreesL at hr
        rw [hr]; rfl
      | some q =>
        obtain ⟨os, a2⟩ := q
        rw [hn] at hr
        obtain ⟨w2, e2, r2⟩ := hr
        rw [e2]
        exact ⟨w2, rfl, r2⟩

/-! ### Runs of the specification -/

theorem spec_run_append (fl : Floats F) : ∀ (xs ys : List (Op F)) (a : Spec.W F),
    Spec.run fl a (xs ++ ys) = (Spec.run fl a xs).bind fun q => (Spec.run fl q.2 ys).map fun p => (q.1 ++ p.1, p.2) := by
  intro xs
  induction xs with
  | nil => intro ys a; simp [Spec.run]
  | cons x xs ih =>
    intro ys a
    simp only [List.cons_append, Spec.run]
    cases Spec.step fl a x with
    | none => rfl
    | some q =>
      simp only [Option.bind_some, ih]
      cases Spec.run fl q.2 xs with
      | none => rfl
      | some p =>
        simp only [Option.bind_some, Option.map_some]
        cases Spec.run fl p.2 ys <;> rfl

/-- Saved states stay. -/
theorem spec_step_saved (fl : Floats F) {a a' : Spec.W F} {op : Op F} {o : Obs F} (h : Spec.step fl a op = some (o, a')) :
    a.saved <+: a'.saved := by
  cases op with
  | new key =>
    unfold Spec.step at h
    dsimp only at h
    split_ifs at h
    cases h
    exact List.prefix_refl _
  | seed g key =>
    unfold Spec.step at h
    dsimp only at h
    split_ifs at h
    obtain ⟨x, _, e⟩ := Option.map_eq_some_iff.1 h
    cases e
    exact List.prefix_refl _
  | gauss g mu sigma =>
    unfold Spec.step at h
    dsimp only at h
    obtain ⟨x, _, e⟩ := Option.map_eq_some_iff.1 h
    revert e
    cases x.spare with
    | none => intro e; cases e; exact List.prefix_refl _
    | some z => intro e; cases e; exact List.prefix_refl _
  | getstate g =>
    unfold Spec.step at h
    dsimp only at h
    obtain ⟨x, _, e⟩ := Option.map_eq_some_iff.1 h
    cases e
    exact List.prefix_append _ _
  | setstate g s =>
    unfold Spec.step at h
    dsimp only at h
    obtain ⟨x, _, e⟩ := Option.bind_eq_some_iff.1 h
    obtain ⟨y, _, e⟩ := Option.map_eq_some_iff.1 e
    cases e
    exact List.prefix_refl _
  | _ =>
    unfold Spec.step at h
    dsimp only at h
    obtain ⟨x, _, e⟩ := Option.map_eq_some_iff.1 h
    cases e
    exact List.prefix_refl _

theorem spec_run_saved (fl : Floats F) : ∀ (ops : List (Op F)) {a a' : Spec.W F} {o : List (Obs F)},
    Spec.run fl a ops = some (o, a') → a.saved <+: a'.saved := by
  intro ops
  induction ops with
  | nil => intro a a' o h; cases h; exact List.prefix_refl _
  | cons op ops ih =>
    intro a a' o h
    unfold Spec.run at h
    obtain ⟨q, h1, h2⟩ := Option.bind_eq_some_iff.1 h
    obtain ⟨p, h3, h4⟩ := Option.map_eq_some_iff.1 h2
    cases h4
    exact (spec_step_saved fl h1).trans (ih h3)

end Codon.Twister
