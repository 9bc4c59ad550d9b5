import Verif.Getopt.Spec
import Mathlib.Data.List.Infix
import Mathlib.Tactic.Tauto

/-!
# Lemmas for `getopt`
-/

namespace Codon.Getopt

theorem render_inj {a b : Str × Bool} (ha : '=' ∉ a.1) (hb : '=' ∉ b.1) (h : render a = render b) :
    a = b := by
  obtain ⟨n, p⟩ := a
  obtain ⟨m, q⟩ := b
  unfold render at h
  simp only at ha hb h
  cases p <;> cases q <;> simp only [Bool.false_eq_true, if_true, if_false] at h
  · rw [h]
  · exact absurd (by rw [h]; simp) ha
  · exact absurd (by rw [← h]; simp) hb
  · rw [List.append_cancel_right h]

theorem prefix_render {w : Str} (hw : '=' ∉ w) (d : Str × Bool) :
    w.isPrefixOf (render d) = w.isPrefixOf d.1 := by
  rw [Bool.eq_iff_iff, List.isPrefixOf_iff_prefix, List.isPrefixOf_iff_prefix]
  unfold render
  cases d.2
  · simp
  · simp only [if_true, List.prefix_concat_iff]
    constructor
    · rintro (h | h)
      · exact absurd (by rw [h]; simp) hw
      · exact h
    · exact Or.inr

theorem filter_render {w : Str} (hw : '=' ∉ w) (L : List (Str × Bool)) :
    (L.map render).filter (fun o => w.isPrefixOf o) =
      (L.filter fun d => w.isPrefixOf d.1).map render := by
  rw [List.filter_map]
  congr 2
  funext d
  exact prefix_render hw d

theorem mem_poss {w : Str} (hw : '=' ∉ w) {L : List (Str × Bool)} (hL : ∀ d ∈ L, '=' ∉ d.1)
    (b : Bool) : render (w, b) ∈ (L.filter fun d => w.isPrefixOf d.1).map render ↔ (w, b) ∈ L := by
  rw [List.mem_map]
  constructor
  · rintro ⟨d, hd, e⟩
    have hm := (List.mem_filter.1 hd).1
    rw [← render_inj (hL d hm) hw e]
    exact hm
  · intro h
    refine ⟨(w, b), List.mem_filter.2 ⟨h, ?_⟩, rfl⟩
    rw [List.isPrefixOf_iff_prefix]

theorem longHasArgs_iff {w : Str} (hw : '=' ∉ w) {L : List (Str × Bool)}
    (hL : ∀ d ∈ L, '=' ∉ d.1) (b : Bool) (n : Str) :
    longHasArgs w (L.map render) = some (b, n) ↔ Resolves L w (n, b) := by
  have h1 := mem_poss hw hL false
  have h2 := mem_poss hw hL true
  simp only [render, Bool.false_eq_true, if_true, if_false] at h1 h2
  have h1' : w ∈ (L.filter fun d => w.isPrefixOf d.1).map render ↔ (w, false) ∈ L := h1
  have h2' : w ++ ['='] ∈ (L.filter fun d => w.isPrefixOf d.1).map render ↔ (w, true) ∈ L := h2
  unfold longHasArgs Resolves
  simp only
  rw [filter_render hw]
  by_cases c1 : (w, false) ∈ L
  · have hne : (L.filter fun d => w.isPrefixOf d.1).map render ≠ [] :=
      List.ne_nil_of_mem (h1'.2 c1)
    rw [if_neg hne, if_pos (h1'.2 c1)]
    cases b
    · simp only [Option.some.injEq, Prod.mk.injEq, true_and]
      constructor
      · rintro rfl; exact Or.inl ⟨rfl, c1, by simp⟩
      · rintro (⟨h, _⟩ | ⟨h, _⟩)
        · exact h.symm
        · exact absurd c1 h
    · simp [c1]
  · by_cases c2 : (w, true) ∈ L
    · have hne : (L.filter fun d => w.isPrefixOf d.1).map render ≠ [] :=
        List.ne_nil_of_mem (h2'.2 c2)
      rw [if_neg hne, if_neg (fun h => c1 (h1'.1 h)), if_pos (h2'.2 c2)]
      cases b
      · simp only [Option.some.injEq, Prod.mk.injEq, false_iff, Bool.true_eq_false, false_and]
        rintro (⟨h, h', _⟩ | ⟨_, h, _⟩)
        · subst h; exact c1 h'
        · exact h c2
      · simp only [Option.some.injEq, Prod.mk.injEq, true_and]
        constructor
        · rintro rfl; exact Or.inl ⟨rfl, c2, fun _ => c1⟩
        · rintro (⟨h, _⟩ | ⟨_, h, _⟩)
          · exact h.symm
          · exact absurd c2 h
    · rw [if_neg (fun h => c1 (h1'.1 h)), if_neg (fun h => c2 (h2'.1 h))]
      clear h1 h2 h1' h2'
      have hno : ¬ (n = w ∧ (n, b) ∈ L ∧ (b = true → (w, false) ∉ L)) := by
        rintro ⟨rfl, h, _⟩
        cases b
        · exact c1 h
        · exact c2 h
      rw [or_iff_right hno]
      simp only [c1, c2, not_false_eq_true, true_and]
      clear hno
      have hsub : ∀ d ∈ L.filter (fun d => w.isPrefixOf d.1), '=' ∉ d.1 :=
        fun d hd => hL d (List.mem_filter.1 hd).1
      generalize L.filter (fun d => w.isPrefixOf d.1) = F at *
      rcases F with _ | ⟨d, _ | ⟨d', F⟩⟩
      · simp
      · obtain ⟨m, p⟩ := d
        have hm := hsub (m, p) (by simp)
        simp only at hm
        cases p
        · have hl : m.getLast? ≠ some '=' := fun h => hm (List.mem_of_getLast? h)
          simp [render, hl]
          tauto
        · simp [render]
          tauto
      · simp

theorem splitEq_no {w : Str} (h : '=' ∉ w) : splitEq w = (w, []) := by
  induction w with
  | nil => rfl
  | cons c r ih =>
    simp only [List.mem_cons, not_or] at h
    rw [splitEq, if_neg (Ne.symm h.1), ih h.2]

theorem splitEq_eq {w : Str} (h : '=' ∉ w) (v : Str) : splitEq (w ++ '=' :: v) = (w, v) := by
  induction w with
  | nil => simp [splitEq]
  | cons c r ih =>
    simp only [List.mem_cons, not_or] at h
    rw [List.cons_append, splitEq, if_neg (Ne.symm h.1), ih h.2]

theorem splitEq_cases (s : Str) : ('=' ∉ s ∧ splitEq s = (s, [])) ∨
    ∃ w v, '=' ∉ w ∧ s = w ++ '=' :: v ∧ splitEq s = (w, v) := by
  by_cases h : '=' ∈ s
  · obtain ⟨w, v, e, hw⟩ := List.eq_append_cons_of_mem h
    exact Or.inr ⟨w, v, hw, e, by rw [e, splitEq_eq hw]⟩
  · exact Or.inl ⟨h, splitEq_no h⟩

theorem shortHasArg_eq {D : Decls} (h : ∀ d ∈ D.shorts, d.1 ≠ ':') (c : Char) :
    shortHasArg c D.shortopts = D.short c := by
  obtain ⟨S, L⟩ := D
  simp only [Decls.shortopts, Decls.short] at h ⊢
  induction S with
  | nil => rfl
  | cons d t ih =>
    obtain ⟨x, b⟩ := d
    have hx : x ≠ ':' := h (x, b) (by simp)
    have hi := ih fun d hd => h d (by simp [hd])
    cases b
    · simp only [List.flatMap_cons, Bool.false_eq_true, if_false, List.singleton_append, shortHasArg,
        List.find?_cons]
      by_cases e : x = c
      · subst e
        simp only [hx, ne_eq, not_false_eq_true, and_self, if_true, decide_true, Option.map_some,
          Option.some.injEq, decide_eq_false_iff_not]
        rcases t with _ | ⟨⟨y, p⟩, t⟩
        · simp
        · have hy : y ≠ ':' := h (y, p) (by simp)
          cases p <;> simp [hy]
      · simp [e, Ne.symm e, hi]
    · simp only [List.flatMap_cons, if_true, List.cons_append, List.nil_append, shortHasArg,
        List.find?_cons]
      by_cases e : x = c
      · subst e
        simp [hx]
      · simp [e, Ne.symm e, hi]

theorem doShorts_iff {D : Decls} (h : ∀ d ∈ D.shorts, d.1 ≠ ':') : ∀ (cs : Str)
    (opts : List (Str × Str)) (args : List Str) (res : List (Str × Str)) (rest : List Str),
    doShorts D.shortopts opts cs args = some (res, rest) ↔
      ∃ os, res = opts ++ os ∧ Cluster D cs args os rest := by
  intro cs
  induction cs with
  | nil =>
    intro opts args res rest
    simp only [doShorts, Option.some.injEq, Prod.mk.injEq]
    constructor
    · rintro ⟨rfl, rfl⟩; exact ⟨[], by simp, .nil⟩
    · rintro ⟨os, rfl, hc⟩; cases hc; simp
  | cons c cs ih =>
    intro opts args res rest
    rw [doShorts.eq_def]
    simp only [shortHasArg_eq h]
    rcases hd : D.short c with _ | _ | _
    · simp only [false_iff, not_exists, not_and, reduceCtorEq]
      rintro os _ hc
      cases hc <;> simp_all
    · simp only
      rw [ih]
      constructor
      · rintro ⟨os, rfl, hc⟩
        exact ⟨_, by simp, .flag hd hc⟩
      · rintro ⟨os, rfl, hc⟩
        cases hc with
        | flag _ hc => exact ⟨_, by simp, hc⟩
        | attached h' _ => rw [hd] at h'; cases h'
        | separate h' => rw [hd] at h'; cases h'
    · simp only
      by_cases he : cs = []
      · subst he
        rw [if_pos rfl]
        rcases args with _ | ⟨a, r⟩
        · simp only [false_iff, not_exists, not_and, reduceCtorEq]
          rintro os _ hc
          cases hc with
          | flag h' _ => rw [hd] at h'; cases h'
          | attached _ h' => exact h' rfl
        · simp only [Option.some.injEq, Prod.mk.injEq]
          constructor
          · rintro ⟨rfl, rfl⟩; exact ⟨_, rfl, .separate hd⟩
          · rintro ⟨os, rfl, hc⟩
            cases hc with
            | flag h' _ => rw [hd] at h'; cases h'
            | attached _ h' => exact absurd rfl h'
            | separate _ => simp
      · rw [if_neg he]
        simp only [Option.some.injEq, Prod.mk.injEq]
        constructor
        · rintro ⟨rfl, rfl⟩; exact ⟨_, rfl, .attached hd he⟩
        · rintro ⟨os, rfl, hc⟩
          cases hc with
          | flag h' _ => rw [hd] at h'; cases h'
          | attached _ _ => simp
          | separate _ => exact absurd rfl he

theorem cluster_suffix {D : Decls} {cs : Str} {args rest : List Str} {os : List (Str × Str)}
    (h : Cluster D cs args os rest) : rest <:+ args := by
  induction h with
  | nil => exact List.suffix_refl _
  | flag _ _ ih => exact ih
  | attached _ _ => exact List.suffix_refl _
  | separate _ => exact List.suffix_cons _ _

theorem noEmpty_suffix {a b : List Str} (h : a <:+ b) (hb : NoEmpty b) : NoEmpty a :=
  fun w hw hm => hb w hw (h.subset hm)

/-- The loop finds the meaning of a command line, and raises an error exactly if it has none. -/
theorem loop_iff {D : Decls} (hD : D.Ok) (first : Bool) : ∀ (n : Nat) (args : List Str)
    (opts : List (Str × Str)) (prog : List Str) (res : List (Str × Str)) (rest : List Str),
    args.length ≤ n → NoEmpty args →
    (loop first D.shortopts D.longopts n opts prog args = some (res, rest) ↔
      ∃ os ops, res = opts ++ os ∧ rest = prog ++ ops ∧ Line D first args os ops) := by
  intro n
  induction n with
  | zero =>
    intro args opts prog res rest hl _
    have : args = [] := List.length_eq_zero_iff.1 (by omega)
    subst this
    simp only [loop, Option.some.injEq, Prod.mk.injEq]
    constructor
    · rintro ⟨rfl, rfl⟩; exact ⟨[], [], by simp, by simp, .done⟩
    · rintro ⟨os, ops, rfl, rfl, h⟩; cases h; simp
  | succ n ih =>
    intro args opts prog res rest hl hne
    rcases args with _ | ⟨a, r⟩
    · simp only [loop, Option.some.injEq, Prod.mk.injEq]
      constructor
      · rintro ⟨rfl, rfl⟩; exact ⟨[], [], by simp, by simp, .done⟩
      · rintro ⟨os, ops, rfl, rfl, h⟩; cases h; simp
    · have hr : NoEmpty r := noEmpty_suffix (List.suffix_cons a r) hne
      simp only [List.length_cons] at hl
      rw [loop]
      by_cases c1 : a = ['-', '-']
      · rw [if_pos c1]
        subst c1
        simp only [Option.some.injEq, Prod.mk.injEq]
        constructor
        · rintro ⟨rfl, rfl⟩; exact ⟨[], r, by simp, rfl, .stop⟩
        · rintro ⟨os, ops, rfl, rfl, h⟩
          generalize ht : ['-', '-'] :: r = t at h
          cases h with
          | done => simp at ht
          | stop => simp at ht; simp [ht]
          | longFlag h' => simp at ht; exact absurd ht.1 h'
          | longEq => simp at ht
          | longSep h' => simp at ht; exact absurd ht.1 h'
          | short _ h' => simp at ht; rw [← ht.1] at h'; simp at h'
          | operand h' => simp at ht; rw [← ht.1] at h'; rcases h' with h' | h' <;> simp at h'
          | operands h' => simp at ht; rw [← ht.1] at h'; rcases h' with h' | h' <;> simp at h'
      · rw [if_neg c1]
        by_cases c2 : a.take 2 = ['-', '-']
        · rw [if_pos c2]
          obtain ⟨s, rfl⟩ : ∃ s, a = '-' :: '-' :: s := by
            rcases a with _ | ⟨x, _ | ⟨y, s⟩⟩ <;> simp at c2
            exact ⟨s, by rw [c2.1, c2.2]⟩
          have hs : s ≠ [] := by rintro rfl; exact c1 rfl
          simp only [List.drop_succ_cons, List.drop_zero]
          rcases splitEq_cases s with ⟨h1, h2⟩ | ⟨w, v, h1, h2, h3⟩
          · -- no value
            have key : ∀ b m, longHasArgs s D.longopts = some (b, m) ↔ Resolves D.longs s (m, b) :=
              fun b m => longHasArgs_iff h1 hD.2 b m
            unfold doLongs
            simp only [h2]
            rcases hq : longHasArgs s D.longopts with _ | ⟨b, m⟩
            · simp only [false_iff, reduceCtorEq]
              rintro ⟨os, ops, rfl, rfl, h⟩
              cases h with
              | stop => exact hs rfl
              | longFlag _ _ h' => rw [← key, hq] at h'; cases h'
              | longEq _ _ => simp at h1
              | longSep _ _ h' => rw [← key, hq] at h'; cases h'
              | short _ h' => exact absurd rfl h'
              | operand h' => rcases h' with h' | h' <;> simp at h'
              | operands h' => rcases h' with h' | h' <;> simp at h'
            · have hres := (key b m).1 hq
              have huniq : ∀ b' m', Resolves D.longs s (m', b') → b' = b ∧ m' = m := by
                intro b' m' h'
                rw [← key, hq] at h'
                cases h'
                exact ⟨rfl, rfl⟩
              cases b
              · simp only [Bool.false_eq_true, if_false, ne_eq, not_true, if_false]
                rw [ih r _ _ _ _ (by omega) hr]
                constructor
                · rintro ⟨os, ops, rfl, rfl, h⟩
                  exact ⟨_, _, by simp, rfl, .longFlag hs h1 hres h⟩
                · rintro ⟨os, ops, rfl, rfl, h⟩
                  cases h with
                  | stop => exact absurd rfl hs
                  | longFlag _ _ h' h'' =>
                    obtain ⟨_, rfl⟩ := huniq _ _ h'
                    exact ⟨_, _, by simp, rfl, h''⟩
                  | longEq _ _ => simp at h1
                  | longSep _ _ h' => exact absurd (huniq _ _ h').1 (by simp)
                  | short _ h' => exact absurd rfl h'
                  | operand h' => rcases h' with h' | h' <;> simp at h'
                  | operands h' => rcases h' with h' | h' <;> simp at h'
              · simp only [if_true]
                rcases r with _ | ⟨v, r⟩
                · simp only [false_iff, reduceCtorEq]
                  rintro ⟨os, ops, rfl, rfl, h⟩
                  cases h with
                  | stop => exact hs rfl
                  | longFlag _ _ h' => exact absurd (huniq _ _ h').1 (by simp)
                  | longEq _ _ => simp at h1
                  | short _ h' => exact absurd rfl h'
                  | operand h' => rcases h' with h' | h' <;> simp at h'
                  | operands h' => rcases h' with h' | h' <;> simp at h'
                · simp only [List.length_cons] at hl
                  simp only
                  rw [ih r _ _ _ _ (by omega) (noEmpty_suffix (List.suffix_cons v r) hr)]
                  constructor
                  · rintro ⟨os, ops, rfl, rfl, h⟩
                    exact ⟨_, _, by simp, rfl, .longSep hs h1 hres h⟩
                  · rintro ⟨os, ops, rfl, rfl, h⟩
                    cases h with
                    | stop => exact absurd rfl hs
                    | longFlag _ _ h' => exact absurd (huniq _ _ h').1 (by simp)
                    | longEq _ _ => simp at h1
                    | longSep _ _ h' h'' =>
                      obtain ⟨_, rfl⟩ := huniq _ _ h'
                      exact ⟨_, _, by simp, rfl, h''⟩
                    | short _ h' => exact absurd rfl h'
                    | operand h' => rcases h' with h' | h' <;> simp at h'
                    | operands h' => rcases h' with h' | h' <;> simp at h'
          · -- with a value
            subst h2
            have hv : v ≠ [] := by rintro rfl; exact hne w h1 (by simp)
            have key : ∀ b m, longHasArgs w D.longopts = some (b, m) ↔ Resolves D.longs w (m, b) :=
              fun b m => longHasArgs_iff h1 hD.2 b m
            have hmem : '=' ∈ w ++ '=' :: v := by simp
            have hinv : ∀ {os ops}, Line D first (('-' :: '-' :: (w ++ '=' :: v)) :: r) os ops →
                ∃ m os', Resolves D.longs w (m, true) ∧ os = ('-' :: '-' :: m, v) :: os' ∧
                  Line D first r os' ops := by
              intro os ops h
              generalize ht : ('-' :: '-' :: (w ++ '=' :: v)) :: r = t at h
              cases h with
              | done => simp at ht
              | stop => simp at ht
              | longFlag _ h' => simp at ht; rw [← ht.1] at h'; exact absurd hmem h'
              | longEq h' h'' h''' =>
                simp only [List.cons.injEq, true_and] at ht
                have e := congrArg splitEq ht.1
                rw [splitEq_eq h1, splitEq_eq h'] at e
                simp only [Prod.mk.injEq] at e
                obtain ⟨rfl, rfl⟩ := e
                rw [ht.2]
                exact ⟨_, _, h'', rfl, h'''⟩
              | longSep _ h' => simp at ht; rw [← ht.1] at h'; exact absurd hmem h'
              | short _ h' => simp at ht; rw [← ht.1] at h'; simp at h'
              | operand h' => simp at ht; rw [← ht.1] at h'; rcases h' with h' | h' <;> simp at h'
              | operands h' => simp at ht; rw [← ht.1] at h'; rcases h' with h' | h' <;> simp at h'
            unfold doLongs
            simp only [h3]
            rcases hq : longHasArgs w D.longopts with _ | ⟨b, m⟩
            · simp only [false_iff, reduceCtorEq]
              rintro ⟨os, ops, rfl, rfl, h⟩
              obtain ⟨m, _, h', _⟩ := hinv h
              rw [← key, hq] at h'; cases h'
            · have hres := (key b m).1 hq
              cases b
              · simp only [Bool.false_eq_true, if_false, ne_eq, hv, not_false_eq_true, if_true,
                  false_iff, reduceCtorEq]
                rintro ⟨os, ops, rfl, rfl, h⟩
                obtain ⟨m', _, h', _⟩ := hinv h
                rw [← key, hq] at h'; cases h'
              · simp only [if_true, hv, if_false]
                rw [ih r _ _ _ _ (by omega) hr]
                constructor
                · rintro ⟨os, ops, rfl, rfl, h⟩
                  exact ⟨_, _, by simp, rfl, .longEq h1 hres h⟩
                · rintro ⟨os, ops, rfl, rfl, h⟩
                  obtain ⟨m', os', h', rfl, h''⟩ := hinv h
                  rw [← key, hq] at h'
                  cases h'
                  exact ⟨_, _, by simp, rfl, h''⟩
        · rw [if_neg c2]
          by_cases c3 : a.take 1 = ['-'] ∧ a ≠ ['-']
          · rw [if_pos c3]
            obtain ⟨c3, c4⟩ := c3
            obtain ⟨s, rfl⟩ : ∃ s, a = '-' :: s := by
              rcases a with _ | ⟨x, s⟩ <;> simp at c3
              exact ⟨s, by rw [c3]⟩
            have hs : s ≠ [] := by rintro rfl; exact c4 rfl
            have hs' : s.head? ≠ some '-' := by
              rcases s with _ | ⟨x, s⟩
              · simp
              · intro h; simp at h; subst h; simp at c2
            have hsd : s ≠ ['-'] := by rintro rfl; exact hs' rfl
            simp only [List.drop_succ_cons, List.drop_zero]
            have key := doShorts_iff hD.1 s opts r
            rcases hq : doShorts D.shortopts opts s r with _ | ⟨o1, r1⟩
            · simp only [false_iff, reduceCtorEq]
              rintro ⟨os, ops, rfl, rfl, h⟩
              cases h with
              | stop => exact hsd rfl
              | longFlag => simp at hs'
              | longEq => simp at hs'
              | longSep => simp at hs'
              | short _ _ h' =>
                have := (key _ _).2 ⟨_, rfl, h'⟩
                rw [hq] at this; cases this
              | operand h' =>
                rcases h' with h' | h' <;> simp at h'
                exact hs h'
              | operands h' =>
                rcases h' with h' | h' <;> simp at h'
                exact hs h'
            · obtain ⟨os1, rfl, hc⟩ := (key _ _).1 hq
              have hsuf := cluster_suffix hc
              have hlen := hsuf.length_le
              simp only
              rw [ih r1 _ _ _ _ (by omega) (noEmpty_suffix hsuf hr)]
              constructor
              · rintro ⟨os, ops, rfl, rfl, h⟩
                exact ⟨_, _, by simp, rfl, .short hs hs' hc h⟩
              · rintro ⟨os, ops, rfl, rfl, h⟩
                cases h with
                | stop => exact absurd rfl hsd
                | longFlag => simp at hs'
                | longEq => simp at hs'
                | longSep => simp at hs'
                | short _ _ h' h'' =>
                  have := (key _ _).2 ⟨_, rfl, h'⟩
                  rw [hq] at this
                  simp only [Option.some.injEq, Prod.mk.injEq, List.append_cancel_left_eq] at this
                  obtain ⟨rfl, rfl⟩ := this
                  exact ⟨_, _, by simp, rfl, h''⟩
                | operand h' =>
                  rcases h' with h' | h' <;> simp at h'
                  exact absurd h' hs
                | operands h' =>
                  rcases h' with h' | h' <;> simp at h'
                  exact absurd h' hs
          · rw [if_neg c3]
            have hop : Operand a := by
              by_cases e : a = ['-']
              · exact Or.inl e
              · refine Or.inr fun h => c3 ⟨?_, e⟩
                rcases a with _ | ⟨x, s⟩
                · simp at h
                · simp at h; simp [h]
            have hinv : ∀ {os ops}, Line D first (a :: r) os ops →
                (first = true ∧ os = [] ∧ ops = a :: r) ∨
                ∃ ops', first = false ∧ ops = a :: ops' ∧ Line D first r os ops' := by
              intro os ops h
              cases h with
              | stop => exact absurd rfl c1
              | longFlag => simp at c2
              | longEq => simp at c2
              | longSep => simp at c2
              | short h' _ =>
                refine absurd ⟨by simp, fun h => h' ?_⟩ c3
                simpa using h
              | operand _ h2 h3 => exact Or.inr ⟨_, h2, rfl, h3⟩
              | operands _ h2 => exact Or.inl ⟨h2, rfl, rfl⟩
            cases first
            · simp only [Bool.false_eq_true, if_false]
              rw [ih r _ _ _ _ (by omega) hr]
              constructor
              · rintro ⟨os, ops, rfl, rfl, h⟩
                exact ⟨_, _, rfl, by simp, .operand hop rfl h⟩
              · rintro ⟨os, ops, rfl, rfl, h⟩
                rcases hinv h with ⟨h', _⟩ | ⟨ops', _, rfl, h'⟩
                · cases h'
                · exact ⟨_, _, rfl, by simp, h'⟩
            · simp only [if_true, Option.some.injEq, Prod.mk.injEq]
              constructor
              · rintro ⟨rfl, rfl⟩; exact ⟨[], _, by simp, rfl, .operands hop rfl⟩
              · rintro ⟨os, ops, rfl, rfl, h⟩
                rcases hinv h with ⟨_, rfl, rfl⟩ | ⟨_, h', _⟩
                · simp
                · cases h'

end Codon.Getopt
