import Verif.RxT.Spec
import Mathlib.Tactic.Ring

/-! Helper lemmas about templates. -/

namespace Codon.RxT

/-! ### Characters -/

theorem isOct_iff (c : Char) : isOct c = true ↔ Between '0' '7' c := by simp [isOct, Between]

theorem isDig_iff (c : Char) : isDig c = true ↔ Between '0' '9' c := by simp [isDig, Between]

theorem isWord_iff (c : Char) : isWord c = true ↔ Word c := by
  simp [isWord, isDig, isAlpha, Word, Between, or_assoc]

theorem char_le {a b : Char} : a ≤ b ↔ a.toNat ≤ b.toNat := by
  rw [Char.le_def, UInt32.le_iff_toNat_le]; rfl

theorem oct_dig {c : Char} (h : Between '0' '7' c) : Between '0' '9' c := by
  refine ⟨h.1, ?_⟩
  have := h.2
  rw [char_le] at this ⊢
  have e7 : '7'.toNat = 55 := rfl
  have e9 : '9'.toNat = 57 := rfl
  omega

theorem dig_ne {c : Char} (h : Between '0' '9' c) {d : Char} (hd : ¬ Between '0' '9' d) : c ≠ d := by
  intro e; subst e; exact hd h

theorem word_ne {c : Char} (h : Word c) {d : Char} (hd : isWord d = false) : c ≠ d := by
  intro e; subst e; rw [(isWord_iff c).2 h] at hd; cases hd

theorem foldl_num (base : Nat) : ∀ (ds : List Char) (n : Nat),
    ds.foldl (fun n c => n * base + (c.toNat - 48)) n = n * base ^ ds.length + numOf base ds := by
  intro ds
  induction ds with
  | nil => intro n; simp [numOf]
  | cons d r ih =>
    intro n
    rw [List.foldl_cons, ih, numOf, List.length_cons, show '0'.toNat = 48 from rfl]
    ring

theorem toInt_eq (base : Nat) (ds : List Char) : toInt base ds = numOf base ds := by
  rw [toInt, foldl_num]; simp

/-! ### Splitting -/

theorem split_lits : ∀ (w s cur : List Char), (∀ c ∈ w, c ≠ '\\') →
    split (w ++ s) 0 cur = split s 0 (cur ++ w) := by
  intro w
  induction w with
  | nil => intro s cur _; simp
  | cons c r ih =>
    intro s cur h
    rw [List.cons_append, split.eq_def]
    simp only [if_neg (h c (by simp))]
    rw [ih s _ (fun d hd => h d (by simp [hd]))]
    simp

theorem split_skip : ∀ (w s cur : List Char), split (w ++ s) w.length cur = split s 0 cur := by
  intro w
  induction w with
  | nil => intro s cur; rfl
  | cons c r ih => intro s cur; rw [List.cons_append, List.length_cons, split]; exact ih s cur

theorem split_two (c : Char) (s cur : List Char)
    (h : octalMatch (c :: s) = true ∨ groupMatch (c :: s) = none) :
    split ('\\' :: c :: s) 0 cur = split s 0 (cur ++ ['\\', c]) := by
  rw [split.eq_def]
  simp only [if_true]
  have e : split (c :: s) 1 (cur ++ List.take 2 ('\\' :: c :: s)) = split s 0 (cur ++ ['\\', c]) := by
    rw [split]; rfl
  rcases h with h | h
  · rw [h]; simp only; exact e
  · rw [h]
    cases octalMatch (c :: s) <;> exact e

theorem split_group (p r s cur : List Char) (ho : octalMatch (r ++ s) = false)
    (hg : groupMatch (r ++ s) = some p) (hp : p = '\\' :: r) :
    split (p ++ s) 0 cur = cur :: p :: split s 0 [] := by
  subst hp
  rw [List.cons_append, split.eq_def]
  simp only [if_true, ho, hg]
  rw [List.length_cons, Nat.add_sub_cancel, split_skip]

/-- The parts that stand for text. -/
def Tok.text : Tok → Bool
  | .num _ => false
  | .refNum _ => false
  | .ref _ => false
  | _ => true

theorem group_none {c : Char} (s : List Char) (h1 : isDig c = false ∨ c = '0') (h2 : c ≠ 'g') :
    groupMatch (c :: s) = none := by
  rw [groupMatch.eq_def]
  have : (isDig c && c != '0') = false := by
    rcases h1 with h | h
    · simp [h]
    · simp [h]
  simp only [this, Bool.false_eq_true, if_false, if_neg h2]

theorem esc_facts {c v : Char} (h : (c, v) ∈ escapes) :
    isDig c = false ∧ c ≠ 'g' ∧ escVal c = some v := by
  simp only [escapes, List.mem_cons, Prod.mk.injEq, List.not_mem_nil, or_false] at h
  rcases h with h | h | h | h | h | h | h | h <;> obtain ⟨rfl, rfl⟩ := h <;> decide

theorem keep_facts {c : Char} (h : (Tok.keep c).Ok) :
    isDig c = false ∧ isAlpha c = false ∧ c ≠ '\\' ∧ c ≠ '"' ∧ c ≠ '\'' := by
  rcases h with ⟨h1, h2, h3, h4⟩ | rfl
  · have : isWord c = false := by
      cases e : isWord c
      · rfl
      · exact absurd ((isWord_iff c).1 e) h1
    simp only [isWord, Bool.or_eq_false_iff] at this
    exact ⟨this.1.1, this.1.2, h2, h3, h4⟩
  · decide

theorem alpha_ne {c d : Char} (h : isAlpha c = false) (hd : isAlpha d = true) : c ≠ d := by
  intro e; subst e; rw [h] at hd; cases hd

theorem split_text {t : Tok} (ht : t.text = true) (ok : t.Ok) (s cur : List Char) :
    split (t.show ++ s) 0 cur = split s 0 (cur ++ t.show) := by
  cases t with
  | num ds => cases ht
  | refNum ds => cases ht
  | ref w => cases ht
  | lit c =>
    exact split_lits [c] s cur (by intro d hd; simp at hd; subst hd; exact ok)
  | esc c v =>
    have hf := esc_facts ok
    exact split_two c s cur (.inr (group_none s (.inl hf.1) hf.2.1))
  | keep c =>
    have hf := keep_facts ok
    exact split_two c s cur (.inr (group_none s (.inl hf.1) (alpha_ne hf.2.1 (by decide))))
  | oct ds =>
    obtain ⟨hd, hl, _⟩ := ok
    cases ds with
    | nil => simp at hl
    | cons d r =>
      have hdd := hd d (by simp)
      have hdig := oct_dig hdd
      have h2 : split ('\\' :: d :: (r ++ s)) 0 cur = split (r ++ s) 0 (cur ++ ['\\', d]) := by
        apply split_two
        rcases hl with hl | hl
        · left
          match r, hl with
          | [a, b], _ =>
            simp only [List.cons_append, octalMatch, Bool.and_eq_true]
            exact ⟨⟨(isOct_iff d).2 hdd, (isOct_iff a).2 (hd a (by simp))⟩,
              (isOct_iff b).2 (hd b (by simp))⟩
        · right
          have : d = '0' := by simpa using hl.1
          subst this
          exact group_none _ (.inr rfl) (by decide)
      simp only [Tok.show, List.cons_append]
      rw [h2, split_lits r s _ (fun c hc => dig_ne (oct_dig (hd c (by simp [hc]))) (by
        simp only [Between]; decide))]
      simp

theorem takeWhile_word (w s : List Char) (h : ∀ c ∈ w, isWord c = true) :
    (w ++ '>' :: s).takeWhile isWord = w ∧ (w ++ '>' :: s).dropWhile isWord = '>' :: s := by
  induction w with
  | nil =>
    have : isWord '>' = false := by decide
    simp [this]
  | cons c r ih =>
    have hc := h c (by simp)
    have := ih (fun d hd => h d (by simp [hd]))
    simp [hc, this.1, this.2]

theorem group_named (w s : List Char) (hn : w ≠ []) (h : ∀ c ∈ w, isWord c = true) :
    groupMatch (('g' :: '<' :: w ++ ['>']) ++ s) = some ('\\' :: 'g' :: '<' :: w ++ ['>']) ∧
      octalMatch (('g' :: '<' :: w ++ ['>']) ++ s) = false := by
  have ht := takeWhile_word w s h
  have e : ('g' :: '<' :: w ++ ['>']) ++ s = 'g' :: '<' :: (w ++ '>' :: s) := by simp
  rw [e]
  constructor
  · rw [groupMatch.eq_def]
    have h1 : (isDig 'g' && 'g' != '0') = false := by decide
    simp only [h1, Bool.false_eq_true, if_false, if_true, ht.1, ht.2]
    rw [if_pos ⟨hn, rfl⟩]
  · cases hw : w ++ '>' :: s with
    | nil => rfl
    | cons a b =>
      have h1 : isOct 'g' = false := by decide
      simp [octalMatch, h1]

theorem dig_word {c : Char} (h : Between '0' '9' c) : isWord c = true := (isWord_iff c).2 (.inl h)

theorem split_ref {t : Tok} (ht : t.text = false) (ok : t.Ok) (s cur : List Char) (he : t.Ends s) :
    split (t.show ++ s) 0 cur = cur :: t.show :: split s 0 [] := by
  cases t with
  | lit c => cases ht
  | esc c v => cases ht
  | keep c => cases ht
  | oct ds => cases ht
  | refNum ds =>
    have := group_named ds s ok.1 (fun c hc => dig_word (ok.2 c hc))
    exact split_group _ _ s cur this.2 this.1 rfl
  | ref w =>
    obtain ⟨c, hc, _⟩ := ok.2
    have := group_named w s (List.ne_nil_of_mem hc) (fun c hc => (isWord_iff c).2 (ok.1 c hc))
    exact split_group _ _ s cur this.2 this.1 rfl
  | num ds =>
    obtain ⟨hd, h0, hl⟩ := ok
    match ds, hl with
    | [d], _ =>
      have hdd := (isDig_iff d).2 (hd d (by simp))
      have hz : (d != '0') = true := by simpa using h0
      have hnd : ∀ c r, s = c :: r → isDig c = false := by
        intro c r e
        have := he c (by rw [e]; rfl)
        rw [← isDig_iff] at this
        simpa using this
      refine split_group _ [d] s cur ?_ ?_ rfl
      · cases s with
        | nil => rfl
        | cons c r =>
          cases r with
          | nil => rfl
          | cons c2 r =>
            have : isOct c = false := by
              cases e : isOct c
              · rfl
              · have := (isDig_iff c).2 (oct_dig ((isOct_iff c).1 e))
                rw [hnd c _ rfl] at this; cases this
            simp [octalMatch, this]
      · rw [List.singleton_append, groupMatch.eq_def]
        simp only [hdd, hz, Bool.and_self, if_true]
        cases s with
        | nil => rfl
        | cons c r => simp only [hnd c r rfl, Bool.false_eq_true, if_false]; rfl
    | [d, e], _ =>
      have hdd := (isDig_iff d).2 (hd d (by simp))
      have hee := (isDig_iff e).2 (hd e (by simp))
      have hz : (d != '0') = true := by simpa using h0
      refine split_group _ [d, e] s cur ?_ ?_ rfl
      · cases s with
        | nil => rfl
        | cons c r =>
          simp only [List.cons_append, List.nil_append, octalMatch]
          cases h1 : isOct d
          · rfl
          cases h2 : isOct e
          · rfl
          have := he (by
            intro x hx
            simp only [List.mem_cons, List.not_mem_nil, or_false] at hx
            rcases hx with rfl | rfl
            · exact (isOct_iff _).1 h1
            · exact (isOct_iff _).1 h2) c rfl
          rw [← isOct_iff] at this
          simpa using this
      · rw [List.cons_append, groupMatch.eq_def]
        simp only [hdd, hz, Bool.and_self, if_true, List.cons_append, hee]
        rfl

/-- The text before the first reference, and the rest of the pieces. -/
def parts : List Tok → List Char × List (List Char)
  | [] => ([], [])
  | t :: r =>
    if t.text then (t.show ++ (parts r).1, (parts r).2)
    else ([], t.show :: (parts r).1 :: (parts r).2)

theorem split_parts : ∀ (ts : List Tok) (cur : List Char), Good ts →
    split (render ts) 0 cur = (cur ++ (parts ts).1) :: (parts ts).2 := by
  intro ts
  induction ts with
  | nil => intro cur _; simp [render, split, parts]
  | cons t r ih =>
    intro cur hg
    obtain ⟨h1, h2, h3⟩ := hg
    rw [render, parts]
    cases ht : t.text with
    | true =>
      rw [split_text ht h1, ih _ h3]
      simp
    | false =>
      rw [split_ref ht h1 _ _ h2, ih _ h3]
      simp

/-! ### Unescaping -/

theorem unesc_skip : ∀ (w s : List Char), unesc (w ++ s) w.length = unesc s 0 := by
  intro w
  induction w with
  | nil => intro s; rfl
  | cons c r ih => intro s; rw [List.cons_append, List.length_cons, unesc]; exact ih s

theorem pre_pre (a b : List Char) (o : Out) : (o.pre b).pre a = o.pre (a ++ b) := by
  cases o <;> simp [Out.pre]

theorem escVal_oct {c : Char} (h : isOct c = true) : escVal c = none := by
  have hb := (isOct_iff c).1 h
  have hne : ∀ d, isOct d = false → c ≠ d := by
    intro d hd e; subst e; rw [h] at hd; cases hd
  unfold escVal
  rw [if_neg (hne _ (by decide)), if_neg (hne _ (by decide)), if_neg (hne _ (by decide)),
    if_neg (hne _ (by decide)), if_neg (hne _ (by decide)), if_neg (hne _ (by decide)),
    if_neg (hne _ (by decide)), if_neg (hne _ (by decide)), if_neg (hne _ (by decide)),
    if_neg (hne _ (by decide))]

theorem escVal_keep {c : Char} (h : isAlpha c = false) (h1 : c ≠ '\\') (h2 : c ≠ '"') (h3 : c ≠ '\'') :
    escVal c = none := by
  have hne : ∀ d, isAlpha d = true → c ≠ d := fun d hd => alpha_ne h hd
  unfold escVal
  rw [if_neg (hne _ (by decide)), if_neg (hne _ (by decide)), if_neg (hne _ (by decide)),
    if_neg (hne _ (by decide)), if_neg (hne _ (by decide)), if_neg (hne _ (by decide)),
    if_neg (hne _ (by decide)), if_neg h2, if_neg h3, if_neg h1]

theorem take_oct (ds p : List Char) (hd : ∀ d ∈ ds, isOct d = true) (hl : ds.length ≤ 3)
    (hp : ∀ c, p.head? = some c → isOct c = false) :
    ((ds ++ p).take 4).takeWhile isOct = ds := by
  have key : ∀ (ds : List Char) (n : Nat), (∀ d ∈ ds, isOct d = true) → ds.length ≤ n →
      ((ds ++ p).take n).takeWhile isOct = ds := by
    intro ds
    induction ds with
    | nil =>
      intro n _ _
      cases n with
      | zero => rfl
      | succ n =>
        cases p with
        | nil => rfl
        | cons c r => simp [hp c rfl]
    | cons d r ih =>
      intro n h1 h2
      cases n with
      | zero => simp at h2
      | succ n =>
        simp only [List.cons_append, List.take_succ_cons]
        rw [List.takeWhile_cons_of_pos (h1 d (by simp)),
          ih n (fun x hx => h1 x (by simp [hx])) (by simpa using h2)]
  exact key ds 4 hd (by omega)

theorem unesc_text {t : Tok} (m : M) (ht : t.text = true) (ok : t.Ok) (p : List Char)
    (he : t.Ends p) : ∃ v, t.value m = some v ∧ unesc (t.show ++ p) 0 = (unesc p 0).pre v := by
  cases t with
  | num ds => cases ht
  | refNum ds => cases ht
  | ref w => cases ht
  | lit c =>
    refine ⟨[c], rfl, ?_⟩
    simp only [Tok.show, List.singleton_append]
    rw [unesc.eq_def]
    simp only [if_neg (show c ≠ '\\' from ok)]
  | esc c v =>
    refine ⟨[v], rfl, ?_⟩
    simp only [Tok.show, List.cons_append, List.nil_append]
    rw [unesc.eq_def]
    simp only [if_true, (esc_facts ok).2.2]
    rw [unesc]
  | keep c =>
    refine ⟨['\\', c], rfl, ?_⟩
    have hf := keep_facts ok
    have ho : isOct c = false := by
      cases e : isOct c
      · rfl
      · have := (isDig_iff c).2 (oct_dig ((isOct_iff c).1 e))
        rw [hf.1] at this; cases this
    simp only [Tok.show, List.cons_append, List.nil_append]
    rw [unesc.eq_def]
    simp only [if_true, escVal_keep hf.2.1 hf.2.2.1 hf.2.2.2.1 hf.2.2.2.2, ho, hf.2.1,
      Bool.false_eq_true, if_false]
    rw [unesc.eq_def]
    simp only [if_neg hf.2.2.1, pre_pre]
    rfl
  | oct ds =>
    obtain ⟨hd, hl, hv⟩ := ok
    refine ⟨[Char.ofNat (numOf 8 ds)], rfl, ?_⟩
    have hd' : ∀ d ∈ ds, isOct d = true := fun d h => (isOct_iff d).2 (hd d h)
    have htk := take_oct ds p hd' (by rcases hl with h | h <;> omega) (by
      intro c hc
      have := he c hc
      rw [← isOct_iff] at this
      simpa using this)
    cases ds with
    | nil => simp at hl
    | cons d r =>
      have hdo := hd' d (by simp)
      simp only [Tok.show, List.cons_append]
      rw [unesc.eq_def]
      rw [List.cons_append] at htk
      simp only [if_true, escVal_oct hdo, hdo, htk]
      rw [← List.cons_append, unesc_skip, toInt_eq, Nat.mod_eq_of_lt hv]

/-! ### Putting together -/

theorem show_ne (t : Tok) (ok : t.Ok) : ∃ c r, t.show = c :: r := by
  cases t <;> exact ⟨_, _, rfl⟩

theorem parts_head : ∀ (ts : List Tok), Good ts → ∀ c, (parts ts).1.head? = some c →
    (render ts).head? = some c := by
  intro ts
  cases ts with
  | nil => intro _ c h; simp [parts] at h
  | cons t r =>
    intro hg c h
    rw [parts] at h
    obtain ⟨a, b, hs⟩ := show_ne t hg.1
    cases ht : t.text with
    | true => rw [ht] at h; simp [hs] at h; simp [render, hs, h]
    | false => rw [ht] at h; simp at h

theorem ends_mono {t : Tok} (ht : t.text = true) {p s : List Char} (he : t.Ends s)
    (h : ∀ c, p.head? = some c → s.head? = some c) : t.Ends p := by
  cases t with
  | num ds => cases ht
  | refNum ds => cases ht
  | ref w => cases ht
  | lit c => trivial
  | esc c v => trivial
  | keep c => trivial
  | oct ds => intro c hc; exact he c (h c hc)

theorem lookup_eq (m : M) (g : Nat) :
    lookup m g = match groupText m g with | some s => .ok s | none => .indexError := by
  unfold lookup groupText
  cases m.spans[g]? with
  | none => rfl
  | some o => cases o <;> rfl

theorem reference_ref {t : Tok} (m : M) (ht : t.text = false) (ok : t.Ok) :
    reference m t.show = match t.value m with | some s => .ok s | none => .indexError := by
  cases t with
  | lit c => cases ht
  | esc c v => cases ht
  | keep c => cases ht
  | oct ds => cases ht
  | num ds =>
    have hl : ('\\' :: ds).length ≤ 3 := by
      rw [List.length_cons]; rcases ok.2.2 with h | h <;> omega
    rw [reference, Tok.show, if_pos hl, lookup_eq, toInt_eq]
    rfl
  | refNum ds =>
    have hall : ds.all isDig = true := List.all_eq_true.2 fun c hc => (isDig_iff c).2 (ok.2 c hc)
    have hp : 0 < ds.length := List.length_pos_iff.2 ok.1
    have hg : (('\\' :: 'g' :: '<' :: ds ++ ['>']).drop 3).dropLast = ds := by simp
    rw [reference, Tok.show, if_neg (by simp only [List.cons_append, List.length_cons, List.length_append]; omega)]
    simp only [hg]
    rw [if_pos ⟨ok.1, hall⟩, lookup_eq, toInt_eq]
    rfl
  | ref w =>
    obtain ⟨c, hc, hn⟩ := ok.2
    have hall : ¬ w.all isDig = true := by
      intro h
      exact hn ((isDig_iff c).1 (List.all_eq_true.1 h c hc))
    have hp : 0 < w.length := List.length_pos_iff.2 (List.ne_nil_of_mem hc)
    have hg : (('\\' :: 'g' :: '<' :: w ++ ['>']).drop 3).dropLast = w := by simp
    rw [reference, Tok.show, if_neg (by simp only [List.cons_append, List.length_cons, List.length_append]; omega)]
    simp only [hg]
    rw [if_neg (fun h => hall h.2)]
    simp only [Tok.value]
    cases m.name w with
    | none => rfl
    | some i => simp only [Option.bind_some]; rw [lookup_eq]

/-- A result of the specification as one of the model. -/
def toOut : Option (List Char) → Out
  | some s => .ok s
  | none => .indexError

theorem toOut_bind (v : List Char) (o : Option (List Char)) :
    (toOut o).pre v = toOut (o.map (v ++ ·)) := by cases o <;> rfl

theorem pieces_parts (m : M) : ∀ (ts : List Tok), Good ts →
    pieces m false ((parts ts).1 :: (parts ts).2) = toOut (valueOf m ts) := by
  intro ts
  induction ts with
  | nil => intro _; rfl
  | cons t r ih =>
    intro hg
    obtain ⟨h1, h2, h3⟩ := hg
    have hr := ih h3
    rw [parts, valueOf]
    cases ht : t.text with
    | true =>
      simp only [if_true]
      obtain ⟨v, hv, hu⟩ := unesc_text m ht h1 (parts r).1 (ends_mono ht h2 (parts_head r h3))
      rw [hv, Option.bind_some, ← toOut_bind, ← hr]
      rw [pieces, pieces]
      simp only [Bool.false_eq_true, if_false, hu]
      cases unesc (parts r).1 0 with
      | ok s => exact (pre_pre v s _).symm
      | error => rfl
      | indexError => rfl
    | false =>
      simp only [Bool.false_eq_true, if_false]
      rw [pieces]
      have e : unesc [] 0 = .ok [] := rfl
      simp only [Bool.false_eq_true, if_false, e, Bool.not_false]
      rw [pieces]
      simp only [if_true, Bool.not_true, hr, reference_ref m ht h1]
      cases t.value m with
      | none => rfl
      | some v =>
        simp only [Option.bind_some, pre_pre, List.nil_append]
        rw [toOut_bind]

end Codon.RxT
