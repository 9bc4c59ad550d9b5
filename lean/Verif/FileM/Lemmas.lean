import Verif.FileM.Spec
/-!
# Reading one line, and all of them
-/
namespace Codon.FileM

/-! ### Pieces of a line -/

theorem chunk_line : ∀ (n : Nat) (d r : List Byte), nl ∉ d → d.length < n → chunk n (d ++ nl :: r) = (d ++ [nl], r) ∧ ranOut n (d ++ nl :: r) = false
  | 0, _, _, _, h => by omega
  | n + 1, [], r, _, _ => by simp [chunk, ranOut]
  | n + 1, b :: d, r, h, hn => by
    have hb : b ≠ nl := fun e => h (by simp [e])
    obtain ⟨h1, h2⟩ := chunk_line n d r (fun e => h (by simp [e])) (by simp at hn; omega)
    simp only [List.cons_append, chunk, ranOut, if_neg hb, h1, h2, and_self]

theorem chunk_full : ∀ (n : Nat) (c r : List Byte), nl ∉ c → c.length = n → chunk n (c ++ r) = (c, r) ∧ ranOut n (c ++ r) = false
  | 0, [], r, _, _ => ⟨rfl, rfl⟩
  | n + 1, [], r, _, h => by simp at h
  | 0, _ :: _, r, _, h => by simp at h
  | n + 1, b :: c, r, h, hn => by
    have hb : b ≠ nl := fun e => h (by simp [e])
    obtain ⟨h1, h2⟩ := chunk_full n c r (fun e => h (by simp [e])) (by simp at hn; omega)
    simp only [List.cons_append, chunk, ranOut, if_neg hb, h1, h2, and_self]

theorem chunk_out : ∀ (n : Nat) (d : List Byte), nl ∉ d → d.length < n → chunk n d = (d, []) ∧ ranOut n d = true
  | 0, _, _, h => by omega
  | n + 1, [], _, _ => ⟨rfl, rfl⟩
  | n + 1, b :: d, h, hn => by
    have hb : b ≠ nl := fun e => h (by simp [e])
    obtain ⟨h1, h2⟩ := chunk_out n d (fun e => h (by simp [e])) (by simp at hn; omega)
    simp only [chunk, ranOut, if_neg hb, h1, h2, and_self]

theorem bzGets_eq : ∀ (n : Nat) (s : Src), bzGets n s = if ranOut n s.rest ∧ s.bad then (none, ⟨[], true⟩) else (some (chunk n s.rest).1, ⟨(chunk n s.rest).2, s.bad⟩)
  | 0, s => by simp [bzGets, ranOut, chunk]
  | n + 1, ⟨[], bad⟩ => by cases bad <;> simp [bzGets, ranOut, chunk]
  | n + 1, ⟨b :: r, bad⟩ => by
    by_cases hb : b = nl
    · simp [bzGets, ranOut, chunk, hb]
    · have := bzGets_eq n ⟨r, bad⟩
      simp only [bzGets, ranOut, chunk, if_neg hb, this]
      split <;> rfl

/-! ### The buffer -/

theorem put_ok {buf : List Byte} {off : Nat} {c p : List Byte} (hp : buf.take off = p) (ho : p.length = off) (h : off + c.length ≤ buf.length) :
    ∃ b, put buf off c = some b ∧ b.length = buf.length ∧ b.take (off + c.length) = p ++ c ∧ b.drop off = c ++ buf.drop (off + c.length) := by
  refine ⟨_, by rw [put, if_pos h], ?_, ?_, ?_⟩
  · simp; omega
  · rw [hp]
    rw [List.take_append_of_le_length (by simp; omega), List.take_of_length_le (by simp; omega)]
  · rw [hp, List.append_assoc]
    exact List.drop_left' ho

theorem strlen_ok : ∀ (c t : List Byte), 0#8 ∉ c → strlen (c ++ [0#8] ++ t) = some c.length
  | [], t, _ => by simp [strlen]
  | b :: c, t, h => by
    have hb : b ≠ 0#8 := fun e => h (by simp [e])
    have := strlen_ok c t (fun e => h (by simp [e]))
    simp only [List.cons_append, strlen, if_neg hb, this, Option.map_some, List.length_cons]

theorem grow_take (junk : Nat → Byte) (buf : Buf) (n : Nat) (h : n ≤ buf.length) : (grow junk buf).take n = buf.take n := List.take_append_of_le_length h

theorem grow_length (junk : Nat → Byte) (buf : Buf) : (grow junk buf).length = 2 * buf.length := by simp [grow, junkBytes]; omega

theorem last_of_take {b : List Byte} {n : Nat} {p : List Byte} {x : Byte} (h : b.take (n + 1) = p ++ [x]) (hp : p.length = n) : b.getD n 0#8 = x := by
  have h1 : (b.take (n + 1)).getD n 0#8 = x := by rw [h, List.getD_eq_getElem?_getD, List.getElem?_append_right (by omega), hp]; simp
  rw [← h1, List.getD_eq_getElem?_getD, List.getD_eq_getElem?_getD, List.getElem?_take_of_lt (by omega)]

theorem last_ne {b : List Byte} {n : Nat} {p : List Byte} (h : b.take n = p) (hn : p.length = n) (h0 : n ≠ 0) (hx : nl ∉ p) : b.getD (n - 1) 0#8 ≠ nl := by
  intro e
  apply hx
  have h1 : p.getD (n - 1) 0#8 = nl := by
    rw [← e, ← h, List.getD_eq_getElem?_getD, List.getD_eq_getElem?_getD, List.getElem?_take_of_lt (by omega)]
  rw [List.getD_eq_getElem?_getD, List.getElem?_eq_getElem (by omega)] at h1
  simp at h1
  rw [← h1]; exact List.getElem_mem _

/-- If a list does not fit in `n` places, its first part fills them. -/
theorem split_at {l : List Byte} {n : Nat} (h : n ≤ l.length) : ∃ c r, l = c ++ r ∧ c.length = n := ⟨l.take n, l.drop n, (List.take_append_drop n l).symm, by simp; omega⟩

/-! ### One line of a `gzFile` -/

theorem gzgets_full {c r : List Byte} {bad : Bool} {len : Nat} (hc : nl ∉ c) (hl : c.length + 1 = len) (h1 : c ≠ []) (h2 : len < 2 ^ 31) : gzgets ⟨c ++ r, bad⟩ len = (some c, ⟨r, bad⟩) := by
  obtain ⟨e1, e2⟩ := chunk_full (len - 1) c r hc (by omega)
  rw [gzgets, if_neg (by omega)]
  simp only [e1, e2]
  rw [if_neg (by simp), if_neg (fun h => h1 h.1)]

theorem gzgets_line {d r : List Byte} {bad : Bool} {len : Nat} (hd : nl ∉ d) (hl : d.length + 1 < len) (h2 : len < 2 ^ 31) : gzgets ⟨d ++ nl :: r, bad⟩ len = (some (d ++ [nl]), ⟨r, bad⟩) := by
  obtain ⟨e1, e2⟩ := chunk_line (len - 1) d r hd (by omega)
  rw [gzgets, if_neg (by omega)]
  simp only [e1, e2]
  rw [if_neg (by simp), if_neg (by simp)]

theorem gzgets_out {d : List Byte} {len : Nat} (hd : nl ∉ d) (hl : d.length + 1 < len) (h1 : d ≠ []) (h2 : len < 2 ^ 31) : gzgets ⟨d, false⟩ len = (some d, ⟨[], false⟩) := by
  obtain ⟨e1, e2⟩ := chunk_out (len - 1) d hd (by omega)
  rw [gzgets, if_neg (by omega)]
  simp only [e1, e2]
  rw [if_neg (by simp), if_neg (fun h => h1 h.1)]

theorem gzgets_bad {d : List Byte} {len : Nat} (hd : nl ∉ d) (hl : d.length + 1 < len) (h2 : len < 2 ^ 31) : gzgets ⟨d, true⟩ len = (none, ⟨[], true⟩) := by
  obtain ⟨e1, e2⟩ := chunk_out (len - 1) d hd (by omega)
  rw [gzgets, if_neg (by omega)]
  simp only [e2]
  rw [if_pos (by simp)]

theorem gzgets_end (len : Nat) : gzgets ⟨[], false⟩ len = (none, ⟨[], false⟩) ∨ (len = 1 ∧ gzgets ⟨[], false⟩ len = (some [], ⟨[], false⟩)) := by
  rw [gzgets]
  by_cases h0 : len = 0 ∨ 2 ^ 31 ≤ len
  · rw [if_pos h0]; exact Or.inl rfl
  · rw [if_neg h0, if_neg (by simp)]
    have : (chunk (len - 1) []).1 = [] := by cases len - 1 <;> rfl
    by_cases h1 : len = 1
    · right; subst h1; exact ⟨rfl, rfl⟩
    · rw [if_pos ⟨this, h1⟩]; exact Or.inl rfl

/-- One step of the loop that stores bytes. -/
theorem gzLoop_step (junk : Nat → Byte) {fuel : Nat} {s s' : Src} {buf : Buf} {p c : List Byte} (hb : buf.take p.length = p) (hg : gzgets s (buf.length - p.length) = (some c, s'))
    (hc : p.length + c.length + 1 ≤ buf.length) (h0 : 0#8 ∉ c) (h1 : c ≠ []) : ∃ b : Buf, b.length = buf.length ∧ b.take (p.length + c.length) = p ++ c ∧
      gzLoop junk (fuel + 1) s buf p.length = if b.getD (p.length + c.length - 1) 0#8 = nl then some (s', b, .ok (.len (p.length + c.length))) else gzLoop junk fuel s' (grow junk b) (p.length + c.length) := by
  have hpl : p.length ≤ buf.length := by omega
  obtain ⟨b, e1, e2, e3, e4⟩ := put_ok (c := c ++ [0#8]) hb rfl (by simp; omega)
  refine ⟨b, e2, ?_, ?_⟩
  · have := congrArg (List.take (p.length + c.length)) e3
    rw [List.take_take, Nat.min_eq_left (by simp), ← List.append_assoc, List.take_left' (by simp)] at this
    exact this
  · rw [gzLoop]
    simp only [hg, e1, e4, strlen_ok c _ h0]
    have : c.length ≠ 0 := by simpa using h1
    rw [if_neg (by omega)]

theorem gzLoop_line (junk : Nat → Byte) : ∀ (fuel : Nat) (d r p : List Byte) (bad : Bool) (buf : Buf), nl ∉ d → nl ∉ p → 0#8 ∉ d → d.length + 1 < fuel + 1 → buf.take p.length = p →
    p.length + 2 ≤ buf.length → buf.length ≤ 2 ^ 30 → p.length + d.length + 1 < 2 ^ 29 →
    ∃ b, gzLoop junk fuel ⟨d ++ nl :: r, bad⟩ buf p.length = some (⟨r, bad⟩, b, .ok (.len (p.length + d.length + 1))) ∧ b.take (p.length + d.length + 1) = p ++ d ++ [nl] ∧
      p.length + d.length + 1 ≤ b.length ∧ 2 ≤ b.length ∧ b.length ≤ 2 ^ 30
  | 0, _, _, _, _, _, _, _, _, h, _, _, _, _ => by omega
  | fuel + 1, d, r, p, bad, buf, hd, hp, h0, hf, hb, hl, hs, hm => by
    by_cases hfit : d.length + 1 < buf.length - p.length
    · obtain ⟨b, e1, e2, e3⟩ := gzLoop_step junk (fuel := fuel) (c := d ++ [nl]) hb (gzgets_line (r := r) (bad := bad) hd hfit (by omega)) (by simp; omega) (by simp only [List.mem_append, List.mem_singleton, not_or]; exact ⟨h0, by decide⟩) (by simp)
      have e4 : p.length + (d ++ [nl]).length = p.length + d.length + 1 := by simp; omega
      rw [e4] at e2 e3
      rw [← List.append_assoc] at e2
      refine ⟨b, ?_, e2, by omega, by omega, by omega⟩
      rw [e3, if_pos]
      exact last_of_take e2 (by simp)
    · obtain ⟨c, t, e, hc⟩ := split_at (l := d) (n := buf.length - p.length - 1) (by omega)
      subst e
      have hc1 : c ≠ [] := by intro h; subst h; simp at hc; omega
      have hc2 : c.length ≠ 0 := by simpa using hc1
      have hcn : nl ∉ c := fun h => hd (by simp [h])
      obtain ⟨b, e1, e2, e3⟩ := gzLoop_step junk (fuel := fuel) (c := c) hb (gzgets_full (r := t ++ nl :: r) (bad := bad) hcn (by omega) hc1 (by omega)) (by omega) (fun h => h0 (by simp [h])) hc1
      have hpc : nl ∉ p ++ c := by simp [hp, hcn]
      rw [if_neg (last_ne e2 (by simp) (by omega) hpc)] at e3
      have hlen : (p ++ c).length = p.length + c.length := by simp
      simp only [List.length_append] at hf hm
      obtain ⟨b', f1, f2, f3, f4⟩ := gzLoop_line junk fuel t r (p ++ c) bad (grow junk b) (fun h => hd (by simp [h])) hpc (fun h => h0 (by simp [h])) (by omega)
        (by rw [hlen, grow_take _ _ _ (by omega)]; exact e2) (by rw [grow_length]; omega) (by rw [grow_length]; omega) (by omega)
      rw [hlen] at f1 f2 f3
      refine ⟨b', ?_, ?_, ?_, f4⟩
      · rw [List.append_assoc, e3, f1]; simp [Nat.add_assoc]
      · simp only [List.length_append, List.append_assoc] at f2 ⊢
        rw [← f2]; congr 1; omega
      · simp only [List.length_append]; omega

theorem gzLoop_end (junk : Nat → Byte) (fuel : Nat) (buf : Buf) (n : Nat) (h : buf.length - n ≠ 1) :
    gzLoop junk (fuel + 1) ⟨[], false⟩ buf n = some (⟨[], false⟩, buf, .ok (if n = 0 then .eof else .len n)) := by
  rcases gzgets_end (buf.length - n) with h1 | ⟨h1, _⟩
  · rw [gzLoop]; simp [h1, gzError]
  · exact absurd h1 h

theorem gzLoop_last (junk : Nat → Byte) : ∀ (fuel : Nat) (d p : List Byte) (buf : Buf), nl ∉ d → nl ∉ p → 0#8 ∉ d → d.length < fuel → buf.take p.length = p →
    p.length + 2 ≤ buf.length → buf.length ≤ 2 ^ 30 → p.length + d.length + 1 < 2 ^ 29 →
    ∃ b, gzLoop junk fuel ⟨d, false⟩ buf p.length = some (⟨[], false⟩, b, .ok (if p.length + d.length = 0 then .eof else .len (p.length + d.length))) ∧ b.take (p.length + d.length) = p ++ d ∧
      p.length + d.length ≤ b.length ∧ 2 ≤ b.length
  | 0, _, _, _, _, _, _, h, _, _, _, _ => by omega
  | fuel + 1, d, p, buf, hd, hp, h0, hf, hb, hl, hs, hm => by
    by_cases hd0 : d = []
    · subst hd0
      refine ⟨buf, ?_, ?_, ?_, by omega⟩
      · rw [gzLoop_end junk fuel buf _ (by omega)]; simp
      · simpa using hb
      · simp; omega
    have hd1 : d.length ≠ 0 := by simpa using hd0
    by_cases hfit : d.length + 1 < buf.length - p.length
    · obtain ⟨b, e1, e2, e3⟩ := gzLoop_step junk (fuel := fuel) (c := d) hb (gzgets_out hd hfit hd0 (by omega)) (by omega) h0 hd0
      rw [if_neg (last_ne e2 (by simp) (by omega) (by simp [hp, hd]))] at e3
      obtain ⟨f, rfl⟩ : ∃ f, fuel = f + 1 := ⟨fuel - 1, by omega⟩
      refine ⟨grow junk b, ?_, ?_, by rw [grow_length]; omega, by rw [grow_length]; omega⟩
      · rw [e3, gzLoop_end junk f _ _ (by rw [grow_length]; omega)]
      · rw [grow_take _ _ _ (by omega), e2]
    · obtain ⟨c, t, e, hc⟩ := split_at (l := d) (n := buf.length - p.length - 1) (by omega)
      subst e
      have hc1 : c ≠ [] := by intro h; subst h; simp at hc; omega
      have hc2 : c.length ≠ 0 := by simpa using hc1
      have hcn : nl ∉ c := fun h => hd (by simp [h])
      obtain ⟨b, e1, e2, e3⟩ := gzLoop_step junk (fuel := fuel) (c := c) hb (gzgets_full (r := t) (bad := false) hcn (by omega) hc1 (by omega)) (by omega) (fun h => h0 (by simp [h])) hc1
      have hpc : nl ∉ p ++ c := by simp [hp, hcn]
      rw [if_neg (last_ne e2 (by simp) (by omega) hpc)] at e3
      have hlen : (p ++ c).length = p.length + c.length := by simp
      simp only [List.length_append] at hf hm
      obtain ⟨b', f1, f2, f3, f4⟩ := gzLoop_last junk fuel t (p ++ c) (grow junk b) (fun h => hd (by simp [h])) hpc (fun h => h0 (by simp [h])) (by omega)
        (by rw [hlen, grow_take _ _ _ (by omega)]; exact e2) (by rw [grow_length]; omega) (by rw [grow_length]; omega) (by omega)
      rw [hlen] at f1 f2 f3
      refine ⟨b', ?_, ?_, ?_, f4⟩
      · rw [e3, f1]; simp [Nat.add_assoc]
      · simp only [List.length_append, List.append_assoc] at f2 ⊢
        rw [← f2]; congr 1; omega
      · simp only [List.length_append]; omega

theorem gzLoop_bad (junk : Nat → Byte) : ∀ (fuel : Nat) (d p : List Byte) (buf : Buf), nl ∉ d → nl ∉ p → 0#8 ∉ d → d.length < fuel → buf.take p.length = p →
    p.length + 2 ≤ buf.length → buf.length ≤ 2 ^ 30 → p.length + d.length + 1 < 2 ^ 29 → ∃ s b, gzLoop junk fuel ⟨d, true⟩ buf p.length = some (s, b, .error .io)
  | 0, _, _, _, _, _, _, h, _, _, _, _ => by omega
  | fuel + 1, d, p, buf, hd, hp, h0, hf, hb, hl, hs, hm => by
    by_cases hfit : d.length + 1 < buf.length - p.length
    · refine ⟨⟨[], true⟩, buf, ?_⟩
      rw [gzLoop]; simp [gzgets_bad hd hfit (by omega), gzError]
    · obtain ⟨c, t, e, hc⟩ := split_at (l := d) (n := buf.length - p.length - 1) (by omega)
      subst e
      have hc1 : c ≠ [] := by intro h; subst h; simp at hc; omega
      have hc2 : c.length ≠ 0 := by simpa using hc1
      have hcn : nl ∉ c := fun h => hd (by simp [h])
      obtain ⟨b, e1, e2, e3⟩ := gzLoop_step junk (fuel := fuel) (c := c) hb (gzgets_full (r := t) (bad := true) hcn (by omega) hc1 (by omega)) (by omega) (fun h => h0 (by simp [h])) hc1
      have hpc : nl ∉ p ++ c := by simp [hp, hcn]
      rw [if_neg (last_ne e2 (by simp) (by omega) hpc)] at e3
      have hlen : (p ++ c).length = p.length + c.length := by simp
      simp only [List.length_append] at hf hm
      rw [e3, ← hlen]
      exact gzLoop_bad junk fuel t (p ++ c) (grow junk b) (fun h => hd (by simp [h])) hpc (fun h => h0 (by simp [h])) (by omega)
        (by rw [hlen, grow_take _ _ _ (by omega)]; exact e2) (by rw [grow_length]; omega) (by rw [grow_length]; omega) (by omega)

/-! ### One line of a `bzFile` -/

theorem bzLoop_step (junk : Nat → Byte) {fuel : Nat} {s s' : Src} {buf : Buf} {p c : List Byte} (hb : buf.take p.length = p) (hl : p.length + 2 ≤ buf.length)
    (hg : bzGets (buf.length - p.length - 1) s = (some c, s')) (hc : p.length + c.length ≤ buf.length) (h1 : c ≠ []) : ∃ b : Buf, b.length = buf.length ∧ b.take (p.length + c.length) = p ++ c ∧
      bzLoop junk (fuel + 1) s buf p.length = if b.getD (p.length + c.length - 1) 0#8 = nl then some (s', b, .ok (.len (p.length + c.length))) else bzLoop junk fuel s' (grow junk b) (p.length + c.length) := by
  obtain ⟨b, e1, e2, e3, e4⟩ := put_ok (c := c) hb rfl hc
  refine ⟨b, e2, e3, ?_⟩
  cases c with
  | nil => exact absurd rfl h1
  | cons x c =>
    rw [bzLoop, if_neg (by omega), hg]
    simp only [e1, List.length_cons]

theorem bzLoop_line (junk : Nat → Byte) : ∀ (fuel : Nat) (d r p : List Byte) (bad : Bool) (buf : Buf), nl ∉ d → nl ∉ p → d.length + 1 < fuel + 1 → buf.take p.length = p →
    p.length + 2 ≤ buf.length →
    ∃ b, bzLoop junk fuel ⟨d ++ nl :: r, bad⟩ buf p.length = some (⟨r, bad⟩, b, .ok (.len (p.length + d.length + 1))) ∧ b.take (p.length + d.length + 1) = p ++ d ++ [nl] ∧
      p.length + d.length + 1 ≤ b.length ∧ 2 ≤ b.length
  | 0, _, _, _, _, _, _, _, h, _, _ => by omega
  | fuel + 1, d, r, p, bad, buf, hd, hp, hf, hb, hl => by
    by_cases hfit : d.length + 1 < buf.length - p.length
    · have hg : bzGets (buf.length - p.length - 1) ⟨d ++ nl :: r, bad⟩ = (some (d ++ [nl]), ⟨r, bad⟩) := by
        obtain ⟨e1, e2⟩ := chunk_line (buf.length - p.length - 1) d r hd (by omega)
        rw [bzGets_eq, if_neg (by simp [e2])]; simp only [e1]
      obtain ⟨b, e1, e2, e3⟩ := bzLoop_step junk (fuel := fuel) (c := d ++ [nl]) hb hl hg (by simp; omega) (by simp)
      have e4 : p.length + (d ++ [nl]).length = p.length + d.length + 1 := by simp; omega
      rw [e4] at e2 e3
      rw [← List.append_assoc] at e2
      refine ⟨b, ?_, e2, by omega, by omega⟩
      rw [e3, if_pos]
      exact last_of_take e2 (by simp)
    · obtain ⟨c, t, e, hc⟩ := split_at (l := d) (n := buf.length - p.length - 1) (by omega)
      subst e
      have hc1 : c ≠ [] := by intro h; subst h; simp at hc; omega
      have hc2 : c.length ≠ 0 := by simpa using hc1
      have hcn : nl ∉ c := fun h => hd (by simp [h])
      have hg : bzGets (buf.length - p.length - 1) ⟨c ++ (t ++ nl :: r), bad⟩ = (some c, ⟨t ++ nl :: r, bad⟩) := by
        obtain ⟨e1, e2⟩ := chunk_full (buf.length - p.length - 1) c (t ++ nl :: r) hcn hc
        rw [bzGets_eq, if_neg (by simp [e2])]; simp only [e1]
      obtain ⟨b, e1, e2, e3⟩ := bzLoop_step junk (fuel := fuel) (c := c) hb hl hg (by omega) hc1
      have hpc : nl ∉ p ++ c := by simp [hp, hcn]
      rw [if_neg (last_ne e2 (by simp) (by omega) hpc)] at e3
      have hlen : (p ++ c).length = p.length + c.length := by simp
      simp only [List.length_append] at hf
      obtain ⟨b', f1, f2, f3, f4⟩ := bzLoop_line junk fuel t r (p ++ c) bad (grow junk b) (fun h => hd (by simp [h])) hpc (by omega)
        (by rw [hlen, grow_take _ _ _ (by omega)]; exact e2) (by rw [grow_length]; omega)
      rw [hlen] at f1 f2 f3
      refine ⟨b', ?_, ?_, ?_, f4⟩
      · rw [List.append_assoc, e3, f1]; simp [Nat.add_assoc]
      · simp only [List.length_append, List.append_assoc] at f2 ⊢
        rw [← f2]; congr 1; omega
      · simp only [List.length_append]; omega

theorem bzLoop_end (junk : Nat → Byte) (fuel : Nat) (buf : Buf) (n : Nat) : bzLoop junk (fuel + 1) ⟨[], false⟩ buf n = some (⟨[], false⟩, buf, .ok (if n = 0 then .eof else .len n)) := by
  have : bzGets (buf.length - n - 1) ⟨[], false⟩ = (some [], ⟨[], false⟩) := by
    rw [bzGets_eq, if_neg (by simp)]
    cases buf.length - n - 1 <;> rfl
  rw [bzLoop, this, ite_self]

theorem bzLoop_last (junk : Nat → Byte) : ∀ (fuel : Nat) (d p : List Byte) (buf : Buf), nl ∉ d → nl ∉ p → d.length < fuel → buf.take p.length = p → p.length + 2 ≤ buf.length →
    ∃ b, bzLoop junk fuel ⟨d, false⟩ buf p.length = some (⟨[], false⟩, b, .ok (if p.length + d.length = 0 then .eof else .len (p.length + d.length))) ∧ b.take (p.length + d.length) = p ++ d ∧
      p.length + d.length ≤ b.length
  | 0, _, _, _, _, _, h, _, _ => by omega
  | fuel + 1, d, p, buf, hd, hp, hf, hb, hl => by
    by_cases hd0 : d = []
    · subst hd0
      refine ⟨buf, ?_, ?_, ?_⟩
      · rw [bzLoop_end]; simp
      · simpa using hb
      · simp; omega
    have hd1 : d.length ≠ 0 := by simpa using hd0
    by_cases hfit : d.length + 1 < buf.length - p.length
    · have hg : bzGets (buf.length - p.length - 1) ⟨d, false⟩ = (some d, ⟨[], false⟩) := by
        obtain ⟨e1, e2⟩ := chunk_out (buf.length - p.length - 1) d hd (by omega)
        rw [bzGets_eq, if_neg (by simp)]; simp only [e1]
      obtain ⟨b, e1, e2, e3⟩ := bzLoop_step junk (fuel := fuel) (c := d) hb hl hg (by omega) hd0
      rw [if_neg (last_ne e2 (by simp) (by omega) (by simp [hp, hd]))] at e3
      obtain ⟨f, rfl⟩ : ∃ f, fuel = f + 1 := ⟨fuel - 1, by omega⟩
      refine ⟨grow junk b, ?_, ?_, by rw [grow_length]; omega⟩
      · rw [e3, bzLoop_end]
      · rw [grow_take _ _ _ (by omega), e2]
    · obtain ⟨c, t, e, hc⟩ := split_at (l := d) (n := buf.length - p.length - 1) (by omega)
      subst e
      have hc1 : c ≠ [] := by intro h; subst h; simp at hc; omega
      have hc2 : c.length ≠ 0 := by simpa using hc1
      have hcn : nl ∉ c := fun h => hd (by simp [h])
      have hg : bzGets (buf.length - p.length - 1) ⟨c ++ t, false⟩ = (some c, ⟨t, false⟩) := by
        obtain ⟨e1, e2⟩ := chunk_full (buf.length - p.length - 1) c t hcn hc
        rw [bzGets_eq, if_neg (by simp)]; simp only [e1]
      obtain ⟨b, e1, e2, e3⟩ := bzLoop_step junk (fuel := fuel) (c := c) hb hl hg (by omega) hc1
      have hpc : nl ∉ p ++ c := by simp [hp, hcn]
      rw [if_neg (last_ne e2 (by simp) (by omega) hpc)] at e3
      have hlen : (p ++ c).length = p.length + c.length := by simp
      simp only [List.length_append] at hf
      obtain ⟨b', f1, f2, f3⟩ := bzLoop_last junk fuel t (p ++ c) (grow junk b) (fun h => hd (by simp [h])) hpc (by omega)
        (by rw [hlen, grow_take _ _ _ (by omega)]; exact e2) (by rw [grow_length]; omega)
      rw [hlen] at f1 f2 f3
      refine ⟨b', ?_, ?_, ?_⟩
      · rw [e3, f1]; simp [Nat.add_assoc]
      · simp only [List.length_append, List.append_assoc] at f2 ⊢
        rw [← f2]; congr 1; omega
      · simp only [List.length_append]; omega

theorem bzLoop_bad (junk : Nat → Byte) : ∀ (fuel : Nat) (d p : List Byte) (buf : Buf), nl ∉ d → nl ∉ p → d.length < fuel → buf.take p.length = p →
    p.length + 2 ≤ buf.length → ∃ s b, bzLoop junk fuel ⟨d, true⟩ buf p.length = some (s, b, .error .io)
  | 0, _, _, _, _, _, h, _, _ => by omega
  | fuel + 1, d, p, buf, hd, hp, hf, hb, hl => by
    by_cases hfit : d.length + 1 < buf.length - p.length
    · refine ⟨⟨[], true⟩, buf, ?_⟩
      obtain ⟨e1, e2⟩ := chunk_out (buf.length - p.length - 1) d hd (by omega)
      rw [bzLoop, if_neg (by omega), bzGets_eq, if_pos (by simp [e2])]
    · obtain ⟨c, t, e, hc⟩ := split_at (l := d) (n := buf.length - p.length - 1) (by omega)
      subst e
      have hc1 : c ≠ [] := by intro h; subst h; simp at hc; omega
      have hc2 : c.length ≠ 0 := by simpa using hc1
      have hcn : nl ∉ c := fun h => hd (by simp [h])
      have hg : bzGets (buf.length - p.length - 1) ⟨c ++ t, true⟩ = (some c, ⟨t, true⟩) := by
        obtain ⟨e1, e2⟩ := chunk_full (buf.length - p.length - 1) c t hcn hc
        rw [bzGets_eq, if_neg (by simp [e2])]; simp only [e1]
      obtain ⟨b, e1, e2, e3⟩ := bzLoop_step junk (fuel := fuel) (c := c) hb hl hg (by omega) hc1
      have hpc : nl ∉ p ++ c := by simp [hp, hcn]
      rw [if_neg (last_ne e2 (by simp) (by omega) hpc)] at e3
      have hlen : (p ++ c).length = p.length + c.length := by simp
      simp only [List.length_append] at hf
      rw [e3, ← hlen]
      exact bzLoop_bad junk fuel t (p ++ c) (grow junk b) (fun h => hd (by simp [h])) hpc (by omega)
        (by rw [hlen, grow_take _ _ _ (by omega)]; exact e2) (by rw [grow_length]; omega)

end Codon.FileM
