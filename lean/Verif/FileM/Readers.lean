import Verif.FileM.Lemmas
/-!
# All lines of a file
-/
namespace Codon.FileM

/-- The type of the functions that read a line. -/
abbrev Getl := Src → Buf → Option (Src × Buf × Except Err Line)

/-- What the loop over the lines needs: `ok` is a condition on the contents, `I` on the buffer. -/
structure Reader (getl : Getl) (ok : List Byte → Prop) (I : Buf → Prop) : Prop where
  init : I []
  tail : ∀ d r, nl ∉ d → ok (d ++ nl :: r) → ok r
  line : ∀ d r bad buf, nl ∉ d → I buf → ok (d ++ nl :: r) →
    ∃ b, getl ⟨d ++ nl :: r, bad⟩ buf = some (⟨r, bad⟩, b, .ok (.len (d.length + 1))) ∧ b.take (d.length + 1) = d ++ [nl] ∧ d.length + 1 ≤ b.length ∧ I b
  last : ∀ d buf, nl ∉ d → d ≠ [] → I buf → ok d →
    ∃ b s b', getl ⟨d, false⟩ buf = some (⟨[], false⟩, b, .ok (.len d.length)) ∧ b.take d.length = d ∧ d.length ≤ b.length ∧ getl ⟨[], false⟩ b = some (s, b', .ok .eof)
  eof : ∀ buf, I buf → ok [] → ∃ s b, getl ⟨[], false⟩ buf = some (s, b, .ok .eof)

/-- A read error raises `IOError`. -/
def Raises (getl : Getl) (ok : List Byte → Prop) (I : Buf → Prop) : Prop := ∀ d buf, nl ∉ d → I buf → ok d → ∃ s b, getl ⟨d, true⟩ buf = some (s, b, .error .io)

theorem split_first : ∀ (l : List Byte), nl ∈ l → ∃ d r, l = d ++ nl :: r ∧ nl ∉ d
  | [], h => by simp at h
  | b :: l, h => by
    by_cases hb : b = nl
    · exact ⟨[], l, by simp [hb], by simp⟩
    · obtain ⟨d, r, e, hd⟩ := split_first l (by simpa [Ne.symm hb] using h)
      exact ⟨b :: d, r, by simp [e], by simp [hd, Ne.symm hb]⟩

theorem isLines_nil : IsLines [] [] := ⟨rfl, by simp, by simp, by simp⟩

theorem isLines_one {d : List Byte} (hd : nl ∉ d) (h0 : d ≠ []) : IsLines d [d] :=
  ⟨by simp, by simpa using h0, by simpa using fun h => hd ((List.dropLast_subset d) h), by simp⟩

theorem isLines_cons {d r : List Byte} {L : List (List Byte)} (hd : nl ∉ d) (h : IsLines r L) : IsLines (d ++ nl :: r) ((d ++ [nl]) :: L) := by
  refine ⟨by simp [h.all], ?_, ?_, ?_⟩
  · intro l hl
    rcases List.mem_cons.mp hl with rfl | hl
    · simp
    · exact h.nonempty l hl
  · intro l hl
    rcases List.mem_cons.mp hl with rfl | hl
    · simpa using hd
    · exact h.inner l hl
  · intro l hl
    cases L with
    | nil => simp at hl
    | cons y ys =>
      rw [List.dropLast_cons_cons] at hl
      rcases List.mem_cons.mp hl with rfl | hl
      · simp
      · exact h.ends l hl

theorem chomp_line (d : List Byte) : chomp (d ++ [nl]) = d := by simp [chomp]

theorem chomp_none {d : List Byte} (hd : nl ∉ d) : chomp d = d := by
  rw [chomp, if_neg]
  exact fun h => hd (List.mem_of_getLast? h)

theorem take_pred {b d : List Byte} (h : b.take (d.length + 1) = d ++ [nl]) : b.take (d.length + 1 - 1) = d := by
  have := congrArg (List.take d.length) h
  rw [List.take_take, Nat.min_eq_left (by omega), List.take_left] at this
  exact this

theorem iter_good {getl : Getl} {ok : List Byte → Prop} {I : Buf → Prop} (hR : Reader getl ok I) : ∀ (fuel : Nat) (rest : List Byte) (buf : Buf), I buf → ok rest → rest.length < fuel →
    ∃ L, iter getl fuel ⟨rest, false⟩ buf = some (L, none) ∧ iterTrim getl fuel ⟨rest, false⟩ buf = some (L.map chomp, none) ∧ IsLines rest L
  | 0, _, _, _, _, h => by omega
  | fuel + 1, rest, buf, hI, hk, hf => by
    by_cases hn : nl ∈ rest
    · obtain ⟨d, r, rfl, hd⟩ := split_first rest hn
      obtain ⟨b, e1, e2, e3, e4⟩ := hR.line d r false buf hd hI hk
      obtain ⟨L, f1, f2, f3⟩ := iter_good hR fuel r b e4 (hR.tail d r hd hk) (by simp at hf; omega)
      refine ⟨(d ++ [nl]) :: L, ?_, ?_, isLines_cons hd f3⟩
      · rw [iter, e1]; simp only [if_pos e3, f1, e2, Option.map_some]
      · rw [iterTrim, e1]
        simp only [if_neg (show ¬(d.length + 1 = 0 ∨ List.length b < d.length + 1) by omega), f2, Option.map_some]
        have : b.getD (d.length + 1 - 1) 0#8 = nl := by exact last_of_take e2 rfl
        rw [if_pos this, take_pred e2, List.map_cons, chomp_line]
    · by_cases h0 : rest = []
      · subst h0
        obtain ⟨s, b, e⟩ := hR.eof buf hI hk
        exact ⟨[], by rw [iter, e], by rw [iterTrim, e]; rfl, isLines_nil⟩
      · obtain ⟨b, s, b', e1, e2, e3, e4⟩ := hR.last rest buf hn h0 hI hk
        have hl : rest.length ≠ 0 := by simpa using h0
        obtain ⟨f, rfl⟩ : ∃ f, fuel = f + 1 := ⟨fuel - 1, by omega⟩
        refine ⟨[rest], ?_, ?_, isLines_one hn h0⟩
        · rw [iter, e1]; simp only [if_pos e3, e2]; rw [iter, e4]; rfl
        · rw [iterTrim, e1]
          simp only [if_neg (show ¬(rest.length = 0 ∨ List.length b < rest.length) by omega), if_neg (last_ne e2 rfl hl hn), e2]
          rw [iterTrim, e4]; simp [chomp_none hn]

/-- With a read error: the lines before it, and `IOError`. -/
theorem iter_bad {getl : Getl} {ok : List Byte → Prop} {I : Buf → Prop} (hR : Reader getl ok I) (hB : Raises getl ok I) : ∀ (fuel : Nat) (rest : List Byte) (buf : Buf), I buf → ok rest →
    rest.length < fuel → ∃ L t, iter getl fuel ⟨rest, true⟩ buf = some (L, some .io) ∧ IsLines L.flatten L ∧ (∀ l ∈ L, l.getLast? = some nl) ∧ rest = L.flatten ++ t ∧ nl ∉ t
  | 0, _, _, _, _, h => by omega
  | fuel + 1, rest, buf, hI, hk, hf => by
    by_cases hn : nl ∈ rest
    · obtain ⟨d, r, rfl, hd⟩ := split_first rest hn
      obtain ⟨b, e1, e2, e3, e4⟩ := hR.line d r true buf hd hI hk
      obtain ⟨L, t, f1, f2, f3, f4, f5⟩ := iter_bad hR hB fuel r b e4 (hR.tail d r hd hk) (by simp at hf; omega)
      refine ⟨(d ++ [nl]) :: L, t, ?_, ?_, ?_, ?_, f5⟩
      · rw [iter, e1]; simp only [if_pos e3, f1, e2, Option.map_some]
      · have := isLines_cons hd f2
        rwa [show ((d ++ [nl]) :: L).flatten = d ++ nl :: L.flatten by simp]
      · intro l hl
        rcases List.mem_cons.mp hl with rfl | hl
        · simp
        · exact f3 l hl
      · rw [f4]; simp
    · obtain ⟨s, b, e⟩ := hB rest buf hn hI hk
      exact ⟨[], rest, by rw [iter, e], isLines_nil, by simp, by simp, hn⟩

/-! ### The three kinds of files -/

/-- The condition for `gzFile`: no zero bytes, and no line of half a gigabyte. -/
def GzOk (data : List Byte) : Prop := 0#8 ∉ data ∧ ∀ a d r, data = a ++ d ++ r → nl ∉ d → d.length + 1 < 2 ^ 29

/-- The condition on the buffer of a `gzFile`. -/
def GzBuf (b : Buf) : Prop := b.length = 0 ∨ (2 ≤ b.length ∧ b.length ≤ 2 ^ 30)

theorem initBuf_length (junk : Nat → Byte) (b : Buf) : (initBuf junk b).length = if b.length = 0 then 128 else b.length := by
  rw [initBuf]; split
  · simp [junkBytes]
  · rfl

theorem gz_init {junk : Nat → Byte} {b : Buf} (h : GzBuf b) : 2 ≤ (initBuf junk b).length ∧ (initBuf junk b).length ≤ 2 ^ 30 := by
  rw [initBuf_length]
  rcases h with h | h
  · rw [if_pos h]; decide
  · split
    · omega
    · exact h

theorem gz_reader (junk : Nat → Byte) : Reader (gzGetline junk) GzOk GzBuf where
  init := Or.inl rfl
  tail d r _ h := ⟨fun h0 => h.1 (by simp [h0]), fun a d' r' e hd' => h.2 (d ++ nl :: a) d' r' (by rw [e]; simp) hd'⟩
  line d r bad buf hd hI hk := by
    obtain ⟨h1, h2⟩ := gz_init (junk := junk) hI
    have h3 := hk.2 [] d (nl :: r) (by simp) hd
    obtain ⟨b, e1, e2, e3, e4⟩ := gzLoop_line junk ((d ++ nl :: r).length + 1) d r [] bad (initBuf junk buf) hd (by simp) (fun h => hk.1 (by simp [h])) (by simp; omega) (by simp) (by simpa using h1) h2
      (by simpa using h3)
    exact ⟨b, by simpa [gzGetline] using e1, by simpa using e2, by simpa using e3, Or.inr e4⟩
  last d buf hd h0 hI hk := by
    obtain ⟨h1, h2⟩ := gz_init (junk := junk) hI
    have h3 := hk.2 [] d [] (by simp) hd
    obtain ⟨b, e1, e2, e3, e4⟩ := gzLoop_last junk (d.length + 1) d [] (initBuf junk buf) hd (by simp) hk.1 (by omega) (by simp) (by simpa using h1) h2 (by simpa using h3)
    have hl : d.length ≠ 0 := by simpa using h0
    have hb : initBuf junk b = b := by rw [initBuf, if_neg (by omega)]
    refine ⟨b, ⟨[], false⟩, b, by simpa [gzGetline, h0] using e1, by simpa using e2, by simpa using e3, ?_⟩
    have := gzLoop_end junk 0 b 0 (by omega)
    rw [if_pos rfl] at this
    rw [gzGetline, hb]
    exact this
  eof buf hI _ := by
    obtain ⟨h1, h2⟩ := gz_init (junk := junk) hI
    have := gzLoop_end junk 0 (initBuf junk buf) 0 (by omega)
    rw [if_pos rfl] at this
    exact ⟨_, _, this⟩

theorem gz_raises (junk : Nat → Byte) : Raises (gzGetline junk) GzOk GzBuf := fun d buf hd hI hk => by
  obtain ⟨h1, h2⟩ := gz_init (junk := junk) hI
  have h3 := hk.2 [] d [] (by simp) hd
  exact gzLoop_bad junk (d.length + 1) d [] (initBuf junk buf) hd (by simp) hk.1 (by omega) (by simp) (by simpa using h1) h2 (by simpa using h3)

/-- The condition on the buffer of a `bzFile`. -/
def BzBuf (b : Buf) : Prop := b.length = 0 ∨ 2 ≤ b.length

theorem bz_init {junk : Nat → Byte} {b : Buf} (h : BzBuf b) : 2 ≤ (initBuf junk b).length := by
  rw [initBuf_length]
  rcases h with h | h
  · rw [if_pos h]; decide
  · split
    · omega
    · exact h

theorem bz_reader (junk : Nat → Byte) : Reader (bzGetline junk) (fun _ => True) BzBuf where
  init := Or.inl rfl
  tail _ _ _ _ := trivial
  line d r bad buf hd hI _ := by
    have h1 := bz_init (junk := junk) hI
    obtain ⟨b, e1, e2, e3, e4⟩ := bzLoop_line junk ((d ++ nl :: r).length + 1) d r [] bad (initBuf junk buf) hd (by simp) (by simp; omega) (by simp) (by simpa using h1)
    exact ⟨b, by simpa [bzGetline] using e1, by simpa using e2, by simpa using e3, Or.inr e4⟩
  last d buf hd h0 hI _ := by
    have h1 := bz_init (junk := junk) hI
    obtain ⟨b, e1, e2, e3⟩ := bzLoop_last junk (d.length + 1) d [] (initBuf junk buf) hd (by simp) (by omega) (by simp) (by simpa using h1)
    have hl : d.length ≠ 0 := by simpa using h0
    refine ⟨b, ⟨[], false⟩, initBuf junk b, by simpa [bzGetline, h0] using e1, by simpa using e2, by simpa using e3, ?_⟩
    have := bzLoop_end junk 0 (initBuf junk b) 0
    rw [if_pos rfl] at this
    exact this
  eof buf _ _ := by
    have := bzLoop_end junk 0 (initBuf junk buf) 0
    rw [if_pos rfl] at this
    exact ⟨_, _, this⟩

theorem bz_raises (junk : Nat → Byte) : Raises (bzGetline junk) (fun _ => True) BzBuf := fun d buf hd hI _ =>
  bzLoop_bad junk (d.length + 1) d [] (initBuf junk buf) hd (by simp) (by omega) (by simp) (by simpa using bz_init (junk := junk) hI)

theorem c_reader : Reader cGetline (fun _ => True) (fun _ => True) where
  init := trivial
  tail _ _ _ _ := trivial
  line d r bad buf hd _ _ := by
    obtain ⟨h1, h2⟩ := chunk_line ((d ++ nl :: r).length + 1) d r hd (by simp; omega)
    refine ⟨d ++ [nl] ++ [0#8] ++ buf.drop ((d ++ [nl]).length + 1), ?_, ?_, ?_, trivial⟩
    · rw [cGetline]
      simp only [h1, h2]
      rw [if_neg (by simp)]; simp
    · rw [List.append_assoc (d ++ [nl])]; exact List.take_left' (by simp)
    · simp
  last d buf hd h0 _ _ := by
    obtain ⟨h1, h2⟩ := chunk_out (d.length + 1) d hd (by omega)
    refine ⟨d ++ [0#8] ++ buf.drop (d.length + 1), ⟨[], false⟩, d ++ [0#8] ++ buf.drop (d.length + 1), ?_, ?_, ?_, rfl⟩
    · rw [cGetline]
      simp only [h1, h2]
      rw [if_neg (by simp [h0])]
    · rw [List.append_assoc]; exact List.take_left' rfl
    · simp
  eof buf _ _ := ⟨_, _, rfl⟩

end Codon.FileM
