import Verif.FileM.Readers
/-!
# C74: reading a file gives its contents, line by line
-/
namespace Codon.FileM

/-- What is expected of a file without read errors: a loop sees its lines, the other loop sees them without newlines, `read()` gives everything. -/
def ReadsAll (getl : Getl) (data : List Byte) : Prop :=
  ∃ L, IsLines data L ∧ lines getl ⟨data, false⟩ = some (L, none) ∧ trimmed getl ⟨data, false⟩ = some (L.map chomp, none) ∧ readAll getl ⟨data, false⟩ = some (.ok data)

theorem readsAll {getl : Getl} {ok : List Byte → Prop} {I : Buf → Prop} (hR : Reader getl ok I) (data : List Byte) (h : ok data) : ReadsAll getl data := by
  obtain ⟨L, e1, e2, e3⟩ := iter_good hR (data.length + 1) data [] hR.init h (by omega)
  refine ⟨L, e3, e1, e2, ?_⟩
  have : lines getl ⟨data, false⟩ = some (L, none) := e1
  rw [readAll, this]
  simp [e3.all]

/-- `File`: for all contents. -/
theorem c74_file (data : List Byte) : ReadsAll cGetline data := readsAll c_reader data trivial

/-- `bzFile`: for all contents, whatever was in the memory of the buffer. -/
theorem c74_bz (junk : Nat → Byte) (data : List Byte) : ReadsAll (bzGetline junk) data := readsAll (bz_reader junk) data trivial

/-- `gzFile`.  `_partial`: for contents without zero bytes and with lines shorter than half a gigabyte. -/
theorem c74_gz_partial (junk : Nat → Byte) (data : List Byte) (h0 : 0#8 ∉ data) (hl : ∀ a d r, data = a ++ d ++ r → nl ∉ d → d.length + 1 < 2 ^ 29) : ReadsAll (gzGetline junk) data :=
  readsAll (gz_reader junk) data ⟨h0, hl⟩

example : lines cGetline ⟨[97, 10, 10, 98], false⟩ = some ([[97, 10], [10], [98]], none) ∧ lines (bzGetline fun _ => 7) ⟨[97, 10, 0, 98], false⟩ = some ([[97, 10], [0, 98]], none) ∧
    trimmed (gzGetline fun _ => 7) ⟨[97, 10, 10, 98], false⟩ = some ([[97], [], [98]], none) := by decide +kernel

/-- A line that is longer than the buffer. -/
example : lines (gzGetline fun _ => 7) ⟨List.replicate 130 97 ++ [10, 98], false⟩ = some ([List.replicate 130 97 ++ [10], [98]], none) := by decide +kernel

/-- A read error (for example in damaged or truncated data): the lines before it are seen, then `IOError` is raised. -/
def ErrorSeen (getl : Getl) (data : List Byte) : Prop :=
  ∃ L t, lines getl ⟨data, true⟩ = some (L, some .io) ∧ IsLines L.flatten L ∧ (∀ l ∈ L, l.getLast? = some nl) ∧ data = L.flatten ++ t ∧ nl ∉ t ∧ readAll getl ⟨data, true⟩ = some (.error .io)

theorem errorSeen {getl : Getl} {ok : List Byte → Prop} {I : Buf → Prop} (hR : Reader getl ok I) (hB : Raises getl ok I) (data : List Byte) (h : ok data) : ErrorSeen getl data := by
  obtain ⟨L, t, e1, e2, e3, e4, e5⟩ := iter_bad hR hB (data.length + 1) data [] hR.init h (by omega)
  have : lines getl ⟨data, true⟩ = some (L, some .io) := e1
  exact ⟨L, t, e1, e2, e3, e4, e5, by rw [readAll, this]; rfl⟩

theorem c74_bz_error (junk : Nat → Byte) (data : List Byte) : ErrorSeen (bzGetline junk) data := errorSeen (bz_reader junk) (bz_raises junk) data trivial

theorem c74_gz_error_partial (junk : Nat → Byte) (data : List Byte) (h0 : 0#8 ∉ data) (hl : ∀ a d r, data = a ++ d ++ r → nl ∉ d → d.length + 1 < 2 ^ 29) : ErrorSeen (gzGetline junk) data :=
  errorSeen (gz_reader junk) (gz_raises junk) data ⟨h0, hl⟩

example : lines (bzGetline fun _ => 7) ⟨[97, 10, 98], true⟩ = some ([[97, 10]], some .io) := by decide +kernel

/-- Violation: a loop over a `File` does not notice read errors (for example for a directory); it ends as if the file did. -/
theorem c74_violation_error : lines cGetline ⟨[97, 10, 98], true⟩ = some ([[97, 10]], none) ∧ lines cGetline ⟨[], true⟩ = some ([], none) := by decide

/-- Violation: with a zero byte in a line of a `gzFile` the rest of that line is lost and the next line is joined to it. -/
theorem c74_violation_zero : lines (gzGetline fun _ => 7) ⟨[97, 0, 98, 10, 99, 10], false⟩ = some ([[97, 99, 10]], none) ∧
    readAll (gzGetline fun _ => 7) ⟨[97, 0, 98, 10, 99, 10], false⟩ = some (.ok [97, 99, 10]) := by
  have h : lines (gzGetline fun _ => 7) ⟨[97, 0, 98, 10, 99, 10], false⟩ = some ([[97, 99, 10]], none) := by decide +kernel
  exact ⟨h, by rw [readAll, h]; rfl⟩

/-- Violation: with a zero byte at the beginning of a line, memory before the buffer is read. -/
theorem c74_violation_before : lines (gzGetline fun _ => 7) ⟨[0, 98, 10], false⟩ = none := by decide +kernel

/-! ### Reading and writing a `File` -/

/-- `read(n)` gives the next `n` bytes, or what is left; the position moves behind them. -/
theorem c74_read_n (f : CFile) (n : Nat) (ho : f.isOpen = true) :
    ∃ s f', f.read n = some (.ok s, f') ∧ s = (f.data.drop f.pos).take n ∧ f'.data = f.data ∧ (f.pos ≤ f.data.length → f'.pos = min (f.pos + n) f.data.length) := by
  refine ⟨(f.fread n).1, (f.fread n).2, by rw [CFile.read, if_neg (by simp [ho]), if_neg (by omega)]; rfl, ?_, rfl, ?_⟩
  · simp [CFile.fread]
  · intro h
    simp [CFile.fread]; omega

/-- `read()` gives everything after the position.  `_partial`: the file can be positioned, and is not positioned behind its end. -/
theorem c74_read_partial (f : CFile) (ho : f.isOpen = true) (hs : f.seekable = true) (hp : f.pos ≤ f.data.length) :
    ∃ f', f.read (-1) = some (.ok (f.data.drop f.pos), f') ∧ f'.data = f.data ∧ f'.pos = f.data.length := by
  have h1 : f.seekEnd = { f with pos := f.data.length } := by rw [CFile.seekEnd, if_pos hs]
  have h2 : f.ftell = f.pos := by rw [CFile.ftell, if_pos hs]
  have h3 : (f.seekEnd).ftell = f.data.length := by rw [h1, CFile.ftell]; simp [hs]
  have h4 : (f.seekEnd).seekSet f.ftell = f := by rw [h1, h2, CFile.seekSet, if_pos ⟨hs, by omega⟩]; rfl
  have h5 : (((f.data.length : Int) - (f.pos : Int)).toNat) = f.data.length - f.pos := by omega
  refine ⟨(f.fread (f.data.length - f.pos)).2, ?_, rfl, ?_⟩
  · rw [CFile.read, if_neg (by simp [ho]), if_pos (by decide)]
    simp only [h4]
    simp only [h3, h2, h5]
    rw [if_neg (by omega)]
    simp only [CFile.fread, List.take_of_length_le (show (f.data.drop f.pos).length ≤ f.data.length - f.pos by simp)]
  · simp [CFile.fread]; omega

/-- A closed file raises `IOError`. -/
theorem c74_closed (f : CFile) (ho : f.isOpen = false) (n : Int) (s : List Byte) : f.read n = some (.error .io, f) ∧ f.write s = (.error .io, f) ∧ f.seek n = (.error .io, f) :=
  ⟨by rw [CFile.read, if_pos ho], by rw [CFile.write, if_pos ho], by rw [CFile.seek, if_pos ho]⟩

/-- What was written is read again from the same position, and the bytes before it and after it are as they were. -/
theorem c74_write_read (f : CFile) (s : List Byte) (ho : f.isOpen = true) (hs : f.seekable = true) (hp : f.pos ≤ f.data.length) :
    ∃ f1 f2 f3, f.write s = (.ok (), f1) ∧ f1.pos = f.pos + s.length ∧ f1.seek f.pos = (.ok (), f2) ∧ f2.read s.length = some (.ok s, f3) ∧
      f1.data.take f.pos = f.data.take f.pos ∧ f1.data.drop (f.pos + s.length) = f.data.drop (f.pos + s.length) := by
  by_cases h0 : s = []
  · subst h0
    have hw : f.write [] = (.ok (), f) := by rw [CFile.write, if_neg (by simp [ho]), CFile.fwrite, if_pos rfl]
    refine ⟨f, f, f, hw, rfl, ?_, ?_, rfl, rfl⟩
    · rw [CFile.seek, if_neg (by simp [ho]), CFile.seekSet, if_pos (by simp [hs])]; rfl
    · rw [CFile.read, if_neg (by simp [ho]), if_neg (by simp)]; simp [CFile.fread]
  · have hw : f.write s = (.ok (), { f with data := f.data.take f.pos ++ s ++ f.data.drop (f.pos + s.length), pos := f.pos + s.length }) := by
      rw [CFile.write, if_neg (by simp [ho]), CFile.fwrite, if_neg h0, Nat.sub_eq_zero_of_le hp]; simp
    have hlen : (f.data.take f.pos).length = f.pos := by simp; omega
    refine ⟨_, { f with data := f.data.take f.pos ++ s ++ f.data.drop (f.pos + s.length), pos := f.pos }, { f with data := f.data.take f.pos ++ s ++ f.data.drop (f.pos + s.length), pos := f.pos + s.length },
      hw, rfl, ?_, ?_, ?_, ?_⟩
    · rw [CFile.seek, if_neg (by simp [ho]), CFile.seekSet, if_pos (by simp [hs])]; rfl
    · rw [CFile.read, if_neg (by simp [ho]), if_neg (by omega)]
      have : ((f.data.take f.pos ++ s ++ f.data.drop (f.pos + s.length)).drop f.pos).take s.length = s := by
        rw [List.append_assoc, List.drop_left' hlen, List.take_left' rfl]
      simp only [CFile.fread, Int.toNat_natCast, this]
    · rw [List.append_assoc, List.take_left' hlen]
    · exact List.drop_left' (by rw [List.length_append, hlen])

example : ((⟨[1, 2, 3, 4], 1, true, true⟩ : CFile).write [9, 9]).2.data = [1, 9, 9, 4] ∧ (⟨[1, 2, 3, 4], 1, true, true⟩ : CFile).read (-1) = some (.ok [2, 3, 4], ⟨[1, 2, 3, 4], 4, true, true⟩) := ⟨by decide, by rfl⟩

theorem fwrite_append (f : CFile) (s t : List Byte) : (f.fwrite s).fwrite t = f.fwrite (s ++ t) := by
  by_cases hs : s = []
  · subst hs; simp [CFile.fwrite]
  · by_cases ht : t = []
    · subst ht; simp [CFile.fwrite]
    · have hlen : ((f.data ++ List.replicate (f.pos - f.data.length) 0#8).take f.pos).length = f.pos := by simp; omega
      have hl2 : ((f.data ++ List.replicate (f.pos - f.data.length) 0#8).take f.pos ++ s).length = f.pos + s.length := by rw [List.length_append, hlen]
      have hsub : f.pos + s.length - ((f.data ++ List.replicate (f.pos - f.data.length) 0#8).take f.pos ++ s ++ f.data.drop (f.pos + s.length)).length = 0 := by
        rw [List.length_append, hl2]; omega
      simp only [CFile.fwrite, if_neg hs, if_neg ht, if_neg (show ¬ s ++ t = [] by simp [hs]), hsub, List.replicate_zero, List.append_nil, CFile.mk.injEq, and_true]
      refine ⟨?_, by simp; omega⟩
      rw [List.take_left' hl2, ← List.drop_drop, List.drop_left' hl2, List.drop_drop]
      simp [List.append_assoc, Nat.add_assoc]

/-- Writing pieces one after the other is writing them together. -/
theorem c74_write_gen (f : CFile) (ho : f.isOpen = true) (g : List (List Byte)) : f.writeGen g = f.write g.flatten := by
  induction g generalizing f with
  | nil => simp [CFile.writeGen, CFile.write, ho, CFile.fwrite]
  | cons s g ih =>
    have hw : f.write s = (.ok (), f.fwrite s) := by rw [CFile.write, if_neg (by simp [ho])]
    have ho' : (f.fwrite s).isOpen = true := by
      rw [CFile.fwrite]; split <;> exact ho
    rw [CFile.writeGen, hw]
    simp only
    rw [ih _ ho', CFile.write, if_neg (by simp [ho']), fwrite_append, CFile.write, if_neg (by simp [ho]), List.flatten_cons]

example : ((⟨[], 0, true, true⟩ : CFile).writeGen [[1], [], [2, 3]]).2 = ⟨[1, 2, 3], 3, true, true⟩ := by decide

/-- Violation: `read()` of a file that cannot be positioned, as a pipe or `sys.stdin`, gives an empty string. -/
theorem c74_violation_pipe : ((⟨[1, 2, 3], 0, false, true⟩ : CFile).read (-1)).map (·.1) = some (.ok []) := by rfl

/-- Violation: `read()` behind the end of the file asks for a buffer of negative size. -/
theorem c74_violation_behind : (⟨[1, 2, 3], 5, true, true⟩ : CFile).read (-1) = none := by rfl

end Codon.FileM
