/-!
# Model of files: stdlib/internal/file.codon

`File` stands on the C library (`FILE`), `gzFile` on zlib and `bzFile` on bzip2; what these libraries do is written down here from their documentation.  `none` is undefined behaviour
(access outside of the buffer) or, where there is fuel, a loop that does not end.
-/
namespace Codon.FileM

abbrev Byte := BitVec 8

/-- The byte of `'\n'`. -/
abbrev nl : Byte := 10#8

/-- `IOError`. -/
inductive Err where
  | io
  deriving DecidableEq, Repr

/-- What is still to be read from a stream; `bad`: after that comes a read error and not the end. -/
structure Src where
  rest : List Byte
  bad : Bool
  deriving DecidableEq, Repr

/-! ### Buffers -/

/-- Memory with arbitrary contents. -/
def junkBytes (junk : Nat → Byte) (n : Nat) : List Byte := (List.range n).map junk

/-- Writing bytes into a buffer. -/
def put (buf : List Byte) (off : Nat) (c : List Byte) : Option (List Byte) :=
  if off + c.length ≤ buf.length then some (buf.take off ++ c ++ buf.drop (off + c.length)) else none

/-- `strlen`: the bytes before the first zero byte, which must be in the buffer. -/
def strlen : List Byte → Option Nat
  | [] => none
  | b :: bs => if b = 0#8 then some 0 else (strlen bs).map (· + 1)

/-- A buffer that is read again and again: `buf` and `sz` of the file objects (file.codon:129-131, 261-263); the empty list is the null pointer. -/
abbrev Buf := List Byte

/-- `if not self.buf: self.sz = 128; self.buf = Ptr[byte](self.sz)` (file.codon:144-146, 276-278). -/
def initBuf (junk : Nat → Byte) (buf : Buf) : Buf := if buf.length = 0 then junkBytes junk 128 else buf

/-- `self.sz *= 2; self.buf = realloc(self.buf, self.sz, oldsz)` (file.codon:161-163, 298-300). -/
def grow (junk : Nat → Byte) (buf : Buf) : Buf := buf ++ junkBytes junk buf.length

/-! ### zlib -/

/-- The bytes up to a newline, at most `n`, and what follows. -/
def chunk : Nat → List Byte → List Byte × List Byte
  | 0, r => ([], r)
  | _ + 1, [] => ([], [])
  | n + 1, b :: r => if b = nl then ([b], r) else (b :: (chunk n r).1, (chunk n r).2)

/-- Whether `chunk` came to the end of the data before it found a newline or enough bytes. -/
def ranOut : Nat → List Byte → Bool
  | 0, _ => false
  | _ + 1, [] => true
  | n + 1, b :: r => if b = nl then false else ranOut n r

/-- `gzgets(fp, buf, len)`: `none` is the null pointer, for a length that is not positive (as an `i32`), at the end of the file, or for an error; otherwise the bytes, to which a zero byte is
    added in the buffer. -/
def gzgets (s : Src) (len : Nat) : Option (List Byte) × Src :=
  if len = 0 ∨ 2 ^ 31 ≤ len then (none, s)
  else if ranOut (len - 1) s.rest ∧ s.bad then (none, ⟨[], true⟩)
  else if (chunk (len - 1) s.rest).1 = [] ∧ len ≠ 1 then (none, s)
  else (some (chunk (len - 1) s.rest).1, ⟨(chunk (len - 1) s.rest).2, s.bad⟩)

/-- Whether `gzerror` reports an error: the data before it are used up. -/
def gzError (s : Src) : Bool := s.bad && s.rest.isEmpty

/-- What `_getline` returns: the length, or -1. -/
inductive Line where
  | len (n : Nat)
  | eof
  deriving DecidableEq, Repr

/-- The loop of `gzFile._getline` (file.codon:149-165). -/
def gzLoop (junk : Nat → Byte) : Nat → Src → Buf → Nat → Option (Src × Buf × Except Err Line)
  | 0, _, _, _ => none
  | fuel + 1, s, buf, offset =>
    match gzgets s (buf.length - offset) with
    | (none, s') => if gzError s' then some (s', buf, .error .io) else some (s', buf, .ok (if offset = 0 then .eof else .len offset))
    | (some c, s') =>
      match put buf offset (c ++ [0#8]) with
      | none => none
      | some buf1 =>
        match strlen (buf1.drop offset) with
        | none => none
        | some k =>
          if offset + k = 0 then none
          else if buf1.getD (offset + k - 1) 0#8 = nl then some (s', buf1, .ok (.len (offset + k)))
          else gzLoop junk fuel s' (grow junk buf1) (offset + k)

/-- `gzFile._getline` (file.codon:143-165). -/
def gzGetline (junk : Nat → Byte) (s : Src) (buf : Buf) : Option (Src × Buf × Except Err Line) := gzLoop junk (s.rest.length + 1) s (initBuf junk buf) 0

/-! ### bzip2 -/

/-- The loop of `bzFile._gets` (file.codon:387-397): `n` more bytes fit; `none` is the error -1, otherwise the bytes that were stored.  `BZ2_bzread` of one byte gives 1, 0 at the end or a
    negative number. -/
def bzGets : Nat → Src → Option (List Byte) × Src
  | 0, s => (some [], s)
  | n + 1, s =>
    match s.rest with
    | [] => (if s.bad then none else some [], s)
    | b :: r => if b = nl then (some [b], ⟨r, s.bad⟩) else ((bzGets n ⟨r, s.bad⟩).1.map (b :: ·), (bzGets n ⟨r, s.bad⟩).2)

/-- The loop of `bzFile._getline` (file.codon:280-302); `_bz_errcheck` after a negative result finds an error. -/
def bzLoop (junk : Nat → Byte) : Nat → Src → Buf → Nat → Option (Src × Buf × Except Err Line)
  | 0, _, _, _ => none
  | fuel + 1, s, buf, offset =>
    match (if buf.length - offset = 0 then (some [], s) else bzGets (buf.length - offset - 1) s) with
    | (none, s') => some (s', buf, .error .io)
    | (some [], s') => some (s', buf, .ok (if offset = 0 then .eof else .len offset))
    | (some (b :: c), s') =>
      match put buf offset (b :: c) with
      | none => none
      | some buf1 =>
        if buf1.getD (offset + (c.length + 1) - 1) 0#8 = nl then some (s', buf1, .ok (.len (offset + (c.length + 1))))
        else bzLoop junk fuel s' (grow junk buf1) (offset + (c.length + 1))

/-- `bzFile._getline` (file.codon:275-302). -/
def bzGetline (junk : Nat → Byte) (s : Src) (buf : Buf) : Option (Src × Buf × Except Err Line) := bzLoop junk (s.rest.length + 1) s (initBuf junk buf) 0

/-! ### The C library -/

/-- `getline(&buf, &n, fp)`: the buffer is made as large as needed; -1 at the end and for errors (a line that an error cuts short is lost). -/
def cGetline (s : Src) (buf : Buf) : Option (Src × Buf × Except Err Line) :=
  let n := s.rest.length
  if ranOut (n + 1) s.rest ∧ (s.bad ∨ s.rest = []) then some (⟨[], s.bad⟩, buf, .ok .eof)
  else some (⟨(chunk (n + 1) s.rest).2, s.bad⟩, (chunk (n + 1) s.rest).1 ++ [0#8] ++ buf.drop ((chunk (n + 1) s.rest).1.length + 1), .ok (.len (chunk (n + 1) s.rest).1.length))

/-! ### Iteration -/

/-- What a loop over a generator sees: the strings, and whether it ends with an exception. -/
abbrev Seen := List (List Byte) × Option Err

/-- `_iter` (file.codon:98-107, 226-233, 351-358), every string being copied by `__iter__` (file.codon:37-39, 167-169, 304-306) before the next line is read.  `getl` is the function that reads a
    line. -/
def iter (getl : Src → Buf → Option (Src × Buf × Except Err Line)) : Nat → Src → Buf → Option Seen
  | 0, _, _ => none
  | fuel + 1, s, buf =>
    match getl s buf with
    | none => none
    | some (_, _, .error e) => some ([], some e)
    | some (_, _, .ok .eof) => some ([], none)
    | some (s', buf', .ok (.len n)) => if n ≤ buf'.length then (iter getl fuel s' buf').map fun r => (buf'.take n :: r.1, r.2) else none

/-- `_iter_trim_newline` (file.codon:109-120, 235-244, 360-369). -/
def iterTrim (getl : Src → Buf → Option (Src × Buf × Except Err Line)) : Nat → Src → Buf → Option Seen
  | 0, _, _ => none
  | fuel + 1, s, buf =>
    match getl s buf with
    | none => none
    | some (_, _, .error e) => some ([], some e)
    | some (_, _, .ok .eof) => some ([], none)
    | some (s', buf', .ok (.len n)) =>
      if n = 0 ∨ buf'.length < n then none
      else (iterTrim getl fuel s' buf').map fun r => (buf'.take (if buf'.getD (n - 1) 0#8 = nl then n - 1 else n) :: r.1, r.2)

/-- A loop over a file that nothing was read from yet. -/
def lines (getl : Src → Buf → Option (Src × Buf × Except Err Line)) (s : Src) : Option Seen := iter getl (s.rest.length + 1) s []

/-- The same without newlines. -/
def trimmed (getl : Src → Buf → Option (Src × Buf × Except Err Line)) (s : Src) : Option Seen := iterTrim getl (s.rest.length + 1) s []

/-- `read()` of `gzFile` and `bzFile` (file.codon:197-203, 334-340): all lines together. -/
def readAll (getl : Src → Buf → Option (Src × Buf × Except Err Line)) (s : Src) : Option (Except Err (List Byte)) :=
  (lines getl s).map fun r => match r.2 with
    | some e => .error e
    | none => .ok r.1.flatten

/-! ### Position, reading and writing of `File` -/

/-- A file of the C library: contents, position, whether it can be positioned (a pipe cannot), whether it is open. -/
structure CFile where
  data : List Byte
  pos : Nat
  seekable : Bool
  isOpen : Bool
  deriving DecidableEq, Repr

/-- `ftell`. -/
def CFile.ftell (f : CFile) : Int := if f.seekable then f.pos else -1

/-- `fread(buf, 1, n, fp)`; what is at the position. -/
def CFile.fread (f : CFile) (n : Nat) : List Byte × CFile := ((f.data.drop f.pos).take n, { f with pos := f.pos + ((f.data.drop f.pos).take n).length })

/-- `fseek(fp, n, SEEK_SET)`, `fseek(fp, 0, SEEK_END)`: no effect if not possible. -/
def CFile.seekSet (f : CFile) (n : Int) : CFile := if f.seekable ∧ 0 ≤ n then { f with pos := n.toNat } else f

@[inherit_doc CFile.seekSet]
def CFile.seekEnd (f : CFile) : CFile := if f.seekable then { f with pos := f.data.length } else f

/-- `File.read` (file.codon:53-65); a negative size of the buffer is not defined. -/
def CFile.read (f : CFile) (sz : Int) : Option (Except Err (List Byte) × CFile) :=
  if f.isOpen = false then some (.error .io, f)
  else if sz < 0 then
    let cur := f.ftell
    let f1 := f.seekEnd
    let sz' := f1.ftell - cur
    let f2 := f1.seekSet cur
    if sz' < 0 then none else some (.ok (f2.fread sz'.toNat).1, (f2.fread sz'.toNat).2)
  else some (.ok (f.fread sz.toNat).1, (f.fread sz.toNat).2)

/-- `fwrite`: at the position (a gap is filled with zero bytes). -/
def CFile.fwrite (f : CFile) (s : List Byte) : CFile :=
  if s = [] then f
  else { f with data := (f.data ++ List.replicate (f.pos - f.data.length) 0#8).take f.pos ++ s ++ f.data.drop (f.pos + s.length), pos := f.pos + s.length }

/-- `File.write` (file.codon:44-47), without write errors. -/
def CFile.write (f : CFile) (s : List Byte) : Except Err Unit × CFile := if f.isOpen = false then (.error .io, f) else (.ok (), f.fwrite s)

/-- `__file_write_gen__` (file.codon:49-51). -/
def CFile.writeGen (f : CFile) : List (List Byte) → Except Err Unit × CFile
  | [] => (.ok (), f)
  | s :: g =>
    match f.write s with
    | (.error e, f') => (.error e, f')
    | (.ok _, f') => f'.writeGen g

/-- `File.seek(n, 0)` (file.codon:73-76). -/
def CFile.seek (f : CFile) (n : Int) : Except Err Unit × CFile := if f.isOpen = false then (.error .io, f) else (.ok (), f.seekSet n)

end Codon.FileM
