import Verif.Exc.Leb

/-! Property C18: the personality function selects the first matching clause. -/

namespace Codon.Exc

/-! ### Specification of the tables -/

/-- A number as `k` little-endian bytes. -/
def le : Nat → Nat → List UInt8
  | 0, _ => []
  | k + 1, n => UInt8.ofNat (n % 256) :: le k (n / 256)

/-- A short ULEB128 number below 2^31 at `p`, the next address being `q`. -/
def UlebAt (mem : Mem) (p : Int) (n : Nat) (q : Int) : Prop :=
  ∃ bs, At mem p bs ∧ Uleb bs n ∧ bs.length ≤ 5 ∧ n < 2 ^ 31 ∧ q = p + bs.length

/-- A short SLEB128 number between -2^27 and 2^31 at `p`, the next address being `q`. -/
def SlebAt (mem : Mem) (p : Int) (v : Int) (q : Int) : Prop :=
  ∃ bs, At mem p bs ∧ Sleb bs v ∧ bs.length ≤ 5 ∧ - 2 ^ 27 ≤ v ∧ v < 2 ^ 31 ∧ (v < 0 → bs.length ≤ 4) ∧ q = p + bs.length

/-- The pointer stored in entry `t > 0` of a type table that ends at `cls`: absolute, or relative to the entry itself and
through an indirection (the two forms LLVM emits). -/
inductive TypeRef (mem : Mem) (cls : Int) : Nat → Nat → Nat → Prop
  | abs {t a : Nat} : a < 2 ^ 64 → At mem (cls - t * 8) (le 8 a) → TypeRef mem cls 0x00 t a
  | pcrel {t g a : Nat} {d : Int} : a < 2 ^ 64 → - 2 ^ 31 ≤ d → d < 2 ^ 31 → At mem (cls - t * 4) (le 4 (d % 2 ^ 32).toNat) →
      (g : Int) = cls - t * 4 + d → g < 2 ^ 64 → At mem g (le 8 a) → TypeRef mem cls 0x9b t a

/-- Entry `t` of the type table names type id `ty`. -/
def TypeAt (mem : Mem) (enc : Nat) (cls : Int) (t : Nat) (ty : Nat) : Prop :=
  ty < 2 ^ 31 ∧ ∃ a : Nat, TypeRef mem cls enc t a ∧ At mem a (le 4 ty)

/-- The clause that an action record with type number `t` stands for (`none`: a cleanup). -/
def Clause (mem : Mem) (enc : Nat) (cls : Int) (t : Int) : Option Nat → Prop
  | none => t = 0
  | some ty => ∃ k : Nat, 0 < k ∧ t = k ∧ TypeAt mem enc cls k ty

/-- A chain of action records. -/
inductive Chain (mem : Mem) (enc : Nat) (cls : Int) : Int → List (Option Nat) → Prop
  | last {p q r t : Int} {c} : SlebAt mem p t q → SlebAt mem q 0 r → Clause mem enc cls t c → Chain mem enc cls p [c]
  | next {p q r t d : Int} {c cs} : SlebAt mem p t q → SlebAt mem q d r → d ≠ 0 → Clause mem enc cls t c →
      Chain mem enc cls (q + d) cs → Chain mem enc cls p (c :: cs)

/-- The exception object `obj` is of the class with number `id`, whose (transitive) bases have the numbers `bases`. -/
def IsObject (obj : Rtti) (id : Nat) (bases : List Nat) : Prop :=
  obj.id = id ∧ (∀ b ∈ bases, b ≠ 0) ∧
    ((obj.parents = none ∧ bases = []) ∨ ∃ junk, obj.parents = some (bases.map (fun b : Nat => (b : Int)) ++ 0 :: junk))

/-- A clause for type number `ty` handles the exception: it is a catch-all or names the class or one of its bases. -/
def Handles (id : Nat) (bases : List Nat) (ty : Nat) : Bool := ty == 0 || ty == id || bases.contains ty

/-- The first clause that handles the exception. -/
def firstClause (id : Nat) (bases : List Nat) (cs : List (Option Nat)) : Option Nat := (cs.filterMap fun c => c).find? (Handles id bases)

/-- A row of the call-site table. -/
structure Site where
  start : Nat
  length : Nat
  landingPad : Nat
  action : Nat
deriving DecidableEq

/-- A number in the call-site table: 4 bytes or ULEB128 (the encodings LLVM emits). -/
inductive SiteNum (mem : Mem) : Nat → Int → Nat → Int → Prop
  | udata4 {p n} : n < 2 ^ 32 → At mem p (le 4 n) → SiteNum mem 0x03 p n (p + 4)
  | uleb {p n q} : UlebAt mem p n q → SiteNum mem 0x01 p n q

/-- The call-site table from `p` up to `e`. -/
inductive Sites (mem : Mem) (enc : Nat) (e : Int) : Int → List Site → Prop
  | nil : Sites mem enc e e []
  | cons {p q1 q2 q3 q4 s ss} : SiteNum mem enc p s.start q1 → SiteNum mem enc q1 s.length q2 → SiteNum mem enc q2 s.landingPad q3 →
      UlebAt mem q3 s.action q4 → Sites mem enc e q4 ss → Sites mem enc e p (s :: ss)

/-- An exception table (LSDA) at `p`: type table encoding `tt` and end `cls`, call-site encoding `cse`, call-site table from
`a` to `e` (where the action table begins). -/
def LsdaAt (mem : Mem) (p : Int) (tt : UInt8) (cls : Int) (cse : UInt8) (a e : Int) : Prop :=
  At mem p [0xff, tt] ∧ ∃ q : Int, (if tt = 0xff then q = p + 2 else ∃ off, UlebAt mem (p + 2) off q ∧ cls = q + off) ∧
    At mem q [cse] ∧ ∃ len, UlebAt mem (q + 1) len a ∧ e = a + len

/-! ### Lemmas -/

theorem UlebAt.read {mem : Mem} {p q : Int} {n : Nat} (h : UlebAt mem p n q) : readULEB128 mem p = some (BitVec.ofNat 64 n, q) := by
  obtain ⟨bs, h1, h2, h3, h4, rfl⟩ := h
  exact readULEB_spec h1 h2 h3 h4

theorem UlebAt.lt {mem : Mem} {p q : Int} {n : Nat} (h : UlebAt mem p n q) : p < q ∧ n < 2 ^ 31 := by
  obtain ⟨bs, h1, h2, h3, h4, rfl⟩ := h
  have := List.length_pos_iff.mpr h2.ne
  omega

theorem SlebAt.read {mem : Mem} {p q v : Int} (h : SlebAt mem p v q) : readSLEB128 mem p = some (BitVec.ofInt 64 v, q) := by
  obtain ⟨bs, h1, h2, h3, h4, h5, h6, rfl⟩ := h
  exact readSLEB_spec h1 h2 h3 ⟨h4, h5⟩ h6

theorem SlebAt.toInt {mem : Mem} {p q v : Int} (h : SlebAt mem p v q) : (BitVec.ofInt 64 v).toInt = v := by
  obtain ⟨bs, h1, h2, h3, h4, h5, h6, rfl⟩ := h
  rw [BitVec.toInt_ofInt, Int.bmod_def]
  omega

theorem readLE_spec {mem : Mem} : ∀ (k n : Nat) (p : Int), n < 256 ^ k → At mem p (le k n) → readLE mem p k = some n := by
  intro k
  induction k with
  | zero => intro n p h _; simp at h; subst h; rfl
  | succ k ih =>
    intro n p h hat
    unfold le at hat
    unfold readLE
    rw [hat.head, ]
    simp only [Option.bind_eq_bind, Option.bind_some]
    rw [ih (n / 256) (p + 1) (by rw [Nat.pow_succ] at h; omega) hat.tail]
    simp only [Option.bind_some, Option.pure_def, Option.some.injEq, UInt8.toNat_ofNat']
    omega

theorem TypeRef.size {mem : Mem} {cls : Int} {enc t a : Nat} (h : TypeRef mem cls enc t a) : ∃ k : Nat, getEncodingSize enc = some k ∧
    ∃ q, readEncodedPointer mem (cls - t * k) enc = some (BitVec.ofNat 64 a, q) ∧ a < 2 ^ 64 := by
  cases h with
  | abs h1 h2 =>
    refine ⟨8, rfl, cls - t * 8 + 8, ?_, h1⟩
    have := readLE_spec 8 a (cls - t * 8) (by omega) h2
    unfold readEncodedPointer readValue
    rw [if_neg (by decide)]
    simp only [Nat.reduceMod, Nat.reduceDiv]
    have e : ((8 : Nat) : Int) = 8 := rfl
    rw [e, this]
    rfl
  | @pcrel _ g _ d h1 h2 h3 h4 h5 h6 h7 =>
    refine ⟨4, rfl, cls - t * 4 + 4, ?_, h1⟩
    have e : ((4 : Nat) : Int) = 4 := rfl
    have r1 := readLE_spec 4 (d % 2 ^ 32).toNat (cls - t * 4) (by omega) h4
    have r2 := readLE_spec 8 a g (by omega) h7
    have hv : (BitVec.ofNat 32 (d % 2 ^ 32).toNat).signExtend 64 + BitVec.ofInt 64 (cls - t * 4) = BitVec.ofNat 64 g := by
      have hd : (BitVec.ofNat 32 (d % 2 ^ 32).toNat).toInt = d := by
        rw [BitVec.toInt_ofNat', Int.bmod_def]
        omega
      have hs : (BitVec.ofNat 32 (d % 2 ^ 32).toNat).signExtend 64 = BitVec.ofInt 64 d := by
        rw [BitVec.signExtend, hd]
      rw [hs, ← BitVec.ofInt_add, ← BitVec.ofInt_natCast, h5]
      congr 1
      omega
    unfold readEncodedPointer readValue
    rw [if_neg (by decide)]
    simp only [Nat.reduceMod, Nat.reduceDiv]
    rw [e, r1]
    simp only [Option.bind_eq_bind, Option.bind_some, Option.pure_def]
    rw [if_neg (by decide), if_pos trivial, if_pos trivial, hv, BitVec.toNat_ofNat, Nat.mod_eq_of_lt h6, r2]
    rfl

theorem TypeAt.read {mem : Mem} {enc t ty : Nat} {cls : Int} (h : TypeAt mem enc cls t ty) : typeEntry mem enc cls t = some (ty : Int) := by
  obtain ⟨h0, a, h1, h2⟩ := h
  obtain ⟨k, k1, q, k2, k3⟩ := h1.size
  unfold typeEntry
  rw [k1]
  simp only [Option.bind_eq_bind, Option.bind_some]
  rw [k2]
  simp only [Option.bind_some]
  unfold readInt32
  rw [BitVec.toNat_ofNat, Nat.mod_eq_of_lt k3, readLE_spec 4 ty a (by omega) h2]
  simp only [Option.bind_eq_bind, Option.bind_some, Option.pure_def, Option.some.injEq]
  rw [BitVec.toInt_ofNat', Int.bmod_def]
  omega

theorem parentLoop_spec (ty : Nat) (junk : List Int) : ∀ bases : List Nat, (∀ b ∈ bases, b ≠ 0) →
    parentLoop ty (bases.map (fun b : Nat => (b : Int)) ++ 0 :: junk) = some (bases.contains ty) := by
  intro bases
  induction bases with
  | nil => intro _; rfl
  | cons b bs ih =>
    intro h
    have hb := h b (by simp)
    simp only [List.map_cons, List.cons_append]
    unfold parentLoop
    rw [if_neg (by omega)]
    by_cases he : b = ty
    · subst he
      rw [if_pos rfl]; simp
    · rw [if_neg (by omega), ih (fun c hc => h c (by simp [hc]))]
      simp [List.contains_cons, Ne.symm he]

theorem isinstance_spec {obj : Rtti} {id : Nat} {bases : List Nat} (h : IsObject obj id bases) (ty : Nat) :
    isinstance obj ty = some (ty == id || bases.contains ty) := by
  obtain ⟨h1, h2, h3⟩ := h
  unfold isinstance
  rw [h1]
  by_cases he : id = ty
  · subst he
    rw [if_pos rfl]; simp
  · rw [if_neg (by omega)]
    have : (ty == id) = false := by simpa using Ne.symm he
    rw [this, Bool.false_or]
    rcases h3 with ⟨h3, rfl⟩ | ⟨junk, h3⟩
    · rw [h3]; rfl
    · rw [h3]
      exact parentLoop_spec ty junk bases h2

theorem Clause.hit {mem : Mem} {enc id : Nat} {cls t : Int} {c : Option Nat} {obj : Rtti} {bases : List Nat} (h : Clause mem enc cls t c)
    (ho : IsObject obj id bases) : 0 ≤ t ∧ recordHit mem enc cls obj t = some ((c.filter (Handles id bases)).map fun n : Nat => (n : Int)) := by
  cases c with
  | none =>
    have h : t = 0 := h
    subst h
    exact ⟨by omega, rfl⟩
  | some ty =>
    obtain ⟨k, k1, rfl, k2⟩ := h
    refine ⟨by omega, ?_⟩
    unfold recordHit
    rw [if_pos (by omega), k2.read]
    simp only [Option.bind_eq_bind, Option.bind_some]
    have hh : catches obj ty = some (Handles id bases ty) := by
      unfold Handles catches
      by_cases h0 : ty = 0
      · subst h0; simp
      · have : (ty == 0) = false := by simpa using h0
        rw [if_neg (by omega), isinstance_spec ho, this, Bool.false_or]
    rw [hh]
    simp only [Option.bind_some, Option.pure_def, Option.some.injEq]
    cases hH : Handles id bases ty <;> simp [Option.filter, hH]

theorem firstClause_cons (id : Nat) (bases : List Nat) (c : Option Nat) (cs : List (Option Nat)) :
    firstClause id bases (c :: cs) = (c.filter (Handles id bases)).or (firstClause id bases cs) := by
  unfold firstClause
  cases c with
  | none => rfl
  | some ty =>
    rw [show List.filterMap (fun c : Option Nat => c) (some ty :: cs) = ty :: List.filterMap (fun c : Option Nat => c) cs from rfl, List.find?_cons]
    cases hH : Handles id bases ty <;> simp [Option.filter, hH]

theorem handleActionValue_spec {mem : Mem} {enc id : Nat} {cls : Int} {obj : Rtti} {bases : List Nat} (ho : IsObject obj id bases)
    {p : Int} {cs : List (Option Nat)} (h : Chain mem enc cls p cs) : ∀ f, cs.length ≤ f →
    handleActionValue mem enc cls obj f p = some ((firstClause id bases cs).map fun n : Nat => (n : Int)) := by
  induction h with
  | @last p q r t c h1 h2 h3 =>
    intro f hf
    obtain ⟨f, rfl⟩ : ∃ g, f = g + 1 := ⟨f - 1, by simp at hf; omega⟩
    obtain ⟨e0, e1⟩ := h3.hit ho
    unfold handleActionValue
    rw [h1.read]
    simp only [Option.bind_eq_bind, Option.bind_some]
    rw [h2.read]
    simp only [Option.bind_some]
    rw [h1.toInt, if_neg (by omega)]
    rw [e1]
    simp only [Option.bind_some]
    rw [firstClause_cons]
    cases Option.filter (Handles id bases) c with
    | some ty => rfl
    | none => rfl
  | @next p q r t d c cs h1 h2 hd h3 h4 ih =>
    intro f hf
    obtain ⟨f, rfl⟩ : ∃ g, f = g + 1 := ⟨f - 1, by simp at hf; omega⟩
    obtain ⟨e0, e1⟩ := h3.hit ho
    unfold handleActionValue
    rw [h1.read]
    simp only [Option.bind_eq_bind, Option.bind_some]
    rw [h2.read]
    simp only [Option.bind_some]
    rw [h1.toInt, if_neg (by omega)]
    rw [e1]
    simp only [Option.bind_some]
    rw [firstClause_cons]
    cases Option.filter (Handles id bases) c with
    | some ty => rfl
    | none =>
      have hne : BitVec.ofInt 64 d ≠ 0 := by
        intro h0
        have := h2.toInt
        rw [h0] at this
        simp at this
        omega
      simp only [Option.map_none, Option.none_or]
      rw [if_neg hne, h2.toInt]
      exact ih f (by simpa using hf)

theorem SiteNum.read {mem : Mem} {enc n : Nat} {p q : Int} (h : SiteNum mem enc p n q) :
    readEncodedPointer mem p enc = some (BitVec.ofNat 64 n, q) ∧ p < q ∧ n < 2 ^ 32 := by
  cases h with
  | udata4 h1 h2 =>
    refine ⟨?_, by omega, h1⟩
    have := readLE_spec 4 n p (by omega) h2
    unfold readEncodedPointer readValue
    rw [if_neg (by decide)]
    simp only [Nat.reduceMod, Nat.reduceDiv]
    rw [this]
    rfl
  | uleb h =>
    refine ⟨?_, h.lt.1, by have := h.lt.2; omega⟩
    unfold readEncodedPointer readValue
    rw [if_neg (by decide)]
    simp only [Nat.reduceMod, Nat.reduceDiv]
    rw [h.read]
    rfl

theorem Sites.lt {mem : Mem} {enc : Nat} {e p : Int} {s : Site} {ss : List Site} (h : Sites mem enc e p (s :: ss)) : p < e := by
  suffices ∀ p ss, Sites mem enc e p ss → p ≤ e by
    cases h with
    | cons h1 h2 h3 h4 h5 =>
      have := this _ _ h5
      have := h1.read.2.1
      have := h2.read.2.1
      have := h3.read.2.1
      have := h4.lt.1
      omega
  intro p ss h
  induction h with
  | nil => omega
  | cons h1 h2 h3 h4 _ ih =>
    have := h1.read.2.1
    have := h2.read.2.1
    have := h3.read.2.1
    have := h4.lt.1
    omega

/-! ### C18 -/

/-- **C18.** Following the chain of action records of a landing pad finds the first clause that is a catch-all or names the
class of the exception or one of its bases; `none` if there is no such clause. -/
theorem c18_first_clause (mem : Mem) (enc id : Nat) (cls p : Int) (obj : Rtti) (bases : List Nat) (cs : List (Option Nat))
    (ho : IsObject obj id bases) (h : Chain mem enc cls p cs) (f : Nat) (hf : cs.length ≤ f) :
    handleActionValue mem enc cls obj f p = some ((firstClause id bases cs).map fun n : Nat => (n : Int)) :=
  handleActionValue_spec ho h f hf

/-- The call site that covers offset `off`: the first row with a landing pad whose range contains it. -/
def covering (ss : List Site) (off : Nat) : Option Site :=
  ss.find? fun s => s.landingPad != 0 && decide (s.start ≤ off) && decide (off < s.start + s.length)

/-- What the personality function must answer. -/
def expected (own search : Bool) (funcStart : BitVec 64) (hit : Site → Option Nat) : Option Site → Reason
  | none => .continueUnwind
  | some s =>
    let h := if own ∧ s.action ≠ 0 then hit s else none
    if search then (if h.isSome then .handlerFound else .continueUnwind)
    else .install (funcStart + BitVec.ofNat 64 s.landingPad) (h.getD 0 : Nat)

theorem scanSites_spec {mem : Mem} {obj : Rtti} {id : Nat} {bases : List Nat} (ho : IsObject obj id bases) (own search : Bool)
    (funcStart off : BitVec 64) (tt : Nat) (cls : Int) (cse : Nat) (e : Int) (fuel : Nat) (clauses : Site → List (Option Nat))
    {p : Int} {ss : List Site} (h : Sites mem cse e p ss)
    (hc : ∀ s ∈ ss, s.action ≠ 0 → Chain mem tt cls (e - 1 + s.action) (clauses s) ∧ (clauses s).length ≤ fuel) :
    ∀ f, ss.length < f → scanSites ⟨mem, obj, own, search, funcStart, off, tt, cls, cse, e, fuel⟩ f p =
      some (expected own search funcStart (fun s => firstClause id bases (clauses s)) (covering ss off.toNat)) := by
  induction h with
  | nil =>
    intro f hf
    obtain ⟨f, rfl⟩ : ∃ g, f = g + 1 := ⟨f - 1, by omega⟩
    unfold scanSites
    rw [if_neg (by simp)]
    rfl
  | @cons p q1 q2 q3 q4 s ss h1 h2 h3 h4 h5 ih =>
    intro f hf
    obtain ⟨f, rfl⟩ : ∃ g, f = g + 1 := ⟨f - 1, by omega⟩
    have hlt := (Sites.cons h1 h2 h3 h4 h5).lt
    have ih := ih (fun s' hs' => hc s' (by simp [hs'])) f (by simpa using hf)
    obtain ⟨e1, _, b1⟩ := h1.read
    obtain ⟨e2, _, b2⟩ := h2.read
    obtain ⟨e3, _, b3⟩ := h3.read
    have b4 := h4.lt.2
    unfold scanSites
    rw [if_pos hlt]
    simp only [e1, e2, e3, h4.read, Option.bind_eq_bind, Option.bind_some]
    have hlp : (BitVec.ofNat 64 s.landingPad = 0) ↔ s.landingPad = 0 := by
      rw [← BitVec.toNat_inj]
      simp
      omega
    by_cases h0 : s.landingPad = 0
    · rw [if_pos (hlp.mpr h0), ih]
      unfold covering
      rw [List.find?_cons_of_neg (by simp [h0])]
    · rw [if_neg (fun hx => h0 (hlp.mp hx))]
      have hrange : (BitVec.ofNat 64 s.start ≤ off ∧ off < BitVec.ofNat 64 s.start + BitVec.ofNat 64 s.length) ↔
          (s.start ≤ off.toNat ∧ off.toNat < s.start + s.length) := by
        rw [BitVec.le_def, BitVec.lt_def, BitVec.toNat_add, BitVec.toNat_ofNat, BitVec.toNat_ofNat]
        omega
      by_cases hr : s.start ≤ off.toNat ∧ off.toNat < s.start + s.length
      · rw [if_pos (hrange.mpr hr)]
        have hcov : covering (s :: ss) off.toNat = some s := by
          unfold covering
          rw [List.find?_cons_of_pos (by simp [h0, hr])]
        rw [hcov]
        have hne : (BitVec.ofNat 64 s.action ≠ 0) ↔ s.action ≠ 0 := by
          rw [Ne, ← BitVec.toNat_inj]
          simp
          omega
        have hhit : siteHit ⟨mem, obj, own, search, funcStart, off, tt, cls, cse, e, fuel⟩ (if own = true then BitVec.ofNat 64 s.action else 0) =
            some ((if own ∧ s.action ≠ 0 then firstClause id bases (clauses s) else none).map fun n : Nat => (n : Int)) := by
          unfold siteHit
          dsimp only
          cases own with
          | false => simp
          | true =>
            simp only [if_true, true_and]
            by_cases ha : s.action ≠ 0
            · rw [if_pos (hne.mpr ha), if_pos ha, BitVec.toNat_ofNat, Nat.mod_eq_of_lt (by omega)]
              obtain ⟨c1, c2⟩ := hc s (by simp) ha
              exact handleActionValue_spec ho c1 fuel c2
            · rw [if_neg (fun hx => ha (hne.mp hx)), if_neg ha]
              rfl
        rw [hhit]
        simp only [Option.bind_some]
        unfold expected
        dsimp only
        generalize (if own = true ∧ s.action ≠ 0 then firstClause id bases (clauses s) else none) = hit
        cases search <;> cases hit <;> rfl
      · rw [if_neg (fun hx => hr (hrange.mp hx)), ih]
        unfold covering
        rw [List.find?_cons_of_neg (by simp only [Bool.and_eq_true, decide_eq_true_eq]; tauto)]

/-- **C18.** For every well-formed exception table, `handleLsda` finds the call site of the program counter and answers: in
the search phase, "handler found" exactly if some clause of it handles the exception; in the cleanup phase it enters the
landing pad with the type of the first such clause as selector (0 if there is none: only cleanups run). -/
theorem c18_personality (mem : Mem) (obj : Rtti) (id : Nat) (bases : List Nat) (ho : IsObject obj id bases) (own search : Bool)
    (funcStart pc : BitVec 64) (p : Int) (tt : UInt8) (cls : Int) (cse : UInt8) (a e : Int) (ss : List Site)
    (clauses : Site → List (Option Nat)) (fuel : Nat) (hl : LsdaAt mem p tt cls cse a e) (hs : Sites mem cse.toNat e a ss)
    (hc : ∀ s ∈ ss, s.action ≠ 0 → tt ≠ 0xff ∧ Chain mem tt.toNat cls (e - 1 + s.action) (clauses s) ∧ (clauses s).length ≤ fuel)
    (hf : ss.length < fuel) :
    handleLsda mem obj own search funcStart pc fuel (some p) =
      some (expected own search funcStart (fun s => firstClause id bases (clauses s)) (covering ss (pc - funcStart).toNat)) := by
  obtain ⟨h1, q, h2, h3, len, h4, rfl⟩ := hl
  have hlen := h4.lt.2
  have hmod : (a + (((BitVec.ofNat 64 len).toNat % 2 ^ 32 : Nat) : Int)) = a + len := by
    rw [BitVec.toNat_ofNat]; omega
  have m2 := h1.tail.head
  unfold handleLsda
  dsimp only
  rw [h1.head]
  simp only [Option.bind_eq_bind, Option.bind_some]
  have e1 : skipLpStart mem (p + 1) 0xff = some (p + 1) := rfl
  rw [e1]
  simp only [Option.bind_some]
  rw [m2]
  simp only [Option.bind_some]
  unfold readClassInfo
  rw [show p + 1 + 1 = p + 2 by omega]
  by_cases htt : tt = 0xff
  · rw [if_pos htt] at h2
    subst h2
    rw [if_neg (by simp [htt])]
    simp only [Option.bind_some]
    rw [h3.head]
    simp only [Option.bind_some]
    rw [h4.read]
    simp only [Option.bind_some]
    rw [hmod]
    exact scanSites_spec ho own search funcStart (pc - funcStart) tt.toNat 0 cse.toNat (a + len) fuel clauses hs
      (fun s hs' ha => absurd htt (hc s hs' ha).1) fuel hf
  · rw [if_neg htt] at h2
    obtain ⟨off, h2, rfl⟩ := h2
    have hoff := h2.lt.2
    rw [if_pos htt, h2.read]
    simp only [Option.bind_eq_bind, Option.bind_some, Option.pure_def]
    rw [h3.head]
    simp only [Option.bind_some]
    rw [h4.read]
    simp only [Option.bind_some]
    rw [hmod]
    have hcls : (q + ((BitVec.ofNat 64 off).toNat : Int)) = q + off := by
      rw [BitVec.toNat_ofNat]; omega
    rw [hcls]
    exact scanSites_spec ho own search funcStart (pc - funcStart) tt.toNat (q + off) cse.toNat (a + len) fuel clauses hs
      (fun s hs' ha => (hc s hs' ha).2) fuel hf

/-- Without an exception table the exception propagates. -/
theorem c18_no_table (mem : Mem) (obj : Rtti) (own search : Bool) (funcStart pc : BitVec 64) (fuel : Nat) :
    handleLsda mem obj own search funcStart pc fuel none = some .continueUnwind := rfl

/-! A concrete table: one call site with the clauses for types 5 and 7, and an exception of class 12 derived from 7. -/

theorem memOf_at {M bs : List UInt8} {k : Nat} (h : (M.drop k).take bs.length = bs) : At (memOf M) k bs := by
  intro i b hb
  have hi := (List.getElem?_eq_some_iff.mp hb).1
  rw [← h, List.getElem?_take_of_lt (by omega), List.getElem?_drop] at hb
  unfold memOf
  rw [if_pos (by omega), show ((k : Int) + i).toNat = k + i by omega]
  exact hb

/-- The bytes of the example. -/
def sampleBytes : List UInt8 :=
  [0xff, 0, 26, 1, 4, 0, 10, 5, 1, 1, 1, 2, 0, 29, 0, 0, 0, 0, 0, 0, 0, 33, 0, 0, 0, 0, 0, 0, 0, 7, 0, 0, 0, 5, 0, 0, 0]

theorem sample_uleb (k : Nat) (b : UInt8) (hb : b.toNat < 128) (h : (sampleBytes.drop k).take 1 = [b]) :
    UlebAt (memOf sampleBytes) k b.toNat (k + 1) :=
  ⟨[b], memOf_at h, .last hb, by simp, by omega, by simp⟩

theorem sample_sleb (k : Nat) (b : UInt8) (hb : b.toNat < 64) (h : (sampleBytes.drop k).take 1 = [b]) :
    SlebAt (memOf sampleBytes) k b.toNat (k + 1) :=
  ⟨[b], memOf_at h, .pos hb, by simp, by omega, by omega, by simp, by simp⟩

example : IsObject ⟨12, some [7, 0]⟩ 12 [7] ∧ LsdaAt (memOf sampleBytes) 0 0 29 1 5 9 ∧
    Sites (memOf sampleBytes) 1 9 5 [⟨0, 10, 5, 1⟩] ∧ Chain (memOf sampleBytes) 0 29 9 [some 5, some 7] ∧
    handleLsda (memOf sampleBytes) ⟨12, some [7, 0]⟩ true false 1000 1004 5 (some 0) = some (.install 1005 7) := by
  refine ⟨⟨rfl, by simp, Or.inr ⟨[], rfl⟩⟩, ⟨memOf_at (k := 0) (by decide), 3, ?_, memOf_at (k := 3) (by decide), 4, ?_, rfl⟩, ?_, ?_,
    by decide +kernel⟩
  · rw [if_neg (by decide)]
    exact ⟨26, sample_uleb 2 26 (by decide) (by decide), rfl⟩
  · exact sample_uleb 4 4 (by decide) (by decide)
  · exact .cons (.uleb (sample_uleb 5 0 (by decide) (by decide))) (.uleb (sample_uleb 6 10 (by decide) (by decide)))
      (.uleb (sample_uleb 7 5 (by decide) (by decide))) (sample_uleb 8 1 (by decide) (by decide)) .nil
  · have t1 : TypeAt (memOf sampleBytes) 0 29 1 5 := ⟨by decide, 33, .abs (by decide) (memOf_at (k := 21) (by decide)), memOf_at (k := 33) (by decide)⟩
    have t2 : TypeAt (memOf sampleBytes) 0 29 2 7 := ⟨by decide, 29, .abs (by decide) (memOf_at (k := 13) (by decide)), memOf_at (k := 29) (by decide)⟩
    exact .next (sample_sleb 9 1 (by decide) (by decide)) (sample_sleb 10 1 (by decide) (by decide)) (by decide)
      ⟨1, by decide, rfl, t1⟩
      (.last (sample_sleb 11 2 (by decide) (by decide)) (sample_sleb 12 0 (by decide) (by decide)) ⟨2, by decide, rfl, t2⟩)

end Codon.Exc
