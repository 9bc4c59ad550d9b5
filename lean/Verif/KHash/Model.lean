/-!
# Model of the hash table behind `dict` and `set`

Transcribed from `stdlib/internal/khash.codon`, `stdlib/internal/types/collections/dict.codon` and
`stdlib/internal/types/collections/set.codon`.

Conventions
* Everything runs in `Option`; `none` is undefined behaviour (access outside an allocated block,
  use of an uninitialised cell) or a loop that has not finished within its fuel.
* An allocated block is a list of cells; an uninitialised cell is `none`.  A null pointer is `[]`.
* `set.codon` has the same `_kh_*` functions with the `_vals` lines removed; sets are modelled as
  tables whose value cells are never looked at.
* Allocation never fails.  Sizes are naturals; the theorems bound the number of buckets, so no
  64-bit operation on them overflows.
-/

namespace Codon.KHash

/-- `khash.codon:24-25` `__ac_fsize`: number of 32-bit flag words. -/
def fsize (m : Nat) : Nat := if m < 16 then 1 else m >>> 4

abbrev Flags := List (BitVec 32)

/-- `(flag[i >> 4] >> ((i & 0xF) << 1)) & msk`, as used by `khash.codon:3-10`. -/
def fbits (fl : Flags) (i : Nat) (msk : BitVec 32) : Option Bool := do
  let w ← fl[i >>> 4]?
  return ((w >>> ((i &&& 15) <<< 1)) &&& msk) != 0

/-- `khash.codon:3-4` `__ac_isempty`. -/
def isempty (fl : Flags) (i : Nat) : Option Bool := fbits fl i 2
/-- `khash.codon:6-7` `__ac_isdel`. -/
def isdel (fl : Flags) (i : Nat) : Option Bool := fbits fl i 1
/-- `khash.codon:9-10` `__ac_iseither`. -/
def iseither (fl : Flags) (i : Nat) : Option Bool := fbits fl i 3

/-- `flag[i >> 4] &= u32(~(msk << ((i & 0xF) << 1)))`, `khash.codon:12-19`. -/
def fclear (fl : Flags) (i : Nat) (msk : BitVec 32) : Option Flags := do
  let w ← fl[i >>> 4]?
  return fl.set (i >>> 4) (w &&& ~~~(msk <<< ((i &&& 15) <<< 1)))

/-- `khash.codon:15-16` `__ac_set_isempty_false`. -/
def setEmptyFalse (fl : Flags) (i : Nat) : Option Flags := fclear fl i 2
/-- `khash.codon:18-19` `__ac_set_isboth_false`. -/
def setBothFalse (fl : Flags) (i : Nat) : Option Flags := fclear fl i 3

/-- `khash.codon:21-22` `__ac_set_isdel_true`. -/
def setDelTrue (fl : Flags) (i : Nat) : Option Flags := do
  let w ← fl[i >>> 4]?
  return fl.set (i >>> 4) (w ||| (1#32 <<< ((i &&& 15) <<< 1)))

/-- A freshly initialised flag array: `new_flags[i] = u32(0xAAAAAAAA)` for all words
(`dict.codon:300-305`, `251-257`). -/
def freshFlags (n : Nat) : Flags := List.replicate (fsize n) 0xAAAAAAAA#32

abbrev Mem (α : Type) := List (Option α)

/-- Read an initialised cell. -/
def rd {α : Type} (m : Mem α) (i : Nat) : Option α := (m[i]?).join

/-- Write a cell (possibly with raw, uninitialised contents). -/
def wr {α : Type} (m : Mem α) (i : Nat) (a : Option α) : Option (Mem α) :=
  if i < m.length then some (m.set i a) else none

/-- `gc.realloc`: keep the old contents up to the new size, new cells are uninitialised. -/
def realloc {α : Type} (m : Mem α) (n : Nat) : Mem α :=
  m.take n ++ List.replicate (n - m.length) none

/-- `dict.codon:11-19` (fields of `Dict`) and `set.codon:12-19`. -/
structure Tbl (K V : Type) where
  nb : Nat
  size : Nat
  nocc : Nat
  ub : Nat
  flags : Flags
  keys : Mem K
  vals : Mem V
deriving DecidableEq

/-- `dict.codon:26-33` `_init`. -/
def Tbl.empty {K V : Type} : Tbl K V := ⟨0, 0, 0, 0, [], [], []⟩

/-- `dict.codon:7-9` `_dict_hash` / `set.codon:8-10` `_set_hash` applied to `key.__hash__()`. -/
def mix (k : BitVec 64) : BitVec 64 := (k.sshiftRight 33) ^^^ k ^^^ (k <<< 11)

section
variable {K V : Type} [DecidableEq K] (h : K → BitVec 64)

/-- `i = k & mask` with `k = _dict_hash(key)` (`dict.codon:265-266`). -/
def bucket (key : K) (mask : Nat) : Nat := (mix (h key)).toNat &&& mask

/-- The loop condition shared by `_kh_get` and `_kh_put` (`dict.codon:268-270`, `385-387`):
not empty, and deleted or holding another key. -/
def goOn (t : Tbl K V) (key : K) (i : Nat) : Option Bool := do
  if ← isempty t.flags i then return false
  else if ← isdel t.flags i then return true
  else
    let k ← rd t.keys i
    return decide (k ≠ key)

/-- The loop of `_kh_get`, `dict.codon:268-275`. -/
def getLoop (t : Tbl K V) (key : K) (mask last : Nat) : Nat → Nat → Nat → Option Nat
  | 0, _, _ => none
  | fuel + 1, step, i => do
    if ← goOn t key i then
      let step := step + 1
      let i := (i + step) &&& mask
      if i = last then return t.nb
      getLoop t key mask last fuel step i
    else
      return if ← iseither t.flags i then t.nb else i

/-- `dict.codon:261-277` / `set.codon:269-285` `_kh_get`. -/
def kget (t : Tbl K V) (key : K) : Option Nat :=
  if t.nb ≠ 0 then
    let mask := t.nb - 1
    let i := bucket h key mask
    getLoop t key mask i (2 * t.nb) 0 i
  else some 0

/-- `dict.codon:285-295`: round the requested number of buckets up to a power of two, at least 4.
64-bit wrapping arithmetic. -/
def roundUp (m : BitVec 64) : Nat :=
  let n := m - 1
  let n := n ||| n.sshiftRight 1
  let n := n ||| n.sshiftRight 2
  let n := n ||| n.sshiftRight 4
  let n := n ||| n.sshiftRight 8
  let n := n ||| n.sshiftRight 16
  let n := n ||| n.sshiftRight 32
  let n := n + 1
  if n.toInt < 4 then 4 else n.toNat

/-- `int(n * HASH_UPPER + 0.5)` with `HASH_UPPER = 0.77` (`dict.codon:297, 366`).  The code computes
this in double precision; for powers of two up to 2^45 the result is this integer, because
`77 * n + 50` is never within rounding distance of a multiple of 100. -/
def upper (n : Nat) : Nat := (77 * n + 50) / 100

/-- `dict.codon:333-335`: probe for an empty slot of the new flags. -/
def findEmpty (g : Flags) (mask : Nat) : Nat → Nat → Nat → Option Nat
  | 0, _, _ => none
  | fuel + 1, step, i => do
    if ← isempty g i then return i
    findEmpty g mask fuel (step + 1) ((i + (step + 1)) &&& mask)

/-- The part of the table that `_kh_resize` works on: old flags, cells, new flags. -/
structure RS (K V : Type) where
  f : Flags
  keys : Mem K
  vals : Mem V
  g : Flags

/-- `i < self._n_buckets and khash.__ac_iseither(self._flags, i) == 0`, `dict.codon:338-341`. -/
def pendingAt (f : Flags) (nb i : Nat) : Option Bool :=
  if i < nb then (iseither f i).map (!·) else some false

/-- `dict.codon:328-348`: the kick-out loop for the element in hand. -/
def kick (nb nb' : Nat) : Nat → RS K V → K → Option V → Option (RS K V)
  | 0, _, _, _ => none
  | fuel + 1, s, key, val => do
    let i ← findEmpty s.g (nb' - 1) (2 * nb') 0 (bucket h key (nb' - 1))
    let g ← setEmptyFalse s.g i
    if ← pendingAt s.f nb i then
      let key' ← rd s.keys i
      let val' ← s.vals[i]?
      let keys ← wr s.keys i (some key)
      let vals ← wr s.vals i val
      let f ← setDelTrue s.f i
      kick nb nb' fuel ⟨f, keys, vals, g⟩ key' val'
    else
      let keys ← wr s.keys i (some key)
      let vals ← wr s.vals i val
      return ⟨s.f, keys, vals, g⟩

/-- `dict.codon:320-349`: the loop over the old buckets, with `n` buckets left, at bucket `j`. -/
def rehash (nb nb' : Nat) : Nat → Nat → RS K V → Option (RS K V)
  | 0, _, s => some s
  | n + 1, j, s => do
    if ← iseither s.f j then rehash nb nb' n (j + 1) s
    else
      let key ← rd s.keys j
      let val ← s.vals[j]?
      let f ← setDelTrue s.f j
      let s ← kick h nb nb' (nb + 1) { s with f := f } key val
      rehash nb nb' n (j + 1) s

/-- `dict.codon:279-366` / `set.codon:287-361` `_kh_resize`. -/
def kresize (t : Tbl K V) (m : BitVec 64) : Option (Tbl K V) := do
  let nb' := roundUp m
  if t.size ≥ upper nb' then return t
  let keys := if t.nb < nb' then realloc t.keys nb' else t.keys
  let vals := if t.nb < nb' then realloc t.vals nb' else t.vals
  let s ← rehash h t.nb nb' t.nb 0 ⟨t.flags, keys, vals, freshFlags nb'⟩
  let keys := if t.nb > nb' then realloc s.keys nb' else s.keys
  let vals := if t.nb > nb' then realloc s.vals nb' else s.vals
  return { nb := nb', size := t.size, nocc := t.size, ub := upper nb', flags := s.g,
           keys := keys, vals := vals }

/-- The probe loop of `_kh_put`, `dict.codon:384-394`; returns `(x, i, site)`. -/
def putLoop (t : Tbl K V) (key : K) (mask last : Nat) :
    Nat → Nat → Nat → Nat → Option (Nat × Nat × Nat)
  | 0, _, _, _ => none
  | fuel + 1, step, i, site => do
    if ← goOn t key i then
      let site := if ← isdel t.flags i then i else site
      let step := step + 1
      let i := (i + step) &&& mask
      if i = last then return (site, i, site)
      putLoop t key mask last fuel step i site
    else
      return (t.nb, i, site)

/-- `dict.codon:375-400`: the bucket `x` chosen by `_kh_put`. -/
def putFind (t : Tbl K V) (key : K) : Option Nat := do
  let mask := t.nb - 1
  let i := bucket h key mask
  if ← isempty t.flags i then return i
  else
    let (x, i, site) ← putLoop t key mask i (2 * t.nb) 0 i t.nb
    if x = t.nb then
      if (← isempty t.flags i) && decide (site ≠ t.nb) then return site else return i
    else return x

/-- `dict.codon:402-415`: occupy bucket `x`. -/
def putAt (t : Tbl K V) (key : K) (x : Nat) : Option (Tbl K V × Nat × Nat) := do
  if ← isempty t.flags x then
    let keys ← wr t.keys x (some key)
    let flags ← setBothFalse t.flags x
    return ({ t with keys := keys, flags := flags, size := t.size + 1, nocc := t.nocc + 1 }, 1, x)
  else if ← isdel t.flags x then
    let keys ← wr t.keys x (some key)
    let flags ← setBothFalse t.flags x
    return ({ t with keys := keys, flags := flags, size := t.size + 1 }, 2, x)
  else return (t, 0, x)

/-- `dict.codon:369-373`: grow or rehash before inserting. -/
def putGrow (t : Tbl K V) : Option (Tbl K V) :=
  if t.nocc ≥ t.ub then
    if t.nb > t.size <<< 1 then kresize h t (BitVec.ofNat 64 t.nb - 1)
    else kresize h t (BitVec.ofNat 64 t.nb + 1)
  else some t

/-- `dict.codon:368-415` / `set.codon:363-410` `_kh_put`: returns the table, `ret` and `x`. -/
def kput (t : Tbl K V) (key : K) : Option (Tbl K V × Nat × Nat) := do
  let t ← putGrow h t
  let x ← putFind h t key
  putAt t key x

/-- `dict.codon:417-420` `_kh_del`. -/
def kdel (t : Tbl K V) (x : Nat) : Option (Tbl K V) := do
  if x ≠ t.nb then
    if ← iseither t.flags x then return t
    else
      let flags ← setDelTrue t.flags x
      return { t with flags := flags, size := t.size - 1 }
  else return t

/-- `dict.codon:251-259` `_kh_clear` (the flag loop writes every word). -/
def kclear (t : Tbl K V) : Tbl K V :=
  if t.flags ≠ [] then
    { t with flags := freshFlags t.nb, size := 0, nocc := 0 }
  else t

/-! ### `Dict` methods -/

/-- `dict.codon:70-74` `__getitem__`: `some none` is `KeyError`. -/
def getitem (t : Tbl K V) (key : K) : Option (Option V) := do
  let x ← kget h t key
  if x ≠ t.nb then return some (← rd t.vals x) else return none

/-- `dict.codon:76-78` `__setitem__`. -/
def setitem (t : Tbl K V) (key : K) (val : V) : Option (Tbl K V) := do
  let (t, _, x) ← kput h t key
  let vals ← wr t.vals x (some val)
  return { t with vals := vals }

/-- `dict.codon:80-85` `__delitem__`: the flag is `true` when `KeyError` is raised. -/
def delitem (t : Tbl K V) (key : K) : Option (Tbl K V × Bool) := do
  let x ← kget h t key
  if x ≠ t.nb then return (← kdel t x, false) else return (t, true)

/-- `dict.codon:87-88` `__contains__` / `set.codon:75-76`. -/
def contains (t : Tbl K V) (key : K) : Option Bool := do
  return decide ((← kget h t key) ≠ t.nb)

/-- `dict.codon:104-105` `__len__` / `set.codon:108-109`. -/
def len (t : Tbl K V) : Nat := t.size

/-- `dict.codon:167-169` `get(key, default)`. -/
def getD (t : Tbl K V) (key : K) (s : V) : Option V := do
  let x ← kget h t key
  if x ≠ t.nb then rd t.vals x else return s

/-- `dict.codon:175-180` `setdefault`. -/
def setdefault (t : Tbl K V) (key : K) (val : V) : Option (Tbl K V × V) := do
  let (t, ret, x) ← kput h t key
  if ret ≠ 0 then
    let vals ← wr t.vals x (some val)
    return ({ t with vals := vals }, val)
  else return (t, ← rd t.vals x)

/-- `dict.codon:189-194` `__dict_do_op_throws__`; the flag is `true` when `KeyError` is raised. -/
def doOpThrows {Z : Type} (t : Tbl K V) (key : K) (other : Z) (op : V → Z → V) :
    Option (Tbl K V × Bool) := do
  let x ← kget h t key
  if x = t.nb then return (t, true)
  else
    let v ← rd t.vals x
    let vals ← wr t.vals x (some (op v other))
    return ({ t with vals := vals }, false)

/-- `dict.codon:196-198` `__dict_do_op__`. -/
def doOp {Z : Type} (t : Tbl K V) (key : K) (other : Z) (dflt : V) (op : V → Z → V) :
    Option (Tbl K V) := do
  let (t, ret, x) ← kput h t key
  let v ← if ret ≠ 0 then some dflt else rd t.vals x
  let vals ← wr t.vals x (some (op v other))
  return { t with vals := vals }

/-- `dict.codon:182-187` `increment`, with `+` an arbitrary operation and `by` of the value type. -/
def increment (t : Tbl K V) (key : K) (plus : V → V → V) (by_ : V) : Option (Tbl K V) := do
  let (t, ret, x) ← kput h t key
  let v ← if ret ≠ 0 then some by_ else (rd t.vals x).map (plus · by_)
  let vals ← wr t.vals x (some v)
  return { t with vals := vals }

/-- `dict.codon:212-218` `pop`; `none` in the result is `KeyError`. -/
def pop (t : Tbl K V) (key : K) : Option (Tbl K V × Option V) := do
  let x ← kget h t key
  if x ≠ t.nb then
    let v ← rd t.vals x
    return (← kdel t x, some v)
  else return (t, none)

/-- `dict.codon:228-233` `items()` read to the end without touching the table, from bucket `i`
with `n` buckets left.  Yields the key and the raw value cell. -/
def itemsFrom (t : Tbl K V) : Nat → Nat → Option (List (K × Option V))
  | 0, _ => some []
  | n + 1, i => do
    if ← iseither t.flags i then itemsFrom t n (i + 1)
    else
      let k ← rd t.keys i
      let v ← t.vals[i]?
      return (k, v) :: (← itemsFrom t n (i + 1))

/-- All items, keys with raw value cells (`dict.codon:228-233`; `set.codon:101-106` yields the
keys). -/
def rawItems (t : Tbl K V) : Option (List (K × Option V)) := itemsFrom t t.nb 0

/-- `dict.codon:228-233` `items()`: reading an uninitialised value is undefined. -/
def items (t : Tbl K V) : Option (List (K × V)) := do
  (← rawItems t).mapM fun p => p.2.map fun v => (p.1, v)

/-- `set.codon:101-106` `__iter__` / `dict.codon:235-237` `keys()`. -/
def keysList (t : Tbl K V) : Option (List K) := do
  return (← rawItems t).map Prod.fst

/-- `dict.codon:116-135` `__copy__`: a fresh table when empty, otherwise a copy of all blocks. -/
def copy (t : Tbl K V) : Tbl K V := if t.size = 0 then Tbl.empty else t

/-- `dict.codon:35-57` `_init_from`. -/
def initFrom (t : Tbl K V) : Tbl K V := if t.nb = 0 then Tbl.empty else t

/-- `dict.codon:220-223` `popitem`: first bucket in use, from bucket `i` with `n` left. -/
def popitemFrom (t : Tbl K V) : Nat → Nat → Option (Tbl K V × Option (K × V))
  | 0, _ => some (t, none)
  | n + 1, i => do
    if ← iseither t.flags i then popitemFrom t n (i + 1)
    else
      let k ← rd t.keys i
      let (t, v) ← pop h t k
      match v with
      | some v => return (t, some (k, v))
      | none => return (t, none)

/-- `dict.codon:220-223` `popitem`. -/
def popitem (t : Tbl K V) : Option (Tbl K V × Option (K × V)) := popitemFrom h t t.nb 0

/-- `dict.codon:208-210` `update` from the items of another dict (or any sequence of pairs). -/
def update (t : Tbl K V) : List (K × V) → Option (Tbl K V)
  | [] => some t
  | (k, v) :: ps => do update (← setitem h t k v) ps

/-- `dict.codon:90-96` `__eq__`, with `veq` the equality of values. -/
def dictEqLoop [DecidableEq V] (b : Tbl K V) : List (K × V) → Option Bool
  | [] => some true
  | (k, v) :: ps => do
    match ← getitem h b k with
    | none => return false
    | some w => if w = v then dictEqLoop b ps else return false

/-- `dict.codon:90-96` `__eq__`. -/
def dictEq [DecidableEq V] (a b : Tbl K V) : Option Bool := do
  if a.size ≠ b.size then return false
  dictEqLoop h b (← items a)

end

end Codon.KHash
