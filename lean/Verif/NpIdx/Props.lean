import Verif.NpIdx.Put
/-!
# C79: assigning to parts of arrays, masks, and arrays of integers as indices

`a[i, 1:, None, ...] = v` stores the elements of `v`, stretched to the shape of the part, at exactly the selected elements; `a[mask]` and `a[[2, 0], :]` give new arrays with the selected
elements; `a[mask] = v` and `a[[2, 0], :] = v` store at the selected elements.

What is missing for the full claim: the right side must not share memory with the part of the array in another place (NumPy makes a copy first; Codon does not, and smears), the right side of an
assignment through a mask must be contiguous, the integers must not stand apart from the index arrays when these stand together, and an index out of range leaves the earlier elements stored.
-/
namespace Codon.NpIdx
open Codon.Numpy Codon.NpLine Codon.SliceSpec
variable {U V : Type}

theorem assign_view (w : Int) (a : Arr) (idx : List Idx) (it : Item U V) (h : Heap V) (ha : a.WF h) (h1 : Idx.num .ellipsis idx ≤ 1) (h2 : used idx ≤ a.shape.length) (hp : Proper idx a.shape)
    (hit : ∀ s, it = .arr s → s.WF h ∧ Stretches s.arr.shape (resShape idx a.shape) ∧ a.NoRepeat ∧ s.Apart a idx ∧ ∀ b e k, .slice b e k ∈ idx → k ≠ some 0) :
    ∃ h', setBasic w a idx it h = some (h', none) ∧ Assigned h a idx (it.elem h) h' := by
  obtain ⟨sub, e1, e2, e3, e4, e5⟩ := c63_index h a ha idx h1 h2 hp
  obtain ⟨h', s1, s2, s3, s4⟩ := setBasic_sub w a sub idx it h e1 e2 fun s hs => by
    obtain ⟨g1, g2, g3, g4, g5⟩ := hit s hs
    refine ⟨g1, by rw [e3]; exact (stretches_iff _ _).mp g2, fun c c' hc hc' he => ?_, fun b hb c c' hc hc' he => ?_⟩
    · obtain ⟨i, hi⟩ := e5 c hc
      obtain ⟨i', hi'⟩ := e5 c' hc'
      obtain ⟨_, q1, q2⟩ := e4 c i hi
      obtain ⟨_, q3, q4⟩ := e4 c' i' hi'
      rw [q2, q4] at he
      have := g3 i i' q1 q3 he
      subst this
      exact c63_index_injective idx a.shape c c' i g5 ha.nonneg hi hi'
    · obtain ⟨i, hi⟩ := e5 c hc
      obtain ⟨i', hi'⟩ := e5 c' hc'
      rw [(e4 c i hi).2.2] at he
      exact g4 b hb c i c' i' hi hi' he
  refine ⟨h', s1, s2, fun c i hi => ?_, fun p hp => s4 p fun c hc => ?_⟩
  · obtain ⟨q1, q2, q3⟩ := e4 c i hi
    rw [← s3 c q1]
    have r1 : sub.read h' c = h'.get (sub.addr c).1 (sub.addr c).2 := rfl
    have r2 : a.read h' i = h'.get (a.addr i).1 (a.addr i).2 := rfl
    rw [r1, r2, q3]
  · obtain ⟨i, hi⟩ := e5 c hc
    rw [(e4 c i hi).2.2]
    exact hp c i hi

/-- **C79**, a number: `a[idx] = v` stores `v` at the selected elements and nowhere else. -/
theorem c79_assign_number (w : Int) (a : Arr) (idx : List Idx) (v : V) (h : Heap V) (ha : a.WF h) (h1 : Idx.num .ellipsis idx ≤ 1) (h2 : used idx ≤ a.shape.length) (hp : Proper idx a.shape) :
    ∃ h', setBasic (U := U) w a idx (.num v) h = some (h', none) ∧ Assigned h a idx (fun _ => some v) h' :=
  assign_view w a idx (.num v) h ha h1 h2 hp (by simp)

/-- **C79**, an array: `a[idx] = b` stores the elements of `b`, stretched to the shape of the selection and converted, at the selected elements and nowhere else, if `b` does not lie in the selected
part of `a` in another place. -/
theorem c79_assign_partial (w : Int) (a : Arr) (idx : List Idx) (s : Src U V) (h : Heap V) (ha : a.WF h) (hrep : a.NoRepeat) (h1 : Idx.num .ellipsis idx ≤ 1) (h2 : used idx ≤ a.shape.length)
    (hp : Proper idx a.shape) (hk : ∀ b e k, .slice b e k ∈ idx → k ≠ some 0) (hs : s.WF h) (hst : Stretches s.arr.shape (resShape idx a.shape)) (hap : s.Apart a idx) :
    ∃ h', setBasic w a idx (.arr s) h = some (h', none) ∧ Assigned h a idx (fun c => s.elem h (proj s.arr.shape c)) h' :=
  assign_view w a idx (.arr s) h ha h1 h2 hp fun s' hs' => by cases hs'; exact ⟨hs, hst, hrep, hap, hk⟩

/-- **C79**, errors of assignment: if the index is not allowed the exception is that of reading, and a right side that cannot be stretched to the shape of the selection is a `ValueError`; the memory
is as before. -/
theorem c79_assign_errors (w : Int) (a : Arr) (idx : List Idx) (it : Item U V) (h : Heap V) :
    (∀ e, a.view idx = .error e → setBasic w a idx it h = some (h, some e)) ∧
    (∀ s sub, it = .arr s → a.view idx = .ok sub → s.WF h → s.arr.shape ≠ [] → ¬ Stretches s.arr.shape sub.shape → ∃ e, setBasic w a idx it h = some (h, some e) ∧ (e = .value ∨ e = .compile)) := by
  refine ⟨fun e he => by unfold setBasic; rw [he], fun s sub hit hv hs hne hst => ?_⟩
  subst hit
  unfold setBasic
  simp only [hv]
  rw [if_neg hne]
  cases hb : broadcastStrides true s.arr sub.shape with
  | ok st => exact absurd ((stretches_iff _ _).mpr (broadcastStrides_aligned _ _ _ (s.len h hs) hb)) hst
  | error e =>
    refine ⟨e, rfl, ?_⟩
    have sub_err : ∀ (bs as ss : List Int) (e : Err), substrides true bs as ss = .error e → e = .value := by
      intro bs
      induction bs with
      | nil => intro as ss e h; simp [substrides] at h
      | cons b bs ih =>
        intro as ss e h
        cases as with
        | nil => simp [substrides] at h
        | cons a as =>
          cases ss with
          | nil => simp [substrides] at h
          | cons x ss =>
            rw [substrides] at h
            by_cases c1 : a = b
            · rw [if_pos c1] at h
              cases hh : substrides true bs as ss with
              | ok r => rw [hh] at h; cases h
              | error e' => rw [hh] at h; cases h; exact ih as ss e hh
            · rw [if_neg c1] at h
              by_cases c2 : a ≠ 1
              · rw [if_pos ⟨rfl, c2⟩] at h; cases h; rfl
              · rw [if_neg (by simpa using c2)] at h
                cases hh : substrides true bs as ss with
                | ok r => rw [hh] at h; cases h
                | error e' => rw [hh] at h; cases h; exact ih as ss e hh
    unfold broadcastStrides at hb
    split at hb
    · cases hb; simp
    · cases hh : substrides true (sub.shape.drop (sub.shape.length - s.arr.shape.length)) s.arr.shape s.arr.strides with
      | ok r => rw [hh] at hb; cases hb
      | error e' => rw [hh] at hb; cases hb; exact Or.inl (sub_err _ _ _ _ hh)

/-- Memory in which element `o` of block 0 is `o`. -/
def line : Heap Int := ⟨fun _ o => some o, 1⟩

example : ∃ h', setBasic (U := Int) 1 ⟨[3, 4], [4, 1], 0, 0⟩ [.int (-1), .slice none none (some 2)] (.num 70) line = some (h', none) ∧
    Assigned line ⟨[3, 4], [4, 1], 0, 0⟩ [.int (-1), .slice none none (some 2)] (fun _ => some 70) h' :=
  c79_assign_number 1 _ _ 70 line ⟨rfl, by decide, fun _ _ => ⟨_, rfl⟩, by decide⟩ (by decide) (by decide) (by refine ⟨by decide, by decide, trivial⟩)

example : ((setBasic (U := Int) 1 ⟨[3, 4], [4, 1], 0, 0⟩ [.int (-1), .slice none none (some 2)] (.num 70) line).map fun x => (upto 12).map fun o => x.1.get 0 o) =
    some ([0, 1, 2, 3, 4, 5, 6, 7, 70, 9, 70, 11].map some) := by decide +kernel

/-- `a[:, 1] = [20, 30, 40]`, the right side an array of another type in other memory. -/
example : ∃ h', setBasic 1 ⟨[3, 4], [4, 1], 0, 0⟩ [.slice none none none, .int 1] (.arr (.other ⟨fun _ o => some (o * 10 + 20).toNat, 1⟩ 1 (fun n : Nat => (n : Int)) ⟨[3], [1], 0, 0⟩)) line = some (h', none) ∧
    Assigned line ⟨[3, 4], [4, 1], 0, 0⟩ [.slice none none none, .int 1] (fun c => (Src.other ⟨fun _ o => some (o * 10 + 20).toNat, 1⟩ 1 (fun n : Nat => (n : Int)) ⟨[3], [1], 0, 0⟩).elem line (proj [3] c)) h' :=
  c79_assign_partial 1 _ _ _ line ⟨rfl, by decide, fun _ _ => ⟨_, rfl⟩, by decide⟩ (fun c c' hc hc' he => by
      match c, c', hc, hc' with
      | [x, y], [x', y'], hc, hc' =>
        simp only [Valid] at hc hc'
        have := congrArg Prod.snd he
        simp only [Arr.addr, ptrOff] at this
        rw [show x = x' by omega, show y = y' by omega]) (by decide) (by decide) (by refine ⟨by decide, by decide, trivial⟩)
    (by intro b e k hm; simp at hm; rw [hm.2.2]; simp) ⟨rfl, by decide, fun _ _ => ⟨_, rfl⟩, by decide⟩ ((stretches_iff _ _).mpr ⟨by decide, by decide +kernel⟩) (by intro b hb; cases hb)

/-! ### Masks -/

/-- **C79**, reading through a mask: `a[mask]` is a new one-dimensional array with the elements at the places where the mask is true, in row-major order. -/
theorem c79_mask_get (w : Int) (hw : 0 < w) (g : Heap Bool) (a m : Arr) (junk : Int → V) (h : Heap V) (hs : a.shape = m.shape) (ha : a.WF h) (hm : m.WF g) (cs : List (List Int)) (hcs : Chosen g m cs) :
    ∃ h' r, getMask w a g m junk h = some (.ok (h', r)) ∧ NewArray h [(cs.length : Int)] (fun c => cs[(c.headD 0).toNat]?.bind (a.read h)) h' r :=
  maskGet w hw g a m junk h hs ha hm cs hcs

/-- Such a list of places exists for every mask. -/
theorem c79_mask_chosen (g : Heap Bool) (m : Arr) : ∃ cs, Chosen g m cs ∧ ∀ cs', Chosen g m cs' → cs' = cs :=
  ⟨_, chosen_filter g m, fun cs' h => chosen_eq g m cs' h⟩

/-- **C79**, a number through a mask. -/
theorem c79_mask_number (w : Int) (g : Heap Bool) (a m : Arr) (v : V) (h : Heap V) (hs : a.shape = m.shape) (ha : a.WF h) (hm : m.WF g) (hrep : a.NoRepeat) (cs : List (List Int)) (hcs : Chosen g m cs) :
    ∃ h', setMask (U := U) w a g m (.num v) h = some (h', none) ∧ AssignedAt h a cs (fun _ => some v) h' := by
  obtain ⟨h', e1, e2⟩ := maskStore g a m w h hs ha hm hrep (fun _ _ => some v) cs hcs fun j _ => ⟨v, fun _ _ => rfl⟩
  refine ⟨h', ?_, e2⟩
  unfold setMask
  rw [if_neg (by simpa using hs)]
  simp only [Option.bind_eq_bind, Option.bind_some] at e1
  simp only [e1, Option.map_some]

/-- **C79**, an array through a mask: the right side is contiguous, has one element or as many as are selected, and shares no memory with the selected elements. -/
theorem c79_mask_set_partial (w : Int) (g : Heap Bool) (a m : Arr) (s : Src U V) (h : Heap V) (hs : a.shape = m.shape) (ha : a.WF h) (hm : m.WF g) (hrep : a.NoRepeat) (cs : List (List Int))
    (hcs : Chosen g m cs) (n : Int) (hsh : s.arr.shape = [n]) (hn : n = 1 ∨ n = cs.length) (hc : n = 1 ∨ s.arr.strides = [s.size w]) (hsw : s.WF h)
    (hap : ∀ b, s = .same b → ∀ c ∈ cs, ∀ k : Int, 0 ≤ k → k < n → a.addr c ≠ b.addr [k]) :
    ∃ h', setMask w a g m (.arr s) h = some (h', none) ∧ AssignedAt h a cs (fun k => s.elem h [if n = 1 then 0 else (k : Int)]) h' := by
  have hl := s.len h hsw
  have hcnt : count s.arr.shape = n := by rw [hsh]; simp [count]
  have adr : ∀ j : Nat, j < cs.length → (s.arr.blk, s.arr.off + (if n = 1 then 0 else (j : Int)) * s.size w) = s.arr.addr [if n = 1 then 0 else (j : Int)] := fun j hj => by
    by_cases h1 : n = 1
    · rw [if_pos h1]
      simp only [Arr.addr]
      cases hst : s.arr.strides with
      | nil => simp [ptrOff]
      | cons x y => simp [ptrOff]
    · rw [if_neg h1]
      rw [Arr.addr, hc.resolve_left h1]
      simp [ptrOff]
  have val : ∀ j : Nat, j < cs.length → Valid [if n = 1 then 0 else (j : Int)] s.arr.shape := fun j hj => by
    rw [hsh]
    refine ⟨?_, trivial⟩
    by_cases h1 : n = 1
    · rw [if_pos h1]; omega
    · rw [if_neg h1]; have := hn.resolve_left h1; omega
  obtain ⟨h', e1, e2⟩ := maskStore g a m w h hs ha hm hrep (fun k h => s.get h (s.arr.blk, s.arr.off + (if n = 1 then 0 else (k : Int)) * s.size w)) cs hcs fun j hj => by
    obtain ⟨v, hv⟩ := s.elem_some h hsw _ (val j hj)
    refine ⟨v, fun h1 hh => ?_⟩
    rw [adr j hj, ← hv, ← s.get_addr]
    refine s.get_congr h h1 _ fun b hb => hh _ fun i hi c hci => ?_
    have hv2 := val j hj
    rw [hsh] at hv2
    subst hb
    exact hap b rfl c (List.mem_of_getElem? hci) _ hv2.1.1 hv2.1.2
  refine ⟨h', ?_, e2.1, fun k c hk => ?_, e2.2.2⟩
  · unfold setMask
    rw [if_neg (by simpa using hs)]
    dsimp only
    rw [if_neg (by rw [hsh]; simp), if_neg (by rw [hsh]; simp), numTrue_eq g m hm, ← chosen_eq g m cs hcs, hcnt]
    simp only [Option.bind_eq_bind, Option.bind_some]
    rw [if_neg (by omega)]
    simp only [Option.bind_eq_bind] at e1
    rw [e1]
    rfl
  · rw [e2.2.1 k c hk]
    dsimp only
    rw [adr k (List.getElem?_eq_some_iff.mp hk).1, s.get_addr]

/-- **C79**, an array without dimensions through a mask: its element is stored at every selected place. -/
theorem c79_mask_scalar_array (w : Int) (g : Heap Bool) (a m : Arr) (s : Src U V) (h : Heap V) (hs : a.shape = m.shape) (ha : a.WF h) (hm : m.WF g) (hrep : a.NoRepeat) (cs : List (List Int))
    (hcs : Chosen g m cs) (hsh : s.arr.shape = []) (hsw : s.WF h) (hap : ∀ b, s = .same b → ∀ c ∈ cs, a.addr c ≠ b.addr []) :
    ∃ h', setMask w a g m (.arr s) h = some (h', none) ∧ AssignedAt h a cs (fun _ => s.elem h []) h' := by
  have hl := s.len h hsw
  have adr : (s.arr.blk, s.arr.off) = s.arr.addr [] := by
    simp [Arr.addr, ptrOff]
  obtain ⟨v, hv⟩ := s.elem_some h hsw [] (by rw [hsh]; trivial)
  obtain ⟨h', e1, e2⟩ := maskStore g a m w h hs ha hm hrep (fun _ h => s.get h (s.arr.blk, s.arr.off)) cs hcs fun j hj => by
    refine ⟨v, fun h1 hh => ?_⟩
    rw [adr, ← hv, ← s.get_addr]
    refine s.get_congr h h1 _ fun b hb => hh _ fun i hi c hci => ?_
    subst hb
    exact hap b rfl c (List.mem_of_getElem? hci)
  refine ⟨h', ?_, e2.1, fun k c hk => ?_, e2.2.2⟩
  · unfold setMask
    rw [if_neg (by simpa using hs)]
    dsimp only
    rw [if_neg (by rw [hsh]; simp), if_pos (by rw [hsh]; rfl)]
    simp only [Option.bind_eq_bind] at e1 ⊢
    rw [e1]
    rfl
  · rw [e2.2.1 k c hk]
    dsimp only
    rw [adr, s.get_addr]

/-- **C79**, errors of masks: a mask of another shape is an `IndexError`, a right side with neither one element nor as many as are selected a `ValueError`; the memory is as before. -/
theorem c79_mask_errors (w : Int) (g : Heap Bool) (a m : Arr) (it : Item U V) (junk : Int → V) (h : Heap V) :
    (a.shape ≠ m.shape → getMask w a g m junk h = some (.error .index) ∧ setMask w a g m it h = some (h, some .index)) ∧
    (∀ s n cs, a.shape = m.shape → m.WF g → Chosen g m cs → it = .arr s → s.arr.shape = [n] → n ≠ 1 → n ≠ cs.length → setMask w a g m it h = some (h, some .value)) := by
  refine ⟨fun hne => ⟨by unfold getMask; rw [if_pos hne], by unfold setMask; rw [if_pos hne]⟩, fun s n cs hs hm hcs hit hsh h1 h2 => ?_⟩
  subst hit
  have hcnt : count s.arr.shape = n := by rw [hsh]; simp [count]
  unfold setMask
  rw [if_neg (by simpa using hs)]
  dsimp only
  rw [if_neg (by rw [hsh]; simp), if_neg (by rw [hsh]; simp), numTrue_eq g m hm, ← chosen_eq g m cs hcs, hcnt]
  simp only [Option.bind_eq_bind, Option.bind_some]
  rw [if_pos ⟨h1, h2⟩]
  rfl

/-- The mask `[[True, False, True], [False, True, False]]`. -/
def evens : Heap Bool := ⟨fun _ o => some (o % 2 == 0), 1⟩

example : Chosen evens ⟨[2, 3], [3, 1], 0, 0⟩ [[0, 0], [0, 2], [1, 1]] := by
  have := chosen_filter evens ⟨[2, 3], [3, 1], 0, 0⟩
  have e : (multirange [2, 3]).filter (isTrue evens ⟨[2, 3], [3, 1], 0, 0⟩) = [[0, 0], [0, 2], [1, 1]] := by decide +kernel
  dsimp only at this
  rwa [e] at this

example : ∃ h' r, getMask 1 ⟨[2, 3], [1, 2], 0, 0⟩ evens ⟨[2, 3], [3, 1], 0, 0⟩ (fun _ => 99) line = some (.ok (h', r)) ∧ (r.shape, (multirange r.shape).map (r.read h')) = ([3], [some 0, some 4, some 3]) :=
  ⟨_, _, rfl, by decide +kernel⟩

example : ∃ h', setMask 1 ⟨[2, 3], [3, 1], 0, 0⟩ evens ⟨[2, 3], [3, 1], 0, 0⟩ (.arr (.same ⟨[3], [1], 0, 50⟩) : Item Int Int) line = some (h', none) ∧ (upto 7).map (h'.get 0) = [50, 1, 51, 3, 52, 5, 6].map some :=
  ⟨_, rfl, by decide +kernel⟩

/-! ### Index arrays -/

/-- **C79**, reading through index arrays: the result is a new array with the axes of the index arrays in the place of the integers and arrays if these stand together, else at the front, and every
element is the one that integers, index arrays and slices select.  It is assumed that the integers stand with the arrays, or that two arrays are separated. -/
theorem c79_take_partial (w : Int) (hw : 0 < w) (g : Heap Int) (h : Heap V) (a : Arr) (ha : a.WF h) (idx : List AIdx) (bs : List Int) (junk : Int → V) (he : .ellipsis ∉ idx)
    (hu : AIdx.used idx ≤ a.shape.length) (hne : AIdx.arrays idx ≠ []) (hm : ∀ m ∈ AIdx.arrays idx, m.WF g) (hb : Broadcasts ((AIdx.arrays idx).map (·.shape)) bs) (hp : AProper g bs idx a.shape)
    (hj : Together idx ∨ Separated idx) :
    ∃ h' r, getAdv w a g idx junk h = some (.ok (h', r)) ∧ Taken h a g idx bs h' r :=
  getAdv_spec w hw g h a ha idx bs junk he hu hne hb (broadcasts_nonneg _ _ hb fun s hs n hn => by
    obtain ⟨m, hm', rfl⟩ := List.mem_map.mp hs
    exact (hm m hm').nonneg n hn) hp hj

/-- **C79**, writing through index arrays: every selected element has got the value that stands last for it, stretched and converted, and nothing else is changed.  It is assumed that the right side
shares no memory with the selected elements in another place. -/
theorem c79_put_partial (w : Int) (g : Heap Int) (h : Heap V) (a : Arr) (ha : a.WF h) (hrep : a.NoRepeat) (idx : List AIdx) (bs : List Int) (it : Item U V) (he : .ellipsis ∉ idx)
    (hu : AIdx.used idx ≤ a.shape.length) (hne : AIdx.arrays idx ≠ []) (hm : ∀ m ∈ AIdx.arrays idx, m.WF g) (hb : Broadcasts ((AIdx.arrays idx).map (·.shape)) bs) (hp : AProper g bs idx a.shape)
    (hj : Together idx ∨ Separated idx) (hit : ∀ s, it = .arr s → s.WF h ∧ Stretches s.arr.shape (join idx bs (sliceDims idx a.shape)) ∧ s.ApartAt a g idx bs) :
    ∃ h', setAdv w a g idx it h = some (h', none) ∧ PutAt h a g idx bs (it.elem h) h' :=
  setAdv_spec w g h a ha hrep idx bs it he hu hne hb (broadcasts_nonneg _ _ hb fun s hs n hn => by
    obtain ⟨m, hm', rfl⟩ := List.mem_map.mp hs
    exact (hm m hm').nonneg n hn) hp hj hit

/-- **C79**, errors of index arrays: `...` and too many indices are refused by the compiler, and index arrays whose shapes do not go together are an `IndexError`; the memory is as before. -/
theorem c79_take_errors (w : Int) (g : Heap Int) (h : Heap V) (a : Arr) (idx : List AIdx) (it : Item U V) (junk : Int → V) :
    (.ellipsis ∈ idx ∨ a.shape.length < AIdx.used idx → getAdv w a g idx junk h = some (.error .compile) ∧ setAdv w a g idx it h = some (h, some .compile)) ∧
    (∀ a' axs, advPrep a idx = .ok (a', axs) → AIdx.arrays idx ≠ [] → .ellipsis ∉ idx → (∀ bs, ¬ Broadcasts ((AIdx.arrays idx).map (·.shape)) bs) →
      getAdv w a g idx junk h = some (.error .index) ∧ setAdv w a g idx it h = some (h, some .index)) := by
  refine ⟨fun hb => ?_, fun a' axs hp hne he hbad => ?_⟩
  · have : advPrep a idx = .error .compile := by
      unfold advPrep
      dsimp only
      by_cases he : .ellipsis ∈ idx
      · rw [if_pos he]
      · rw [if_neg he, if_pos]
        have := used_filter idx he
        have := hb.resolve_left he
        omega
    exact ⟨by unfold getAdv; rw [this], by unfold setAdv; rw [this]⟩
  · have harr : arraysOf axs = AIdx.arrays idx := by
      have key : ∀ n, arraysOf (pruneIndex (idx ++ List.replicate n .full)) = AIdx.arrays idx := fun n => by
        rw [arraysOf_prune]
        have : ∀ l : List AIdx, AIdx.arrays (l ++ List.replicate n .full) = AIdx.arrays l := by
          intro l
          induction l with
          | nil => induction n with
            | zero => rfl
            | succ n ih => rw [List.nil_append, List.replicate_succ]; exact ih
          | cons x l ih => cases x <;> simp [AIdx.arrays, ih]
        exact this idx
      unfold advPrep at hp
      dsimp only at hp
      rw [if_neg he] at hp
      split at hp
      · cases hp
      · split at hp
        · cases hp; exact key _
        · split at hp
          · cases hp
          · cases hp; exact key _
    have hbs : broadcastShapes ((AIdx.arrays idx).map (·.shape)) true = .error .value := by
      rcases broadcastShapes_spec ((AIdx.arrays idx).map (·.shape)) (by simpa using hne) with ⟨s, _, e2⟩ | ⟨e, _⟩
      · exact absurd e2 (hbad s)
      · exact e
    constructor
    · unfold getAdv
      simp only [hp]
      unfold getAxes
      rw [harr, if_neg hne, hbs]
    · unfold setAdv
      simp only [hp]
      unfold setAxes
      rw [harr, if_neg hne, hbs]

/-- The index array `[2, 0, -1]` in its memory. -/
def places : Heap Int := ⟨fun _ o => some (if o = 0 then 2 else if o = 1 then 0 else if o = 2 then -1 else 9), 1⟩

theorem places_three (m : Arr) (hm : m = ⟨[3], [1], 0, 0⟩) : m.WF places := by subst hm; exact ⟨rfl, by decide, fun _ _ => ⟨_, rfl⟩, by decide⟩

/-- `a[:, [2, 0, -1]]` for an array of shape `(2, 3)`. -/
example : ∃ h' r, getAdv 1 ⟨[2, 3], [3, 1], 0, 0⟩ places [.slice none none none, .arr ⟨[3], [1], 0, 0⟩] (fun _ => 99) line = some (.ok (h', r)) ∧
    Taken line ⟨[2, 3], [3, 1], 0, 0⟩ places [.slice none none none, .arr ⟨[3], [1], 0, 0⟩] [3] h' r :=
  c79_take_partial 1 (by decide) places line _ ⟨rfl, by decide, fun _ _ => ⟨_, rfl⟩, by decide⟩ _ [3] _ (by decide) (by decide) (by decide) (by intro m hm; exact places_three m (by simpa [AIdx.arrays] using hm))
    (by
      refine ⟨by decide, ⟨[3], by decide, rfl⟩, fun k hk => ?_⟩
      have : k = 0 := by simpa using hk
      subst this
      exact ⟨by decide, [3], by decide, rfl⟩)
    ⟨by decide, ⟨fun bc hbc => by
      match bc, hbc with
      | [x], hbc =>
        have h1 := hbc.1
        refine ⟨_, rfl, ?_⟩
        rcases show x = 0 ∨ x = 1 ∨ x = 2 by omega with rfl | rfl | rfl <;> decide +kernel, trivial⟩⟩ (Or.inl (by decide))

example : ∃ h' r, getAdv 1 ⟨[2, 3], [3, 1], 0, 0⟩ places [.slice none none none, .arr ⟨[3], [1], 0, 0⟩] (fun _ => 99) line = some (.ok (h', r)) ∧
    (r.shape, (multirange r.shape).map (r.read h')) = ([2, 3], [2, 0, 2, 5, 3, 5].map some) := ⟨_, _, rfl, by decide +kernel⟩

/-- `a[[2, 0, -1]] = [50, 51, 52]`: element 2 is selected twice and gets the last value. -/
example : ∃ h', setAdv 1 ⟨[3], [1], 0, 0⟩ places [.arr ⟨[3], [1], 0, 0⟩] (.arr (.same ⟨[3], [1], 0, 50⟩) : Item Int Int) line = some (h', none) ∧ (upto 4).map (h'.get 0) = [51, 1, 52, 3].map some :=
  ⟨_, rfl, by decide +kernel⟩

example : Separated [.arr ⟨[3], [1], 0, 0⟩, .newaxis, .arr ⟨[3], [1], 0, 0⟩] := ⟨[], _, [.newaxis], _, [], rfl, .newaxis, by simp, rfl⟩

/-! ### What goes wrong -/

/-- `a[1:] = a[:-1]` smears the first element over the array: element 3 gets 0 in place of 2. -/
theorem c79_violation_overlap : ∃ h', setBasic 1 ⟨[4], [1], 0, 0⟩ [.slice (some 1) none none] (.arr (.same ⟨[3], [1], 0, 0⟩) : Item Int Int) line = some (h', none) ∧
    (upto 4).map (h'.get 0) = [0, 0, 0, 0].map some ∧
    ¬ Assigned line ⟨[4], [1], 0, 0⟩ [.slice (some 1) none none] (fun c => (Src.same ⟨[3], [1], 0, 0⟩ : Src Int Int).elem line (proj [3] c)) h' := by
  refine ⟨_, rfl, by decide +kernel, fun hA => ?_⟩
  have := hA.2.1 [2] [3] ⟨⟨by decide, by decide, by decide +kernel⟩, ⟨trivial, rfl⟩⟩
  revert this
  decide +kernel

/-- `a[mask] = b[::2]` stores `b[0], b[1], …`: the strides of the right side are ignored. -/
theorem c79_violation_mask_strides : ∃ h', setMask 1 ⟨[3], [1], 0, 0⟩ ⟨fun _ _ => some true, 1⟩ ⟨[3], [1], 0, 0⟩ (.arr (.same ⟨[3], [2], 0, 50⟩) : Item Int Int) line = some (h', none) ∧
    (upto 3).map (h'.get 0) = [50, 51, 52].map some ∧
    ¬ AssignedAt line ⟨[3], [1], 0, 0⟩ [[0], [1], [2]] (fun k => (Src.same ⟨[3], [2], 0, 50⟩ : Src Int Int).elem line [(k : Int)]) h' := by
  refine ⟨_, rfl, by decide +kernel, fun hA => ?_⟩
  have := hA.2.1 1 [1] rfl
  revert this
  decide +kernel

/-- `a[[2, 0, -1]] = a`, NumPy storing the old values: element 0 gets the old element 1, which is right, but element 2 gets what was stored there a moment before. -/
theorem c79_violation_put_overlap : ∃ h', setAdv 1 ⟨[3], [1], 0, 5⟩ places [.arr ⟨[3], [1], 0, 0⟩] (.arr (.same ⟨[3], [1], 0, 5⟩) : Item Int Int) line = some (h', none) ∧
    (upto 3).map (fun i => h'.get 0 (i + 5)) = [6, 6, 5].map some ∧ ¬ PutAt line ⟨[3], [1], 0, 5⟩ places [.arr ⟨[3], [1], 0, 0⟩] [3] (fun c => (Src.same ⟨[3], [1], 0, 5⟩ : Src Int Int).elem line c) h' := by
  refine ⟨_, rfl, by decide +kernel, fun hA => ?_⟩
  have := hA.2.1 [2] [] [2] ⟨by decide, trivial⟩ ⟨⟨-1, by decide +kernel, by decide, by decide, by decide⟩, trivial, rfl⟩ (fun bc' sc' hb hl => by
    intro hs
    match bc', hb, sc', hs, hl with
    | [x], hb, [], hs, hl =>
      have h1 := hb.1
      simp [cLess] at hl
      omega
    | [x], hb, _ :: _, hs, hl => simp [ASel, Valid] at hs)
  revert this
  decide +kernel

/-- `a[0, :, [1, 2]]`: NumPy puts the axis of the index array first, as a slice stands between the integer and the array; Codon puts it last. -/
theorem c79_violation_int_apart : ¬ Together [.int 0, .slice none none none, .arr ⟨[2], [1], 0, 0⟩] ∧
    ∃ h' r, getAdv 1 ⟨[2, 3, 4], [12, 4, 1], 0, 0⟩ ⟨fun _ o => some (o + 1), 1⟩ [.int 0, .slice none none none, .arr ⟨[2], [1], 0, 0⟩] (fun _ => 99) line = some (.ok (h', r)) ∧ r.shape = [3, 2] ∧
    join [.int 0, .slice none none none, .arr ⟨[2], [1], 0, 0⟩] [2] [3] = [2, 3] := ⟨by decide, _, _, rfl, rfl, by decide⟩

/-- `a[[0, 9]] = 70` raises `IndexError`, but element 0 has been changed. -/
theorem c79_violation_half_done : ∃ h', setAdv 1 ⟨[3], [1], 0, 0⟩ ⟨fun _ o => some (o * 9), 1⟩ [.arr ⟨[2], [1], 0, 0⟩] (.num 70 : Item Int Int) line = some (h', some .index) ∧ h'.get 0 0 = some 70 ∧ line.get 0 0 = some 0 :=
  ⟨_, rfl, by decide +kernel, rfl⟩

/-- `a[[0, 9], 0:0]` is not refused though 9 is out of range. -/
theorem c79_violation_unchecked : ∃ h' r, getAdv 1 ⟨[3, 3], [3, 1], 0, 0⟩ ⟨fun _ o => some (o * 9), 1⟩ [.arr ⟨[2], [1], 0, 0⟩, .slice (some 0) (some 0) none] (fun _ => 99) line = some (.ok (h', r)) ∧ r.shape = [2, 0] :=
  ⟨_, _, rfl, rfl⟩

end Codon.NpIdx
