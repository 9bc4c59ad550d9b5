import Verif.NpRed.Visit
import Verif.NpRed.Spec
/-!
# What a reducer must satisfy, and `_reduce_all`
-/
namespace Codon.NpRed
open Codon.Numpy Codon.NpLine
variable {V S O T : Type}

/-- `loop` for one list after the other. -/
def runLists (f : S → List V → Bool → Except Fail S) : List (List V) → S → Except Fail S
  | [], s => .ok s
  | l :: r, s => do
    let s ← f s l true
    runLists f r s

/-- `gradual_accept` for one element after the other. -/
def stepList (G : Gradual V O) : List V → Nat → O → O
  | [], _, c => c
  | v :: r, k, c => stepList G r (k + 1) (G.step c v k)

/-- The reducer gives a result that is right in the sense of `P` for the lists of elements in `dom`. -/
structure Law (R : Redux V S O) (dom : List V → Prop) (P : List V → O → Prop) : Prop where
  scan : ∀ l, dom l → ∃ s i o, scan R (l.map some) R.start 0 = .ok (s, i) ∧ R.result s i = .ok o ∧ P l o
  loop : ∀ f, R.loop = some f → (∀ l, dom l → ∃ s, f R.start l false = .ok s ∧ ∀ n, ∃ o, R.result s n = .ok o ∧ P l o) ∧
    ∀ ls : List (List V), dom ls.flatten → (ls.flatten ≠ [] → ∀ l ∈ ls, l ≠ []) → ∃ s, runLists f ls R.start = .ok s ∧ ∀ n, ∃ o, R.result s n = .ok o ∧ P ls.flatten o
  gradual : ∀ G, R.gradual = some G → ∀ l, dom l → ∀ o, P l (stepList G l 0 (G.start.getD o))

/-- The order of the elements does not matter. -/
def Sym (dom : List V → Prop) (P : List V → O → Prop) : Prop := ∀ l l', l.Perm l' → (dom l → dom l') ∧ ∀ o, P l o → P l' o

theorem scanWhere_eq (R : Redux V S O) : ∀ (l : List (Bool × V)) (s : S) (i : Nat),
    scanWhere R (l.map fun p => (some p.1, some p.2)) s i = scan R (((l.filter (·.1)).map (·.2)).map some) s i
  | [], _, _ => rfl
  | (false, v) :: l, s, i => by simpa [scanWhere] using scanWhere_eq R l s i
  | (true, v) :: l, s, i => by
    have ih := scanWhere_eq R l (R.accept s v i) (i + 1)
    simp only [List.map_cons, scanWhere, List.filter_cons, if_true, NpRed.scan] at ih ⊢
    rw [ih]

theorem mapM_flatten (rd : List Int → Option V) : ∀ (css : List (List (List Int))) (vs : List V), css.flatten.mapM rd = some vs →
    ∃ ls : List (List V), css.map (fun cs => cs.mapM rd) = ls.map some ∧ ls.flatten = vs
  | [], vs, h => ⟨[], rfl, by simp at h; simp [h]⟩
  | cs :: r, vs, h => by
    rw [List.flatten_cons, List.mapM_append] at h
    simp only [Option.bind_eq_bind, Option.bind_eq_some_iff, Option.pure_def, Option.some.injEq] at h
    obtain ⟨l, hl, vs', hr, rfl⟩ := h
    obtain ⟨ls, e1, e2⟩ := mapM_flatten rd r vs' hr
    exact ⟨l :: ls, by simp [hl, e1], by simp [e2]⟩

theorem runChunks_eq (f : S → List V → Bool → Except Fail S) (rd : List Int → Option V) : ∀ (css : List (List (List Int))) (ls : List (List V)) (s : S),
    css.map (fun cs => cs.mapM rd) = ls.map some → runChunks f rd css s = runLists f ls s
  | [], [], _, _ => rfl
  | [], _ :: _, _, h => by simp at h
  | _ :: _, [], _, h => by simp at h
  | cs :: r, l :: ls, s, h => by
    simp only [List.map_cons, List.cons.injEq] at h
    rw [runChunks, runLists, h.1]
    simp only [need]
    show (f s l true >>= fun s => runChunks f rd r s) = _
    congr 1
    funext s'
    exact runChunks_eq f rd r ls s' h.2

theorem mapM_of_wf (a : Arr) (h : Heap V) (hwf : a.WF h) (cs : List (List Int)) (hc : ∀ c ∈ cs, Valid c a.shape) : ∃ vs, cs.mapM (a.read h) = some vs := by
  obtain ⟨vs, e, _⟩ := mapM_some (a.read h) cs fun c hm => hwf.alloc c (hc c hm)
  exact ⟨vs, e⟩

/-- The elements selected by the mask, in row-major order. -/
theorem selected_list (a : Arr) (h : Heap V) (m : Arr) (g : Heap Bool) (hwf : a.WF h) (hm : m.WF g) (hs : m.shape = a.shape) (cs : List (List Int)) (hc : ∀ c ∈ cs, Valid c a.shape) :
    ∃ l : List (Bool × V), (cs.map fun c => (m.read g c, a.read h c)) = l.map (fun p => (some p.1, some p.2)) ∧
      (cs.filter fun c => m.read g c == some true).mapM (a.read h) = some ((l.filter (·.1)).map (·.2)) := by
  induction cs with
  | nil => exact ⟨[], rfl, rfl⟩
  | cons c cs ih =>
    obtain ⟨l, e1, e2⟩ := ih fun c hm => hc c (by simp [hm])
    obtain ⟨v, hv⟩ := hwf.alloc c (hc c (by simp))
    obtain ⟨b, hb⟩ := hm.alloc c (by rw [hs]; exact hc c (by simp))
    refine ⟨(b, v) :: l, by simp [e1, hv, hb], ?_⟩
    cases b with
    | false => rw [List.filter_cons, if_neg (by simp [hb])]; rw [e2]; rfl
    | true =>
      rw [List.filter_cons, if_pos (by simp [hb]), List.mapM_cons, hv, e2]
      rfl

/-- The elements that a reduction over all axes is about. -/
def Elements (a : Arr) (h : Heap V) (wh : Option (Arr × Heap Bool)) (vs : List V) : Prop :=
  match wh with
  | none => (multirange a.shape).mapM (a.read h) = some vs
  | some (m, g) => ((multirange a.shape).filter fun c => m.read g c == some true).mapM (a.read h) = some vs

theorem reduceAll_ok (R : Redux V S O) (dom : List V → Prop) (P : List V → O → Prop) (law : Law R dom P) (w : Int) (a : Arr) (h : Heap V) (empty : Bool)
    (wh : Option (Arr × Heap Bool)) (hwf : a.WF h) (hm : MaskOk a wh) (vs : List V) (hvs : Elements a h wh vs) (hd : dom vs)
    (hne : ¬ (empty = true ∧ count a.shape = 0 ∧ R.raises = true)) (hs : Sym dom P ∨ (wh = none ∧ R.loop = none ∧ Straight w a)) :
    ∃ o, reduceAll R w a h empty wh = .ok o ∧ P vs o := by
  unfold reduceAll
  rw [if_neg hne]
  cases wh with
  | none =>
    simp only [Elements] at hvs
    have hval : ∀ cs : List (List Int), cs.Perm (multirange a.shape) → ∀ c ∈ cs, Valid c a.shape := fun cs hp c hc => (mem_multirange _ _).mp (hp.mem_iff.mp hc)
    cases hR : R.loop with
    | none =>
      obtain ⟨cs, hp, hst, he⟩ := plain_none w a h R hR hwf
      obtain ⟨l, hl⟩ := mapM_of_wf a h hwf cs (hval cs hp)
      have hpl : l.Perm vs := mapM_perm (a.read h) hp l vs hl hvs
      have hfin : dom l ∧ ∀ o, P l o → P vs o := by
        rcases hs with hs | ⟨_, _, hs⟩
        · exact ⟨(hs vs l hpl.symm).1 hd, (hs l vs hpl).2⟩
        · have : l = vs := by
            rw [hst hs, hvs] at hl
            exact (Option.some.inj hl).symm
          subst this
          exact ⟨hd, fun _ h => h⟩
      obtain ⟨s, i, o, e1, e2, e3⟩ := law.scan l hfin.1
      refine ⟨o, ?_, hfin.2 o e3⟩
      simp only []
      rw [he, mapM_some_map _ _ _ hl, e1]
      exact e2
    | some f =>
      have hs : Sym dom P := by
        rcases hs with hs | ⟨_, hh, _⟩
        · exact hs
        · rw [hR] at hh; cases hh
      rcases plain_loop w a h R f hR hwf with ⟨cs, hp, n, he⟩ | ⟨css, hp, hnn, n, he⟩
      · obtain ⟨l, hl⟩ := mapM_of_wf a h hwf cs (hval cs hp)
        have hpl : l.Perm vs := mapM_perm (a.read h) hp l vs hl hvs
        obtain ⟨s, e1, e2⟩ := (law.loop f hR).1 l ((hs vs l hpl.symm).1 hd)
        obtain ⟨o, e2, e3⟩ := e2 n
        refine ⟨o, ?_, (hs l vs hpl).2 o e3⟩
        simp only []
        rw [he, hl]
        simp only [need]
        show ((f R.start l false >>= fun s => pure (s, n)) >>= fun x => R.result x.1 x.2) = _
        rw [e1]
        exact e2
      · obtain ⟨l, hl⟩ := mapM_of_wf a h hwf _ (hval _ hp)
        have hpl : l.Perm vs := mapM_perm (a.read h) hp l vs hl hvs
        obtain ⟨ls, e1, e2⟩ := mapM_flatten (a.read h) css l hl
        subst e2
        have hne' : ls.flatten ≠ [] → ∀ x ∈ ls, x ≠ [] := by
          intro hn x hx he
          subst he
          have hmem : some [] ∈ css.map fun cs => cs.mapM (a.read h) := by rw [e1]; exact List.mem_map.mpr ⟨[], hx, rfl⟩
          obtain ⟨cs, hcs, he⟩ := List.mem_map.mp hmem
          have hlen := mapM_length (a.read h) cs [] he
          have hce : cs = [] := List.length_eq_zero_iff.mp (by simpa using hlen.symm)
          have hflat : css.flatten ≠ [] := by
            intro hf
            rw [hf] at hl
            simp at hl
            exact hn (List.flatten_eq_nil_iff.mpr hl)
          exact hnn hflat cs hcs hce
        obtain ⟨s, f1, f2⟩ := (law.loop f hR).2 ls ((hs vs _ hpl.symm).1 hd) hne'
        obtain ⟨o, f2, f3⟩ := f2 n
        refine ⟨o, ?_, (hs _ vs hpl).2 o f3⟩
        simp only []
        rw [he, runChunks_eq f (a.read h) css ls R.start e1]
        rw [f1]
        exact f2
  | some mg =>
    obtain ⟨m, g⟩ := mg
    obtain ⟨hmw, hms⟩ := hm m g rfl
    have hs : Sym dom P := by
      rcases hs with hs | ⟨hh, _⟩
      · exact hs
      · cases hh
    obtain ⟨cs, hp, he⟩ := masked_spec w a h R m g hwf hmw hms
    have hval : ∀ c ∈ cs, Valid c a.shape := fun c hc => (mem_multirange _ _).mp (hp.mem_iff.mp hc)
    obtain ⟨l, e1, e2⟩ := selected_list a h m g hwf hmw hms cs hval
    simp only [Elements] at hvs
    have hpl := mapM_perm (a.read h) (hp.filter fun c => m.read g c == some true) _ vs e2 hvs
    obtain ⟨s, i, o, f1, f2, f3⟩ := law.scan _ ((hs vs _ hpl.symm).1 hd)
    refine ⟨o, ?_, (hs _ vs hpl).2 o f3⟩
    simp only []
    rw [he, e1, scanWhere_eq, f1]
    exact f2

end Codon.NpRed
