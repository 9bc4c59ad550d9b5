import Verif.HeapN.Top
import Verif.HeapN.Merge

/-! Lemmas for C84: the tuples of the code are compared as the proofs need. -/

namespace Codon.HeapN

section
variable {K T : Type} {lt eq : K → K → Bool}

theorem lex_le {B : Type} {l2 : B → B → Bool} (ho : SWO lt) (a b : K × B) (h : lex lt l2 a b = true) : lt b.1 a.1 = false := by
  simp only [lex, Bool.or_eq_true, Bool.and_eq_true, Bool.not_eq_true'] at h
  rcases h with h | h
  · exact ho.asymm h
  · exact h.1

theorem lex_le' {B : Type} {l2 : B → B → Bool} (ho : SWO lt) (a b : K × B) (h : lex lt l2 b a = true) : lt a.1 b.1 = false :=
  lex_le ho b a h

theorem inner_eq (tlt : T → T → Bool) (a b : Int × T) (h : a.1 ≠ b.1) : lex intLt tlt a b = decide (a.1 < b.1) := by
  simp only [lex, intLt]
  by_cases h1 : a.1 < b.1
  · simp [h1]
  · have : b.1 < a.1 := by omega
    simp [h1, this]

theorem ok_plain (ho : SWO lt) (he : EqOk lt eq) : Ok (plain lt eq) lt Prod.snd where
  swoK := ho
  swo := by show SWO (tupLt2 lt eq); rw [tupLt2_eq he]; exact lex_swo ho intSWO
  fst _ _ := rfl
  out _ _ := rfl
  pos_deco _ _ := rfl
  le a b h := by
    have h : tupLt2 lt eq a b = true := h
    rw [tupLt2_eq he] at h; exact lex_le ho a b h
  less a b _ := by
    show tupLt2 lt eq a b = _
    rw [tupLt2_eq he]; rfl

theorem ok_keyed (ho : SWO lt) (he : EqOk lt eq) {tlt : T → T → Bool} (ht : SWO tlt) (key : T → K) :
    Ok (keyed lt eq tlt key) lt (fun e => e.2.1) where
  swoK := ho
  swo := by show SWO (tupLt3 lt eq tlt); rw [tupLt3_eq he]; exact lex_swo ho (lex_swo intSWO ht)
  fst _ _ := rfl
  out _ _ := rfl
  pos_deco _ _ := rfl
  le a b h := by
    have h : tupLt3 lt eq tlt a b = true := h
    rw [tupLt3_eq he] at h; exact lex_le ho a b h
  less a b hp := by
    show tupLt3 lt eq tlt a b = _
    rw [tupLt3_eq he]
    show (lt a.1 b.1 || (!lt b.1 a.1 && lex intLt tlt a.2 b.2)) = _
    rw [inner_eq tlt a.2 b.2 hp]; rfl

theorem ok_mirror {E : Type} {d : Deco T K E} {pos : E → Int} (ok : Ok d lt pos) :
    Ok (mirror d) (fun a b => lt b a) (fun e => -pos e) where
  swoK := ok.swoK.flip
  swo := ok.swo.flip
  fst x i := ok.fst x (-i)
  out x i := ok.out x (-i)
  pos_deco x i := by
    show -pos (d.deco x (-i)) = i
    rw [ok.pos_deco]; omega
  le a b h := ok.le b a h
  less a b hp := by
    show d.less b a = _
    rw [ok.less b a (by omega)]
    have : decide (pos b < pos a) = decide (-pos a < -pos b) := by
      rw [decide_eq_decide]; omega
    rw [this]; rfl

theorem mok_plain (ho : SWO lt) (he : EqOk lt eq) (reverse : Bool) :
    MOk (itemLt lt eq) reverse (fun a b => if reverse then lt b a else lt a b) := by
  have e : itemLt lt eq = fun a b : Item K => lex lt intLt (a.value, a.order) (b.value, b.order) := by
    funext a b; rw [itemLt, tupLt2_eq he]
  have hs : SWO (itemLt lt eq) := by
    rw [e]; exact (lex_swo ho intSWO).key fun a : Item K => (a.value, a.order)
  cases reverse with
  | false => exact ⟨ho, hs, fun a b _ => by simp [hl, e, lex, intLt]⟩
  | true =>
    refine ⟨ho.flip, hs.flip, fun a b _ => ?_⟩
    have : decide (b.order < a.order) = decide (-a.order < -b.order) := by rw [decide_eq_decide]; omega
    simp [hl, e, lex, intLt]

theorem mok_keyed (ho : SWO lt) (he : EqOk lt eq) {tlt : T → T → Bool} (ht : SWO tlt) (key : T → K) (reverse : Bool) :
    MOk (itemLtKey lt eq tlt key) reverse (fun a b => if reverse then lt (key b) (key a) else lt (key a) (key b)) := by
  have e : itemLtKey lt eq tlt key = fun a b : Item T =>
      lex lt (lex intLt tlt) (key a.value, a.order, a.value) (key b.value, b.order, b.value) := by
    funext a b; rw [itemLtKey, tupLt3_eq he]
  have hs : SWO (itemLtKey lt eq tlt key) := by
    rw [e]; exact (lex_swo ho (lex_swo intSWO ht)).key fun a : Item T => (key a.value, a.order, a.value)
  have hin : ∀ a b : Item T, a.order ≠ b.order → itemLtKey lt eq tlt key a b =
      (lt (key a.value) (key b.value) || (!lt (key b.value) (key a.value) && decide (a.order < b.order))) := by
    intro a b h
    rw [e]
    show (lt (key a.value) (key b.value) || (!lt (key b.value) (key a.value) &&
      lex intLt tlt (a.order, a.value) (b.order, b.value))) = _
    rw [inner_eq tlt (a.order, a.value) (b.order, b.value) h]
  cases reverse with
  | false =>
    refine ⟨ho.key key, hs, fun a b h => ?_⟩
    simp [hl, hin a b h]
  | true =>
    refine ⟨ho.flip.key key, hs.flip, fun a b h => ?_⟩
    simp [hl, hin b a (Ne.symm h)]

end

end Codon.HeapN
