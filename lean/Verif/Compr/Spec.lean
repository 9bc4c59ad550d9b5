import Verif.Compr.Model

/-!
# What a comprehension and a display mean

The Python language reference, 6.2.4–6.2.7: the clauses of a comprehension are nested blocks, from
left to right, and the elements of the new container are those produced by evaluating the
expression each time the innermost block is reached; a starred item of a display is iterated and
its elements are put in at that place; `**d` puts in the items of `d`.

The meaning is given as a relation (no bound on the number of steps): `Runs L act task c w r` says
that the task, begun with the container `c` in the world `w`, comes to the end `r`.
-/

namespace Codon.Compr

variable {X T V C E W : Type}

/-- Do one thing after another, unless the first raises. -/
def Ans.bind {α β : Type} (r : Ans E W α) (f : α → W → Ans E W β) : Ans E W β :=
  match r with
  | (.ok a, w) => f a w
  | (.error e, w) => (.error e, w)

/-- What is still to be done: the clauses from some point on, or the rest of a loop. -/
inductive Task (X T V : Type) where
  | clauses (cs : List (Clause X T))
  | loop (t : T) (it : V) (cs : List (Clause X T))

/-- Clauses as nested blocks around `act`. -/
inductive Runs (L : Lang X T V C E W) (act : C → W → Ans E W C) :
    Task X T V → C → W → Ans E W C → Prop where
  /-- the innermost block is reached -/
  | act (c : C) (w : W) : Runs L act (.clauses []) c w (act c w)
  /-- evaluating the condition or testing it raises -/
  | ifErr {x cs c w e w'} (h : (L.eval x w).bind L.truth = (.error e, w')) :
      Runs L act (.clauses (.if_ x :: cs)) c w (.error e, w')
  | ifNo {x cs c w w'} (h : (L.eval x w).bind L.truth = (.ok false, w')) :
      Runs L act (.clauses (.if_ x :: cs)) c w (.ok c, w')
  | ifYes {x cs c w w' r} (h : (L.eval x w).bind L.truth = (.ok true, w'))
      (hr : Runs L act (.clauses cs) c w' r) : Runs L act (.clauses (.if_ x :: cs)) c w r
  /-- evaluating the iterable or asking it for an iterator raises -/
  | forErr {t x cs c w e w'} (h : (L.eval x w).bind L.iter = (.error e, w')) :
      Runs L act (.clauses (.for_ t x :: cs)) c w (.error e, w')
  | forOk {t x cs c w it w' r} (h : (L.eval x w).bind L.iter = (.ok it, w'))
      (hr : Runs L act (.loop t it cs) c w' r) : Runs L act (.clauses (.for_ t x :: cs)) c w r
  | nextErr {t it cs c w e w'} (h : L.next it w = (.error e, w')) :
      Runs L act (.loop t it cs) c w (.error e, w')
  | stop {t it cs c w w'} (h : L.next it w = (.ok none, w')) :
      Runs L act (.loop t it cs) c w (.ok c, w')
  /-- storing the item in the target raises -/
  | bindErr {t it cs c w v w' e w''} (h : L.next it w = (.ok (some v), w'))
      (hb : L.bind t v w' = (.error e, w'')) : Runs L act (.loop t it cs) c w (.error e, w'')
  | bodyErr {t it cs c w v w' w'' e w'''} (h : L.next it w = (.ok (some v), w'))
      (hb : L.bind t v w' = (.ok (), w'')) (hr : Runs L act (.clauses cs) c w'' (.error e, w''')) :
      Runs L act (.loop t it cs) c w (.error e, w''')
  | step {t it cs c w v w' w'' c' w''' r} (h : L.next it w = (.ok (some v), w'))
      (hb : L.bind t v w' = (.ok (), w'')) (hr : Runs L act (.clauses cs) c w'' (.ok c', w'''))
      (hl : Runs L act (.loop t it cs) c' w''' r) : Runs L act (.loop t it cs) c w r

/-- Putting one element in: evaluate it (a key before its value), then append, add or store it. -/
def putElt (L : Lang X T V C E W) (k : Kind) (e : Elt X) (c : C) (w : W) : Ans E W C :=
  match e with
  | .one x => (L.eval x w).bind fun v w => L.add k c v w
  | .pair x y => (L.eval x w).bind fun a w => (L.eval y w).bind fun b w => L.setitem c a b w

/-- The meaning of a comprehension: an empty container, filled by the nested clauses. -/
def Comprehends (L : Lang X T V C E W) (k : Kind) (e : Elt X) (cs : List (Clause X T)) (w : W)
    (r : Ans E W C) : Prop :=
  Runs L (putElt L k e) (.clauses cs) (L.new k) w r

/-- Putting in all that an iterator gives. -/
inductive Drains (L : Lang X T V C E W) (put : V → C → W → Ans E W C) (it : V) :
    C → W → Ans E W C → Prop where
  | nextErr {c w e w'} (h : L.next it w = (.error e, w')) : Drains L put it c w (.error e, w')
  | stop {c w w'} (h : L.next it w = (.ok none, w')) : Drains L put it c w (.ok c, w')
  | putErr {c w v w' e w''} (h : L.next it w = (.ok (some v), w'))
      (hp : put v c w' = (.error e, w'')) : Drains L put it c w (.error e, w'')
  | step {c w v w' c' w'' r} (h : L.next it w = (.ok (some v), w'))
      (hp : put v c w' = (.ok c', w'')) (hr : Drains L put it c' w'' r) : Drains L put it c w r

/-- The meaning of one item of a display. -/
inductive Puts (L : Lang X T V C E W) (k : Kind) : Item X → C → W → Ans E W C → Prop where
  | elt (e c w) : Puts L k (.elt e) c w (putElt L k e c w)
  | starErr {x c w e w'} (h : (L.eval x w).bind L.iter = (.error e, w')) :
      Puts L k (.star x) c w (.error e, w')
  | star {x c w it w' r} (h : (L.eval x w).bind L.iter = (.ok it, w'))
      (hr : Drains L (fun v c w => L.add k c v w) it c w' r) : Puts L k (.star x) c w r
  | dstarErr {x c w e w'} (h : (L.eval x w).bind L.items = (.error e, w')) :
      Puts L k (.dstar x) c w (.error e, w')
  | dstar {x c w it w' r} (h : (L.eval x w).bind L.items = (.ok it, w'))
      (hr : Drains L (fun v c w => L.setitem c (L.fst v) (L.snd v) w) it c w' r) :
      Puts L k (.dstar x) c w r

/-- The meaning of the items of a display, from left to right. -/
inductive PutsAll (L : Lang X T V C E W) (k : Kind) : List (Item X) → C → W → Ans E W C → Prop where
  | nil (c w) : PutsAll L k [] c w (.ok c, w)
  | err {i is c w e w'} (h : Puts L k i c w (.error e, w')) : PutsAll L k (i :: is) c w (.error e, w')
  | cons {i is c w c' w' r} (h : Puts L k i c w (.ok c', w')) (hr : PutsAll L k is c' w' r) :
      PutsAll L k (i :: is) c w r

/-- Which elements go in which container: `k: v` in dictionaries, `e` in lists and sets. -/
def Elt.fits (k : Kind) : Elt X → Prop
  | .one _ => k ≠ .dict
  | .pair _ _ => k = .dict

/-- Which items go in which display. -/
def Item.fits (k : Kind) : Item X → Prop
  | .elt e => e.fits k
  | .star _ => k ≠ .dict
  | .dstar _ => k = .dict

/-- Reading the parts of a tuple of two gives what it was made of. -/
def Pairs (L : Lang X T V C E W) : Prop := ∀ a b, L.fst (L.pair a b) = a ∧ L.snd (L.pair a b) = b

/-- The lowered program `p` computes what the relation says: it comes to an end when and only when
the relation has one, that end is the same, and it never reads a temporary that is not set. -/
structure Computes (L : Lang X T V C E W) (p : Stmt X T) (w : W) (R : Ans E W C → Prop) : Prop where
  total : ∀ r, R r → ∃ N, ∀ n, N ≤ n → value L n p w = some (some r)
  sound : ∀ n a, value L n p w = some a → ∃ r, a = some r ∧ R r

end Codon.Compr
