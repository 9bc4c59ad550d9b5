import Verif.Numpy.LoopRun
import Verif.Numpy.UfuncModel
/-!
# The vectorised loops
-/
namespace Codon.Numpy
variable {V : Type} {ι : Type}

/-- In `h` the elements `cs` have got their values, and nothing else has changed since `h0`. -/
def Done (tg : ι → Ptr) (val : ι → V) (h0 h : Heap V) (cs : List ι) : Prop :=
  h.next = h0.next ∧ (∀ c ∈ cs, h.get (tg c).1 (tg c).2 = some (val c)) ∧ ∀ p : Ptr, (∀ c ∈ cs, tg c ≠ p) → h.get p.1 p.2 = h0.get p.1 p.2

theorem done_nil (tg : ι → Ptr) (val : ι → V) (h : Heap V) : Done tg val h h [] := ⟨rfl, by simp, fun _ _ => rfl⟩

theorem done_step (tg : ι → Ptr) (val : ι → V) (P : ι → Prop) (hinj : ∀ c c', P c → P c' → tg c = tg c' → c = c') (h0 h : Heap V) (cs : List ι) (hP : ∀ c ∈ cs, P c)
    (hd : Done tg val h0 h cs) (c : ι) (hc : P c) (hal : ∃ u, h0.get (tg c).1 (tg c).2 = some u) :
    ∃ h', h.write (tg c).1 (tg c).2 (val c) = some h' ∧ Done tg val h0 h' (cs ++ [c]) := by
  obtain ⟨u, hu⟩ : ∃ u, h.get (tg c).1 (tg c).2 = some u := by
    by_cases hm : ∃ c' ∈ cs, tg c' = tg c
    · obtain ⟨c', h1, h2⟩ := hm
      exact ⟨val c', by rw [← h2]; exact hd.2.1 c' h1⟩
    · obtain ⟨u, hu⟩ := hal
      exact ⟨u, by rw [hd.2.2 (tg c) fun c' hc' he => hm ⟨c', hc', he⟩]; exact hu⟩
  obtain ⟨h', w1, w2, w3, w4⟩ := write_spec h (tg c).1 (tg c).2 (val c) u hu
  refine ⟨h', w1, by rw [w2, hd.1], fun c' hc' => ?_, fun p hp => ?_⟩
  · by_cases he : tg c' = tg c
    · have : P c' := by
        rcases List.mem_append.mp hc' with h1 | h1
        · exact hP c' h1
        · rw [List.mem_singleton.mp h1]; exact hc
      rw [hinj c' c this hc he]; exact w3
    · rw [w4 _ _ fun hh => he (Prod.ext hh.1 hh.2)]
      rcases List.mem_append.mp hc' with h1 | h1
      · exact hd.2.1 c' h1
      · exact absurd (by rw [List.mem_singleton.mp h1]) he
  · rw [w4 _ _ fun hh => hp c (by simp) (Prod.ext hh.1.symm hh.2.symm)]
    exact hd.2.2 p fun c' hc' => hp c' (by simp [hc'])

/-- A row of `n` elements `ρ 0`, `ρ 1`, …, whose targets lie `t` bytes apart from `q` on. -/
structure Row (P : ι → Prop) (tg : ι → Ptr) (ρ : Nat → ι) (n : Nat) (q : Ptr) (t : Int) : Prop where
  mem : ∀ i < n, P (ρ i)
  tgt : ∀ i < n, tg (ρ i) = (q.1, q.2 + i * t)

/-- Operand values `a` of the row, `s` bytes apart from `p` on; a target is an operand only of the same element. -/
structure Src (P : ι → Prop) (tg : ι → Ptr) (h0 : Heap V) (ρ : Nat → ι) (n : Nat) (p : Ptr) (s : Int) (a : ι → V) : Prop where
  get : ∀ i < n, h0.get p.1 (p.2 + i * s) = some (a (ρ i))
  sep : ∀ c, P c → ∀ i < n, tg c = (p.1, p.2 + i * s) → c = ρ i

theorem range_snoc (ρ : Nat → ι) (cs : List ι) (i : Nat) : cs ++ (List.range (i + 1)).map ρ = (cs ++ (List.range i).map ρ) ++ [ρ i] := by
  rw [List.range_succ, List.map_append, List.map_singleton, List.append_assoc]

section
variable {P : ι → Prop} {tg : ι → Ptr} {val : ι → V} {h0 : Heap V} {ρ : Nat → ι} {n : Nat} {q : Ptr} {t : Int} {cs : List ι}

theorem scatter_ok (hinj : ∀ c c', P c → P c' → tg c = tg c' → c = c') (hal : ∀ c, P c → ∃ u, h0.get (tg c).1 (tg c).2 = some u)
    (hρ : Row P tg ρ n q t) (hcs : ∀ c ∈ cs, P c) : ∀ (m i : Nat) (h : Heap V), i + m ≤ n → Done tg val h0 h (cs ++ (List.range i).map ρ) →
    ∃ h', scatter q t i ((List.range' i m).map fun j => val (ρ j)) h = some h' ∧ Done tg val h0 h' (cs ++ (List.range (i + m)).map ρ)
  | 0, i, h, _, hd => ⟨h, rfl, hd⟩
  | m + 1, i, h, hm, hd => by
    obtain ⟨h1, e1, e2⟩ := done_step tg val P hinj h0 h _ (by
      intro c hc
      rcases List.mem_append.mp hc with hc | hc
      · exact hcs c hc
      · obtain ⟨j, hj, rfl⟩ := List.mem_map.mp hc
        exact hρ.mem j (by have := List.mem_range.mp hj; omega)) hd (ρ i) (hρ.mem i (by omega)) (hal _ (hρ.mem i (by omega)))
    rw [hρ.tgt i (by omega)] at e1
    rw [← range_snoc] at e2
    obtain ⟨h', f1, f2⟩ := scatter_ok hinj hal hρ hcs m (i + 1) h1 (by omega) e2
    refine ⟨h', ?_, by rw [show i + (m + 1) = i + 1 + m by omega]; exact f2⟩
    rw [List.range'_succ, List.map_cons, scatter, e1]
    exact f1

theorem src_get {p : Ptr} {s : Int} {a : ι → V} (hs : Src P tg h0 ρ n p s a) (hcs : ∀ c ∈ cs, P c) (hnd : ∀ j < n, ρ j ∉ cs) (hinj : ∀ i < n, ∀ j < n, ρ i = ρ j → i = j)
    (hρ : Row P tg ρ n q t) (i j : Nat) (hij : i ≤ j) (hj : j < n) (h : Heap V) (hd : Done tg val h0 h (cs ++ (List.range i).map ρ)) :
    h.get p.1 (p.2 + j * s) = some (a (ρ j)) := by
  rw [hd.2.2 (p.1, p.2 + j * s) fun c hc he => ?_]
  · exact hs.get j hj
  · rcases List.mem_append.mp hc with hc | hc
    · have := hs.sep c (hcs c hc) j hj he
      exact hnd j hj (by rw [← this]; exact hc)
    · obtain ⟨k, hk, rfl⟩ := List.mem_map.mp hc
      have hk := List.mem_range.mp hk
      have := hinj k (by omega) j hj (hs.sep _ (hρ.mem k (by omega)) j hj he)
      omega

theorem gather_ok {p : Ptr} {s : Int} {a : ι → V} (hs : Src P tg h0 ρ n p s a) (hcs : ∀ c ∈ cs, P c) (hnd : ∀ j < n, ρ j ∉ cs) (hinj : ∀ i < n, ∀ j < n, ρ i = ρ j → i = j)
    (hρ : Row P tg ρ n q t) (i : Nat) (h : Heap V) (hd : Done tg val h0 h (cs ++ (List.range i).map ρ)) : ∀ (m k : Nat), i ≤ k → k + m ≤ n →
    gather h p s k m = some ((List.range' k m).map fun j => a (ρ j))
  | 0, k, _, _ => rfl
  | m + 1, k, hik, hk => by
    rw [gather, src_get hs hcs hnd hinj hρ i k hik (by omega) h hd, gather_ok hs hcs hnd hinj hρ i h hd m (k + 1) (by omega) (by omega), List.range'_succ, List.map_cons]

theorem uVector_ok {p : Ptr} {s : Int} {a : ι → V} {op : V → V} (hinjT : ∀ c c', P c → P c' → tg c = tg c' → c = c') (hal : ∀ c, P c → ∃ u, h0.get (tg c).1 (tg c).2 = some u)
    (hs : Src P tg h0 ρ n p s a) (hcs : ∀ c ∈ cs, P c) (hnd : ∀ j < n, ρ j ∉ cs) (hinj : ∀ i < n, ∀ j < n, ρ i = ρ j → i = j) (hρ : Row P tg ρ n q t)
    (hv : ∀ c, val c = op (a c)) (L : Nat) : ∀ (k i : Nat) (h : Heap V), i + k * L ≤ n → Done tg val h0 h (cs ++ (List.range i).map ρ) →
    ∃ h', uVector L op p s q t k i h = some h' ∧ Done tg val h0 h' (cs ++ (List.range (i + k * L)).map ρ)
  | 0, i, h, _, hd => ⟨h, rfl, by rw [Nat.zero_mul, Nat.add_zero]; exact hd⟩
  | k + 1, i, h, hk, hd => by
    rw [Nat.add_mul, Nat.one_mul] at hk
    obtain ⟨h1, e1, e2⟩ := scatter_ok hinjT hal hρ hcs L i h (by omega) hd
    obtain ⟨h', f1, f2⟩ := uVector_ok hinjT hal hs hcs hnd hinj hρ hv L k (i + L) h1 (by omega) e2
    refine ⟨h', ?_, by rw [show i + (k + 1) * L = i + L + k * L by rw [Nat.add_mul, Nat.one_mul]; omega]; exact f2⟩
    rw [uVector, gather_ok hs hcs hnd hinj hρ i h hd L i le_rfl (by omega)]
    dsimp only
    rw [List.map_map, show ((List.range' i L).map (op ∘ fun j => a (ρ j))) = (List.range' i L).map fun j => val (ρ j) from List.map_congr_left fun j _ => (hv _).symm, e1]
    exact f1

theorem uScalar_ok {p : Ptr} {s : Int} {a : ι → V} {op : V → V} (hinjT : ∀ c c', P c → P c' → tg c = tg c' → c = c') (hal : ∀ c, P c → ∃ u, h0.get (tg c).1 (tg c).2 = some u)
    (hs : Src P tg h0 ρ n p s a) (hcs : ∀ c ∈ cs, P c) (hnd : ∀ j < n, ρ j ∉ cs) (hinj : ∀ i < n, ∀ j < n, ρ i = ρ j → i = j) (hρ : Row P tg ρ n q t)
    (hv : ∀ c, val c = op (a c)) : ∀ (k i : Nat) (h : Heap V), i + k ≤ n → Done tg val h0 h (cs ++ (List.range i).map ρ) →
    ∃ h', uScalar op p s q t k i h = some h' ∧ Done tg val h0 h' (cs ++ (List.range (i + k)).map ρ)
  | 0, i, h, _, hd => ⟨h, rfl, hd⟩
  | k + 1, i, h, hk, hd => by
    obtain ⟨h1, e1, e2⟩ := scatter_ok hinjT hal hρ hcs 1 i h (by omega) hd
    obtain ⟨h', f1, f2⟩ := uScalar_ok hinjT hal hs hcs hnd hinj hρ hv k (i + 1) h1 (by omega) e2
    refine ⟨h', ?_, by rw [show i + (k + 1) = i + 1 + k by omega]; exact f2⟩
    rw [uScalar, src_get hs hcs hnd hinj hρ i i le_rfl (by omega) h hd]
    dsimp only
    rw [List.range'_one, List.map_singleton, scatter, hv] at e1
    cases hw : h.write q.1 (q.2 + ↑i * t) (op (a (ρ i))) with
    | none => rw [hw] at e1; cases e1
    | some h2 =>
      rw [hw] at e1
      simp only [scatter, Option.some.injEq] at e1
      rw [e1]; exact f1

theorem unaryLoop_ok {p : Ptr} {s : Int} {a : ι → V} {op : V → V} (hinjT : ∀ c c', P c → P c' → tg c = tg c' → c = c') (hal : ∀ c, P c → ∃ u, h0.get (tg c).1 (tg c).2 = some u)
    (hs : Src P tg h0 ρ n p s a) (hcs : ∀ c ∈ cs, P c) (hnd : ∀ j < n, ρ j ∉ cs) (hinj : ∀ i < n, ∀ j < n, ρ i = ρ j → i = j) (hρ : Row P tg ρ n q t)
    (hv : ∀ c, val c = op (a c)) (L : Nat) (w : Int) (h : Heap V) (hd : Done tg val h0 h cs) :
    ∃ h', unaryLoop L w op p s q t n h = some h' ∧ Done tg val h0 h' (cs ++ (List.range n).map ρ) := by
  have hle := Nat.div_mul_le_self n L
  obtain ⟨h1, e1, e2⟩ := uVector_ok hinjT hal hs hcs hnd hinj hρ hv L (n / L) 0 h (by omega) (by simpa using hd)
  rw [Nat.zero_add] at e2
  obtain ⟨h2, f1, f2⟩ := uScalar_ok hinjT hal hs hcs hnd hinj hρ hv (n - n / L * L) (n / L * L) h1 (by omega) e2
  refine ⟨h2, ?_, by rw [show n / L * L + (n - n / L * L) = n by omega] at f2; exact f2⟩
  unfold unaryLoop
  split
  · next hw =>
    obtain ⟨rfl, rfl⟩ := hw
    rw [e1]; exact f1
  · rw [e1]; exact f1

theorem zip_vals (op : V → V → V) (f g : Nat → V) (l : List Nat) : List.zipWith op (l.map f) (l.map g) = l.map fun j => op (f j) (g j) := by
  induction l with
  | nil => rfl
  | cons x l ih => simp [ih]

theorem replicate_vals (f : Nat → V) (v : V) : ∀ (m i : Nat), (∀ j, i ≤ j → j < i + m → f j = v) → List.replicate m v = (List.range' i m).map f
  | 0, i, _ => rfl
  | m + 1, i, h => by
    rw [List.replicate_succ, List.range'_succ, List.map_cons, h i le_rfl (by omega), replicate_vals f v m (i + 1) fun j h1 h2 => h j (by omega) (by omega)]

theorem bVector_ok {p1 p2 : Ptr} {s1 s2 : Int} {a b : ι → V} {op : V → V → V} (hinjT : ∀ c c', P c → P c' → tg c = tg c' → c = c') (hal : ∀ c, P c → ∃ u, h0.get (tg c).1 (tg c).2 = some u)
    (hs1 : Src P tg h0 ρ n p1 s1 a) (hs2 : Src P tg h0 ρ n p2 s2 b) (hcs : ∀ c ∈ cs, P c) (hnd : ∀ j < n, ρ j ∉ cs) (hinj : ∀ i < n, ∀ j < n, ρ i = ρ j → i = j)
    (hρ : Row P tg ρ n q t) (hv : ∀ c, val c = op (a c) (b c))
    (L : Nat) : ∀ (k i : Nat) (h : Heap V), i + k * L ≤ n → Done tg val h0 h (cs ++ (List.range i).map ρ) →
    ∃ h', bVector L op p1 s1 p2 s2 q t k i h = some h' ∧ Done tg val h0 h' (cs ++ (List.range (i + k * L)).map ρ)
  | 0, i, h, _, hd => ⟨h, rfl, by rw [Nat.zero_mul, Nat.add_zero]; exact hd⟩
  | k + 1, i, h, hk, hd => by
    rw [Nat.add_mul, Nat.one_mul] at hk
    obtain ⟨h1, e1, e2⟩ := scatter_ok hinjT hal hρ hcs L i h (by omega) hd
    obtain ⟨h', f1, f2⟩ := bVector_ok hinjT hal hs1 hs2 hcs hnd hinj hρ hv L k (i + L) h1 (by omega) e2
    refine ⟨h', ?_, by rw [show i + (k + 1) * L = i + L + k * L by rw [Nat.add_mul, Nat.one_mul]; omega]; exact f2⟩
    rw [bVector, gather_ok hs1 hcs hnd hinj hρ i h hd L i le_rfl (by omega), gather_ok hs2 hcs hnd hinj hρ i h hd L i le_rfl (by omega)]
    dsimp only
    rw [zip_vals, show ((List.range' i L).map fun j => op (a (ρ j)) (b (ρ j))) = (List.range' i L).map fun j => val (ρ j) from List.map_congr_left fun j _ => (hv _).symm, e1]
    exact f1

theorem bVectorRight_ok {p1 p2 : Ptr} {s1 s2 : Int} {a b : ι → V} {op : V → V → V} (hinjT : ∀ c c', P c → P c' → tg c = tg c' → c = c') (hal : ∀ c, P c → ∃ u, h0.get (tg c).1 (tg c).2 = some u)
    (hs1 : Src P tg h0 ρ n p1 s1 a) (hs2 : Src P tg h0 ρ n p2 s2 b) (hcs : ∀ c ∈ cs, P c) (hnd : ∀ j < n, ρ j ∉ cs) (hinj : ∀ i < n, ∀ j < n, ρ i = ρ j → i = j)
    (hρ : Row P tg ρ n q t) (hv : ∀ c, val c = op (a c) (b c))
    (v : V) (hb : ∀ j < n, b (ρ j) = v) (L : Nat) : ∀ (k i : Nat) (h : Heap V), i + k * L ≤ n → Done tg val h0 h (cs ++ (List.range i).map ρ) →
    ∃ h', bVectorRight L op p1 s1 (List.replicate L v) q t k i h = some h' ∧ Done tg val h0 h' (cs ++ (List.range (i + k * L)).map ρ)
  | 0, i, h, _, hd => ⟨h, rfl, by rw [Nat.zero_mul, Nat.add_zero]; exact hd⟩
  | k + 1, i, h, hk, hd => by
    rw [Nat.add_mul, Nat.one_mul] at hk
    obtain ⟨h1, e1, e2⟩ := scatter_ok hinjT hal hρ hcs L i h (by omega) hd
    obtain ⟨h', f1, f2⟩ := bVectorRight_ok hinjT hal hs1 hs2 hcs hnd hinj hρ hv v hb L k (i + L) h1 (by omega) e2
    refine ⟨h', ?_, by rw [show i + (k + 1) * L = i + L + k * L by rw [Nat.add_mul, Nat.one_mul]; omega]; exact f2⟩
    rw [bVectorRight, gather_ok hs1 hcs hnd hinj hρ i h hd L i le_rfl (by omega)]
    dsimp only
    rw [show List.zipWith op ((List.range' i L).map fun j => a (ρ j)) (List.replicate L v) = (List.range' i L).map fun j => val (ρ j) by
      rw [replicate_vals (fun j => b (ρ j)) v L i fun j _ h2 => hb j (by omega), zip_vals]
      exact List.map_congr_left fun j _ => (hv _).symm, e1]
    exact f1

theorem bScalar_ok {p1 p2 : Ptr} {s1 s2 : Int} {a b : ι → V} {op : V → V → V} (hinjT : ∀ c c', P c → P c' → tg c = tg c' → c = c') (hal : ∀ c, P c → ∃ u, h0.get (tg c).1 (tg c).2 = some u)
    (hs1 : Src P tg h0 ρ n p1 s1 a) (hs2 : Src P tg h0 ρ n p2 s2 b) (hcs : ∀ c ∈ cs, P c) (hnd : ∀ j < n, ρ j ∉ cs) (hinj : ∀ i < n, ∀ j < n, ρ i = ρ j → i = j)
    (hρ : Row P tg ρ n q t) (hv : ∀ c, val c = op (a c) (b c))
    : ∀ (k i : Nat) (h : Heap V), i + k ≤ n → Done tg val h0 h (cs ++ (List.range i).map ρ) →
    ∃ h', bScalar op p1 s1 p2 s2 q t k i h = some h' ∧ Done tg val h0 h' (cs ++ (List.range (i + k)).map ρ)
  | 0, i, h, _, hd => ⟨h, rfl, hd⟩
  | k + 1, i, h, hk, hd => by
    obtain ⟨h1, e1, e2⟩ := scatter_ok hinjT hal hρ hcs 1 i h (by omega) hd
    obtain ⟨h', f1, f2⟩ := bScalar_ok hinjT hal hs1 hs2 hcs hnd hinj hρ hv k (i + 1) h1 (by omega) e2
    refine ⟨h', ?_, by rw [show i + (k + 1) = i + 1 + k by omega]; exact f2⟩
    rw [bScalar, src_get hs1 hcs hnd hinj hρ i i le_rfl (by omega) h hd, src_get hs2 hcs hnd hinj hρ i i le_rfl (by omega) h hd]
    dsimp only
    rw [List.range'_one, List.map_singleton, scatter, hv] at e1
    cases hw : h.write q.1 (q.2 + ↑i * t) (op (a (ρ i)) (b (ρ i))) with
    | none => rw [hw] at e1; cases e1
    | some h2 =>
      rw [hw] at e1
      simp only [scatter, Option.some.injEq] at e1
      rw [e1]; exact f1

/-- `BinaryLoop` is right, except with a fixed first operand and more than one round. -/
theorem binaryLoop_ok {p1 p2 : Ptr} {s1 s2 : Int} {a b : ι → V} {op : V → V → V} (hinjT : ∀ c c', P c → P c' → tg c = tg c' → c = c') (hal : ∀ c, P c → ∃ u, h0.get (tg c).1 (tg c).2 = some u)
    (hs1 : Src P tg h0 ρ n p1 s1 a) (hs2 : Src P tg h0 ρ n p2 s2 b) (hcs : ∀ c ∈ cs, P c) (hnd : ∀ j < n, ρ j ∉ cs) (hinj : ∀ i < n, ∀ j < n, ρ i = ρ j → i = j)
    (hρ : Row P tg ρ n q t) (hv : ∀ c, val c = op (a c) (b c))
    (L : Nat) (w : Int) (hpos : 0 < n) (hbug : s1 = 0 → s2 = w → t = w → s1 ≠ w → n < 2 * L ∨ L = 0) (h : Heap V) (hd : Done tg val h0 h cs) :
    ∃ h', binaryLoop L w op p1 s1 p2 s2 q t n h = some h' ∧ Done tg val h0 h' (cs ++ (List.range n).map ρ) := by
  have hle := Nat.div_mul_le_self n L
  have hd0 : Done tg val h0 h (cs ++ (List.range 0).map ρ) := by simpa using hd
  have main : ∃ h', (match bVector L op p1 s1 p2 s2 q t (n / L) 0 h with
      | none => none
      | some h' => bScalar op p1 s1 p2 s2 q t (n - n / L * L) (n / L * L) h') = some h' ∧ Done tg val h0 h' (cs ++ (List.range n).map ρ) := by
    obtain ⟨h1, e1, e2⟩ := bVector_ok hinjT hal hs1 hs2 hcs hnd hinj hρ hv L (n / L) 0 h (by omega) hd0
    rw [Nat.zero_add] at e2
    obtain ⟨h2, f1, f2⟩ := bScalar_ok hinjT hal hs1 hs2 hcs hnd hinj hρ hv (n - n / L * L) (n / L * L) h1 (by omega) e2
    exact ⟨h2, by rw [e1]; exact f1, by rw [show n / L * L + (n - n / L * L) = n by omega] at f2; exact f2⟩
  unfold binaryLoop
  split
  · next hw =>
    obtain ⟨rfl, h2, h3⟩ := hw
    rw [h2, h3] at main
    exact main
  · next hn1 =>
    split
    · next hw =>
      obtain ⟨rfl, rfl, rfl⟩ := hw
      have hg := src_get hs1 hcs hnd hinj hρ 0 0 le_rfl hpos h hd0
      simp only [mul_zero, add_zero] at hg
      rw [hg]
      dsimp only
      have hbv : ∀ j < n, a (ρ j) = a (ρ 0) := fun j hj => by
        have h1 := hs1.get j hj
        have h2 := hs1.get 0 hpos
        simp only [mul_zero, add_zero] at h1 h2
        exact Option.some.inj (h1.symm.trans h2)
      have hk : n / L = 0 ∨ n / L = 1 := by
        rcases hbug rfl rfl rfl (fun he => hn1 ⟨he, rfl, rfl⟩) with hb | rfl
        · have : n / L < 2 := Nat.div_lt_of_lt_mul (by omega)
          generalize n / L = m at this ⊢
          omega
        · simp
      rcases hk with hk | hk
      · rw [hk] at hle ⊢
        obtain ⟨h2, f1, f2⟩ := bScalar_ok hinjT hal hs1 hs2 hcs hnd hinj hρ hv n 0 h (by omega) hd0
        rw [bVectorLeft, Nat.zero_mul, Nat.sub_zero]
        exact ⟨h2, f1, by rw [Nat.zero_add] at f2; exact f2⟩
      · rw [hk] at hle ⊢
        rw [Nat.one_mul] at hle ⊢
        obtain ⟨h1, e1, e2⟩ := scatter_ok hinjT hal hρ hcs L 0 h (by omega) hd0
        rw [Nat.zero_add] at e2
        obtain ⟨h2, f1, f2⟩ := bScalar_ok hinjT hal hs1 hs2 hcs hnd hinj hρ hv (n - L) L h1 (by omega) e2
        refine ⟨h2, ?_, by rw [show L + (n - L) = n by omega] at f2; exact f2⟩
        rw [bVectorLeft, gather_ok hs2 hcs hnd hinj hρ 0 h hd0 L 0 le_rfl (by omega)]
        dsimp only
        rw [show List.zipWith op (List.replicate L (a (ρ 0))) ((List.range' 0 L).map fun j => b (ρ j)) = (List.range' 0 L).map fun j => val (ρ j) by
          rw [replicate_vals (fun j => a (ρ j)) (a (ρ 0)) L 0 fun j _ h2 => hbv j (by omega), zip_vals]
          exact List.map_congr_left fun j _ => (hv _).symm, e1]
        exact f1
    · split
      · next hw =>
        obtain ⟨rfl, rfl, rfl⟩ := hw
        have hg := src_get hs2 hcs hnd hinj hρ 0 0 le_rfl hpos h hd0
        simp only [mul_zero, add_zero] at hg
        rw [hg]
        dsimp only
        have hbv : ∀ j < n, b (ρ j) = b (ρ 0) := fun j hj => by
          have h1 := hs2.get j hj
          have h2 := hs2.get 0 hpos
          simp only [mul_zero, add_zero] at h1 h2
          exact Option.some.inj (h1.symm.trans h2)
        obtain ⟨h1, e1, e2⟩ := bVectorRight_ok hinjT hal hs1 hs2 hcs hnd hinj hρ hv (b (ρ 0)) hbv L (n / L) 0 h (by omega) hd0
        rw [Nat.zero_add] at e2
        obtain ⟨h2, f1, f2⟩ := bScalar_ok hinjT hal hs1 hs2 hcs hnd hinj hρ hv (n - n / L * L) (n / L * L) h1 (by omega) e2
        exact ⟨h2, by rw [e1]; exact f1, by rw [show n / L * L + (n - n / L * L) = n by omega] at f2; exact f2⟩
      · exact main

end

end Codon.Numpy
