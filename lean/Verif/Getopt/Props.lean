import Verif.Getopt.Lemmas

/-!
# C93: `getopt`
-/

namespace Codon.Getopt

/-! ### Declarations -/

/-- A short option is looked up as it was declared first; one that is not declared is refused. -/
theorem c93_short (D : Decls) (hD : D.Ok) (c : Char) : shortHasArg c D.shortopts = D.short c :=
  shortHasArg_eq hD.1 c

/-- A long option as written, without `=`, stands for the declared option of this name, or for the
only one that starts so; in all other cases it is refused. -/
theorem c93_long (D : Decls) (hD : D.Ok) (w : Str) (hw : '=' ∉ w) (b : Bool) (n : Str) :
    longHasArgs w D.longopts = some (b, n) ↔ Resolves D.longs w (n, b) :=
  longHasArgs_iff hw hD.2 b n

/-- `-v`, `-o file`; `--out=file`, `--outer`, `--verbose`. -/
def sample : Decls where
  shorts := [('v', false), ('o', true)]
  longs := [("out".toList, true), ("outer".toList, false), ("verbose".toList, false)]

theorem sample_ok : sample.Ok := by
  constructor <;> decide

example : sample.short 'o' = some true ∧ longHasArgs "ver".toList sample.longopts =
      some (false, "verbose".toList) ∧
    longHasArgs "out".toList sample.longopts = some (true, "out".toList) ∧
    longHasArgs "ou".toList sample.longopts = none := by decide +kernel

/-! ### Command lines -/

/-- `getopt` returns the options and the operands of a command line as Python's `gnu_getopt` does,
and raises `GetoptError` exactly if the line has no meaning; options end at the first operand if the
short options start with `+` or `POSIXLY_CORRECT` is set.  For all declarations and all lines without
an empty value after `=`. -/
theorem c93_getopt_partial (D : Decls) (hD : D.Ok) (plus env : Bool)
    (hp : plus = false → D.shortopts.head? ≠ some '+') (args : List Str) (hne : NoEmpty args)
    (os : List (Str × Str)) (ops : List Str) :
    getopt env args (if plus then '+' :: D.shortopts else D.shortopts) D.longopts = some (os, ops) ↔
      Line D (plus || env) args os ops := by
  have key : ∀ first, loop first D.shortopts D.longopts args.length [] [] args = some (os, ops) ↔
      Line D first args os ops := by
    intro first
    rw [loop_iff hD first _ args [] [] os ops le_rfl hne]
    constructor
    · rintro ⟨os', ops', rfl, rfl, h⟩; exact h
    · intro h; exact ⟨os, ops, rfl, rfl, h⟩
  cases plus
  · simp only [Bool.false_eq_true, if_false, Bool.false_or]
    unfold getopt
    rw [if_neg (hp rfl)]
    exact key env
  · simp only [if_true, Bool.true_or]
    unfold getopt
    rw [if_pos (List.head?_cons ..)]
    exact key true

/-- A line has one meaning at most. -/
theorem c93_unique (D : Decls) (hD : D.Ok) (first : Bool) (args : List Str) (hne : NoEmpty args)
    (os os' : List (Str × Str)) (ops ops' : List Str) (h : Line D first args os ops)
    (h' : Line D first args os' ops') : os = os' ∧ ops = ops' := by
  have h1 := (loop_iff hD first _ args [] [] os ops le_rfl hne).2 ⟨os, ops, rfl, rfl, h⟩
  have h2 := (loop_iff hD first _ args [] [] os' ops' le_rfl hne).2 ⟨os', ops', rfl, rfl, h'⟩
  rw [h1] at h2
  simpa using h2

/-- The options and operands of `-vo f a --ver --out=x b -- -v`. -/
example : getopt false (["-vo", "f", "a", "--ver", "--out=x", "b", "--", "-v"].map String.toList)
    sample.shortopts sample.longopts =
      some ([("-v".toList, []), ("-o".toList, "f".toList), ("--verbose".toList, []),
        ("--out".toList, "x".toList)], ["a", "b", "-v"].map String.toList) := by decide +kernel

/-- Lines with values after `=` meet the hypothesis. -/
example : NoEmpty (["-vo", "f", "--out=x"].map String.toList) := by
  intro w hw h
  simp only [List.map_cons, List.map_nil, List.mem_cons, List.not_mem_nil, or_false] at h
  rcases h with h | h | h
  · simp at h
  · simp at h
  · have e := congrArg List.getLast? h
    rw [List.getLast?_cons_cons, List.getLast?_cons] at e
    simp at e

/-- The same line with a `+`: everything from the first operand on is an operand. -/
example : getopt false (["-vo", "f", "a", "--ver"].map String.toList) ('+' :: sample.shortopts)
    sample.longopts = some ([("-v".toList, []), ("-o".toList, "f".toList)],
      ["a", "--ver"].map String.toList) := by decide +kernel

/-! ### Where it is not Python's -/

/-- Python's `getopt.getopt` ends the options at the first operand; here they go on, so that an
operand after it that looks like an option is taken for one. -/
theorem c93_violation_first_operand : ∃ args : List Str,
    Line sample true args [] args ∧
    getopt false args sample.shortopts sample.longopts = some ([("-v".toList, [])], ["a".toList]) :=
  ⟨["a".toList, "-v".toList], .operands (Or.inr (by decide)) rfl, by decide +kernel⟩

/-- `--out= x`: the value of `--out` is empty and `x` is an operand; but here `x` is the value. -/
theorem c93_violation_empty_value : ∃ (args : List Str) (x : Str),
    Line sample false args [("--out".toList, [])] [x] ∧
    getopt false args sample.shortopts sample.longopts = some ([("--out".toList, x)], []) :=
  ⟨["--out=".toList, "x".toList], "x".toList,
    .longEq (w := "out".toList) (n := "out".toList) (v := []) (by decide)
      (Or.inl ⟨rfl, by decide, by decide⟩) (.operand (Or.inr (by decide)) rfl .done),
    by decide +kernel⟩

/-- `--verbose=` has no meaning, as `--verbose` has no value; but here it is accepted. -/
theorem c93_violation_flag_value : ∃ args : List Str,
    (¬ ∃ os ops, Line sample false args os ops) ∧
    getopt false args sample.shortopts sample.longopts = some ([("--verbose".toList, [])], []) := by
  refine ⟨["--verbose=".toList], ?_, by decide +kernel⟩
  rintro ⟨os, ops, h⟩
  generalize ht : ["--verbose=".toList] = t at h
  have e0 : "--verbose=".toList = '-' :: '-' :: ("verbose".toList ++ '=' :: []) := by decide
  rw [e0] at ht
  have hv : '=' ∉ "verbose".toList := by decide
  generalize hw : "verbose".toList = w at ht hv
  cases h with
  | done => simp at ht
  | stop => simp at ht
  | longFlag _ h' => simp at ht; rw [← ht.1] at h'; simp at h'
  | longEq h' h'' _ =>
    simp only [List.cons.injEq, true_and] at ht
    have e := congrArg splitEq ht.1
    rw [splitEq_eq hv, splitEq_eq h'] at e
    simp only [Prod.mk.injEq] at e
    obtain ⟨rfl, rfl⟩ := e
    subst hw
    rcases h'' with ⟨_, h, _⟩ | ⟨h, _, _⟩
    · simp only [sample, List.mem_cons, Prod.mk.injEq, List.not_mem_nil] at h
      simp at h
      subst h
      rename_i h _
      revert h
      decide
    · exact h (by decide)
  | longSep => simp at ht
  | short _ h' => simp at ht; rw [← ht.1] at h'; simp at h'
  | operand h' => simp at ht; rw [← ht.1] at h'; rcases h' with h' | h' <;> simp at h'
  | operands h' => simp at ht; rw [← ht.1] at h'; rcases h' with h' | h' <;> simp at h'

end Codon.Getopt
