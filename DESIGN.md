# Lean model of Codon: design

## Method

The model is a set of small, total, executable Lean 4 functions, written function by function from the C++
(`/repo/codon`) and Codon (`/repo/stdlib`) sources.  Every definition cites the file and lines it models and names
its simplifications.  Properties are stated against a separate, small specification (a list, a finite map, a set, an
arithmetic progression, a path in a graph, a relational semantics), not against the helpers of the model.

* `Verif/<Area>/Model.lean` (or `…Model.lean`): the transcription of the code;
* `Verif/<Area>/Spec.lean`: the specification, where it is more than a line;
* `Verif/<Area>/Props.lean` (or `…Props.lean`): the theorems, named after the property ids (`c19_…`), each with a concrete non-trivial
  instance of its hypotheses (`example`);
* the other files hold lemmas.

Where the code makes a property *false*, the model keeps the code as it is; a theorem with `violation` in its name proves the negation on a
concrete witness, and a theorem with suffix `_partial` proves the property under the condition that excludes the defect.  All such
disagreements are listed under "Findings".

Undefined behaviour (access outside a buffer, C++ signed overflow, over-wide shifts, use of an uninitialised slot, access through no
object) is a separate outcome (`none`, `Out.ub`, an error constructor), never silently totalised.  Unbounded loops are modelled with a
termination proof, with fuel whose sufficiency is proved, or with a relational semantics.

## Trusted base

* Lean 4.33 kernel; the axioms `propext`, `Classical.choice`, `Quot.sound` only.  `AXIOMS.txt` lists them for each theorem (output of
  `#print axioms`).  No `sorry`, no own axioms, no `native_decide`, no `bv_decide`.
* Faithfulness of the hand transcription from C++/Codon to Lean (cited line by line).  The code was read, not run.
* What lies below the modelled code: LLVM and code generation other than the parts named below, the garbage collector and allocator
  (allocation succeeds), the C library (`memcmp`, `memchr`, `memmove`, … modelled by their specifications), the OpenMP runtime (`__kmpc_*`,
  modelled by its documented contract), clocks, floats (abstract, or avoided).
* Codon `int` is 64-bit wrapping.  Where wrap-around matters (folding, static evaluation, ranges, gcd, random, OpenMP) it is modelled with
  `BitVec 64` or explicit wrapping; in container and string code indices are unbounded `Nat`/`Int`, i.e. the theorems assume that lengths
  and capacities stay below 2^63 (stated in the comments of the definitions).

## What is modelled

| area | code | Lean |
|------|------|------|
| constant folding, algebraic rules | `cir/transform/folding/*`, `int.codon`, `pynumerics.codon` | `Arith`, `Fold` |
| canonicalisation | `cir/transform/cleanup/canonical.cpp` | `Canon` |
| dead code, side effects | `cir/transform/cleanup/dead_code.cpp`, `cir/analyze/module/side_effect.cpp` | `Dce` |
| CFG, reaching definitions, dominators, constant propagation | `cir/analyze/dataflow/*`, `folding/const_prop.cpp` | `Flow` |
| pass manager | `cir/transform/manager.*` | `PassMgr` |
| for-loop lowering | `cir/transform/lowering/imperative.cpp`, loops of `range`/`list` | `ForLow` |
| parallel loops | `cir/transform/parallel/openmp.cpp`, `openmp.codon` | `Omp` |
| dict update fusion | `cir/transform/pythonic/dict.cpp`, `dict.codon` | `KHash/FusionModel` |
| fusion of generators with `sum`, `any`, `all` | `cir/transform/pythonic/generator.cpp`, `builtin.codon` | `Gen` |
| resolution of local names | `parser/visitors/scoping/scoping.cpp`, name lookup of `typecheck/` | `Scope` |
| match, loop else, break/continue, unrolled tuple loops | `typecheck/{loops,cond}.cpp`, `special.cpp` (tuple loops) | `Ctl` |
| elision of array bounds checks | `cir/transform/numpy/indexing.cpp` | `Bounds` |
| optimised array expressions | `codon/cir/transform/numpy/{numpy,expr}.cpp`, `stdlib/numpy/fusion.codon` | `NpFuse` |
| pickling | `stdlib/pickle.codon`, `stdlib/internal/internal.codon:155-168`, `stdlib/numpy/npio.codon:2459-2492` (not: compression, Optional, union and function types) | `Pickle` |
| integers of any width | `stdlib/internal/types/intn.codon` (conversions, division, shifts, powers, bit counts) | `IntN` |
| files | `stdlib/internal/file.codon` (lines, reading, writing, positions) | `FileM` |
| forwarding of NumPy expressions | `codon/cir/transform/numpy/forward.cpp`, `numpy.cpp` (order of leaves, deletion of assignments) | `NpFwd` |
| NumPy selection | `stdlib/numpy/sorting.codon` (`partition`, `argpartition`, `_less`) | `NpSel` |
| NumPy sorting | `stdlib/numpy/sorting.codon` (timsort, radix sort, heap sort, `lexsort`) | `NpSort` |
| NumPy sorting along an axis | `stdlib/numpy/sorting.codon` (`sort`, `argsort`, `partition`) | `NpLine` |
| NumPy indexing | `stdlib/numpy/indexing.codon` | `NpIdx` |
| string methods | `stdlib/internal/str.codon` | `StrM` |
| string concatenation and print optimisation | `codon/cir/transform/pythonic/{str,io}.cpp` | `CatOpt` |
| with statements | `codon/parser/visitors/typecheck/error.cpp` | `WithM` |
| demotion of globals | `codon/cir/transform/cleanup/global_demote.cpp` | `Demote` |
| nsmallest, nlargest, merge | `stdlib/heapq.codon:131-324` | `HeapN` |
| integer literals, bin, oct, hex | `stdlib/internal/builtin.codon:308-351`, `378-462`, `runtime/lib.cpp:280-285` | `IntStr` |
| iterator builtins | `stdlib/internal/builtin.codon:61-143`, `175-229`, `types/generator.codon`, `llvisitor.cpp:2600-2656` | `Bltin` |
| function inlining | `Verif/Inl/Model.lean` | `codon/cir/util/inlining.cpp:17-128`, `cloning.cpp:64-72` |
| NumPy reductions | `Verif/NpRed/Model.lean` | `stdlib/numpy/reductions.codon:212-728, 1119-1683` (integers and other exact types, `out=None`, `keepdims=False`) |
| `pow`, `divmod`, `sum`, `factorial` of integers | `Verif/PowM/Model.lean` | `stdlib/internal/builtin.codon:164-166, 252-289, 356-374`, `types/int.codon:188-195`, `math.codon:21-47` |
| lowering of comprehensions and displays | `Verif/Compr/Model.lean` | `codon/parser/visitors/typecheck/collections.cpp:24-112, 159-320`, `codon/parser/ast/expr.cpp:285-334`, `codon/parser/ast/stmt.cpp:72-76` |
| calendar of NumPy's `datetime64` | `Verif/NpCal/Model.lean` | `stdlib/numpy/npdatetime.codon:48-123, 842-852, 1488-1497, 1708-1754, 1784-1988` |
| business days of NumPy | `Verif/NpBus/Model.lean` | `stdlib/numpy/npdatetime.codon:2621-2984` |
| command lines | `Verif/Getopt/Model.lean` | `stdlib/getopt.codon:52-146` |
| going through the matches of a regular expression | `Verif/Rx/Model.lean` | `stdlib/re.codon:375-454` |
| searches in sorted arrays | `Verif/NpSrch/Model.lean` | `numpy/routines.codon:3240-3377`, `numpy/interp.codon:9-63`, `numpy/statistics.codon:444-528` |
| templates of replacements | `Verif/RxT/Model.lean` | `stdlib/re.codon:199-303` |
| flat indices, bits and bytes | `Verif/NpBits/Model.lean` | `numpy/routines.codon:242-254, 3522-3655, 4458-4589`, `numpy/util.codon:283-329` |
| rearranging arrays | `Verif/NpRearr/Model.lean` | `numpy/routines.codon:1504-1519, 1578-1655, 1709-1783, 1964-2012, 2149-2179, 2209-2270` |
| `numpy.insert` | `Verif/NpIns/Model.lean` | `numpy/routines.codon:1866-1960` |
| `numpy.append` | `Verif/NpApp/Model.lean` | `numpy/routines.codon:1788-1864` |
| list addition fusion | `cir/transform/pythonic/list.cpp`, `list.codon` | `Fuse` |
| unification, generalisation | `parser/ast/types/*` | `Unify` |
| method resolution order | `parser/cache.cpp`, `typecheck/class.cpp` | `C3` |
| boolean operators, chains, conditions | `typecheck/op.cpp`, `cond.cpp`, `loops.cpp` | `Operator` |
| assignment, augmented assignment, unpacking | `typecheck/assign.cpp`, `peg/grammar.peg` | `Assign` |
| argument binding | `typecheck/typecheck.cpp` (`reorderNamedArgs`), `call.cpp` | `CallArgs` |
| static evaluation | `typecheck/op.cpp` | `StaticEval` |
| escapes | `parser/common.cpp`, `str.codon` | `Esc` |
| exceptions | `runtime/exc.cpp`, try statements of `cir/llvm/llvisitor.cpp` | `Exc` |
| hash tables | `khash.codon`, `dict.codon`, `set.codon` | `KHash` |
| sequences | `list.codon`, `slice.codon`, `range.codon`, `collections.codon` | `ListM`, `Slice`, `Deque`, `CounterM` |
| algorithms | `heapq.codon`, `bisect.codon`, `algorithms/*sort.codon`, `sortedlist.codon`, `itertools.codon` | `Heapq`, `Bisect`, `Sort`, `SortedList`, `Iter` |
| strings | `str.codon`, `algorithms/strings.codon`, `internal/str.codon` | `Str` |
| numbers, dates, random | `math.codon`, `datetime.codon`, `random.codon` | `MathM`, `Date`, `Random`, `Twister` |
| asyncio | `asyncio.codon`, event loop | `Async` |
| arrays | `numpy/ndarray.codon` (shape, strides, flat access, copies, reshaping, transposing, `_loop`, operators), `numpy/indexing.codon` (basic indexing), `numpy/util.codon` (coordinates, strides, broadcasting), `numpy/ufunc.codon` (universal functions of one and two operands, without `reduce` and its relatives), `runtime/numpy/loops.cpp` (vectorised loops; the lanes' arithmetic is a parameter) | `Numpy` |

Not modelled: the lexer and PEG grammar, most of the type checker (overload choice, realisation, class generation), LLVM code generation
apart from try statements and loops, Python interop, the GPU backend, most of `numpy` (linear algebra, random generators, the compiled quicksort of numbers, formatting), `re`, `statistics`, I/O, floats.

## Per property

* **C01** Integer constant folding agrees with run-time integer arithmetic (partial, 6 theorems).  Method: literal folding against run-time semantics on BitVec 64, case analysis on operators.  Agreement proved for every operator/mode/operands whenever the compile-time C++ operation is defined; exactly the overflowing cases are C++ UB (violation theorem). c01_fold_defined shows folding is defined whenever the mathematical result is representable.
* **C02** Algebraic identity folding preserves the outcome of the expression (partial, 5 theorems).  Method: rewriting rules on an effectful expression language; semantic equivalence by induction on expressions and on the rewriting.  All rules except x*0, 0*x, 0//x proved for arbitrary effectful operands and any rule order; with all rules proved for pure operands and C numerics. Violations: dropped side effects, dropped ZeroDivisionError.
* **C03** Canonicalisation of integer expressions preserves value (proved, 4 theorems).  Method: chain flattening, sorting, re-association, comparisons; value preservation by induction on trees, any ranking of variables.  int values and series of statements; rules in any order, any ranks, any valuation. Undefined behaviour and non-termination of pure operands are not told apart. Other types (float commutativity, IntN) not modelled.
* **C04** Dead-code elimination preserves behaviour (partial, 4 theorems).  Method: structured IR with relational big-step semantics; side-effect analysis sound; simulation in both directions.  c04_dce_partial: for every module, a terminating call has the same result, output and visible variables after the pass, and no other outcome. Assumes functions declared pure are pure, and that no generator object is resumed: a call that only drains a generator is erased (c04_violation_generator). Endless loops without effects are erased too (c04_violation_endless). Not modelled: InsertInstr (field assignment), pointers, pipelines, yield/await, plugin nodes.
* **C05** Reaching definitions over-approximate every execution path (proved, 4 theorems).  Method: work-list fixpoint on arbitrary graphs, word-array bit sets refined to sets; path induction.  Proved on arbitrary graphs, with termination, the precision direction, and the word-array bit sets. Whether the graph contains all executions is C08.
* **C06** Dominator sets are exact (partial, 6 theorems).  Method: fixpoint on arbitrary graphs; path induction.  Termination and soundness for all graphs; completeness needs every block but the entry to have a predecessor. The graphs of imperative for loops do not (the update block, cfg.cpp:262-265), and there dominators are missed: c06_violation_no_predecessors.
* **C07** Constant propagation replaces a variable read only by the value it has (proved, 1 theorems).  Method: constants from reaching definitions; path induction.  Proved for local variables on arbitrary graphs. Whether the graph contains all executions is C08. The tuple case (ExtractInstr) and global variables are not modelled.
* **C08** The control-flow graph contains every execution of a structured function body (partial, 9 theorems).  Method: the CFG builder against a structured execution relation; simulation by induction on executions.  Proved for bodies without the constructs of CfgViol (good): every execution is on a path of the graph built, and constant propagation is right for every execution. The full statement is false for the code: six concrete programs whose graph lacks an execution, each with a wrong constant.
* **C09** Cached analyses are never stale (proved, 6 theorems).  Method: pass manager as a state machine; invariant over all histories.  Pass manager modelled completely (registration, dependencies, running, invalidation, repetition). c09_current: on any history of registrations, runs and edits of the module, every analysis a pass asks for is cached and was computed after the last invalidation of it or of anything it depends on. c09_valid: the same in terms of right results when passes keep their contracts. c09_standard: for the standard list of passes the results are right whatever the passes do to the module, since nothing stays cached. c09_run_completes, c09_keys_distinct: running never gets stuck, keys never clash.
* **C10** Failed unification leaves no trace (proved, 3 theorems).  Method: store of links with an undo log; undoing restores the store exactly.  Proved for link, class, literal types with traits, levels and static kinds, also for undoing a success. Functions, unions, __NTuple__ and callable traits are outside the model. TypecheckVisitor::unify (infer.cpp:32-42) runs unify once more without undoing before it raises its error; that caller is not covered by the property.
* **C11** Successful unification makes the types equal and keeps the store acyclic (partial, 4 theorems).  Method: success makes both types equal in the resulting store, which stays acyclic; store invariants by induction on the run.  Proved when traits and hidden generics have no variables; both restrictions are needed: c11_violation_trait (the occurs check runs before the trait is unified) and c11_violation_hidden (it ignores hidden generics) tie a knot.
* **C12** Method resolution order is a C3 linearisation (proved, 3 theorems).  Method: merge loop refined to the declarative C3 linearisation.  mergeC3 and the way parseBaseClasses calls it, for dynamically inherited classes; class equality by canonical name. c12_merge: the result is exactly the C3 merge and the empty (error) result is returned iff no common order exists; c12_hierarchy lifts this to whole accepted hierarchies; c12_reject: a class is rejected iff no consistent order exists.
* **C13** Call arguments are bound to parameters following Python's rules (partial, 5 theorems).  Method: declarative binding specification of Python; agreement in both directions.  Proved for calls that are not partial and whose keywords are not the name of the *args parameter: an accepted call is bound exactly as in Python and Python reports no error; a reported error is one Python reports; no argument is lost. c13_violation_star_name: f(args=1) with def f(*args) is accepted and the argument silently dropped (slots[starArgIndex] = extra overwrites it). Partial calls (known flags, ellipsis) are in the model but outside the theorem.
* **C14** Compile-time integer expressions agree with the run-time ones (partial, 4 theorems).  Method: static evaluator against run-time evaluation, induction on expressions.  Proved for whole expressions (int/bool/str literals, short-circuit) wherever compile-time evaluation is defined; violations: host signed overflow, not of a string has int kind.
* **C15** Static slicing agrees with Python slicing (partial, 4 theorems).  Method: static slicing loop against the Python slice positions.  Proved for all lengths/bounds/steps with len+|step| < 2^63; beyond that the compiler's loop counter overflows (violation).
* **C16** String escaping is loss-free (partial, 3 theorems).  Method: round trip on byte lists, exact condition.  False in general (\x escapes are not padded: "\x01a" and "\x1a" print alike, c16_violation). Proved: unescape(escape s) = s exactly for the strings in which no byte of 0-6,14,15 is followed by a hex digit; escape is injective on those.
* **C17** Exception-table integers are decoded exactly (partial, 3 theorems).  Method: encoders as specification, decoders as model; exact condition for the round trip.  Exact characterisation of which encodings the readers decode correctly (at most five bytes and value below 2^31 for ULEB128; the signed analogue); c17_violation gives encodings that are decoded wrongly or shift out of range.
* **C18** The first matching except clause handles an exception (partial, 4 theorems).  Method: personality routine over all tables; emitted dispatch code of nested try statements against the first-match rule.  The personality function picks the first matching clause for every table (c18_first_clause, c18_personality, c18_no_table), and the emitted dispatch code of nested try statements takes an exception raised in a try body to the first matching clause after exactly the finally blocks in between (c18_routing). Missing: exceptions raised in except/else/finally parts; reading the code, one raised in a handler of a try with a finally part is dispatched with selector 0 in the enclosing try and so misses its typed clauses (see DESIGN.md).
* **C19** dict behaves as a finite map under every history (proved, 4 theorems).  Method: open addressing table with flags, resize in place; representation invariant and refinement to a finite map for all histories.  Every history, arbitrary hash function; refinement to a finite map incl. no out-of-bounds access and termination. Resource bound: the dict never holds more than 2^38 keys and resize never asks for more than 2^41 buckets (beyond that the allocation fails first).
* **C20** dict length and iteration are consistent with its contents (proved, 2 theorems).  Method: same model: iteration and size.  len, items, keys, popitem after every history (same resource bound as C19).
* **C21** set behaves as a finite set under every history (proved, 3 theorems).  Method: same for set.  Every history, arbitrary hash function (same resource bound as C19).
* **C22** Set algebra agrees with mathematical sets (partial, 14 theorems).  Method: set algebra over arbitrary table layouts.  All operations proved for arbitrary table layouts, also when discarding while iterating; symmetric_difference_update computes the difference only (violation theorem + partial). Not modelled: s |= s, which may resize the table it iterates over.
* **C23** list operations agree with Python sequences (partial, 8 theorems).  Method: buffer + length + capacity; refinement to lists for all histories.  Every history of calls agrees with Python and stays inside the buffer, for every content, capacity and index, except: remove of a missing element returns False instead of raising ValueError (violation theorem), and a[:] = a empties the list (violation theorem). Appending to a list while iterating over it is not modelled.
* **C24** Slice adjustment agrees with Python (proved, 3 theorems).  Method: slice adjustment against the positions Python defines.  Unbounded integers; enumeration by length and by range(start, stop, step) both equal Python's positions for every length/start/stop/step.
* **C25** range is the arithmetic progression it denotes (partial, 12 theorems).  Method: range operations against arithmetic progressions, unbounded and 64-bit.  All operations proved on unbounded integers. On 64-bit ints iteration is proved when the last increment does not overflow (c25_iter64_partial); otherwise the code loops forever (violation theorems).
* **C26** deque is a double-ended queue (partial, 9 theorems).  Method: ring buffer refined to lists for all histories.  All histories for unbounded deques (c26_unbounded, c26_from_iterable) and for every maxlen not of the form 2^k-1. For maxlen = 2^k-1 the code holds one element too many (c26_violation_maxlen); deepcopy drops maxlen.
* **C27** heapq maintains a heap and returns minima (proved, 8 theorems).  Method: sift functions; heap invariant + permutation.  All histories of heapify/heappush/heappop/heapreplace/heappushpop, any strict weak order; heap sort and max variants.
* **C28** bisect finds the insertion point (proved, 7 theorems).  Method: loop invariant of binary search.  All inputs, any strict weak order; lo/hi bounds included.
* **C29** Sorting returns an ordered permutation (proved, 4 theorems).  Method: insertion, heap, quick, pdq and tim sort: sortedness + permutation by loop invariants.  All five algorithms, list.sort/sorted with auto choice, key, reverse. Comparison assumed a strict weak order (excludes NaN).
* **C30** Default sort with a key is stable (partial, 5 theorems).  Method: stability as order of equal keys.  False for the default key sort: runs of equal keys are reversed (violation theorems). Proved: insertion sort stable, timsort stable without equal neighbours, merge step stable.
* **C31** str.find returns the first occurrence (proved, 5 theorems).  Method: vectorised search, masks bit by bit, against first occurrence.  find/index/count/in/partition of str over the 16-byte vector search (forward_find); the SIMD masks are modelled bit by bit. Strings are byte lists; lengths are unbounded integers.
* **C32** str.rfind returns the last occurrence (partial, 4 theorems).  Method: backward search against last occurrence.  rfind/rpartition proved when the pattern has at most one byte or the number of candidate positions mod 16 is at most 9; strings.codon:304 steps to i + 10 instead of i - 10, which misses occurrences and reads past the end (c32_violation, c32_oob_violation).
* **C33** str.split and join are inverse (partial, 7 theorems).  Method: cut positions; join inverse to split.  split, join and their inverse laws proved in full. rsplit only for separators where the corrected rfind window applies: strings.codon:304 has the typo j = i + 10, so rsplit with a multi-byte separator can miss cuts (c33_rsplit_violation); proved for the restricted case.
* **C34** str.replace replaces the leftmost non-overlapping occurrences (proved, 2 theorems).  Method: two-pass replace with exact buffer, against join of split.  replace equals new.join(split(old, maxcount)) for every non-empty pattern and interleaving for the empty one, including exact buffer sizes and the OverflowError condition.
* **C35** String comparison is the lexicographic total order (proved, 2 theorems).  Method: memcmp comparison against lexicographic order.  Comparison is the lexicographic order of the bytes.
* **C36** str prefix/suffix tests agree with slicing (partial, 5 theorems).  Method: prefix/suffix tests on clipped ranges.  Proved for non-negative start (or a valid negative start with non-negative end); other negative arguments read out of bounds or give wrong answers (violations).
* **C37** repr of a string round-trips (proved, 2 theorems).  Method: repr against the literal grammar.  repr is read back by the literal grammar and unescape, consuming exactly that text.
* **C38** Counter arithmetic agrees with multisets (partial, 24 theorems).  Method: multisets as finite maps.  & and &= keep keys absent from the right operand and == compares stored items (violations); all other operations incl. most_common proved.
* **C39** itertools combinatoric generators enumerate exactly the mathematical sets (partial, 10 theorems).  Method: generators as state machines, against lists of tuples in lexicographic order.  combinations, combinations_with_replacement, permutations and product (both overloads) proved for all pools and lengths when the arguments can be iterated repeatedly. Missing: product of generator arguments, where the literal overload with two or three arguments iterates a finished generator again (c39_product_violation).
* **C40** itertools stream functions satisfy their list specifications (partial, 22 theorems).  Method: generators as state machines over arbitrary input streams.  takewhile, dropwhile, filterfalse, compress, chain, starmap, accumulate, groupby (unique grouping into maximal runs), islice, zip_longest (all versions), count, cycle, repeat and tee (every schedule) meet their list specifications for all inputs. Two disagreements: islice(it, stop) takes one element too many out of the iterator (c40_islice_stop_violation), zip_longest without fillvalue ends at a row of None elements (c40_zip_longest_none_violation). Callbacks are pure; elements consumed after the end by the 4-argument islice are not modelled.
* **C41** SortedList keeps its contents sorted (proved, 3 theorems).  Method: list of lists refined to a sorted sequence for all histories.  SortedList modelled completely over sequences (the list class is C23, bisect is C28). Any load factor of at least 1, any strict weak order.
* **C42** Calendar arithmetic is a bijection (proved, 8 theorems).  Method: ordinals against the proleptic Gregorian calendar (successor relation).  Dates of the years 1-9999 and all integer ordinals; integers are mathematical (no 64-bit wrap), hashing and localtime not modelled.
* **C43** Date and datetime arithmetic is exact (partial, 21 theorems).  Method: packed fields, microsecond counts; exact arithmetic.  date/time/datetime/timedelta arithmetic proved exact; float arguments and timedelta/float, timedelta//timedelta (float division) not modelled; three violations recorded (constructor rounds integer arguments above 2^53, // int truncates, % overflows for divisors above 2^62).
* **C44** gcd and lcm are the greatest common divisor and least common multiple (partial, 5 theorems).  Method: binary gcd on 64-bit words against divisibility.  gcd and lcm meet the divisibility specification for all argument lists without -2**63 (gcd) and whose running lcm fits in 64 bits; the excluded inputs are shown to violate the claim by c44_violation_*.
* **C45** Random selection respects its range (partial, 13 theorems).  Method: arbitrary source of words; possible results characterised exactly.  Any source of 32-bit words. getrandbits, _randbelow, randrange, randint, choice, shuffle and sample return exactly the values they should (none other, each of them for some words). Missing because the code deviates: a stop of 0 counts as not given (randint(-5, -1) always raises, randrange(5, 0) returns a number), widths of 2**63 overflow, the number of values goes through a float for steps other than 1 (stop itself may be returned), getrandbits(64) may be negative. Not modelled: choices and the continuous distributions (floats).
* **C46** Saved generator state reproduces the stream (proved, 4 theorems).  Method: memory blocks refined to the recurrence.  Model of the Mersenne Twister (random.codon:9-161) on memory blocks; refinement of an array-free sequence specification for all programs over several generators; getrandbits seeding key; floats abstract. init_array's key pointer must have the stated length (only keys built by seed(int) or given as lists).
* **C47** Parallel loops execute each iteration exactly once (partial, 9 theorems).  Method: loop templates under the contract of the runtime; the iterations run are a permutation of the loop.  Every schedule (static, chunked, dynamic, collapsed nests of rectangular loops) runs exactly the iterations of the loop, for all bounds, steps, thread counts and runtime assignments meeting the stated contract of the OpenMP runtime. Missing: cases where the length or the next chunk overflows 64 bits and nests whose inner bounds depend on outer variables; c47_violation_* show the code is wrong there.
* **C48** The asyncio event loop runs callbacks in order (partial, 16 theorems).  Method: linked queue and timer heap; invariant over all histories of operations.  All histories of call_soon/call_later/cancel/stop/run/close/step: run order is a sublist of enqueue order, each at most once, payload as scheduled, cancelled handles and timers never run, timers by deadline, nothing left behind when idle, no undefined access. Violations recorded: stop loses the callback it dequeued; Handle.cancel after the run raises ValueError; a timer cancelled after it fired still runs; call_at takes absolute time as a delay; call_soon_threadsafe deadlocks. Task bookkeeping and futures not modelled.
* **C49** Lowering a for loop over a range or list keeps its iterations (proved, 3 theorems).  Method: relational semantics with divergence; simulation in both directions.  For every program of the modelled IR (nested loops, break/continue, exceptions, calls with arbitrary effects, other generators, non-termination) the lowered program has exactly the same behaviours. Parallel loops are the subject of C47; finally blocks are not in this IR.
* **C50** dict update fusion is equivalent to get-then-set (partial, 5 theorems).  Method: fused update against get + operator + set on the dict model.  Correct for a second operand that is quiet, and an operator that does not raise (get) / any operator (getitem). Violations: non-constant default, raising operator, second operand changing the dict.
* **C51** Whitespace splitting, stripping and line splitting lose nothing but the separators (proved, 5 theorems).  Method: whitespace cuts against specifications on byte lists.  Whitespace splits, strip family and splitlines against independent specifications.
* **C54** Generalising a type does not capture variables of an enclosing scope (partial, 1 theorems).  Method: levels of variables; generalisation keeps variables of enclosing functions.  Proved under the same restrictions as C11 (traits and hidden generics without variables); generalisation of function types and traits is not modelled.
* **C55** A comparison of class instances calls the method that was written (partial, 3 theorems).  Method: canonical comparison rule with user-defined methods.  Holds for classes with mirrored methods or operands in rank order; c55_violation_swap: the rule looks only at the method names, so a < b becomes b > a of a class whose methods are not mirror images.
* **C52** However a try statement is left, its finally part runs once (partial, 8 theorems).  Method: emitted code of try/finally against the structured rule.  Whole-function equality of the emitted blocks with the structured meaning for all statements in the class Good (stated in TryProps.lean): finally parts without try/return/outer break, handlers and else parts of a try-with-finally without return or try and, if that try is nested in the body of another, without uncaught exceptions. Outside that class the code is wrong: six witnessed violations (return in except/else skips finally; exception in a handler is lost or reaches unreachable; try in a finally swallows the pending exception; break in finally leaves a pending return; try in a handler skips finally). Coroutines are not modelled.
* **C53** Call arguments are evaluated once each, from left to right (partial, 5 theorems).  Method: evaluation of the reordered call against evaluation in written order.  Equality of the evaluation of the reordered call (state, values per parameter, exception) with evaluation in written order, for every call accepted by the model of reorderNamedArgs (hypotheses of C13), provided the arguments hasSideEffect calls harmless are harmless and stable. Violations: variables read late, also after saving; **record with fields out of order reads an unassigned temporary; yield. Partial calls and defaults not modelled.
* **C56** Types with a common instance unify, and no solution is lost (partial, 5 theorems).  Method: every solution of the links that equates the types survives a run, by induction on the run.  Every solution (assignment of closed types to variables satisfying all links, respecting static kinds) that equates the two types survives; failure implies there is none; with C57 success is guaranteed. Hypotheses: no traits, distinct numbers of variables. Two violations: static against runtime variable depends on the order; bare generics are refused. FuncType, UnionType, __NTuple__, callable traits not modelled.
* **C57** Unification always comes to an end (partial, 2 theorems).  Method: lexicographic measure: unbound variables in reach, then size of the followed types.  Termination for all acyclic stores without traits, well-formed class arities, hidden generics without variables; violation: the knot tied by a trait (C11) makes the next unification run forever. FuncType, UnionType, __NTuple__ not modelled.
* **C58** Boolean operators, comparison chains and conditional expressions mean what Python says, in any position (partial, 8 theorems).  Method: simulation between the rewritten expression (temporaries, flag for the expected type) and Python's evaluation, mutual induction over expressions, arguments and statements, fuel for calls.  Proved for expressions in which and/or are used for their truth value wherever a condition or chain surrounds them, in-tests have operands that commute, and chain operators return bools; otherwise false (c58_violation_*).
* **C59** Assignments evaluate each part once and store the result (partial, 15 theorems).  Method: execution of the rewritten statements against a direct semantics; the conditions name the effects under which they agree, each dropped condition has a counterexample.  Proved for name targets, for item and attribute targets whose parts have no effects visible to each other, and for chains of names; otherwise false (c59_violation_*).
* **C60** Unpacking assignments bind each target to its item (partial, 8 theorems).  Method: mutual induction over patterns: the emitted statements do what distributing the items does, under a frame condition on the right side.  Proved for all nested and starred patterns when the lengths fit, starred parts come from lists, and the targets do not change an identifier on the right side; otherwise false (c60_violation_*). c60_accepts: exactly the patterns with at most one star per level are accepted.
* **C61** Flat copies and views of arrays list the elements in the order asked for (partial, 15 theorems).  Method: induction over the dimensions: multirange lists the coordinates in order, contiguity means that the offset is the index, sorting by stride permutes the offsets.  All shapes and strides. Order F is proved for up to six dimensions or when no reordering is needed (fmultirange is wrong from seven on), iterating flat for at least one dimension; the rest is false (c61_violation_*).
* **C62** Copying and reshaping arrays keep the elements (partial, 10 theorems).  Method: the list of memory offsets in the chosen order is compared: groups of dimensions whose strides chain are one arithmetic progression, so splitting them otherwise gives the same list; loop invariants for grouping and copying.  All shapes, strides and orders for dimensions given as separate arguments; a tuple argument drops the order and K is accepted without dimensions (c62_violation_*).
* **C63** Indexing and transposing arrays give views of exactly the selected elements (partial, 10 theorems).  Method: the index expression with the ellipsis expanded selects the same coordinates (induction on the expression); then induction over the dimensions relates begin, step and length of each slice to the positions of Python's slice rules (shared with C13) and the address of the view to that of the array; permuting axes permutes the sum of products.  Proved for basic indexing (shape, addresses, every selected element once, all errors), transpose(), transpose with every axis, and swapaxes. Fails for transpose with one axis of several and for lists that repeat an axis in negative form (violation theorems).
* **C64** Operators on numpy arrays act element by element with broadcasting (partial, 10 theorems).  Method: `_loop` is modelled as the list of pointer tuples it visits (all special cases: contiguous, one dimension, two dimensions, general, loop reordering, allocation); the operators run their functor over that list on a heap in which access outside an allocation is a failure. Proved that the list visits every coordinate of the broadcast shape once, at the broadcast element of every operand, from which the operators follow..  Proved for all operators that give a new array, and for in-place operators whose operand broadcasts to the target and shares no memory with it at other coordinates. In-place operators with a target smaller than the broadcast shape, or with overlapping memory, fail (c64_violation_inplace_shape, c64_violation_overlap).
* **C65** Universal functions of numpy compute every element, honour where= and out= (partial, 15 theorems).  Method: The calls of universal functions with one and two operands are modelled down to the rounds of the vectorised loops in the runtime (gathering the lanes, applying, scattering, and the rest one by one), parameterised by the number of lanes; functions without such a loop run on the model of `_loop`. Proved by invariants on which elements are done, lifted from one row to all rows and to contiguous arrays, and from there to new arrays (every layout `empty_like` chooses puts the elements one behind the other) and to `out=` and `where=`..  Proved in full for new arrays from one operand, and for functions without a vectorised loop (any mask, any layout, out= not sharing memory with the operands at other places). Vectorised loops: proved for every number of lanes when nothing is stretched, or under the conditions of VecSafe. Five deviations are proved: a number as first operand of hypot/arctan2, one-element operands read beyond their end, out= with more rows than the operand, the second operand not checked against out=, where= ignored for numbers. reduce/accumulate/outer and functions with two results are not modelled; rounding and casts are inside the element function.
* **C66** Fusing the additions of lists does not change what a program does (partial, 6 theorems).  Method: The expression is a tree of additions over operands that are arbitrary computations on a state (a heap of lists and a world); it is run as written (`List.__add__`, `__getitem__`, list literals) and as the pass rebuilds it (set up, count, create, append), on the list objects of C23's model with blocks and capacities, so that a copy past the end is undefined behaviour. Proved equal by induction on the tree with the invariant that what an evaluated operand contributes stays the same until the end..  Proved for all trees of additions, operands, element types and states: fused code and written expression give the same result, capacity, state and exception, provided no operand changes what an earlier one contributes, slices have no zero step, and a slice without step does not end before it starts (c66_fused_as_written_partial). Without the first condition the fused list holds what the operands contribute at the end and fills its capacity exactly (c66_fused_elements_partial). The three conditions are needed: violations with concrete programs, and undefined behaviour for every descending slice. Intermediate lists are values (addresses of temporaries are not observable).
* **C67** Fusing a generator with sum, any or all does not change what a program does (partial, 7 theorems).  Method: Bodies are structured statements over an arbitrary state, executed by a small-step machine with a stack of enclosing constructs, so that a generator can be suspended inside loops and `try` statements; a consumer drives it item by item. The fused body is the transformed statement run by the same machine. Proved by a simulation that maps every stack of the generator, with the current accumulator, to the stack of the fused function, with an invariant that says which pending code may still yield or return; both directions, so divergence is covered..  Proved for all bodies, states, items and consumers with effects, in both directions (so also for runs that do not end): sum under the condition that no return stands in a try block whose finally block yields, and no yield in a try block if the addition may raise; any/all under the condition that no yield stands in a try-finally block, and in no try block if the truth value may raise. Bodies without try need no condition (c67_without_try). Each condition is needed: three violations. Not modelled: yield as an expression (the pass gives up), final yields of coroutines, parallel loops.
* **C68** Every occurrence of a local name denotes the variable that Python says it does (partial, 7 theorems).  Method: Bodies are statements with labelled occurrences. The visitor is modelled for one name at a time with its list of items, its attributes and its per-loop sets; the type checker's context turns the result into code over variables (parameter, assignment, suite declaration) and control variables; both the compiled and the Python function are executed by fuel-indexed evaluators. Proof: the item list is abstracted to groups of bindings with one leader, every visitor operation to one of three steps; invariants of the steps give which leader each occurrence ends up with in the final state of the visitor; a simulation in lock-step carries, for each name, the binding executed last, through all statements including loops (whose later iterations meet items that were entered later in the text). A purely textual criterion for rejection and one for full agreement are proved separately..  Partial. c68_accept: a function is accepted exactly if no bound name is read, in text order, before its first binding. c68_follow_partial: for all bodies, arguments and run lengths the compiled function prints and ends like the Python function, or raises NameError for a name whose variable is declared inside a loop after printing an initial part of Python's output; c68_defined_partial: it never reads an unset variable; c68_same_partial: full agreement if every name first bound inside a loop is first bound directly in the loop's body or as a for variable. Missing: agreement in the other loops (false: c68_loop_violation), functions rejected though valid (c68_reject_violation), assignments inside expressions (c68_walrus_violation); nested functions, classes, global/nonlocal, del, with, match, comprehensions, else and finally are not modelled.
* **C69** match, break, continue and the else of loops do what they do in Python (partial, 10 theorems).  Method: Statements are trees over state transformers. The lowering is modelled with its context (break variable of the last loop, last static loop), the counter of temporaries, the done flag of break statements and the second pass that a loop with an else goes through; the copies of suites made for alternatives of patterns are visited one by one. The specification executes the statements directly (patterns give bindings or fail). Proof: the code of a pattern is a function of the effect of its suite; three lemmas on that function (fails, succeeds once, is inert); a simulation by induction over statements relates outcomes and every live flag; loops by induction on the number of iterations..  Proved for all statements in which no case contains a break or continue for a loop around the match, no else of a loop contains a break for an outer loop that has an else itself, unrolled loops have no else and do not assign the tuple variable they iterate, and a guard follows an or-pattern only if it is pure and the pattern captures nothing (c69_same_partial: same final state and outcome as direct execution, with the liberty Python gives to names of failed patterns; c69_defined_partial: never stuck). Each excluded form is shown to be wrong by a c69_*_violation theorem. c69_reject_partial: accepted statements have no jump outside a loop.
* **C70** An array access whose bounds check the compiler removes is in range (partial, 12 theorems).  Method: The pass is modelled function by function: terms, adding them up, the comparison, the replacement of the loop variable, parsing, the checks of reaching definitions, aliases. The reaching definition analysis is a parameter; its answers are only assumed right for the execution in question. Executions are traces of assignments and reads with values; the specification has 64 bit arithmetic and the counter of the loop. Proof: the value of a term list under an assignment of variables and lengths, kept by all operations; variables that passed the checks have the same value at the bounds and at the access (an assignment in the loop that reached the access would have reached the bounds in the first run, too); then linear arithmetic..  Proved for every execution: if the check is removed, the index rises with the loop variable, the length coefficients are as they should be (at the lowest index no length is subtracted, at the highest at most the length of the array itself is added once), bounds and counter do not overflow, size is only used of arrays with one axis and copies of the loop variable are made in the same round, then the access is in range and does the same with and without check. Without each of these hypotheses it is false: ten violations. The reaching definition analysis is a parameter.
* **C71** Optimising NumPy expressions does not change their values (partial, 6 theorems).  Method: Memory-level model built on that of C64 and C65: heap with blocks, arrays as views, freeing a block makes later accesses undefined. The generated code is modelled as functions that do what it does (`seq`, `fused`, `pass`, `rounds`, `evalLeaves`). Specification: an inductive relation `Means` from trees of leaves to shape and element function. Proof: broadcasting is associative on the level of shapes and places, so the flat loop over all leaves has the meaning of the tree; invariant for sequential evaluation with blocks owned by temporaries, disjoint from those of other leaves; each round keeps the meaning; the loop ends since nodes get fewer..  For every choice of nodes to fuse, expressions whose leaves have no effects and are numbers or arrays with at least one element: same result as unoptimised, all existing arrays unchanged, ValueError exactly when shapes do not broadcast, no undefined behaviour; the loop of the pass ends. Missing: leaves with effects, empty arrays, and vectorised functions of two operands, where the property fails (violations proved); matrix products and transposition.
* **C72** Pickling and unpickling gives back an equal value (partial, 11 theorems).  Method: A file is a list of bytes with room left; a type is given by `pickle`, `unpickle` and, if it has no pointers, its image in memory (size, alignment, padding with arbitrary contents). Combinators for numbers, strings, lists, tuples, classes, dictionaries and sets over the hash table model of C12. Specification `Works`: for every value and position there are bytes that writing appends, that reading consumes giving an equal value, and of which no proper prefix is accepted. Each combinator preserves `Works`; tables reloaded as raw memory keep the table invariant since it depends only on live slots. Arrays over the memory model of C61..  Proved for numbers of any width, strings, lists, tuples, classes, dictionaries and sets, nested in any way, including exact consumption, full files and truncated files (c72_number, c72_str, c72_list, c72_tuple, c72_dict, c72_set, c72_dump_load, c72_two). Tables have at most 2^41 slots and 2^38 items. For arrays c72_array_partial needs: elements without pointers are contiguous or written as they lie in memory; elements with pointers are not in column-major order. Otherwise the property is violated (c72_violation_fortran, c72_violation_padding). Missing: Optional and union types, shared and cyclic references (the code duplicates the former and does not end for the latter), compression.
* **C73** Integers of any width behave as numbers modulo a power of two (partial, 20 theorems).  Method: Both types are bit vectors of width N; LLVM instructions are the bit vector operations with undefined behaviour (division by zero, overflow of division, shifts by N or more) as a separate outcome. Specification over the integers with `Int.bmod`, `Int.fdiv`, `Int.fmod`, powers and powers of two. The loop of `**` has an invariant; the other theorems are arithmetic for symbolic N..  Proved for every width: conversions to Int[N] from Int[M], to UInt[N] from both, int(), strings of digits with an optional minus, divmod (signed and unsigned) wherever it is defined, shifts by less than N, powers for N >= 2 (negative exponents give 0 as the code does, Python gives a float), popcnt for N >= 3, bit_length for all N. Missing: Int[N] of a wider-than-fits unsigned number is sign extended (c73_violation_sext; c73_int_of_uint_partial covers the rest), popcnt for N < 3 and pow for N = 1 (violations), empty strings (c73_violation_parse).
* **C74** Reading a file gives its contents, line by line (partial, 15 theorems).  Method: Streams are lists of bytes that end or fail; `gzgets`, `getline`, `BZ2_bzread`, `fread`, `fwrite`, `fseek` follow their documentation, the buffer is a list of bytes with checked accesses and arbitrary initial contents. Specification `IsLines` (shown to determine the division uniquely). Invariant of the loops of `_getline`: the buffer starts with the part of the line read so far and has room for at least one byte and the terminator..  File and bzFile: lines, trimmed lines and read() for all contents; errors of bzFile; read(n), write, seek, pieces. gzFile: for contents without zero bytes and lines below half a gigabyte (c74_gz_partial, c74_gz_error_partial; c74_violation_zero, c74_violation_before). File.read() for files that can be positioned (c74_violation_pipe, c74_violation_behind). A loop over File misses read errors (c74_violation_error). Write errors and opening of files are not modelled.
* **C75** Forwarding a NumPy expression to its only use changes nothing else (partial, 7 theorems).  Method: Functions are control flow graphs over an environment and a memory of arrays (named by the statement that makes them); the decision (search of paths, check of every value on them) and the transformation (replacement of the leaf, leaves added at the end, deletion of the assignment) are executable. Simulation between the original and the rewritten function: states agree except for the variable and its arrays; statements that the check lets pass leave the variables of the expression and existing arrays as they are. Violations by running concrete functions..  Proved for a single forwarding within a block, with variables and numbers as leaves (any function, any other statements). False in general: nothing is checked if the use is in another block, chains of forwardings are checked with the wrong variables, and calls among the leaves of the destination are moved before the forwarded expression. canForwardVariable (reaching definitions, C05) is a hypothesis: the other statements have nothing to do with the variable.
* **C76** np.partition puts the elements asked for in their sorted places (partial, 4 theorems).  Method: Lines are lists with checked accesses, every function of the selection is executable (fuel for the loops, shown sufficient). Invariant of the main loop: the array is cut at both bounds, the position lies between them or is in its place already, all stored pivots are in their places and ascend. The unguarded searches stop because the choice of the pivot leaves a sentinel (for the median of medians: two elements of the part are not less than the pivot, by counting). The position's element is then the one of any sorted rearrangement, by counting. `_less` is shown to be a strict weak order..  Proved for every strict weak order, line and list of positions: selection on every path (short search, largest float, median of three, median of medians, kept pivots) ends without an access outside the line, the result is a rearrangement, every position asked for holds the element that sorting puts there; argpartition likewise; out-of-range positions raise; _less is a strict weak order on floats with NaN and complex numbers. The walk over the lines of partition is covered by C78. Missing: the walk of argpartition, the sorting of the positions (any ascending rearrangement is allowed).
* **C77** np.sort(kind='stable'), argsort and lexsort are stable sorts; heapsort sorts (partial, 11 theorems).  Method: Arrays are lists with checked accesses; all loops are executable with fuel shown sufficient. The merge of two neighbouring runs, trimmed by the galloping searches, is the stable merge of the runs. Stack invariant: run lengths satisfy Fibonacci-like bounds, so a stack of 128 entries holds all runs of an array below 2^63 elements. Radix sort: each pass is the stable sort by one byte, the skipped columns hold one value only; composing the passes gives the stable sort by the key. The stable sort is unique, and stable sorts compose lexicographically (lexsort)..  Missing: integers whose width is not a whole number of bytes, the default kind for the numbers that the compiled C++ library sorts (other types: c77_quicksort_partial), mergesort0 (not reachable from the API). Lines of multi-dimensional arrays: C78. The versions on indices (atimsort, aradixsort, aheapsort, aquicksort) are the same code with one indirection and are modelled as the sort of indices by the order of the values. Violated for byte: c77_byte_violation.
* **C78** Sorting and partitioning an array works on each line along the axis, and on nothing else (partial, 7 theorems).  Method: The heap model of C61-C65 (blocks, byte offsets, undefined accesses) with the loops of `_sort_compact`, `_sort_buffered`, `_asort` and the choice between them. A line is read, given to the sorter, written back; by induction over the coordinates on the other axes every line is replaced by the sorter's result and all other memory is unchanged (lines of an array with distinct addresses are disjoint). Composed with the copy of C62, the flattening of C61, the sorters of C77 and the selection of C76..  Missing: the default kind for the numbers sorted by the compiled C++ library (its function is a parameter of c78_line_by_line), argpartition and lexsort on several dimensions, and arguments that are not arrays (asarray). Sorting in place assumes that different elements lie at different places.
* **C79** Indexing with assignment, masks and index arrays selects exactly the elements NumPy selects (partial, 18 theorems).  Method: The heap model of C61-C65 with the loops of `indexing.codon` as sequences of loads and stores; a general lemma about sequences of stores (each value is not disturbed by the earlier stores, the last store to a place wins). For slices: the view of C63. For masks: counting and walking in memory order or coordinate order give the same list of places. For index arrays: elimination of integers and `None` is composed with the view of C63 by induction over the index, the two loops are shown to run through the coordinates of the broadcast shape and of the slices in row-major order, and the place of the axes is computed from the positions of the arrays..  Model: Verif/NpIdx/Model.lean (assignment through integers, slices, None, ...; masks of the array's shape; index arrays mixed with everything but ...). Assignment of numbers, reading through masks and the errors are proved in full; assignment of arrays, masks with array items and index arrays under the conditions named in the theorems. Not so in Codon: overlapping right sides (two violations), strided items of masks, an integer apart from adjacent index arrays, and IndexError after partial stores (violations). Missing: masks of fewer dimensions or inside tuples, index values out of range in general.
* **C80** String indexing, slicing, repetition, case changes, padding, expandtabs and translate do what Python's do (partial, 23 theorems).  Method: Each method as a loop over the bytes with a buffer of a computed capacity (writing past it, or returning it before it is full, is undefined). The loops are shown to produce a plain list function; the list functions are shown to meet declarative specifications (position by position for the case changes, an inductive relation with columns for `expandtabs`, the positions of C24 for slices). Facts about single bytes are decided for all 256..  Proved for all inputs: indexing, slicing, the kinds of characters, islower/isupper/istitle/isidentifier, the case changes, ljust/rjust/zfill, expandtabs (including exactly when it raises OverflowError) and translate. Part: repetition for counts that are not negative and results below 2^63 bytes; center up to the side of the odd fill character; isspace and isprintable for text without the control characters 28-31 and 127. The C functions on bytes are taken as those of the C locale; bytes above 127 are not letters (Python, for which they are parts of code points, would look at the code points). The violations are proved.
* **C81** The optimisations of string concatenation do not change what a program does (partial, 10 theorems).  Method: IR values with calls of the functions involved and arbitrary other leaves and functions (any function of the world), an evaluator with exceptions and left-to-right arguments, and the two passes on that syntax. The list of operands collected by `inspect` is shown, by induction on the expression, to evaluate like the expression; rewriting steps are then closed under contexts and iterated..  Sums of strings, prints and writes of str.cat of strings are proved equivalent, alone and for any number of rewritings anywhere in a program. The code violates the claim for separators with effects, str.cat of an iterable, user-defined __add__ on strings, and the empty str.cat on a closed file (violations). Input/output errors other than closed files, and the interleaving of output with other threads, are not modelled.
* **C82** A with statement enters its managers in order and leaves each of them once, as in Python (partial, 8 theorems).  Method: The lowering as a function to a small statement language (assignment, calls, sequence, try/finally, the suite), with the program around it an arbitrary state transformer that may raise or diverge. The lowered program is compared with the expansion of the Python language reference by induction on the items; a second theorem shows that any quantity raised by `__enter__` and lowered by `__exit__` is unchanged by the statement..  Equal to Python's expansion for managers whose __enter__ returns the object itself and whose __exit__ does not swallow exceptions, with distinct targets that the suite does not assign; balanced entering and leaving is proved without these conditions. The code violates the claim otherwise (five violations). await in async with and the meaning of try/finally (C52) are not part of this model.
* **C83** Making global variables local does not change what the program does (partial, 5 theorems).  Method: A language of functions with assignments, output, calls, branches, loops and returns, executed with a depth bound; unset variables are an outcome of their own. The scan for owners is shown to find exactly the variables mentioned in one function. A simulation relates the global of the old program to the local of the new one while its function runs; functions that cannot reach the owner leave it alone..  Which variables are made local is proved exactly; equivalence is proved for variables of main and for variables of non-recursive functions that assign before they read. Otherwise the code violates the claim (two violations). Exceptions, generators, pointers to variables and calls through function values are not in the language modelled.
* **C84** nsmallest, nlargest and merge give parts of the stable sort (partial, 7 theorems).  Method: Models of the four branches of nsmallest and nlargest (as one code over the shape of the tuples), of _MergeItem.__lt__ and of merge's two loops, on top of the heap model of C27 and the sort model of C29. Invariant: the heap holds, up to order, the first n entries of the insertion sort of what was read; for merge: the streams in their order, the least head first. nlargest is reduced to nsmallest for the opposite order. `==` not matching `<` is shown to break it..  All of nsmallest, nlargest and merge is modelled and equals the stable sort when == is the equivalence of < (c84_*_partial, for every n, key and number of inputs). Missing: == that does not belong to < (c84_violation_eq), orders that are not strict weak (floats with NaN), keyed elements whose own < is no strict weak order, generators that have already finished, key functions with side effects (called several times per element).
* **C85** int(s, base) reads Python's literals, and bin/oct/hex print them (partial, 10 theorems).  Method: Model of _from_str (base detection, prefix, check_digit with its fixed index 3), of what seq_int_from_str gets from fast_float's from_chars, and of _int_format writing into a fresh block; an access outside the bytes is a distinct outcome. Specification: an inductive grammar of literals with positional value. Proved: agreement for every text outside four named kinds, the prints, their uniqueness, the round trip; the four kinds and non-termination with Python numerics are violations..  Missing: unsigned prefixed literals whose third character is not a digit or that have one digit only, the prefixed smallest integer, unprefixed zero with base 0 (each shown to be wrong); underscores and non-ASCII digits are not in the grammar. fast_float's from_chars is taken by its documentation.
* **C86** zip, map, filter, enumerate, any, all, next, min and max consume iterators as Python's do (partial, 17 theorems).  Method: A world of generators (source by position, position, state suspended/finished/freed); resuming a finished or freed one, or freeing twice, is undefined behaviour. The functions are modelled on it as they are written; zip is compared with a model of Python's zip by simulation for any number of items, the others by exact statements about result, position and state. The same generator twice, a second use after the end and NaN are violations..  Missing: the same generator given to zip twice, what is left of the iterators after zip's end, asking a generator again after its end, NaN with two arguments (each shown to be wrong). Functions called on items have no effects in the model; map over several iterables is zip followed by map.
* **C87** Inlining a call does not change what a program does (partial, 8 theorems).  Method: Verif/Inl: a small IR with an interpreter (a step count that can run out; reading an unset variable is an outcome of its own), the model of the cloning, of the check for returns in the tail, of the replacement of returns and of the flow that is built; a simulation between the body in its own frame and the replaced body in the store of the caller, forwards for results and backwards for ending..  Proved for all bodies, arguments, states and primitives: the inlined flow does what the call does and ends only if the call does, provided the arguments do not read parameters of the function (the call is not inside it), a function with a value does not reach its end without return, values of returns in functions that return None have no effects, and no finally part contains a return. Each of the first three restrictions is needed: see the violations. Yield, await, nested functions and the realisation of types are not modelled; loops keep their number when cloned.
* **C88** NumPy reductions reduce exactly the elements that belong to each element of the result (partial, 14 theorems).  Method: Verif/NpRed: the reducers as records of their methods and _reduce, _reduce_all and the gradual path as functions on the heaps of the operand, the mask and the result; the spec names, for a coordinate of the result, the coordinates of the operand that share it. Each loop is shown to visit a permutation of these, and each reducer to be right for every list of elements (and every way of cutting it into lines), independent of the order except for argmin and argmax..  Proved for exact element types (commutative monoid for sum and prod, linear order for min, max, ptp, argmin, argmax), out=None, keepdims=False, the mask already broadcast. Missing: argmin and argmax without axis on arrays that are gone through in memory order (false, c88_violation_order); min, max, argmin, argmax with an axis on arrays without elements (false, c88_violation_empty); floats (pairwise sums, NaN: c88_violation_nan), mean, std, var, median.
* **C89** pow, divmod, sum and factorial of integers are exact (partial, 12 theorems).  Method: Verif/PowM: the loop of pow on 64-bit words with undefined remainders as an outcome of their own; induction over the rounds with the invariant that the remainder of result * base ** exp does not change, for both kinds of remainder; the remaining functions by induction over lists and from the division lemmas of C01..  Proved: pow with two arguments, sum, factorial, the errors, divmod except by zero and for divmod(-2**63, -1), pow with a modulus of at most 3037000500 in absolute value. Missing: greater moduli and the least integer modulo -1 (false, c89_violation_mod, c89_violation_least), negative exponents with a modulus (c89_violation_inverse), sums of floats.
* **C90** Comprehensions and displays build what Python's do (partial, 5 theorems).  Method: Verif/Compr: the rewriting as functions on statements, an interpreter with bounded loops for the result over opaque expressions with effects and exceptions, and a relational meaning of comprehensions and displays without bounds; the two agree in both directions, by induction over the derivation and over the clauses and the bound..  Proved for every nesting of clauses and every display, with effects, exceptions and endless iterables. Missing: a list comprehension with a single for over something with __len__ calls __len__ first, so there the theorem needs __len__ to have no effect and not to raise (violation witness). Expressions are opaque; tuple and lazy generator expressions and the choice of the element type are not in this model.
* **C91** NumPy's datetime64 counts the days and times of the Gregorian calendar (partial, 12 theorems).  Method: Verif/NpCal: the functions on integers with the kind of division as a parameter; the number of a date is given as an inductive relation that steps from day to day; linear arithmetic for the four cycles of the calendar, a shift by 400 years to reuse the order lemmas of C42, induction over the integers for the steps..  Proved for all integers, dates, units and multiples with the default integer division; set_days and reading a value also for -numerics=py. Missing: with -numerics=py dates before 1970 get wrong numbers (violation witness). Integers are unbounded in the model: fs and as values are required to fit 64 bits, and nothing is said about computations that overflow.
* **C92** NumPy's business day functions agree with the definition of a business day (partial, 15 theorems).  Method: Verif/NpBus: the functions with the bounded loops of the code; the searches are characterised by the number of holidays before a date; the loops by the next business day, which exists because the holidays are finite; whole weeks by periodicity and counting; the sort is the timsort of C29; strings by a grammar..  Proved for all weekmasks of seven days, all holiday lists without NaT, all dates, offsets and rolls, with integers without bound. Violated if a NaT is among the holidays. The modified rolls compare the number of the month and not the year, as in NumPy. Not covered: overflow at the ends of the 64-bit range, weekmasks given as lists, broadcasting over arrays (C64).
* **C93** getopt reads every command line as Python does (partial, 7 theorems).  Method: Verif/Getopt: the five functions on lists of characters; the meaning of a line is an inductive relation over declarations; both directions by induction over the rounds of the loop..  Proved, in both directions, for all declarations and all lines without an empty value after =, against the meaning of Python's gnu_getopt. Violated: options after the first operand are options (unlike Python's getopt.getopt), an empty value after = is taken for a missing one. Error messages are not modelled.
* **C94** re goes through the matches of a pattern as Python does (partial, 10 theorems).  Method: Verif/Rx: the generator and the loop of _split over an abstract matcher that lists the ends of matches at each position by preference; Python's scanner as an inductive relation; induction over the rounds..  Proved for all patterns, with the matcher (RE2) as an arbitrary function: order, no overlap, termination, and what sub and split do with the matches. That the matches are Python's is proved for patterns whose empty matches are steady (none, or at every place without a longer one); violated otherwise: an empty match found twice, a longer match passed over. Not modelled: RE2 itself, templates of replacements, groups.
* **C95** Searches in sorted arrays find the place of every key (partial, 14 theorems).  Method: Modelled: `Verif/NpSrch/Model.lean`, the bisections as fuelled loops in which a read outside the array is an outcome of its own. Specification: `Place`, `Bin`, `Between` (`Spec.lean`), in terms of the elements before and after an index. Proved: each search finds the place if it lies between the bounds, places are monotone in the keys, hence the bounds kept from the last key are good ones. Deviation: `bincount` of an empty array has one place..  searchsorted with and without sorter, one key or many, digitize and the search of interp are proved over any strict weak order (NaN and keys of another type than the elements are outside the model); bincount without weights is proved for non-empty arrays, the empty array deviates from NumPy.
* **C96** Templates of replacements expand to what they say (partial, 7 theorems).  Method: Modelled: `Verif/RxT/Model.lean`, `_split`, `_unescape` and `expand` over lists of characters. Specification: a template is a list of parts (`Tok`, `Good`) with a way of writing and a value each (`Spec.lean`). Proved: writing any good list of parts and expanding gives the values in order, or `IndexError`; letters without meaning are errors. Deviations: four octal digits, escaped quotes, a backslash at the end, octal numbers above 0o377..  Proved for all templates made of the parts that Python's documentation knows, except where an octal number is followed by an octal digit, for escaped quotes, for a backslash at the end and for octal numbers of 256 and more, where the code deviates. A missing group is IndexError for numbers too, where Python raises re.error. Strings are bytes.
* **C97** Flat and multi-dimensional indices, and bits and bytes, go over into each other (proved, 12 theorems).  Method: Modelled: `Verif/NpBits/Model.lean`, the loops over axes, bits and bytes. Specification: the rank of a position, the byte with given bits (`Spec.lean`). Proved: values, refusals and both round trips, by induction over the axes and over chunks of eight..  One index at a time and the flattened array for bits; integers are unbounded in the model, the statement is for shapes whose size fits.
* **C98** Rolling, splitting, resizing, repeating and deleting elements of arrays (proved, 11 theorems).  Method: Modelled: `Verif/NpRearr/Model.lean`, the division of C and its correction, the writes of `roll` into a new array, the loops of the others. Specification: the elements whose numbers satisfy a condition, the place an index means (`Spec.lean`). Proved: values and refusals, by induction over elements, sections and rounds..  arrays of one axis; delete with a slice is not part of the statement
* **C99** numpy.insert puts each value before the place its index means (partial, 6 theorems).  Method: Modelled: `Verif/NpIns/Model.lean`, the two checks, the sorted pairs of index and rank, and the loop over the new array. Specification: before each element, the values whose indices mean its place (`Spec.lean`). Proved: the result for one value or as many values as indices, and the refusals, by induction over the places of the new array; the sort keeps those of the same index in order. The part on other numbers of values is refuted..  other numbers of values than one or that of the indices are refuted; arrays of one axis
* **C100** numpy.append gives the elements of both operands (partial, 6 theorems).  Method: Modelled: `Verif/NpApp/Model.lean`, the bytes of the new array, which have no values at first, the copies as a whole and the loops that convert. Specification: the bytes of the converted elements one after the other (`Spec.lean`). Proved: the result where the offsets fit, by induction over the elements; the remaining combinations are refuted..  operands where the copy as a whole and the loops disagree on offsets are refuted; arrays of one axis

## Findings: where the code disagrees with the property

Proved by a `violation` theorem unless marked "(read)", which means: seen in the code, not in the model.

* **C01** Folding computes in host `int64_t`: `2**63-1 + 1` as literals is C++ signed overflow.
* **C02** `f()*0 → 0`, `0*f()`, `0//f() → 0` drop the effects of `f()`; `0//0` folds to 0 instead of raising.
* **C04** A call that only drains a generator is erased (side_effect.cpp:190-198); endless loops without effects are erased
  (186-188).  `dlerror` is declared `@pure` (read).
* **C06** The update block of an imperative for loop has no predecessor (cfg.cpp:262-265), so dominators are missed (the safe direction).
* **C08** Six constructs whose graph lacks an execution: `while` tests spanning several blocks, `while` in a `try`, code after `break`,
  loop bounds, `finally` blocks, a raising `next`.  Each makes constant propagation produce a wrong constant in a concrete program.
* **C11, C54** The occurs check runs before traits are unified and ignores hidden generics: cyclic types.  (read) `TypecheckVisitor::unify`
  (infer.cpp:32-42) runs unify once more without undo before it raises; unify is not symmetric in static kinds (link.cpp:37-47); sealed
  unions with unbound parts return 0 without unifying.
* **C13** `f(args=1)` for `def f(*args)` is accepted and the argument dropped.
* **C14** Host overflow; `not ""` has static kind int.
* **C15** `t[1::2**63-1]`: the compiler's loop counter overflows.
* **C16** `\x{:x}` is not padded: `"\x01a"` and `"\x1a"` escape to the same text.
* **C17** ULEB128 values from 2^31 are decoded wrongly, a sixth byte shifts by more than 31 bits; five-byte negative SLEB128 likewise.
* **C18, C52** An exception raised in an `except`/`else` part of a try with `finally` enters the enclosing try with selector 0 and misses
  its typed clauses; `return` in an `except`/`else` part skips its own `finally`; a try inside a `finally` part shares the outer
  flag and swallows a pending exception; `break` in a `finally` part does not drop a pending `return` of a nested try; a try in a handler
  lets exceptions out past the handler's `finally` (llvisitor.cpp:2721-3086, 3388-3422).
* **C53** `hasSideEffect` counts variables, fields and `yield` expressions as harmless: `f(b=x, a=g())` reads `x` after `g` has changed it; `f(**h())`
  for a record whose fields are not in the order of the parameters reads the temporary before it is assigned (call.cpp:295-320, 470-479, 662-675).
* **C22** `symmetric_difference_update` never adds the elements of the other set.
* **C23** `a[:] = a` empties the list; `remove` of a missing element returns `False`.  (read) The iterator keeps the old buffer while the list
  is reallocated.
* **C25** Iteration near `2**63` never ends or yields wrong values.
* **C26** `deque(maxlen=2^k-1)` holds one element too many; `deepcopy` drops `maxlen`.
* **C30** timsort reverses runs of equal keys; `reverse=True` is not stable.  (read) `takeA` branch of galloping is dead code; `mid = cnt // 2`
  in qsort is harmless.
* **C32, C33** `backward_find` steps to `i + 10` (strings.codon:304): `rfind` misses matches and reads past the end; `rsplit` inherits it.
* **C36** Negative start/end of `startswith`/`endswith` read before the string or give wrong answers.
* **C38** `&`/`&=` keep keys absent from the right operand; `Counter(a=0) == Counter()` is `False`.
* **C39** `product` of generator arguments (literal overload with two or three arguments) iterates a destroyed generator.
* **C40** `islice(it, stop)` takes one element too many; `zip_longest` without fill value ends at a row of `None`.
* **C43** `timedelta` rounds integers above 2^53; `//` by an int truncates; `%` overflows for divisors above 2^62.  (read) `timedelta //
  timedelta` goes through floats, `time.fromisoformat` drops the zone, `replace(hour=-1)` keeps the field.
* **C44** `gcd(-2**63, 6) = -2`; `lcm(-2**63, 5, 0)` divides by -1 with overflow.
* **C45** `randint(-5, -1)` always raises; `randrange(5, 0)` returns; widths of 2^63 overflow; with a step, float rounding may return `stop`;
  `getrandbits(64)` may be negative.
* **C47** The length of a parallel range and the next chunk may overflow; collapsed nests with dependent bounds run wrong iterations.
* **C48** `stop` loses the callback that the next step takes; `Handle.cancel` after the run raises `ValueError`; a timer cancelled after it
  fired still runs; `call_at` takes an absolute time as a delay; `call_soon_threadsafe` deadlocks.  (read) `gather` with a cancelled child
  returns an uninitialised result (asyncio.codon:929-940).
* **C50** A default that is not a constant becomes `KeyError`; a raising operator leaves the key; the second operand is evaluated first.
* **C56** A static variable does not unify with a runtime variable, though the other way round it does; a variable unifies with `List[T]` but not
  with the generic `T`.
* **C57** A trait that mentions its own variable ties a knot (see C11); the next unification of the two types never ends.
* **C55** Canonicalisation swaps comparisons of any class with the right method names: `a < b` becomes `b > a`.
* **C58** Inside a condition or a comparison chain `and`/`or` yield a bool even where their value is used: `if (x or 5) == 5` compares a bool; the
  flag leaks into a function of the same module that is first called in a condition.  `x in y` evaluates `y` first; a chain always has a bool as value.
* **C59** `f()[0] += 1`, `f().x += 1` and `a[f()] += x` (x a name) call `f` twice; `x += e` drops the result of `__iadd__`; `s = t[f()] = e` calls
  `f` twice and reads the item back; chains are assigned from right to left; `f()[g()] = h()` evaluates the target first.
* **C60** `a, b = [1, 2, 3]` is accepted; `a, b = [1]` raises `IndexError` after `a` was assigned; `a, *x, b = [1]` sets both `a` and `b`;
  `c, d = c` and `d[1], d[0] = d` read the changed right side; `*x, a = (1, 2)` gives a tuple.
* C61: `util.fmultirange` (util.codon) yields `idx + (i,)` instead of `(i,) + idx` for seven or more dimensions (the first coordinate comes last), so `flatten('F')` of a seven-dimensional
  array that is not Fortran-contiguous lists wrong elements, or reads outside the array (`c61_violation_seven_dims`, `c61_violation_seven_dims_outside`).
* C61: iterating `flat` of a zero-dimensional array reads a coordinate that does not exist (`c61_violation_flat_scalar`).
* C62: `a.reshape((3, 2), order='F')` with a tuple calls `self.reshape(*shape[0])` and drops the order (`c62_violation_tuple`); `reshape(order='K')` without dimensions is
  accepted (`c62_violation_k`).
* C63: `a.transpose(0)` of an array with several dimensions drops all others: the number of axes is not checked when one is given (ndarray.codon:420-426).
* C63: `a.transpose([0, -2])` repeats an axis without an error: the list is searched for duplicates before negative axes are resolved (ndarray.codon:436-446).
* (read) Assigning through a boolean mask reads the source with `arr_item.data[k]`, ignoring its strides: `a[mask] = b[::2]` stores the wrong elements (indexing.codon:452-478).
* (read) `_adv_idx_convert` refuses `...` together with an index array.
* (`c64_violation_inplace_shape`) `a += b` broadcasts `a` as well: with `a` of shape (1,) and `b` of shape (2,) both elements of `b` are added to the one element of `a`. Python's numpy raises `ValueError`.
* (`c64_violation_overlap`) `a[1:] += a[:-1]` reads elements it has changed already, so the sums pile up along the array. numpy works on a copy when operands overlap.
* (`c65_violation_scalar_first`) `np.hypot(3.0, a)` and `np.arctan2(3.0, a)` (the functions of two operands with a vectorised loop) is wrong for arrays of two or more SIMD rounds: the runtime stores each round's results in the lanes that held the number (loops.cpp:473-479), so the second round computes with the first round's results.
* (`c65_violation_one_element`) `np.hypot` of arrays of shapes (1,) and (3,): in one dimension the stride of the first array is taken as it is (ufunc.codon:71-84, not set to 0), and memory beyond the array is read.
* (`c65_violation_out_rows`) `np.sin(x, out=o)` with `x` of shape (1, 2) and `o` of shape (2, 2) fills the first row of `o` only: the vectorised loop takes the shape of `x`.
* (`c65_violation_second_unchecked`) `np.add(x, y, out=o)` checks only `x` against `o`; a `y` of another length is silently replaced by its first element.
* (`c65_violation_where_number`) `np.sin(1.0, out=o, where=m)` ignores the mask.
* (read) `np.hypot(1.0, 2.0, out=o)` does not compile.
* (read) `empty_like(a, shape=s)` without `dtype` ignores `shape` (routines.codon:180); `full_like` without `dtype` takes the type of the value instead of that of the array.
* **C66** Fused list additions: `x[3:1] + y` (a slice without a step that ends before it starts) copies a negative number of cells
  (list.codon:509-510); `x + y + g()` reads `x` after `g` has changed it; `x[::0] + g()` calls `g` before it raises.
* **C67** Fused generators: an exception of the addition (or of `bool`) is caught by the generator's own handlers; `any`/`all` run
  `finally` blocks around the yield they stop at (the generator would be abandoned); items yielded by a `finally` block after `return`
  are missing from the sum.
* **C68** Local names: a name first bound in a conditional block of a loop is unbound again at the start of every iteration, so `while n: if c: x = 7` / `print(x)`
  raises NameError where Python prints the value of an earlier iteration (`c68_loop_violation`); a function that reads a name earlier in its text than it first binds it is
  rejected even when every run binds it first (`c68_reject_violation`); with nested `and`/`or` and `:=` the search for a suite skips every other block (scoping.cpp:919, `si--` twice),
  no declaration is made, and an unset variable is read (`c68_walrus_violation`).
* (read) `while (a and (x := g())) and h(x)` puts the declaration into the suite of the body.
* **C69** `match` becomes `while True:` with the subject evaluated inside: `break` in a case leaves the match instead of the loop around it (`c69_break_violation`) and is accepted
  outside any loop; `continue` in a case evaluates the match again and loops for ever (`c69_continue_violation`); with `p | q if guard` the guard is evaluated again for the second
  alternative, which may then be taken (`c69_guard_violation`).
* **C69** `break` in the `else` of an inner loop sets the flag of the inner loop, so the `else` of the outer loop runs after a break (`c69_else_violation`); `continue` in the `else` of an
  outermost loop reads `staticLoops.back()` of an empty vector (`c69_reject_violation`).
* **C69** Unrolled loops over tuples: the `else` is dropped (`c69_tuple_else_violation`); a loop over a tuple variable re-reads the variable for every component
  (`c69_tuple_assign_violation`).
* **C70** The elision of bounds checks compares sums of lengths only by the sign of their difference: an access bounded by the length of another array (`c70_other_array_violation`) or by twice the
  length (`c70_double_length_violation`) loses its check; so does an index without the loop variable that equals the length (`c70_constant_index_violation`, `c70_empty_array_violation`) and an
  index that falls while the loop variable rises (`c70_falling_index_violation`). With a negative step, `a[-1]` reads the memory before the array (`c70_last_element_violation`).
* **C70** `size` and `len` of an array with more than one axis are the same term (`c70_size_violation`); a copy of the loop variable left from an earlier run of the loop counts as the loop variable
  (`c70_stale_copy_violation`); overflow is not considered (`c70_overflow_violation`, `c70_counter_overflow_violation`).
* (C71, `c71_violation_order`) The optimised form of an array expression evaluates all leaves before the first operation. `x * 2 + f()` where `f` changes `x` uses the changed `x`.
* (C71, `c71_violation_empty`) `_broadcast` in fusion.codon takes the maximum of two dimensions, so 1 and 0 give 1. Step-by-step evaluation of `(x + y) + x` with shapes (1,) and (0,) returns one element of uninitialised memory instead of an empty array.
* (C71, `c71_violation_vectorized`) `_apply_vectorized_loop_binary` uses the strides of one-dimensional operands as they are: `arctan2` of shapes (1,) and (n,) reads beyond the end of the first one.
* (read) `NumPyExpr::cost` returns -1 for operations that should not be fused, but the pass fuses if the cost is at most the lower threshold, so -1 means always.
* (C72, `c72_violation_fortran`) Pickling an array whose elements contain pointers (strings) and which lies in column-major order permutes its elements: `a.T` of a 2x2 array of strings is loaded as `a`.
* (C72, `c72_violation_padding`) Pickling an array of tuples with padding that is not contiguous (`a[::2]` for `Tuple[byte, int]`) writes the elements field by field, but loading expects raw memory: `IOError`, or wrong elements if other data follow.
* (read) `pickle` has no memo: an object that is referenced twice is loaded as two objects, and a cyclic one makes it recurse without end.
* (C73, `c73_violation_sext`) Conversion of an unsigned number to a wider signed type extends the sign: `Int[16](u8(200))` is -56.
* (C73, `c73_violation_popcnt`) `popcnt` counts in the type itself and then converts it as a signed number: `u1(1).popcnt()` is -1 and `u2(3).popcnt()` is -2.
* (C73, `c73_violation_pow`) `**` of one-bit numbers shifts the exponent by the width, which LLVM leaves undefined.
* (C73, `c73_violation_parse`) `Int[N]("")` and `Int[N]("-")` are 0 although they are not numbers, and `"+1"` is rejected (Python accepts it).
* (C74, `c74_violation_zero`, `c74_violation_before`) `gzFile._getline` finds the end of a piece with `strlen`: in data with zero bytes the rest of the line is lost and the next line is joined to it (also in `read()` without size, so binary data cannot be read that way); a line that starts with a zero byte makes it read before the buffer.
* (C74, `c74_violation_error`) A loop over a `File` never checks for read errors: a directory, or an I/O error, looks like the end of the file.
* (C74, `c74_violation_pipe`) `File.read()` of a pipe (for example `sys.stdin`) gives an empty string, since the size is computed with `ftell` and `fseek` which fail.
* (C74, `c74_violation_behind`) `File.read()` after seeking behind the end asks for a negative number of bytes.
* (read) a line of a `gzFile` of a gigabyte or more makes the buffer so large that its size does not fit in the `i32` of `gzgets`; the file then seems to end.
* (read) `optimizeWrite` (`pythonic/io.cpp:59-62`) looks at the second argument of every call of a function named `write` without checking that there is one: a call of a function `write` with one argument makes the compiler read behind the arguments.
* (read) `optimizePrint` (`pythonic/io.cpp:47`) replaces the `sep` argument by an empty string: if the expression for `sep` has effects, they are lost (`print(f"{a}{b}", sep=g())` does not call `g`).
* (read) `optimizePrint` and `optimizeWrite` take apart any call of `str.cat`, also one whose only argument is a list or generator: `print(str.cat(["a", "b"]))` prints the list.
* (C75, `c75_otherBlock_violation`, `c75_branch_violation`) The search for paths between the assignment of an array expression and its use follows a successor only if it is already on the path (`forward.cpp:147`, the test is inverted). If the use is in another block nothing in between is checked: `y = a + b; if c: a[0] = 7`, then `z = y * d`, computes `y` from the changed `a`.
* (C75, `c75_chain_violation`) In a chain of forwardings each step is checked with the variables of the original expressions: in `y = a + b; w = y * c; a = c; z = w + b`, straight-line code, `a + b` is computed after `a = c`.
* (C75, `c75_call_violation`) The leaves of a forwarded expression are evaluated after the leaves that are there (`forward.cpp:335-339` says that the order does not matter, but only the leaves of the source are known to have no side effects): in `y = a + b; z = y * f()` a change of `a` by `f` comes too early.
* (read) `NumPyFusionPass::visit` (`numpy.cpp:871-878`): if an expression is part of an argument of a call that is a leaf of another expression, then the leaf is cloned when the outer expression is replaced; forwarding to the inner expression changes the original only but still deletes the assignment, so that the clone reads a variable that is never set.
* (read, C76) `np.partition(a, kth, axis=None)` partitions a flattened copy and drops it (`sorting.codon:1818-1821`): the result is `a` itself, neither flattened nor partitioned. `np.argpartition(a, kth, axis=None)` calls the internal `_argpartition` with arguments that it does not have (`sorting.codon:1849`) and does not compile.
* (read, C76) `_fix_kth` (`sorting.codon:1794-1816`) makes negative positions positive and sorts them in the array that the caller passed (`asarray` does not copy): `np.partition(a, k)` changes `k`.
* (proved, `c77_byte_violation`) `np.sort(a, kind='stable')` sorts arrays of `byte` by radix sort with signed keys (`sorting.codon:839-852`), the other kinds compare with `byte.__lt__`, which is unsigned: `[100, 200]` becomes `[200, 100]`.
* (read, C77) `key_of` shifts by `sizeof * 8 - 1` (`sorting.codon:766-770`): for integer types whose width is not a whole number of bytes the shift is at least the width, which is undefined.
* `a[1:] = a[:-1]` smears `a[0]` over the array: `_getset` copies element by element in ascending order from the right side in place, NumPy behaves as if it were copied first
  (`c79_violation_overlap`). The same for index arrays, `a[[2, 0, -1]] = a` (`c79_violation_put_overlap`).
* `a[mask] = b[::2]` stores `b[0], b[1], …`: `_getset_bool` reads `arr_item.data[k]` without regard to the strides of the item (`c79_violation_mask_strides`).
* `a[0, :, [1, 2]]` puts the axis of the index array last; NumPy counts the integer as an index array and, being separated by the slice, puts the axis first. The integers are eliminated before
  `arrays_at_front` is computed (`c79_violation_int_apart`).
* `a[[0, 9]] = v` raises `IndexError` after storing `v` at `a[0]`; NumPy checks all indices first (`c79_violation_half_done`). `a[[0, 9], 0:0]` is not refused at all, as no element is visited
  (`c79_violation_unchecked`).
* `"ab" * -1` has length -2: `str.__mul__` does not look at the sign of the count (`list.__mul__` does) (`c80_violation_negative`). The product of count and length is not checked either:
  2^62 copies of a text of four bytes are written to a buffer of 0 bytes (`c80_violation_wrap`).
* `"ab".center(5)` is `" ab  "`; CPython gives `"  ab "`, since it puts the odd fill character to the left if the width is odd (`c80_violation_center`).
* `"\x7f".isprintable()` is true and `"\x1c".isspace()` is false, both unlike Python (`c80_violation_kinds`).
* `print(str.cat(a, b), sep=g())` does not call `g` after optimisation: `optimizePrint` overwrites the separator argument by `""` (`c81_violation_sep`).
* `print(str.cat(["p", "q"]))` prints `pq`, and the list `['p', 'q']` after optimisation: the case of a single iterable is overlooked by `optimizePrint` and `optimizeWrite` (`c81_violation_list`).
* A method of the user's own called `__add__` that takes and returns strings (for instance in an extension of `str`) is replaced by concatenation in sums of three or more, since only the name is compared (`c81_violation_user_add`).
* Writing `str.cat()` to a closed file raises an exception, and none after optimisation (`c81_violation_empty`).
* (read) `optimizeWrite` reads the first two arguments of any function called `write`, also if it has fewer (io.cpp:61-64).
* (read) `f"{x=}"` formats with `str`, Python with `repr` (typecheck/basic.cpp:71-74).
* `with E as x` binds `x` to `E` itself, not to the result of `__enter__` (`c82_violation_enter`), and does so before `__enter__` is called (`c82_violation_failed_enter`).
* `__exit__` is called on the current value of the target: assigning the target in the suite leaves the wrong object (`c82_violation_rebound`), and `with A as f, B as f` leaves `B` twice and `A` never (`c82_violation_same_target`).
* `__exit__` gets no arguments and its result is ignored, so no exception is swallowed (`c82_violation_swallow`).
* A global that only one function uses becomes a local of that function, also if it keeps a value between calls (`x: int` declared without value, set in the first call and read in the second; `c83_violation_kept`)
  or is shared by recursive calls (`c83_violation_recursive`).
* `nsmallest`, `nlargest` and `merge` decorate elements with their position, but tuples compare with `==` before they get to it: for a class
  whose `==` distinguishes elements that `<` does not, equivalent elements come out in arbitrary order (`c84_violation_eq`; Python has the same flaw).
* (read) With a key, `nsmallest`, `nlargest` and `merge` compare tuples that contain the element, so they do not compile for elements without `<`; Python never gets to that comparison
  (`heapq.codon:183`, `252`, `283`).
* (read) `nsmallest(n, …)` and `nlargest(n, …)` reserve room for `n` entries first (`List(n)`), so a huge `n` exhausts memory even for a short iterable.
* (read) `nlargest` with a key does not destroy the generator when there is nothing to return (`heapq.codon:253-254`), unlike the other three branches.
* `int(s, base)` with an unsigned prefix looks at the byte with index 3 instead of 2 (`builtin.codon:448`): `int("0x5", 16)`, `int("0b1", 2)` read past the end of the text
  (`c85_violation_short`) and `int("0x-1f", 16)` is -31, `int("0x 1f", 16)` is 31 (`c85_violation_sign`).
* `int(hex(x), 16)` is a ValueError for the smallest 64-bit integer: the digits are read before the sign is applied (`c85_violation_min`).
* `int("0", 0)` is a ValueError (`builtin.codon:401-402`; `c85_violation_zero`).
* With `-numerics=py`, `bin`, `oct` and `hex` of a negative integer never end, because `-1 // base` is -1 (`c85_violation_py`).
* (read) `int("1_000")` is a ValueError, as are digits outside ASCII; Python accepts both.
* `Generator.done()` resumes the coroutine, so every test for the end advances it. `zip(g, g)` with the same generator yields every second item twice and then
  destroys it twice or resumes it after its end (`c86_violation_zip_twice`); Python pairs up the items.
* When one iterator of `zip` ends, the later ones are still advanced, and all are freed; Python leaves the later ones alone (`c86_violation_zip_end`).
* `next(g, default)` on a generator already found at its end, and a second `for` loop, `any`, `min`, … over a used-up generator, resume a finished or freed coroutine
  (`c86_violation_next_twice`, `c86_violation_loop_twice`); Python gives the default, no rounds, the default.
* `min(1.0, nan)` and `max(1.0, nan)` are NaN with exactly two arguments, 1.0 with a list or three arguments (and in Python) (`c86_violation_nan`).
* (read) `min` and `max` with a key call the key function twice per item (`builtin.codon:76`, `99`), Python once.
* Inlining a call inside the called function is wrong (`codon/cir/util/inlining.cpp:87-90`): each parameter is entered in the
  clone map before the arguments are cloned, so an argument that reads a parameter of the function reads the new one:
  `f(b, a)` in `f(a, b)` becomes `f(b, b)` (`c87_violation_recursive`), and `f(n + 1)` in `f(n)` reads the new parameter
  before it is set (`c87_violation_self`).
* Inlining drops the value of `return` in a function that returns `None` (`inlining.cpp:60-62`): `return print(5)` prints
  nothing (`c87_violation_none`).
* A function with a return type whose end can be reached gives the null value (`llvisitor.cpp:2119`); inlined with
  `aggressive` it loops for ever, since the break that ends the implicit loop is only added if there is no result variable
  (`inlining.cpp:114`; `c87_violation_end`).
* (read) `inlineFunction` does not look at `isGenerator` and `isAsync`: a call of a generator is replaced by its body.
* `argmin` and `argmax` without `axis` go through a Fortran-ordered array in the order of the memory
  (`stdlib/numpy/reductions.codon:256-266, 294-300`): `array([[1, 5], [2, 3]], order='F').argmax()` is 2, in NumPy 1
  (`c88_violation_order`).
* `empty((0, 3)).min(axis=1)` raises `ValueError` although the result has no elements (`reductions.codon:571-573`); NumPy
  returns an empty array (`c88_violation_empty`).
* `array([1.0, nan]).argmin()` is 0, in NumPy 1: a NaN that is not the first element never compares less
  (`reductions.codon:1567-1570`; `c88_violation_nan`).
* `pow(b, e, m)` multiplies in 64 bits (`stdlib/internal/builtin.codon:369-372`): it is exact for moduli up to 3037000500 and wrong
  from 3037000501 on, where `pow(3037000500, 2, 3037000501)` is not 1 (`c89_violation_mod`); `pow(-2**63, 1, -1)` is undefined
  (`c89_violation_least`); `pow(3, -1, 7)` is a `ValueError`, in Python 5 (`c89_violation_inverse`).
* `[f(x) for x in obj]` calls `obj.__len__()` before iterating (`codon/parser/visitors/typecheck/collections.cpp:81-97`); Python does
  not, so a `__len__` that prints or raises shows (`c90_len_violation`).
* `datetimestruct.days` (`stdlib/numpy/npdatetime.codon:1720-1725`) and the roundings of `to_datetime64` (`:1810-1813, 1846-1851`) count
  on `//` rounding towards zero; with `-numerics=py` it rounds down, and dates before 1970 get wrong numbers: 1969-12-31 is day -2
  (`c91_violation_days`).
* (read) `DatetimeMetaData.divisor_to_multiple` (`stdlib/numpy/npdatetime.codon:911-955`, not called anywhere) tests `i == num` after a
  `for` loop, which is never true, and leaves the table of tries empty for weeks and days.
* `busdaycalendar.__init__` sorts the holidays with `datetime64.__lt__`, which is false whenever one side is NaT
  (`stdlib/numpy/npdatetime.codon:1529-1534, 2963`), and drops NaT only afterwards; so a NaT among the holidays can leave them unsorted and
  the binary searches miss some: with `[14, 15, NaT, 8]` the day 8 is a business day (`c92_violation_nat_holiday`).
* `getopt.getopt` is Python's `gnu_getopt`: options go on after the first operand (`stdlib/getopt.codon:128-146`), where Python's `getopt.getopt`
  stops (`c93_violation_first_operand`).
* `do_longs` marks a missing value by the empty string instead of `None` (`stdlib/getopt.codon:76-91`): `--out= x` takes `x` as the value
  (`c93_violation_empty_value`), and `--flag=` is accepted (`c93_violation_flag_value`).
* `Pattern._match` (`stdlib/re.codon:382-398`) takes a match for empty only if it ends where the search began: an empty match further on is
  found a second time, so `re.findall('$', 'ab')` is `['', '']` and `re.sub('$', '!', 'ab')` is `ab!!` (`c94_violation_twice`).
* After an empty match the search goes on one further and passes over a longer match at the same place, which Python finds:
  `re.findall('|a', 'a')` (`c94_violation_passed_over`).
* (read) `Pattern.findall` returns whole matches also if the pattern has groups.
* (read) `re.purge` destroys the compiled expressions that existing `Pattern` objects point to (`codon/runtime/re.cpp:181`).
* **C95** `numpy.bincount` of an empty array gives `[0]` (`statistics.codon:455-463`: `_minmax` of an empty array is `(0, 0)`, so there is always one place); NumPy gives an array of length `minlength`. Theorem `c95_violation_bincount_empty`.
* **C96** `re` templates (`re.codon:228-282`): an octal number takes up to four digits, so that `\1234` is one character and not `S4`; the backslash before a quote is dropped; a backslash at the end is kept where Python raises an error; an octal number above `\377` is reduced modulo 256 where Python raises an error. Theorems `c96_violation_octal`, `c96_violation_quote`, `c96_violation_end`, `c96_violation_octal_range`.
* (read) `ravel_multi_index` computes with wrapping integers where NumPy raises ValueError for dimensions whose product does not fit (`routines.codon:3555-3603`).
* (read) `numpy.split` into 0 sections computes `N % 0` before `array_split` would refuse the number (`routines.codon:2029`); NumPy has the same order and raises ZeroDivisionError.
* C99: `numpy.insert([1, 2, 3], 1, [10, 20])` puts in only the first value and loses the others without an error; NumPy puts in both (`routines.codon:1898-1900, 1924-1943`; `c99_insert_violation_values_lost`).
* C99: if the numbers of indices and of values differ, the first value is put in for every index, where NumPy raises ValueError (`routines.codon:1941-1943`; `c99_insert_violation_mismatch`).
* C99: `numpy.insert(a, 1, [])` reads memory outside the empty array of values; NumPy changes nothing (`routines.codon:1941-1943`; `c99_insert_violation_no_values`).
* C100: `numpy.append` without an axis of a contiguous array of floats and an array of integers writes the second over the first, since `off` is still 0 after the copy as a whole; the end of the result is never written (`routines.codon:1843-1860`; `c100_append_violation_overwritten`).
* C100: the second operand is copied to the offset `arr.nbytes`, in bytes of the type before conversion; if the sizes differ (int32 and float64) it comes to the wrong place (`routines.codon:1830, 1855`; `c100_append_violation_offset`).
* C100: with an axis, whether the second operand is copied as a whole depends on the contiguity of the first, so that the elements between those of a strided operand are taken (`routines.codon:1829`; `c100_append_violation_strided`).
* (read) `ndarray._all` returns False whatever the elements (unused).
* (read) `a[i:j] + b` under list-add fusion with `j < i` copies a negative length (list.codon:486-523); `"ab" * -1` has a negative length;
  `center` differs from CPython for odd padding; `isprintable` accepts 127; `Int[N](UInt[M])` with N > M sign-extends and `Int[N]("")` is 0
  (intn.codon:56-63); `json_escape` of doc.cpp does not escape control characters.
* No deviation found: C03, C05, C07, C09, C10, C12, C19-C21, C24, C27-C29, C31, C34, C35, C37, C41, C42, C46, C49, C51, C97, C98.

## Mutation tests

`seeded/LOG.jsonl` records edits of model definitions (made in a scratch copy), the claim each breaks, the theorems that failed and, where
none did, either the theorem tightened or the reason why the claim still holds.
