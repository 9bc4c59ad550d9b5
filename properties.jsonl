{"id": "C01", "title": "Integer constant folding agrees with run-time integer arithmetic", "statement": "When the optimiser replaces an int operation on two literal operands (+ - * // % ** << >> & | ^ and the six comparisons, in both numerics modes) by a literal, the literal equals the 64-bit two's-complement value that the compiled operation would have produced at run time, whenever the run-time operation is defined; division and modulus by a literal zero are never folded.", "quantifier": "for every pair of 64-bit operands, every operator and both numerics modes", "why_tests_cant": "2^128 operand pairs per operator; the interesting ones (INT64_MIN, -1, shift counts, negative operands of // and %) are exactly the ones a test suite samples sparsely.", "anchors": ["codon/cir/transform/folding/const_fold.cpp: pyDivmod, int_pow, registerStandardRules", "stdlib/internal/types/int.codon", "stdlib/internal/pynumerics.codon: _divmod_int_int"]}
{"id": "C02", "title": "Algebraic identity folding preserves the outcome of the expression", "statement": "Rewriting x*0, 0*x, x*1, 1*x, x+0, 0+x, x-0, 0//x, x//1, +x, -(-x), ~~x to the simplified form leaves the expression's observable outcome (value, raised error, and the sequence of side effects performed while evaluating it) unchanged.", "quantifier": "for every operand expression (including ones that perform side effects or raise) and every state it is evaluated in", "why_tests_cant": "A unit test only evaluates chosen operands; the claim quantifies over arbitrary operand expressions and their effects.", "anchors": ["codon/cir/transform/folding/const_fold.cpp: SingleConstantCommutativeRule, DoubleApplicationUnaryRule, NoOpUnaryRule, registerStandardRules", "codon/cir/transform/folding/folding.cpp: FoldingPass::handle"]}
{"id": "C03", "title": "Canonicalisation of integer expressions preserves value", "statement": "Re-associating and re-ordering chains of commutative/associative operators, swapping the sides of a comparison, factoring a*x+b*x to (a+b)*x and rewriting x-c to x+(-c) never changes the 64-bit value of a side-effect-free int expression.", "quantifier": "for every expression tree of any depth, every rank assignment used for ordering, and every valuation of its variables", "why_tests_cant": "Unboundedly many tree shapes and orderings.", "anchors": ["codon/cir/transform/cleanup/canonical.cpp: CanonOpChain, CanonInequality, CanonAddMul, CanonConstSub"]}
{"id": "C04", "title": "Dead-code elimination preserves behaviour", "statement": "Removing side-effect-free statements, replacing if/while/ternary on literal conditions by the taken part, and deleting counted loops over statically empty ranges leaves the final state, the trace of effects and the way control leaves the code (fall through, break, continue, return, raise) unchanged.", "quantifier": "for every program, every starting state and every number of loop iterations", "why_tests_cant": "Ranges over all programs and all executions.", "anchors": ["codon/cir/transform/cleanup/dead_code.cpp: DeadCodeCleanupPass::handle"]}
{"id": "C05", "title": "Reaching definitions over-approximate every execution path", "statement": "For any control-flow graph and any execution path through it, the most recent definition of a variable along the path is contained in the set of reaching definitions reported at that point (or the analysis reports 'unknown').", "quantifier": "for every graph, every path of any length and every variable", "why_tests_cant": "Infinitely many graphs and unboundedly long paths with loops.", "anchors": ["codon/cir/analyze/dataflow/reaching.cpp: RDInspector::analyze, getReachingDefinitions"]}
{"id": "C06", "title": "Dominator sets are exact", "statement": "The dominator analysis reports that block A dominates reachable block B exactly when every path from the entry block to B goes through A.", "quantifier": "for every finite control-flow graph whose entry has no predecessors, every pair of blocks, and all paths", "why_tests_cant": "Quantifies over all paths of all graphs.", "anchors": ["codon/cir/analyze/dataflow/dominator.cpp: DominatorInspector::analyze, isDominated"]}
{"id": "C07", "title": "Constant propagation replaces a variable read only by the value it has", "statement": "When the optimiser replaces a read of a local variable by a literal because exactly one definition reaches it and that definition assigns a literal, then in every execution the variable holds that literal at that read.", "quantifier": "for every graph, every execution reaching the read", "why_tests_cant": "Ranges over all executions including loops and joins.", "anchors": ["codon/cir/transform/folding/const_prop.cpp: ConstPropPass::handle", "codon/cir/analyze/dataflow/reaching.cpp"]}
{"id": "C08", "title": "The control-flow graph contains every execution of a structured function body", "statement": "For nested series/if/while/for/try/ternary/and-or code with break, continue, return and raise, each executed sequence of simple operations is a path in the constructed control-flow graph.", "quantifier": "for every structured program of any nesting depth and every execution", "why_tests_cant": "Unbounded nesting and unbounded executions; corner cases are conditions that themselves contain control flow.", "anchors": ["codon/cir/analyze/dataflow/cfg.cpp: CFVisitor"]}
{"id": "C09", "title": "Cached analyses are never stale", "statement": "When a pass runs, every analysis it asked for has a cached result that was computed after the most recent transformation that declared it invalid (directly or through the analyses it depends on).", "quantifier": "for every set of registered analyses/passes with any dependency graph and every sequence of pass executions", "why_tests_cant": "All registration graphs and all histories.", "anchors": ["codon/cir/transform/manager.cpp: PassManager::runPass, runAnalysis, invalidate, getUniqueKey"]}
{"id": "C10", "title": "Failed unification leaves no trace", "statement": "Attempting to unify two types that do not match, with undo requested, leaves every type variable (link, level, trait, static kind) exactly as before the attempt.", "quantifier": "for every pair of types of any size sharing variables arbitrarily and every prior link state", "why_tests_cant": "All pairs of arbitrarily deep types with sharing.", "anchors": ["codon/parser/ast/types/link.cpp: LinkType::unify", "codon/parser/ast/types/class.cpp: ClassType::unify", "codon/parser/ast/types/type.cpp: Type::Unification::undo, operator<<"]}
{"id": "C11", "title": "Successful unification makes the types equal and keeps the store acyclic", "statement": "If unification succeeds, both types denote the same type under the new links, no previously fixed variable changed, and following links always terminates (the occurs check rejects cyclic solutions).", "quantifier": "for every pair of types and every acyclic prior link state", "why_tests_cant": "All pairs of arbitrarily deep types with sharing.", "anchors": ["codon/parser/ast/types/link.cpp: LinkType::unify, occurs, follow"]}
{"id": "C12", "title": "Method resolution order is a C3 linearisation", "statement": "The computed method resolution order starts with the class itself, contains each ancestor exactly once, keeps every parent's own order, keeps the declared order of direct parents, and is reported as an error only when the merge has no eligible candidate.", "quantifier": "for every class hierarchy", "why_tests_cant": "All inheritance graphs.", "anchors": ["codon/parser/cache.cpp: Cache::mergeC3", "codon/parser/visitors/typecheck/class.cpp: parseBaseClasses"]}
{"id": "C13", "title": "Call arguments are bound to parameters following Python's rules", "statement": "For a call without an ellipsis, if argument matching succeeds every argument is used exactly once, each ordinary parameter gets exactly one argument or its default, positional arguments fill parameters left to right, a keyword goes to the parameter of that name, surplus positionals go in order to *args and surplus keywords to **kwargs; otherwise an error is reported, in exactly the cases Python reports one.", "quantifier": "for every parameter list and every argument list", "why_tests_cant": "Unbounded numbers of parameters and arguments in all orders.", "anchors": ["codon/parser/visitors/typecheck/typecheck.cpp: TypecheckVisitor::reorderNamedArgs"]}
{"id": "C14", "title": "Compile-time integer expressions agree with the run-time ones", "statement": "A static (compile-time) int/bool binary or unary operator yields the value that the same operator yields at run time, and division by zero is rejected.", "quantifier": "for every operator and operand pair, in both numerics modes", "why_tests_cant": "2^128 operand pairs.", "anchors": ["codon/parser/visitors/typecheck/op.cpp: evaluateStaticBinary, evaluateStaticUnary, divMod"]}
{"id": "C15", "title": "Static slicing agrees with Python slicing", "statement": "Slicing a static string or a tuple with literal (or omitted) start, stop and step selects exactly the elements Python's slicing selects, in order; step zero is rejected.", "quantifier": "for every length and every start/stop/step", "why_tests_cant": "Unbounded integers in four positions with interacting clamps.", "anchors": ["codon/parser/visitors/typecheck/op.cpp: transformStaticTupleIndex, sliceAdjustIndices, translateIndex"]}
{"id": "C16", "title": "String escaping is loss-free", "statement": "Unescaping an escaped string gives back the original, hence two different static strings never get the same printed/type name.", "quantifier": "for every byte string", "why_tests_cant": "All byte strings; failures need specific neighbouring bytes.", "anchors": ["codon/parser/common.cpp: escape, unescape", "codon/parser/ast/types/static.cpp: StrStaticType::debugString"]}
{"id": "C17", "title": "Exception-table integers are decoded exactly", "statement": "The unwinder's readers return the number that was ULEB128/SLEB128-encoded and stop right after it.", "quantifier": "for every encodable number, every (also non-minimal) encoding and any following bytes", "why_tests_cant": "All numbers and encodings.", "anchors": ["codon/runtime/exc.cpp: readULEB128, readSLEB128"]}
{"id": "C18", "title": "The first matching except clause handles an exception", "statement": "When an exception propagates into a try region, control goes to the first except clause (in source order) that is a catch-all or names the exception's class or one of its bases; if there is none the exception keeps propagating (after cleanup handlers run).", "quantifier": "for every action table/call-site table and every exception class", "why_tests_cant": "All table layouts.", "anchors": ["codon/runtime/exc.cpp: handleActionValue, handleLsda, isinstance"]}
{"id": "C19", "title": "dict behaves as a finite map under every history", "statement": "After any sequence of insertions, overwrites, deletions, clears and resizes, looking up a key returns the value last stored for it, or reports it absent if it was deleted or never stored; lookups and insertions always terminate.", "quantifier": "for every sequence of operations, every hash function and every key/value type with lawful equality", "why_tests_cant": "All operation histories and all hash collisions/tombstone layouts.", "anchors": ["stdlib/internal/types/collections/dict.codon: _kh_get, _kh_put, _kh_del, _kh_resize, _kh_clear, __getitem__, __setitem__, __delitem__", "stdlib/internal/khash.codon"]}
{"id": "C20", "title": "dict length and iteration are consistent with its contents", "statement": "len(d) is the number of distinct stored keys and iterating d yields every stored key exactly once with its value.", "quantifier": "for every sequence of operations", "why_tests_cant": "All operation histories.", "anchors": ["stdlib/internal/types/collections/dict.codon: __len__, __iter__, items, values"]}
{"id": "C21", "title": "set behaves as a finite set under every history", "statement": "Membership, len and iteration reflect exactly the adds and removes performed.", "quantifier": "for every sequence of operations and every hash function", "why_tests_cant": "All operation histories.", "anchors": ["stdlib/internal/types/collections/set.codon"]}
{"id": "C22", "title": "Set algebra agrees with mathematical sets", "statement": "Union, intersection, difference, symmetric difference, their in-place forms, and the subset/superset/disjoint/equality tests compute the mathematical operation of the same name.", "quantifier": "for all pairs of sets with any internal layout", "why_tests_cant": "All pairs of sets.", "anchors": ["stdlib/internal/types/collections/set.codon: union, intersection, difference, symmetric_difference, *_update, issubset, isdisjoint, __eq__"]}
{"id": "C23", "title": "list operations agree with Python sequences", "statement": "append, insert, pop, remove, del, extend, index, count, reverse, contains, item/slice read, slice assignment and deletion, + and * act on the element sequence as in Python, with the same error cases, and never touch memory outside the buffer's capacity.", "quantifier": "for every list content, capacity and every index", "why_tests_cant": "All lengths/capacities/indices.", "anchors": ["stdlib/internal/types/collections/list.codon"]}
{"id": "C24", "title": "Slice adjustment agrees with Python", "statement": "slice index adjustment returns start, stop and length such that enumerating start, start+step, ... visits exactly the Python-selected positions, all within bounds.", "quantifier": "for every sequence length and every optional start/stop/step", "why_tests_cant": "Unbounded integers.", "anchors": ["stdlib/internal/types/slice.codon: adjust_indices"]}
{"id": "C25", "title": "range is the arithmetic progression it denotes", "statement": "len, indexing, negative indexing, membership, slicing, reversal, index and iteration of range(start, stop, step) all agree with the arithmetic progression.", "quantifier": "for every start, stop and non-zero step", "why_tests_cant": "Unbounded integers.", "anchors": ["stdlib/internal/types/range.codon"]}
{"id": "C26", "title": "deque is a double-ended queue", "statement": "append, appendleft, pop, popleft, indexing, len and iteration agree with a double-ended sequence; with maxlen the length never exceeds it.", "quantifier": "for every sequence of operations and every maxlen", "why_tests_cant": "All histories including buffer wrap-around and growth.", "anchors": ["stdlib/collections.codon: deque"]}
{"id": "C27", "title": "heapq maintains a heap and returns minima", "statement": "heapify, heappush, heappop, heapreplace, heappushpop keep the heap invariant and the multiset of elements, and pop returns a least element.", "quantifier": "for every list and every total preorder on elements", "why_tests_cant": "All lists.", "anchors": ["stdlib/heapq.codon: _siftdown, _siftup, heappush, heappop, heapify"]}
{"id": "C28", "title": "bisect finds the insertion point", "statement": "bisect_left/right return the unique index that splits a sorted list into elements < x (resp. <= x) and the rest; insort keeps the list sorted.", "quantifier": "for every sorted list, value and lo/hi window", "why_tests_cant": "All lists.", "anchors": ["stdlib/bisect.codon"]}
{"id": "C29", "title": "Sorting returns an ordered permutation", "statement": "Every sorting algorithm offered (insertion sort, heap sort, quick sort, pdq sort, tim sort) terminates with a list that is ordered by key and is a permutation of the input, without accessing memory out of bounds.", "quantifier": "for every list, key function and total preorder", "why_tests_cant": "All lists; worst-case patterns (partial insertion sort bail-outs, bad partitions, galloping) are rarely hit by tests.", "anchors": ["stdlib/algorithms/insertionsort.codon", "stdlib/algorithms/heapsort.codon", "stdlib/algorithms/qsort.codon", "stdlib/algorithms/pdqsort.codon", "stdlib/algorithms/timsort.codon"]}
{"id": "C30", "title": "Default sort with a key is stable", "statement": "sorted(xs, key=f) and list.sort keep the relative order of elements with equal keys (also for reverse=True), as Python guarantees.", "quantifier": "for every list and key function", "why_tests_cant": "All lists with ties.", "anchors": ["stdlib/algorithms/timsort.codon: _count_run", "stdlib/internal/sort.codon"]}
{"id": "C31", "title": "str.find returns the first occurrence", "statement": "s.find(p) is the least index at which p occurs in s, or -1 if there is none; `p in s` agrees.", "quantifier": "for all byte strings", "why_tests_cant": "All pairs of strings; the skip heuristics fail only on particular patterns.", "anchors": ["stdlib/algorithms/strings.codon: find and helpers", "stdlib/internal/str.codon: find, __contains__"]}
{"id": "C32", "title": "str.rfind returns the last occurrence", "statement": "s.rfind(p) is the greatest index at which p occurs in s, or -1 if there is none.", "quantifier": "for all byte strings", "why_tests_cant": "All pairs of strings.", "anchors": ["stdlib/algorithms/strings.codon: rfind and helpers", "stdlib/internal/str.codon: rfind, rpartition, rsplit"]}
{"id": "C33", "title": "str.split and join are inverse", "statement": "sep.join(s.split(sep)) == s for non-empty sep, no piece contains sep (unless maxsplit ran out), and at most maxsplit splits are made, taken from the left (split) or right (rsplit).", "quantifier": "for all strings, separators and maxsplit", "why_tests_cant": "All strings.", "anchors": ["stdlib/internal/str.codon: split, rsplit, _split_char, _rsplit_char, join"]}
{"id": "C34", "title": "str.replace replaces the leftmost non-overlapping occurrences", "statement": "s.replace(a, b, n) equals joining the pieces of s split at its first n non-overlapping occurrences of a with b; the result buffer is exactly filled.", "quantifier": "for all strings and counts", "why_tests_cant": "All strings.", "anchors": ["stdlib/internal/str.codon: _replace and helpers"]}
{"id": "C35", "title": "String comparison is the lexicographic total order", "statement": "<, <=, >, >= on str form the lexicographic order on bytes, consistent with ==.", "quantifier": "for all strings", "why_tests_cant": "All pairs/triples of strings.", "anchors": ["stdlib/internal/str.codon: _cmp, __lt__"]}
{"id": "C36", "title": "str prefix/suffix tests agree with slicing", "statement": "s.startswith(p, i, j) is s[i:j] starting with p and s.endswith(p, i, j) is s[i:j] ending with p; no out-of-range memory is read.", "quantifier": "for all strings and indices", "why_tests_cant": "Unbounded index arguments with clamping.", "anchors": ["stdlib/internal/str.codon: startswith, endswith"]}
{"id": "C37", "title": "repr of a string round-trips", "statement": "The repr of a string is a literal that reads back as the same string.", "quantifier": "for all byte strings", "why_tests_cant": "All byte strings.", "anchors": ["stdlib/internal/str.codon: __repr__", "codon/parser/common.cpp: unescape"]}
{"id": "C38", "title": "Counter arithmetic agrees with multisets", "statement": "Counter +, -, &, | and their in-place forms compute multiset sum, difference, intersection and union, keeping only positive counts; most_common is ordered by count.", "quantifier": "for all counters", "why_tests_cant": "All pairs of counters.", "anchors": ["stdlib/collections.codon: Counter"]}
{"id": "C39", "title": "itertools combinatoric generators enumerate exactly the mathematical sets", "statement": "product, permutations, combinations and combinations_with_replacement yield every selection of the stated kind exactly once, in lexicographic index order.", "quantifier": "for every pool and every length r", "why_tests_cant": "All pool sizes and r.", "anchors": ["stdlib/itertools.codon: product, permutations, combinations, combinations_with_replacement"]}
{"id": "C40", "title": "itertools stream functions satisfy their list specifications", "statement": "chain, islice, takewhile, dropwhile, compress, groupby, accumulate, zip_longest, tee yield the specified sequence.", "quantifier": "for all input sequences", "why_tests_cant": "All input sequences.", "anchors": ["stdlib/itertools.codon"]}
{"id": "C41", "title": "SortedList keeps its contents sorted", "statement": "After any sequence of adds, deletions and clears iterating gives exactly the stored elements in ascending order (equal elements in the order they were added), len() is their number, left is the first of them, and the inner lists stay within their size bounds.", "quantifier": "for every history and load factor", "why_tests_cant": "All histories crossing node-split boundaries.", "anchors": ["stdlib/sortedlist.codon: SortedList.add, _expand, _delete, clear, left, __iter__, __len__"]}
{"id": "C42", "title": "Calendar arithmetic is a bijection", "statement": "Converting a valid date to its day ordinal and back is the identity in both directions; consecutive ordinals are consecutive dates; weekday advances by one; ISO calendar round-trips.", "quantifier": "for every date of every year", "why_tests_cant": "All dates; leap-year/century boundaries.", "anchors": ["stdlib/datetime.codon: _ymd_to_ord, _ord_to_ymd, isocalendar, fromisocalendar"]}
{"id": "C43", "title": "Date and datetime arithmetic is exact", "statement": "Adding a timedelta to a date/datetime gives the date/datetime at that distance (error when out of range), subtraction inverts addition, and packing into machine words loses nothing and preserves order.", "quantifier": "for all dates, times and deltas", "why_tests_cant": "All values.", "anchors": ["stdlib/datetime.codon: date, time, datetime, timedelta, _normalize_*"]}
{"id": "C44", "title": "gcd and lcm are the greatest common divisor and least common multiple", "statement": "math.gcd(a, b, ...) is the non-negative greatest common divisor and math.lcm the least common multiple of all arguments.", "quantifier": "for all argument lists whose results fit", "why_tests_cant": "All integers.", "anchors": ["stdlib/math.codon: _gcd2, gcd, lcm"]}
{"id": "C45", "title": "Random selection respects its range", "statement": "randrange/randint/choice return only values from the requested range, shuffle permutes and sample picks distinct positions, for any behaviour of the generator; every value of the range is attainable.", "quantifier": "for every bit stream the generator may produce and all arguments", "why_tests_cant": "All random streams.", "anchors": ["stdlib/random.codon: getrandbits, _randbelow_with_getrandbits, randrange, randint, shuffle, sample"]}
{"id": "C46", "title": "Saved generator state reproduces the stream", "statement": "Restoring a saved Mersenne-Twister state reproduces exactly the numbers generated after the save; the state index never leaves its array.", "quantifier": "for every state and number of draws", "why_tests_cant": "All histories.", "anchors": ["stdlib/random.codon: RandomGenerator"]}
{"id": "C47", "title": "Parallel loops execute each iteration exactly once", "statement": "An OpenMP-annotated counted loop executes its body for exactly the iterations of the sequential loop, each once, whatever the thread count, schedule and chunk size.", "quantifier": "for every range, thread count, chunk size and interleaving", "why_tests_cant": "All schedules.", "anchors": ["stdlib/openmp.codon: _static_loop_outline_template, _static_chunked_loop_outline_template, _dynamic_loop_outline_template", "codon/cir/transform/parallel/openmp.cpp"]}
{"id": "C48", "title": "The asyncio event loop runs callbacks in order", "statement": "Callbacks scheduled with call_soon run once each in FIFO order, timers fire in order of their deadline, cancelled work never runs.", "quantifier": "for every sequence of schedule/cancel/run operations", "why_tests_cant": "All histories.", "anchors": ["stdlib/asyncio.codon: EventLoop"]}
{"id": "C49", "title": "Lowering a for loop over a range or list keeps its iterations", "statement": "Replacing iteration over range(...) or a list by a counted loop visits the same elements in the same order as the iterator protocol, including when the body changes the loop variable or the list.", "quantifier": "for every range/list and every loop body", "why_tests_cant": "All bodies and bounds (including overflow at the ends).", "anchors": ["codon/cir/transform/lowering/imperative.cpp", "stdlib/internal/types/range.codon: __iter__"]}
{"id": "C50", "title": "dict update fusion is equivalent to get-then-set", "statement": "Rewriting d[k] = op(d.get(k, dflt), v) and d[k] = op(d[k], v) to one lookup gives the same dict, the same result and the same KeyError behaviour.", "quantifier": "for every dict, key, default and operator", "why_tests_cant": "All dict states.", "anchors": ["codon/cir/transform/pythonic/dict.cpp", "stdlib/internal/types/collections/dict.codon: __dict_do_op__, __dict_do_op_throws__"]}
{"id": "C51", "title": "Whitespace splitting, stripping and line splitting lose nothing but the separators", "statement": "s.split() and s.rsplit() return exactly the maximal runs of non-whitespace bytes in order; s.strip()/lstrip()/rstrip() remove exactly the leading/trailing bytes in the given set (whitespace by default); s.splitlines(keepends) cuts exactly after each line terminator, and with keepends=True the concatenation of the lines is s.", "quantifier": "For all byte strings s, all maxsplit values, all strip sets, both values of keepends.", "why_tests_cant": "Strings range over unbounded lengths and the edge cases (runs of separators at either end, CR LF split, limit reached in the middle of whitespace) combine; a test fixes one string.", "anchors": ["stdlib/internal/str.codon: str.split, str.rsplit, str._split_whitespace, str.strip, str.lstrip, str.rstrip, str.splitlines"]}
{"id": "C54", "title": "Generalising a type does not capture variables of an enclosing scope", "statement": "After any sequence of successful or failed unifications, a type variable that is part of the type of something declared in an enclosing scope is kept when an inner function's type is generalised; only variables that belong to the inner scope become generic.", "quantifier": "for every pair of types unified, every prior state whose links respect the levels, every level and every type generalised", "why_tests_cant": "The levels are adjusted along arbitrary link chains inside arbitrarily deep types; a missed adjustment shows only for a particular sharing pattern.", "anchors": ["codon/parser/ast/types/link.cpp: LinkType::occurs, LinkType::unify, LinkType::generalize", "codon/parser/ast/types/class.cpp: ClassType::generalize"]}
{"id": "C55", "title": "A comparison of class instances calls the method that was written", "statement": "For instances of a class whose comparison methods have no side effects, x < y evaluates to x.__lt__(y) (and likewise for the other five operators), whatever the optimiser does with the comparison.", "quantifier": "for every class, every six comparison methods, every pair of operands and every ranking of the operands", "why_tests_cant": "Whether the sides are swapped depends on hashes of names and depths of the operands; a test sees one ranking, and most classes have mirrored methods.", "anchors": ["codon/cir/transform/cleanup/canonical.cpp: CanonInequality"]}
{"id": "C52", "title": "However a try statement is left, its finally part runs once", "statement": "Whatever way control leaves the body, an except clause or the else part of a try statement (falling through, break, continue, return, or an exception caught here, further out, or not at all), the finally part runs exactly once, before any finally part further out, and control then goes on where it was going unless the finally part itself ends otherwise.", "quantifier": "for every nesting of try statements, loops, conditionals and simple statements, every assignment of types to clauses, every memory and every number of steps", "why_tests_cant": "The paths through nested try statements multiply; a test follows one of them, and the compiler shares one set of state variables among all nested try statements, so that mistakes show only in combinations.", "anchors": ["codon/cir/llvm/llvisitor.cpp: LLVMVisitor::visit(const TryCatchFlow *), visit(const ReturnInstr *), visit(const BreakInstr *), visit(const ContinueInstr *), LLVMVisitor::call"]}
{"id": "C53", "title": "Call arguments are evaluated once each, from left to right", "statement": "In a call, positional, keyword and unpacked arguments are evaluated exactly once each in the order in which they are written, whatever the order of the parameters they are bound to; if one raises, those after it are not evaluated; the function receives the values they had then.", "quantifier": "for every signature (with defaults, *args, **kwargs, type parameters), every accepted call, all argument expressions and all initial states", "why_tests_cant": "The compiler saves only some arguments in temporaries; whether that is enough depends on what every expression may read and change, for every permutation of parameters.", "anchors": ["codon/parser/visitors/typecheck/call.cpp: callReorderArguments, transformCallArgs", "codon/parser/visitors/typecheck/typecheck.cpp: hasSideEffect, reorderNamedArgs"]}
{"id": "C56", "title": "Types with a common instance unify, and no solution is lost", "statement": "If the type variables can be given types that respect everything unified so far and make two types equal, then unifying the two succeeds, and every such assignment still respects everything unified afterwards. A rejected unification is therefore a genuine type error.", "quantifier": "for every pair of types (any depth, any sharing of variables), every state of the type variables reached before, and every assignment of types to variables", "why_tests_cant": "The number of types and of sharing patterns is unbounded; a spurious rejection or a too specific binding shows only for a particular order of bindings and particular variable numbers.", "anchors": ["codon/parser/ast/types/link.cpp: LinkType::unify, LinkType::occurs", "codon/parser/ast/types/class.cpp: ClassType::unify", "codon/parser/ast/types/type.cpp: operator<<"]}
{"id": "C57", "title": "Unification always comes to an end", "statement": "Unifying two types terminates, with success or failure, in every state of the type variables that earlier unifications can have produced.", "quantifier": "for every pair of types and every state without cyclic links", "why_tests_cant": "Non-termination cannot be observed by a test, and a cycle needs a particular chain of variables.", "anchors": ["codon/parser/ast/types/link.cpp: LinkType::unify, LinkType::occurs", "codon/parser/ast/types/class.cpp: ClassType::unify", "codon/parser/ast/types/traits.cpp: TypeTrait::unify"]}
{"id": "C58", "title": "Boolean operators, comparison chains and conditional expressions mean what Python says, in any position", "statement": "`and`, `or`, `not`, comparison chains, `in` and conditional expressions evaluate the operands Python evaluates, once each and in Python's order, stop where Python stops, and have the value Python gives them; conditions of `if` and `while` and the functions called from them behave the same as outside a condition.", "quantifier": "for all expressions of any nesting, all operand behaviours (effects, exceptions, user-defined truth values and operators), all function bodies and all initial states", "why_tests_cant": "The type checker rewrites these operators depending on the position of the expression and on flags left over from enclosing expressions; nestings and operand effects are unbounded.", "anchors": ["codon/parser/visitors/typecheck/op.cpp: transformBinarySimple, visit(ChainBinaryExpr)", "codon/parser/visitors/typecheck/cond.cpp: visit(IfStmt), visit(IfExpr)", "codon/parser/visitors/typecheck/loops.cpp: visit(WhileStmt)"]}
{"id": "C59", "title": "Assignments evaluate each part once and store the result", "statement": "`t1 = ... = tn = e` evaluates e once, then stores its value in the targets from left to right, evaluating the parts of each target once; `t op= e` evaluates the parts of t once, reads t, evaluates e, applies the (in-place) operator and stores the result in t.", "quantifier": "for all targets (names, items, attributes), all sub-expressions with any effects and exceptions, all operators and all initial states", "why_tests_cant": "The compiler duplicates target expressions in some shapes only; a double evaluation shows only with a particular effect in a particular position.", "anchors": ["codon/parser/visitors/typecheck/assign.cpp: transformAssignment, visit(AssignStmt)", "codon/parser/peg/grammar.peg: assignment", "codon/parser/visitors/typecheck/op.cpp: transformBinaryInplaceMagic"]}
{"id": "C60", "title": "Unpacking assignments bind each target to its item", "statement": "`p1, ..., pn = e` (nested, with at most one starred target per level) evaluates e once, raises ValueError before any store if the number of items does not fit, and otherwise stores the items in the targets from left to right, a starred target receiving a new list of the items in between.", "quantifier": "for all nested patterns, all sequences of any length, all targets with any effects and all initial states", "why_tests_cant": "Patterns and lengths are unbounded; aliasing between the targets and the right side shows only for particular programs.", "anchors": ["codon/parser/visitors/typecheck/assign.cpp: unpackAssignment", "stdlib/internal/types/array.codon", "stdlib/internal/types/collections/list.codon: as_list"]}
{"id": "C61", "title": "Flat copies and views of arrays list the elements in the order asked for", "statement": "flatten, ravel and tobytes of an ndarray list each element once, in row-major order for 'C', in column-major order for 'F', in one of the two for 'A' and in order of decreasing stride for 'K', whatever the strides (transposed, reversed, sliced, repeated); item(i) and flat[i] give the i-th element in row-major order, counting from the end for negative i, and IndexError otherwise; iterating flat gives the same sequence; nothing outside the array is read and the array is unchanged.", "quantifier": "for all shapes with any number of dimensions, all strides, all item sizes, all contents and all indices", "why_tests_cant": "Shapes and strides are unbounded, and each combination of contiguity and order takes its own path.", "anchors": ["stdlib/numpy/ndarray.codon: flatten, ravel, tobytes, item, _contig, _contiguous, _fcontiguous, flatiter", "stdlib/numpy/util.codon: multirange, fmultirange, coords_to_index, index_to_coords, coords_to_findex, index_to_fcoords, strides"]}
{"id": "C62", "title": "Copying and reshaping arrays keep the elements", "statement": "copy(order) gives a new array with the same shape and elements in new memory. reshape gives an array of the requested shape (one dimension may be negative and is then found) with the same elements in the order asked for; it is a view of the same memory whenever the array is contiguous in that order, and otherwise a view or a new array, never a mixture; ValueError is raised exactly when no unique shape fits or the order is 'K'.", "quantifier": "for all arrays of any number of dimensions and any strides, all requested shapes, all orders and all memory contents", "why_tests_cant": "The algorithm that avoids copies groups dimensions by products; shapes and strides that break a grouping are too many to sample.", "anchors": ["stdlib/numpy/ndarray.codon: reshape, _attempt_reshape_nocopy, _fix_unknown_dimension, copy, astype", "stdlib/numpy/util.codon: multirange, strides"]}
{"id": "C63", "title": "Indexing and transposing arrays give views of exactly the selected elements", "statement": "a[idx] with integers, slices, None and ... is a view on the memory of a whose element at every coordinate is the element that Python's rules for slices and negative indices select, and whose shape is the one these rules give; no element is missing or selected twice. An integer out of range raises IndexError, a zero step ValueError; more than one ... or more indices than dimensions are compile errors. transpose and swapaxes give a view with the axes exchanged as asked; an axis out of range raises AxisError, a repeated one ValueError.", "quantifier": "for all arrays of any number of dimensions and any strides, all index tuples and all axes", "why_tests_cant": "Offsets and strides of a view are computed per dimension from begin, step and stride, with ellipsis and new axes shifting the positions; the combinations are unbounded.", "anchors": ["stdlib/numpy/indexing.codon: _getset, _extract_special, _expand_ellipsis, _multiindex", "stdlib/numpy/ndarray.codon: transpose, T, swapaxes"]}
{"id": "C64", "title": "Operators on numpy arrays act element by element with broadcasting", "statement": "For arrays a, b of any layouts (C order, Fortran order, transposed, sliced, reversed, broadcast) whose shapes broadcast to s, `a + b` (and every other operator, also reflected, unary, and with a number) gives a new array of shape s whose element at c is the operator applied to the elements of a and b that stand at c; operands are unchanged. Shapes that do not broadcast raise ValueError. `a += b` stores these values in a if b broadcasts to the shape of a, changing nothing else, and raises ValueError otherwise.", "quantifier": "for all numbers of dimensions, shapes, strides, element sizes, element operations and memory contents", "why_tests_cant": "The loop has special cases for every combination of contiguity, stride, number of operands and order of dimensions; which is taken depends on run-time strides, and a wrong one gives plausible numbers in the wrong place.", "anchors": ["stdlib/numpy/ndarray.codon: _loop, _op_elemwise, _rop_elemwise, _op_scalar, _iop_elemwise, _op_unary, _iop_unary", "stdlib/numpy/util.codon: tuple_perm, tuple_perm_inv, sort_by_stride"]}
{"id": "C65", "title": "Universal functions of numpy compute every element, honour where= and out=", "statement": "For a universal function f (np.sin, np.add, np.hypot, \u2026) and operands of any layout: `f(x)` gives a new array of the shape of x with f of every element; `f(x, y)` gives a new array of the broadcast shape whose element at c is f of the two elements that stand at c, and raises ValueError if the shapes do not broadcast. With a mask `where=m` only elements for which m holds are computed. With `out=o` the values go to o, elements for which the mask does not hold keep theirs, and nothing else in memory changes; operands or masks that cannot be stretched to the shape of o raise an error. The result does not depend on whether the function has a vectorised loop, nor on the number of lanes.", "quantifier": "for all element functions, shapes, strides, masks, element sizes, numbers of SIMD lanes and memory contents", "why_tests_cant": "The vectorised loops have separate code for contiguous operands, fixed operands, full rounds and the rest, chosen by run-time strides and by the machine's vector width; tests on one machine with short arrays reach only some of them.", "anchors": ["stdlib/numpy/ufunc.codon: UnaryUFunc.__call__, BinaryUFunc.__call__, _apply_vectorized_loop_unary, _apply_vectorized_loop_binary", "codon/runtime/numpy/loops.cpp: UnaryLoop, BinaryLoop", "stdlib/numpy/routines.codon: empty_like", "stdlib/numpy/util.codon: broadcast"]}
{"id": "C66", "title": "Fusing the additions of lists does not change what a program does", "statement": "In optimised builds `x1 + x2 + \u2026 + xn` on lists is replaced by code that evaluates the operands, allocates one list and copies every operand into it (slices and list literals without building them first). The result has the same elements, the operands are evaluated in the same order with the same effects, and the same exception is raised in the same state as for the expression as written; the copies stay inside the new list.", "quantifier": "for all nestings of +, all operands (arbitrary expressions with effects, slices with any bounds, literals), element types and states of the program", "why_tests_cant": "Debug builds do not run the pass, and whether it is visible depends on what later operands do to lists that earlier ones refer to, on the bounds of slices at run time, and on which operand raises.", "anchors": ["codon/cir/transform/pythonic/list.cpp: ListAdditionOptimization, inspect, optimize, ElementHandler", "stdlib/internal/types/collections/list.codon: __add__, __getitem__, _list_add_opt_default_append, _list_add_opt_slice_len, _list_add_opt_slice_append, _list_add_opt_literal_append", "codon/parser/visitors/typecheck/collections.cpp: transformComprehension"]}
{"id": "C67", "title": "Fusing a generator with sum, any or all does not change what a program does", "statement": "In optimised builds `sum(g(\u2026), start)`, `any(g(\u2026))` and `all(g(\u2026))`, where g is a generator function (or a generator expression), become a call of a plain function: the body of g with every yield replaced by the addition, or by a conditional return. The call ends exactly when the original ends, with the same result or exception, in the same state of the program.", "quantifier": "for all generator bodies (nested loops with break and continue, conditions, returns, try statements), all items, additions and truth values with effects and exceptions, and all initial states; including runs that do not end", "why_tests_cant": "The generator and its consumer are two interleaved computations; their fusion is visible only through the interplay of suspension with loops, returns, exceptions and finally blocks, of which there are infinitely many combinations, and debug builds do not run the pass.", "anchors": ["codon/cir/transform/pythonic/generator.cpp: GeneratorSumTransformer, GeneratorAnyAllTransformer, genToSum, genToAnyAll", "stdlib/internal/builtin.codon: sum, any, all", "codon/cir/llvm/llvisitor.cpp: makeYield, visit(ForFlow), visit(ReturnInstr)"]}
{"id": "C68", "title": "Every occurrence of a local name denotes the variable that Python says it does", "statement": "In a function, a name that is a parameter or is bound anywhere in the body is one variable: reading it gives the value of the binding executed last, whatever blocks the binding and the reading are in, and NameError if none was executed. The compiler splits such a name into several typed variables and inserts declarations and run-time checks; the compiled function prints, returns and raises what the Python function does, and never reads a variable that was not set.", "quantifier": "for all function bodies made of assignments, expressions, if, while, for, try/except, break, continue and return, nested in any way; all parameters, arguments and values of global names; runs of every length", "why_tests_cant": "Which bindings share a variable depends on the relative position of every pair of occurrences in the tree of blocks, and a wrong choice shows only on the path that skips a binding; the analysis mutates its earlier decisions as it proceeds, so programs of any size can exercise a new combination.", "anchors": ["codon/parser/visitors/scoping/scoping.cpp: ScopingVisitor::visitName, findDominatingBinding, switchToUpdate, visit(IdExpr), visit(WhileStmt), visit(ForStmt), visit(IfStmt), visit(TryStmt), visit(FunctionStmt)", "codon/parser/visitors/scoping/scoping.h: Context::Item, ScopeBlock", "codon/parser/visitors/typecheck/typecheck.cpp: visit(SuiteStmt)", "codon/parser/visitors/typecheck/assign.cpp: visit(AssignStmt)", "codon/parser/visitors/typecheck/access.cpp: visit(IdExpr)", "codon/parser/visitors/typecheck/ctx.cpp: find"]}
{"id": "C69", "title": "match, break, continue and the else of loops do what they do in Python", "statement": "A match statement evaluates its subject once, runs the body of the first case whose pattern matches and whose guard (evaluated once, after binding the captured names) holds, and nothing else; break and continue concern the innermost loop around them, also from inside a case or from the else of an inner loop; the else of a loop runs exactly when the loop was not left by break; a loop over a tuple whose components have different types visits each component of the tuple once. break and continue outside a loop are reported.", "quantifier": "for all statements built from simple statements, if, loops with and without else, unrolled loops over tuples, match with nested patterns and guards, break and continue, nested in any way; all states; runs of every length", "why_tests_cant": "match, loop else and unrolled loops are all lowered to plain loops with flags and breaks that can capture each other's jumps; whether a jump lands right depends on the whole nest of statements around it and on which of several compiler passes resolves it.", "anchors": ["codon/parser/visitors/typecheck/loops.cpp: visit(BreakStmt), visit(ContinueStmt), visit(WhileStmt), visit(ForStmt), transformStaticForLoop", "codon/parser/visitors/typecheck/cond.cpp: visit(MatchStmt), transformPattern", "codon/parser/visitors/typecheck/special.cpp: populateStaticHeterogenousTupleLoop", "codon/parser/visitors/typecheck/typecheck.cpp: transform(Stmt *)"]}
{"id": "C70", "title": "An array access whose bounds check the compiler removes is in range", "statement": "When the compiler replaces an access a[idx] to a one-dimensional array inside a counting loop by an access without bounds check, every execution of the access has 0 <= idx < len(a); so the program reads and writes the same elements, raises the same IndexErrors and touches no memory outside the array.", "quantifier": "for all loops (start, stop, constant step of either sign), all index expressions, all answers of the reaching definition analysis that are right for the execution, all executions: any number of rounds, any assignments before, inside and between runs of the loop, any lengths", "why_tests_cant": "An access out of range without check silently reads or overwrites other memory; whether it is in range depends on symbolic comparison of sums of lengths and variables, for every value they can have, and on assignments anywhere in the function.", "anchors": ["codon/cir/transform/numpy/indexing.cpp: Term, combineTerms, lessThan, replaceLoopVariable, parse, isOriginalLoopVar, isAliasOfLoopVar, canElideBoundsCheck, NumPyBoundsCheckElisionPass::visit", "codon/cir/analyze/dataflow/reaching.h: RDInspector", "stdlib/numpy/fusion.codon: _array1d_get_nocheck, _array1d_set_nocheck", "stdlib/numpy/util.codon: normalize_index"]}
{"id": "C71", "title": "Optimising NumPy expressions does not change their values", "statement": "Replacing an expression of array operators and universal functions by fused loops and by operations that reuse and free temporary arrays gives an array of the same shape and the same elements as evaluating the expression as it is written, raises ValueError exactly when some shapes do not broadcast, never reads, writes or frees memory that does not belong to the expression, and leaves all existing arrays unchanged.", "quantifier": "for all expression trees, element operations and element types, all shapes and memory layouts of the leaves (views with any strides, aliases), all contents of uninitialised memory, and all decisions of the cost model", "why_tests_cant": "The choice between fused, tested and sequential evaluation, the reuse of temporaries and the broadcasting of each operand combine without bound; wrong reuse shows only for particular trees with particular shapes and layouts, and use after free may go unnoticed.", "anchors": ["codon/cir/transform/numpy/numpy.cpp: optimizeHelper, NumPyOptimizationUnit::optimize", "codon/cir/transform/numpy/expr.cpp: NumPyExpr::cost, getBroadcastInfo, codegenBroadcasts, codegenFusedEval, codegenSequentialEval, codegenScalarExpr", "stdlib/numpy/fusion.codon: _broadcast, _create, _free, _loop_alloc, _loop_basic, _apply_vectorized_loop_unary, _apply_vectorized_loop_binary", "stdlib/numpy/ndarray.codon: operators", "stdlib/numpy/ufunc.codon"]}
{"id": "C72", "title": "Pickling and unpickling gives back an equal value", "statement": "Dumping a value with `pickle` and loading it again gives an equal value: numbers, strings with any bytes, lists, tuples, classes, dictionaries, sets and arrays, nested in any way. Loading reads exactly the bytes that dumping wrote, so several values can follow each other in a file. If the file is too small, or ends too early, IOError is raised.", "quantifier": "for all types built from these, all values (lists, strings, tables with any history of insertions and deletions, arrays with any strides), all positions in the file, all contents of padding and unused memory, all truncations of the file", "why_tests_cant": "Values are written as raw memory or element by element depending on the type; layouts, padding, garbage in unused table slots and truncated files combine without bound.", "anchors": ["stdlib/pickle.codon: _write_raw, _read_raw, List, DynamicTuple, Dict, Set, str, int", "stdlib/internal/internal.codon: __magic__.pickle, unpickle", "stdlib/numpy/npio.codon: ndarray.__pickle__, ndarray.__unpickle__"]}
{"id": "C73", "title": "Integers of any width behave as numbers modulo a power of two", "statement": "For `Int[N]` and `UInt[N]`: conversion keeps every value that fits and wraps the others around; a decimal string is converted to the number it denotes and any other string raises ValueError; `//`, `%` and `divmod` of signed numbers round down as in Python; shifts multiply and divide by powers of two, rounding down; `**` is the power modulo 2^N; `popcnt` and `bit_length` count bits.", "quantifier": "for all widths N, all values of the type, all strings, all exponents and shifts", "why_tests_cant": "Every width is a type of its own and each has 2^N values; errors appear only for special widths, at the limits of the range, or for conversions between widths and signedness.", "anchors": ["stdlib/internal/types/intn.codon: Int, UInt, __new__, __int__, __divmod__, __lshift__, __rshift__, __pow__, popcnt, bit_length"]}
{"id": "C74", "title": "Reading a file gives its contents, line by line", "statement": "A loop over a `File`, `gzFile` or `bzFile` sees the lines of the file: together they are the contents, each but perhaps the last ends with a newline and has no other. The loop that trims newlines sees the same lines without them. `read()` gives everything, `read(n)` the next n bytes, what was written is read again. Read errors raise IOError.", "quantifier": "for all contents (any bytes, any lengths of lines), all positions, all contents of uninitialised buffers, all points where a read error occurs", "why_tests_cant": "Lines are assembled from pieces in a buffer that grows; the result depends on where newlines, zero bytes, buffer limits and the end of the file fall, and on the kind of file behind the object.", "anchors": ["stdlib/internal/file.codon: File, gzFile, bzFile, _getline, _gets, _iter, _iter_trim_newline, read, write, __file_write_gen__, seek"]}
{"id": "C75", "title": "Forwarding a NumPy expression to its only use changes nothing else", "statement": "When the compiler moves an array expression that is assigned to a variable to the only use of the variable and deletes the assignment (`y = a + b; ...; z = y * c` becomes `z = (a + b) * c`), the function ends with an exception if and only if it did before, and otherwise leaves the same variables and arrays, apart from that variable.", "quantifier": "for all functions (any control flow graph and statements), all expressions, all states, all behaviours of the other calls that the side effect analysis describes correctly", "why_tests_cant": "Whether the move is allowed depends on everything that can happen on any path between the assignment and the use, including changes of arrays in place; a test sees one path.", "anchors": ["codon/cir/transform/numpy/forward.cpp: canForwardExpression, canForwardExpressionAlongPath, OkToForwardPast, canForwardVariable, doForwardingHelper", "codon/cir/transform/numpy/numpy.cpp: NumPyOptimizationUnit::optimize, NumPyFusionPass::visit"]}
{"id": "C76", "title": "np.partition puts the elements asked for in their sorted places", "statement": "np.partition(a, kth) returns a rearrangement of each line of a in which every position in kth holds the element that sorting would put there, with no greater element before it and no smaller one after it; np.argpartition returns indices through which the line reads like that. Positions out of range raise ValueError; nothing outside the line is accessed.", "quantifier": "for all lines, all strict weak orders (in particular floats with NaN and complex numbers), all lists of positions, negative, repeated and in any order", "why_tests_cant": "Which path is taken (short search, median of three, median of medians when the depth is exhausted, pivots kept from earlier positions, the special case of the largest float) depends on the data; the unguarded searches are only safe because of the way the pivot is chosen.", "anchors": ["stdlib/numpy/sorting.codon: _introselect, _unguarded_partition, _median3_swap, _median5, _median_of_median5, _dumb_select, _store_pivot, _partition_compact, _partition_buffered, _fix_kth, partition, argpartition, _less"]}
{"id": "C77", "title": "np.sort(kind='stable'), argsort and lexsort are stable sorts; heapsort sorts", "statement": "np.sort(a, kind='stable') puts each line in order and leaves equal elements in the order they had; argsort(kind='stable') gives the indices of that sort; lexsort orders rows by the last key, ties by the key before it, and so on, and leaves rows with equal keys in order. kind='heapsort' puts the line in order. Floats come before NaN. Nothing outside the array, the buffer and the stack of runs is accessed.", "quantifier": "for all lines of fewer than 2^63 elements, all strict weak orders, all integer types of a whole number of bytes, signed or not, all lists of keys", "why_tests_cant": "Timsort's merging pattern depends on the lengths of the runs, its fixed stack of 128 runs is only enough because of an invariant between the lengths, and the galloping searches and merges must break ties in opposite ways; small inputs never merge at all.", "anchors": ["stdlib/numpy/sorting.codon: timsort, atimsort, _count_run, _merge_at, _gallop_left, _gallop_right, _merge_left, _merge_right, _try_collapse, _force_collapse, radixsort, aradixsort, key_of, nth_byte, heapsort, aheapsort, lexsort, stablesort"]}
{"id": "C78", "title": "Sorting and partitioning an array works on each line along the axis, and on nothing else", "statement": "np.sort(a, axis, kind) returns a new array of the same shape in which every line along the axis is the sorted line of a (stably for kind 'stable'), whatever the strides of a; a is unchanged. a.sort(axis, kind) does the same in place and changes nothing else. axis=None sorts all elements in row-major order into one dimension. np.argsort gives, line by line, the positions that sort; np.partition partitions line by line. Wrong axes and kinds raise exceptions.", "quantifier": "for all arrays (any number of dimensions, any strides; for sorting in place: elements at different places), all axes, positive or negative, all kinds, all strict weak orders", "why_tests_cant": "The line is sorted in place or through a buffer depending on the strides; an error in the walk over the other axes or in the pointer of a line shows only for particular layouts, and writing elsewhere in memory does not show in the result.", "anchors": ["stdlib/numpy/sorting.codon: _sort_compact, _sort_buffered, _sort_dispatch, _sort, sort, _asort, argsort, _partition_compact, _partition_buffered, _partition_helper, partition", "stdlib/numpy/util.codon: tuple_delete, tuple_insert, multirange, normalize_axis_index"]}
{"id": "C79", "title": "Indexing with assignment, masks and index arrays selects exactly the elements NumPy selects", "statement": "a[idx] = v for an index of integers, slices, None and ... stores v, stretched to the shape of the selection and converted to the element type, at the selected elements of a and nowhere else. a[mask] is a new one-dimensional array of the elements where the mask is true, in row-major order; a[mask] = v stores there. With arrays of integers among the indices a[idx] is a new array whose element at (position in the broadcast index arrays, positions in the slices) is the element so selected, the axes of the index arrays standing where the integers and arrays stand if these are adjacent and first otherwise; a[idx] = v stores at the selected elements, the last value winning. Wrong indices and shapes raise and change nothing.", "quantifier": "for all arrays of any number of dimensions and strides (assigned ones with elements at different places), all indices, all masks and index arrays of any layout, all right sides that can be stretched", "why_tests_cant": "Contiguous and strided operands take different loops, the axes of the result depend on the kinds and order of the indices, and overlapping of right side and target depends on addresses; a stray store elsewhere does not show in the result.", "anchors": ["stdlib/numpy/indexing.codon: _getset, _assign_one, _getset_bool, _bool_idx_num_true, _getset_advanced, _adv_idx_eliminate_new_and_used, _adv_idx_prune_index, _adv_idx_gather_arrays, _adv_idx_iter_non_arrays, _adv_idx_build_for_contig_array, _broadcast_shapes", "stdlib/numpy/ndarray.codon: _ptr, _contig_match, _is_contig", "stdlib/numpy/routines.codon: broadcast_to"]}
{"id": "C80", "title": "String indexing, slicing, repetition, case changes, padding, expandtabs and translate do what Python's do", "statement": "For strings of one-byte characters: s[i] and s[a:b:c] select the bytes Python selects and raise where Python raises; s * n is n copies, empty for negative n; isdigit, isdecimal, isalpha, isalnum, isascii, islower, isupper, istitle, isidentifier, isspace and isprintable decide what Python's manual says; lower, upper, swapcase, capitalize and title change exactly the letters they should; ljust, rjust, center and zfill pad to the width with Python's distribution of the padding; expandtabs expands each tab to the next multiple of the tab size and raises OverflowError exactly if the result is too long; translate replaces each character by its image. None of them reads or writes outside the strings.", "quantifier": "for all strings, indices, slices, widths, fill characters, tab sizes and tables", "why_tests_cant": "Buffers are sized by one loop and filled by another, so an error shows only for particular combinations of lengths; overflow needs lengths no test can allocate; and the outcomes depend on every byte value and on neighbouring characters.", "anchors": ["stdlib/internal/str.codon: __getitem__, _make_from_range, __mul__, isdigit, islower, isupper, isalnum, isalpha, isspace, istitle, capitalize, isdecimal, lower, upper, isascii, swapcase, title, _build, ljust, rjust, center, zfill, isidentifier, isprintable, expandtabs, translate", "stdlib/internal/types/slice.codon: adjust_indices"]}
{"id": "C81", "title": "The optimisations of string concatenation do not change what a program does", "statement": "Replacing a sum of strings by a single str.cat, and printing or writing the parts of a str.cat one after the other instead of the joined string, give the same values, the same output on every file, the same exceptions and the same side effects in the same order as the program before the optimisation, for any bracketing of the sum and any nesting of these forms in a program.", "quantifier": "for all programs, all meanings of the functions and variables they use, and all initial states", "why_tests_cant": "The passes match on the shape of nested calls; there are infinitely many shapes, and an operand that is dropped, duplicated or moved is seen only if it has a side effect that the test observes.", "anchors": ["codon/cir/transform/pythonic/str.cpp: inspect, StrAdditionOptimization::handle", "codon/cir/transform/pythonic/io.cpp: optimizePrint, optimizeWrite, IOCatOptimization::handle", "stdlib/internal/types/str.codon: __add__, cat", "stdlib/internal/builtin.codon: print", "stdlib/internal/file.codon: write, __file_write_gen__"]}
{"id": "C82", "title": "A with statement enters its managers in order and leaves each of them once, as in Python", "statement": "A with statement evaluates its items from left to right, calls __enter__ of each object, binds the target, runs the suite, and then calls __exit__ of each object that was entered, in reverse order, exactly once, whether the suite or a later item ends normally, by break, continue, return or an exception; the statement ends the way the Python language reference says.", "quantifier": "for all numbers of items, all behaviours of the expressions, methods and suite (including exceptions and non-termination), and all states", "why_tests_cant": "The suite is arbitrary code that may end in five ways and change any variable; which manager is left, and how often, can depend on all of that.", "anchors": ["codon/parser/visitors/typecheck/error.cpp: TypecheckVisitor::visit(WithStmt)"]}
{"id": "C83", "title": "Making global variables local does not change what the program does", "statement": "The pass that turns global variables used in a single function into local variables of that function leaves the program's output and its way of ending unchanged, and touches no other variable.", "quantifier": "for all programs (any number of functions, recursive or not), all operators and all executions", "why_tests_cant": "The pass looks at all functions of a program at once; whether it is harmless depends on which calls follow each other at run time, over all call histories.", "anchors": ["codon/cir/transform/cleanup/global_demote.cpp: GetUsedGlobals, GlobalDemotionPass::run", "codon/cir/llvm/llvisitor.cpp: registerGlobal, makeLLVMFunction/visit(BodiedFunc) (storage of variables)"]}
{"id": "C84", "title": "nsmallest, nlargest and merge give parts of the stable sort", "statement": "heapq.nsmallest(n, it, key) is the first n elements of Python's sorted(it, key=key), heapq.nlargest(n, it, key) the first n of sorted(it, key=key, reverse=True), equal keys in the order of the iterable, and heapq.merge of inputs that are in order yields the stable sort of their concatenation (every element once whatever the inputs).", "quantifier": "for all element and key types with a strict weak order, all key functions, all iterables, all n (also zero, negative, or larger than the iterable), all numbers of inputs, both directions", "why_tests_cant": "Stability depends on the counters put into the tuples and on every path the heap can take; ties in particular patterns over long inputs are needed to see a wrong one.", "anchors": ["stdlib/heapq.codon: nsmallest, nlargest, _MergeItem, merge", "stdlib/internal/internal.codon: __magic__.lt"]}
{"id": "C85", "title": "int(s, base) reads Python's literals, and bin/oct/hex print them", "statement": "int(s, base) is the value of the literal that s is after removing surrounding white space (sign, prefix allowed by the base, digits; base 0 takes the base from the prefix) and a ValueError for any other text or a value outside 64 bits; bin, oct and hex print the sign, the prefix and the canonical digits of every integer; reading the print gives the number back.", "quantifier": "for all texts (byte strings), all bases, all 64-bit integers, whatever bytes lie in freshly allocated memory", "why_tests_cant": "The texts are unbounded and the faults sit at particular lengths and characters: tests with longer literals never see the byte read past the end of a short one.", "anchors": ["stdlib/internal/builtin.codon: _int_format, bin, oct, hex, int._from_str", "codon/runtime/lib.cpp: seq_int_from_str", "stdlib/internal/pynumerics.codon: int.__floordiv__"]}
{"id": "C86", "title": "zip, map, filter, enumerate, any, all, next, min and max consume iterators as Python's do", "statement": "Each of these functions yields or returns what Python's function does on the same iterators and advances them by exactly as many items (any and all stop at the deciding item, filter just past the item found, zip at the shortest); min and max give the first least or greatest item; no finished generator is resumed and none freed twice.", "quantifier": "for all generators (finite or not, partly consumed or not), all numbers of iterators, all predicates and keys, all weak orders, all numbers of items taken", "why_tests_cant": "What is left in the iterators after a partial consumption, and whether a coroutine is touched after its end, does not show in the values a test compares; undefined behaviour often goes unnoticed.", "anchors": ["stdlib/internal/builtin.codon: min, max, next, any, all, zip, filter, map, enumerate", "stdlib/internal/types/generator.codon: done, __next__, __resume__, destroy", "codon/cir/llvm/llvisitor.cpp: visit(const ForFlow *)"]}
{"id": "C87", "title": "Inlining a call does not change what a program does", "statement": "When the inlining utility (inlineCall / inlineFunction, with or without the aggressive option) replaces a call by a flow, running the flow performs the same effects in the same order, gives the same value or raises the same exception as the call, leaves the other variables of the caller alone, and ends exactly when the call ends. Without the aggressive option a call is left alone exactly when some return is not the last thing the body does.", "quantifier": "for all functions built from expressions with effects, assignments, series, conditionals, loops, break, continue, return, try/except and try/finally, all arguments, all states of the caller and of the world, and all behaviours of the primitives", "why_tests_cant": "Whether a replaced return leaves the right nest of loops and handlers depends on the whole shape of the body; tests inline a handful of functions.", "anchors": ["codon/cir/util/inlining.cpp:inlineFunction", "codon/cir/util/inlining.cpp:ReturnVerifier", "codon/cir/util/inlining.cpp:ReturnReplacer", "codon/cir/util/inlining.cpp:inlineCall", "codon/cir/util/cloning.cpp:CloneVisitor::clone"]}
{"id": "C88", "title": "NumPy reductions reduce exactly the elements that belong to each element of the result", "statement": "sum, prod, min, max, ptp, any, all, count_nonzero, argmin and argmax over all axes, one axis or a tuple of axes (negative axes count from the end) give a value or a new array with the shape of the remaining axes; each element is the reduction of exactly the elements of the operand whose remaining coordinates are the same and which the mask selects, whatever the strides of the operand and of the mask; argmin and argmax give the position of the first of the least or greatest elements in row-major order. An axis out of range raises AxisError, one named twice ValueError; nothing outside the operands is read and the operands do not change.", "quantifier": "for all shapes, strides, offsets and contents of the array and of the mask, all axis arguments, all initial values, and all element types with the operations of a commutative monoid or a linear order", "why_tests_cant": "Which of the loops runs (by line, in memory order, transposed, row by row into the result) depends on the strides of the array and the mask and on the axes; tests use a few C-contiguous arrays.", "anchors": ["stdlib/numpy/reductions.codon:_reduce", "stdlib/numpy/reductions.codon:_reduce_all", "stdlib/numpy/reductions.codon:_reduce_gradual", "stdlib/numpy/reductions.codon:SumRedux", "stdlib/numpy/reductions.codon:MinRedux", "stdlib/numpy/reductions.codon:PTPRedux", "stdlib/numpy/reductions.codon:ArgMinRedux", "stdlib/numpy/reductions.codon:NonZeroRedux"]}
{"id": "C89", "title": "pow, divmod, sum and factorial of integers are exact", "statement": "pow(b, e) is b ** e modulo 2^64 and pow(b, e, m) is the remainder of the exact power b ** e by m, rounded like %; a negative exponent or a zero modulus is a ValueError. divmod(a, b) gives the quotient rounded down and its remainder. sum of integers or bools is the exact sum modulo 2^64. math.factorial(x) is x! whenever that is an int and raises ValueError elsewhere.", "quantifier": "for all 64-bit bases, exponents, moduli, dividends and divisors, all lists of integers, with and without -numerics=py", "why_tests_cant": "The intermediate products of a modular power overflow only for large moduli and particular bases; no test can try the 2^192 argument triples.", "anchors": ["stdlib/internal/builtin.codon:pow", "stdlib/internal/builtin.codon:divmod", "stdlib/internal/builtin.codon:sum", "stdlib/internal/types/int.codon:__divmod__", "stdlib/internal/pynumerics.codon:_divmod_int_int", "stdlib/math.codon:factorial"]}
{"id": "C90", "title": "Comprehensions and displays build what Python's do", "statement": "A list, set or dictionary comprehension nests its clauses from left to right, evaluates each part exactly as often and in the order the nesting says, evaluates the element (a key before its value) each time the innermost block is reached and puts it into a fresh container; an exception stops everything where it is raised. A display evaluates its items from left to right, once each, and puts all that a starred item yields in at its place.", "quantifier": "for all clause lists, all elements and item lists, all iterables (also endless ones), all effects and exceptions of the expressions and methods involved", "why_tests_cant": "The rewriting is checked only on sample comprehensions with harmless iterables; which evaluation happens before which, and what happens on exceptions in each of the unboundedly many nestings, no test set can cover.", "anchors": ["codon/parser/visitors/typecheck/collections.cpp:TypecheckVisitor::visit(GeneratorExpr *)", "codon/parser/visitors/typecheck/collections.cpp:TypecheckVisitor::transformComprehension", "codon/parser/ast/expr.cpp:GeneratorExpr::formCompleteStmt", "codon/parser/ast/expr.cpp:GeneratorExpr::loopCount", "codon/parser/ast/expr.cpp:GeneratorExpr::getFinalStmt"]}
{"id": "C91", "title": "NumPy's datetime64 counts the days and times of the Gregorian calendar", "statement": "datetime64 values and calendar dates are one to one: day 0 is 1970-01-01 and each following date has the next number, for all years before and after. A value of a unit from weeks down to attoseconds, with any multiple, denotes the point in time that many units after the beginning of 1970; making a value rounds down, also before 1970; changing the unit keeps the point in time rounded down to the new unit; reading a value and writing it in its own unit gives it back.", "quantifier": "for all integers as day numbers, all dates of all years, all units and multiples, all values that do not overflow", "why_tests_cant": "Leap rules and the two signs of division meet in a few days out of every 400 years and only before 1970; a table of sample dates cannot show that no date is counted twice or skipped.", "anchors": ["stdlib/numpy/npdatetime.codon:_days_to_yearsdays", "stdlib/numpy/npdatetime.codon:datetimestruct.days", "stdlib/numpy/npdatetime.codon:datetimestruct.set_days", "stdlib/numpy/npdatetime.codon:datetimestruct.to_datetime64", "stdlib/numpy/npdatetime.codon:datetimestruct.from_datetime64", "stdlib/numpy/npdatetime.codon:datetime64._cast"]}
{"id": "C92", "title": "NumPy's business day functions agree with the definition of a business day", "statement": "With a calendar of open weekdays and holidays, given in any order and with repetitions, a business day is a day open by the mask that is no holiday. is_busday says exactly that. busday_count is the number of business days from the first date on before the second, and minus the number after the second up to the first if they are in the other order. busday_offset first moves a day that is not a business day as the roll says (first one after or before, or the other side if the month changes, or NaT, or ValueError) and then goes to the business day that many business days on or back. The searches never read outside the holidays and the loops end. A weekmask string is seven digits or names of days with blanks, and everything else is refused.", "quantifier": "for all weekmasks, all finite lists of holidays, all dates, offsets and rolls, all strings", "why_tests_cant": "The code jumps over whole weeks and corrects by the number of holidays found by binary search; errors need a holiday exactly at the start, at the end of the jump, or outside the mask, with a certain remainder of the offset, forwards or backwards.", "anchors": ["stdlib/numpy/npdatetime.codon:_apply_busines_day_offset", "stdlib/numpy/npdatetime.codon:_apply_busines_day_count", "stdlib/numpy/npdatetime.codon:_apply_busines_day_roll", "stdlib/numpy/npdatetime.codon:_apply_is_business_day", "stdlib/numpy/npdatetime.codon:_find_earliest_holiday_on_or_after", "stdlib/numpy/npdatetime.codon:_is_holiday", "stdlib/numpy/npdatetime.codon:busdaycalendar", "stdlib/numpy/routines.codon:busday_offset"]}
{"id": "C93", "title": "getopt reads every command line as Python does", "statement": "For all declared short and long options, getopt returns the options in the order written, with their values, and the operands, and raises GetoptError exactly if the line has no meaning: clusters of short options, values attached or in the next argument, long options by name or by an unambiguous beginning, values after = or in the next argument, -- as the end of options, - as an operand.", "quantifier": "for all declarations of options, all lists of argument strings, with and without + and POSIXLY_CORRECT", "why_tests_cant": "The meaning of an argument depends on the declarations and on all arguments before it; ambiguous prefixes, empty values and clusters ending in an option with a value combine without bound.", "anchors": ["stdlib/getopt.codon:getopt", "stdlib/getopt.codon:do_longs", "stdlib/getopt.codon:do_shorts", "stdlib/getopt.codon:long_has_args", "stdlib/getopt.codon:short_has_arg"]}
{"id": "C94", "title": "re goes through the matches of a pattern as Python does", "statement": "finditer, findall, split, sub and subn use the matches that Python uses: from left to right, without overlap, the preferred one at the first place that has one, no empty match twice at the same place, and a longer match after an empty one at the same place. They always end. sub replaces exactly the first count matches, or all of them, leaves the rest of the string as it is, and returns how many there were; replacing each match by its own text gives the string back.", "quantifier": "for all patterns, as an arbitrary relation of positions and preferred ends, all strings, all counts and bounds", "why_tests_cant": "What goes wrong depends on where empty matches lie relative to the place where a search began; patterns are unbounded, and any list of patterns tests only some of these positions.", "anchors": ["stdlib/re.codon:Pattern._match", "stdlib/re.codon:Pattern._split", "stdlib/re.codon:Pattern.subn", "stdlib/re.codon:Pattern.finditer", "codon/runtime/re.cpp:seq_re_match"]}
{"id": "C95", "title": "Searches in sorted arrays find the place of every key", "statement": "numpy.searchsorted(a, v, side, sorter) gives for every element x of v, in whatever order the elements of v come, the one index before which (side 'left') all elements of a are smaller and from which on none is, or ('right') before which none is greater and from which on all are; with a sorter a is taken in the order of the sorter. A wrong side or sorter is refused with ValueError. digitize gives the bin of each element for bins that go up or down, closed on the side that `right` says, and refuses other bins. The search of numpy.interp finds the interval of sample points around the key whatever interval was guessed, and reads no element outside the array. bincount gives at each place how often it occurs.", "quantifier": "for all sorted arrays over any strict weak order, all lists of keys, both sides, all sorters, all guesses; all arrays of integers for bincount", "why_tests_cant": "searchsorted starts each search from the bounds of the one before and interp from the last interval: whether that is right depends on the order of all pairs of neighbouring keys and all elements between.", "anchors": ["stdlib/numpy/routines.codon: _bisect_left, _bisect_right, _bisect_left_perm, _bisect_right_perm, searchsorted", "stdlib/numpy/interp.codon: _linear_search, _binary_search_with_guess", "stdlib/numpy/statistics.codon: bincount, _monotonicity, digitize", "stdlib/numpy/ndarray.codon: ndarray._minmax"]}
{"id": "C96", "title": "Templates of replacements expand to what they say", "statement": "match.expand(template), and hence re.sub and re.subn with a string, replaces in the template every escape by its character, every octal number by the character of that code, every reference \\1 to \\99, \\g<number> and \\g<name> by the text of the group (nothing if the group took no part), and keeps everything else, in order; a reference to a group that does not exist is an exception, and so is a backslash before a letter without meaning.", "quantifier": "for all matches (any groups and names) and all templates", "why_tests_cant": "Templates are cut into pieces by two expressions that compete for a backslash and digits, and the pieces are unescaped afterwards: whether a digit belongs to a reference, an octal number or the text depends on all characters around it.", "anchors": ["stdlib/re.codon: Match._split, Match._unescape, Match.expand"]}
{"id": "C97", "title": "Flat and multi-dimensional indices, and bits and bytes, go over into each other", "statement": "numpy.ravel_multi_index of a position inside a shape is the number of elements before it, the last axis running fastest in order 'C' and the first in order 'F'; numpy.unravel_index gives the position back, and both refuse with ValueError what is not a position or not a number of one; modes 'wrap' and 'clip' first bring each index into its range. numpy.packbits (axis None) makes of every eight elements a byte, the last filled up with zeros, and unpackbits takes the bytes apart, with count as many bits as asked for; unpacking with the number of elements gives back what was packed, and packing gives back the bytes unpacked. The number of places on a diagonal (eye, diag) is right for every offset.", "quantifier": "for all shapes whose number of elements fits an integer, all positions and numbers, both orders, all modes; all lists of bits and bytes, all counts; all sizes and offsets", "why_tests_cant": "The results depend on the whole shape and the length modulo eight; a round trip over all shapes and lengths is not a finite number of cases.", "anchors": ["stdlib/numpy/routines.codon: ravel_multi_index, unravel_index, packbits, unpackbits, _diag_count", "stdlib/numpy/util.codon: index_to_coords, index_to_fcoords, coords_to_index, coords_to_findex"]}
{"id": "C98", "title": "Rolling, splitting, resizing, repeating and deleting elements of arrays", "statement": "For arrays of one axis: numpy.roll moves every element by the shift around the end, for shifts of any sign and size, and writes every element of the result; array_split into k sections gives k pieces that make up the array, with sizes that differ by one at most, the larger first; resize repeats the elements as often as needed and makes zeros of an empty array; repeat puts each element as often as its number says and refuses negative numbers and the wrong number of numbers; delete with an index, a list of indices (in any order, from either end, with repetitions) or a mask keeps just the other elements in order and refuses what is outside or of the wrong length.", "quantifier": "for all arrays of one axis, all shifts, all positive numbers of sections, all sizes, all lists of repetitions, all indices, lists of indices and masks", "why_tests_cant": "Results depend on signs and remainders of shifts and sizes and on the order and repetition of indices; that a new array is written completely, and never outside, is a statement about all of them.", "anchors": ["stdlib/numpy/routines.codon: roll, array_split, resize, repeat, delete", "stdlib/numpy/util.codon: normalize_index"]}
{"id": "C99", "title": "numpy.insert puts each value before the place its index means", "statement": "For arrays of one axis, numpy.insert with an index or a list of indices puts each value before the element its index means (or at the end), indices counting from the end if negative; values for the same place stay in the order of the indices; all other elements stay in order; indices outside are refused with IndexError. With one index all the values are put there, as in NumPy, and numbers of indices and values that do not fit are refused.", "quantifier": "for all arrays of one axis, all indices and lists of indices in any order with repetitions, all values", "why_tests_cant": "The result depends on the order, the signs and the repetition of the indices, whose number is not bounded; that no element is lost and nothing outside is read is a statement about all of them.", "anchors": ["stdlib/numpy/routines.codon: insert", "stdlib/numpy/util.codon: normalize_index"]}
{"id": "C100", "title": "numpy.append gives the elements of both operands", "statement": "For arrays of one axis, numpy.append, with and without an axis, gives an array with the elements of the first operand and then those of the second, converted to the common type, whatever the types and strides of the operands; every byte of the result is written and nothing outside is accessed.", "quantifier": "for all operands of one axis, all sizes of elements, contiguous or not, with or without conversion", "why_tests_cant": "Whether an operand is copied as a whole or element by element depends on types and strides; the offsets must fit in all combinations and for all lengths, and an element that was never written may happen to have the expected value.", "anchors": ["stdlib/numpy/routines.codon: append"]}
