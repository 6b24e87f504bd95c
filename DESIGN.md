# Design: a Lean 4 model of typed_python

## Layout

* `properties.jsonl` – the properties (generated by `tools/props.py`).
* `lean/Verif/<Area>/Model.lean` – shallow, total, executable models of the functions in `/repo`, written
  branch by branch. Each definition cites the file and lines it models and names its simplifications.
* `lean/Verif/<Area>/Spec.lean` – small independent specifications (Python's or mathematics' notion).
* `lean/Verif/<Area>/Lemmas*.lean` – invariants and helper lemmas.
* `lean/Verif/<Area>/Props.lean` – the property theorems, each with an `example` showing that its hypotheses
  are met by a concrete, non-trivial case.
* `MANIFEST.json` – claim status and exact theorem names. `seeded/LOG.jsonl` – mutation experiments.

Conventions: Python/C++ exceptions are values (`Except Err α`). Loops and recursions whose termination is
itself a property use fuel with a distinguished `fuel` error, and the termination claim is that some fuel
always suffices; other recursions are structural or well-founded. Machine words are `Int`/`Nat` with explicit
wraparound (`bmod 2^64`) where overflow is observable, `BitVec` where the code does bit operations.

## Trusted base

* Lean 4.33.0's kernel, and the axioms `propext`, `Classical.choice`, `Quot.sound` only (vcheck audits them).
  No axioms are added, there is no `sorry`, `native_decide` or `bv_decide`.
* The hand translation from Python/C++ to Lean (the citations make it reviewable).
* CPython semantics of the primitives used, the C++ compiler, the LLVM code generator, the memory manager:
  not modelled. Object identity/reference counts are modelled only where a property speaks of them.
* Floating point is idealised as exact arithmetic wherever dates are concerned, and is opaque bits elsewhere.

## Plan per property

| id | model | how it is proved |
|----|-------|------------------|
| C01,C02 | `SortedDict` tree with stored counts, fuelled `set`/`rebalance`/`remove` | refinement to a finite map by induction over histories; invariant "a node with a missing child has at most two on the other side", correct counts, search order; termination = fuel suffices |
| C03 | same | refuted: zig-zag histories of every length have linear height |
| C04–C06,C09 | `hash_table_layout` slots, items, counters; C++ and compiled variants | invariant (live items reachable by probe prefix, counters exact, an empty slot exists), full-cycle of the probe LCG, refinement to an insertion ordered association list |
| C07 | Set operations over the table's abstract list | set extensionality |
| C08 | `DictType::cmp` | equality proved; keys-view part refuted by a witness |
| C10–C12 | sorted arrays, binary search, merge | loop invariants, sortedness, canonical form |
| C13,C14 | varint bytes, wire messages | round-trip by strong induction; message tree induction with arbitrary continuation |
| C15,C16 | universe of types and values, serializer/deserializer | induction on types/values |
| C17 | heap graphs with memo | invariant on memo tables |
| C18 | `SerializationBuffer` blocks, the shared compression threads with mutex, condition variable and half-written blocks as a state machine over any number of serializers and threads; `DeserializationBuffer`; LZ4 a parameter with decompress ∘ compress = id | invariant over all interleavings; lexicographic measure for termination; no stuck state |
| C19–C27, C58 | code point lists with storage width | list induction; refutations for the width dependent hash, case mapping |
| C28–C31 | `Int` with wrap, `tdiv`/`tmod` | case analysis with `omega`/Int lemmas; finite tables by `decide` over the whole finite type |
| C32–C34 | `Chrono` integer functions | `omega` after era decomposition; recurrences against an independent day-by-day calendar |
| C35–C36 | Timezone classes over `Int` seconds | arithmetic, case analysis on boundaries |
| C37–C38, C59–C61 | formatter, both parsers with a format, tokenizer, ISO and word parsers over character lists | induction over the items of a format; digit lemmas; refutations for 12 PM, negative offsets, weekdays before 1970, unmatched literals |
| C39,C40 | quicksort on lists/arrays with an arbitrary pivot stream | permutation + sortedness by induction on range size |
| C41,C42 | interleaving state machine with one step per lock operation/statement | inductive invariant over reachable states |
| C43 | arg mapping fold | equivalence with an independent specification of Python binding |
| C44,C45 | DirectedGraph: edge dictionaries, loops over live sets, memoised DFS, walk down; DependencyGraph: levels, dirty set, sorted pairs | edge set as a function of the calls; levels = least ranking or cycle; pending set as a function of the history, draining |
| C46 | bump allocator | invariant over allocations |
| C47 | ListOf storage as slots that are constructed or not, count and capacity; the compiled twin with 64-bit arithmetic | refinement to Python's list, call by call, out-of-bounds and use after free as explicit faults |
| C48 | `cmp`, `compare_to_python_concrete`, compiled comparisons, cached hash, null layout | all three equal the lexicographic order; hash laws, refuted where layouts or caches differ |
| C49 | `mergeTypes`, `FunctionStackState.becomeMerge` over lists of alternatives | every value allowed on a path is allowed after; initialised iff on both; refuted for boolean literals |
| C62 | `convert_statement_ast` for assignment, return, raise, assert, if, while, break, continue, try, as a function from statements and type states to a small native language (blocks, jumps, the `.exc_occurred` and `.control_flow` slots, exc_info); expressions are arbitrary functions with a promised type and an oracle | forward simulation by mutual induction over statements and handlers; loops by induction over iterations with the converged state as invariant; refutations for what the condition `good` excludes |
| C63, C64 | `Pmap/Model`: the work queue, the output and exception queues of each call, worker threads and callers as a machine with one step per queue operation or element; mapped functions are computations that may call `pmap` | an invariant that counts every job of every call exactly once over queue, stacks and output queues, and ties what is on the stacks to the sequential result; no deadlock because a blocked worker waits for a job under a later call; a measure over the sequential costs bounds every schedule |
| C65 | `Gen/Spec`: Python's generators (the body runs once, the consumer's actions happen at the `yield`s); `Gen/Model`: the rewriting of generator_codegen.py as a function on statements, `__fastnext__` and `__next__` | the rewritten body entered with slot -1 or k does what the body does from its start or from yield k up to the next yield (structural induction; loops as limits of their bounded runs); the pieces put together are the whole run (induction on the number of calls); counterexamples in `Gen/Refute` |
| C66 | `Gen/ForSpec`: `for` and `with` as Python runs them, over any iterators and managers; `Gen/ForModel`: their rewriting to hidden variables named by line and column | the rewritten body simulates the body, changing only the hidden variables of its own positions (structural induction; rounds of a loop by induction); the rewritten body is in the fragment of C65; counterexamples in `Gen/ForRefute` |
| C67 | the same expansion with positions kept, as in functions that are not generators (`Gen/WithProps`) | the same simulation; universal refutation for targets that cannot be assigned to |
| C68 | `Loops/RangeModel`: the arithmetic of `RangeCls` and `RangeIterator` on wrapping 64-bit integers, and what the tuple wrapper does with a range | the visited items against a specification by index; refuted for long ranges, the least step, step zero and for every use as a value |
| C51 | `Date.__init__` and `is_valid_date` | equivalence with the calendar; refuted for negative components |
| C52 | same as C04 | capacity bound as part of the table invariant |
| C53 | `tryToCallAnyOverload`, `applyTypeCoercion` with an abstract conversion function | the loops return the lexicographically first accepting (level, overload) |
| C54 | heap graphs, `deepBytecount`, `deepcopy` with their memo tables and refcount shortcuts | both traversals visit each reachable object once; bijection between source and copy |
| C55 | `HeldClass` member storage with bit-packed flags, values as owned references, raw memory explicit | per-member independence of bit operations, invariant over histories |
| C56 | compiled ConstDict functions with index loops | same list as the interpreter by uniqueness of sorted lists; refutation of the orders |
| C57 | `Loops/Spec`: statements with three kinds of `for` as Python runs them; `Loops/Model`: their native code with labels, hidden variables, the flag "control flow returns" and the code dropped because of it | the native code simulates the statements, by induction on them; refuted where `else`, `break`, `continue`, a changing sequence or a reassigned tuple mislead the compiler |
| C69 | `Comp/Spec`: clauses as blocks nested from left to right, scopes; `Comp/Model`: the function that `evaluateFunctionDefWithLocalsInCells` builds, compiled with the code of `Loops/Model` | one clause: the built function has the same meaning and satisfies the conditions of C57; several clauses, several tests, shadowing: refuted for all lists |
| C70 | `Sha/Spec`: SHA-1 as in FIPS 180-4 on bit vectors, with the appendix's examples; `Sha/Model`: Sha1.cpp line by line (macros, the circular array, the rotating variables, the buffer and the two-word counter), `ShaHash` | block function by an invariant over the 80 lines; streaming by an invariant over any history of updates (the context holds the message, the counter its length modulo 2^32 per piece); `finish` is the padding. The counter's carry is refuted for pieces of 2^32 bytes or more |
| C71 | `Sha/Hashes`: `sha_hash` and `Hash` of hash.py, returning with each digest the log of the messages hashed; `Sha/ValueSpec`: collision between two logs | induction on the type; tuples by comparing the two chains of sums from the end; encodings (`struct.pack`, `repr` of bytes) are injective. Refuted across types |
| C72 | `Sha/Hashes`: `shaHashOfSimplePyObjectConstant` with its log | codes and payloads of constants determine them; refuted for integers beyond 64 bits |
| C73 | `Mro/Model`: `_computeMroSequence` with its chains and their tail sets, class statements; `Mro/Spec`: Python's merge as a relation, linearizations | the loop computes the merge (induction on the number of classes left in the chains); the merge exists and is unique exactly if the heads can be picked; refuted for repeated bases |
| C74 | `Mro/Class`: collecting the body of a class, `Make`, `initializeMRO` without dispatch tables, offsets in the interpreter and in compiled code | invariant over histories: the class was made from what is before it; strong induction on class numbers |
| C75 | the same, with `_classCouldBeInstanceOf` | classes with members have a common subclass only if one is a subclass of the other; refuted for class members |
| C76 | the same, with `tpGetattrGeneric` and `convert_attribute` | what folding the bodies along the order gives for one name; case analysis over the six kinds; refutations |
| C77 | `Mro/Dispatch`: dispatch tables with their arrays in a memory that is never freed, making classes, allocating slots, compiling under the lock, threads in calls with one access to shared memory a step, casts | invariant over all interleavings: tables of a class agree with those of the interface, every function in memory belongs to its array's table and slot, slots in old arrays are filled only if they are in the current one; refuted for calls made while an exception is propagated |
| C78 | `Cache`: directories with their files, names and marks; processes with the index and the loaded modules of `CompilerCache` and what `NativeCompiler` and the llvm converter know; steps down to the writing of one file, any process may end anywhere | invariant over all runs: named directories are complete and closed under linking; indexes and loaded modules agree with them; depth of recursion bounded by the names |
| C79 | the same, with what each process can use given anew at each step | from the invariant: exact index after start (modules that are not marked, nor any they were linked with), exact outcomes of looking up; refutations with concrete and general runs |
| C80 | `Scope/Model`, `Scope/Spec`, `Scope/Analysis`, `Scope/Props` | the analyses of variables over a syntax tree of names and scopes, compared with a separate statement of Python's scoping rules, by mutual induction over trees and comprehension clauses |
| C81 | `Scope/Rename`, `Scope/Props` | the rewriting of generator bodies over the same trees; what it leaves, what it adds, and that other names keep their meaning |
| C82 | `Scope/Once`, `Scope/Props` | the functions defined once; traces are all sequences of bindings that the code can make |
| C83 | `Scope/Defaults`, `Scope/Props` | default values as expressions over any values, evaluated as Python does and as the compiler does |
| C84 | `Native/Syntax`, `Model`, `Shape`, `Frame`, `Sim`, `Wf`, `Context`, `Function`, `Props` | native expressions, a direct meaning of them, and the conversion to blocks, scopes and flags of native_ast_to_llvm_function_converter.py; simulation by induction over expressions, with a frame property for the scopes of enclosing cleanups; the contexts of expression_conversion_context.py build well-formed expressions |
| C85 | `Native/Spec`, `Balance`, `Context`, `Props` | the events `made` and `torn` of each tag in the trace of a call; invariants over all expressions |
| C86 | `Native/Slots`, `Props` | the variable of a handler as a slot and a flag, with assignment and cleanup as generated; chains of comparisons as nested contexts |
| C87 | `Builtins/Spec`, `Model`, `Props` | programs with state and exceptions; equality of the compiled program with Python's; for orders, a declarative specification of the first best element |
| C88 | `ListOf/TupleSlice` | the list code of C47 over pointers that may be null |
| C89 | `HashTable/SetCompiled`, `SetCompiledProps`, `SetCompiledWrong` | the compiled functions over the same tables and the same specification as C07; loops over set objects step through the slots, so that bodies may change the set; induction over programs that mix compiled and interpreted calls |
| C90 | `TypeGroup/Model`, `Spec`, `Order`, `Root`, `Build`, `Search`, `Steps`, `Props`, `Examples` | the search as steps of any number of threads over a shared registry; an invariant over reachable states: the registry is closed and holds classes of mutual reachability, the stack of every call covers what its groups mention; a measure for termination |
| C91 | `TypeGroup/Iso` (and `Root`), `Wrong` | a renaming between the objects of two processes; induction over the history of one, with the invariant of the other: roots, orders and hashes of matching groups match |
| C92 | `TypeGroup/Hash`, `View`, `Ideal`, `Code`, `Wrong` | a hash without collisions: the hash of a group is read back into walks, so equality of hashes is a bisimulation; views of any depth by induction on the depth; witnesses for poisoned groups and code objects |
| C93 | `Conv/Types`, `Model`, `Props`, `Examples` | conversion as a function of type, Python value and level, by structural recursion on types; induction on types: the level of the parts is monotone in the level of the whole |
| C94 | `Conv/Spec`, `OneOf` | what a conversion accepts the quick test lets through; the two loops find the least level and the first alternative; flattening by induction on nesting |
| C95 | `Conv/Restore`, `Typing`, `Wrong` | at the Signature level a type that is no constant accepts exactly the values of that type; constants compare equal only to themselves when they are clear; witnesses where they are not |
| C96 | `Conv/KeepSpec`, `Keep`, `Wrong` | a relation between stored data and Python values; induction on types; range of machine types under upcasts |
| C97 | `Conv/Typing` | a predicate for well-typed data; induction on types |
| C98 | `Compare/Types`, `Model`, `Spec`, `Order`, `Total`, `Props`, `Wrong` | tagged values and the `cmp` of each type by structural recursion; an order written separately; simultaneous induction on two values of a type |
| C99 | `Compare/Total`, `Props`, `Wrong` | equal in the order means the same up to the sign of zero, and the hash does not see it; induction on values |
| C100 | `Compare/Compiled`, `Agree`, `Props`, `Wrong` | the generated comparisons and hashes as functions of the same values; induction on values; witnesses where they differ |
| C101 | `Bytes/Model`, `Search`, `Find` | a bytes object is a null pointer or a list of bytes; the loops with indices as in the C++ code; least and greatest occurrence by induction on the index |
| C102 | `Bytes/Spec`, `Split`, `SplitProofs`, `SplitJoin` | the splitting loops against the inductive splits of C22; induction on what is left to read |
| C103 | `Bytes/Methods`, `Letters`, `Pad`, `Replace` | each method against a function on lists of bytes; induction on the bytes |
| C104 | `Bytes/Order` | the word-wise comparison loop against the lexicographic order; which results are null pointers, method by method |
| C105 | `Str/FloatSpec`, `Str/ToFloat`, `Bytes/Numbers` | the state machine against a grammar: literals are accepted by induction on their form, accepted plain texts are literals by an invariant of each state |
| C106 | `Arr/Model`, `Arr/Spec`, `Arr/Geometry`, `Arr/World`, `Arr/Views` | lists in a heap and windows over them; an invariant of all operation sequences says that every window is a row, a diagonal or all of a matrix with injective cells |
| C107 | `Arr/Loop`, `Arr/Elementwise` | a loop that reads and writes cell i in step i computes the element operation when the operands share cells only at the same step, which the invariant gives |
| C108 | `Arr/Products` | BLAS and LAPACK described by their documentation, called with the arguments the code gives them; the entries are computed from the cells |
| C109 | `CConv/Model`, `CConv/Spec`, `CConv/Sound`, `CConv/Refuse`, `CConv/Props` | the compiler's verdict and the generated code as functions of types and data; induction on the target type with an arbitrary source: a verdict `yes` makes every step succeed, a verdict `no` makes the interpreter refuse |
| C110 | `CConv/AgreeSpec`, `CConv/Agree`, `CConv/Wrong` | the same induction with the two levels side by side, on the pairs of types met on the way; one refutation for each kind of pair at which they differ |
| C111 | `Typed/DamagedSpec`, `Typed/Damaged`, `Typed/DamagedType`, `Typed/DamagedErr`, `Typed/DamagedProps` | the reader of C15 on arbitrary bytes; invariants of the compound message loops (what is left is an end of the stream, the cache points to objects, the objects have their type); each kind of failure is followed back to where it comes from, with the depth bounded by the number of bytes left |
| C112 | `Typed/EvolveSpec`, `Typed/EvolveMsg`, `Typed/Evolve`, `Typed/EvolveProps` | the writer and reader of C15 and C17 with different types on the two sides, related by any relation that allows added and dropped fields; everything written is shown to be one message of the wire format of C14, so it is stepped over exactly; induction on the depth, with an invariant of the slots of a tuple |
| C113 | `PyCmp/Types`, `PyCmp/Model`, `PyCmp/Spec`, `PyCmp/Props`, `PyCmp/Wrong` | `compare_to_python` method by method on the types and data of C93, with the processor's floats and `memcmp` as parameters; the specification is Python's own comparison of plain objects and the plain object with the contents of a typed value; induction on the typing of the value |
| C114 | `TypeFn/Model`, `TypeFn/Spec`, `TypeFn/Keys`, `TypeFn/Steps`, `TypeFn/Props`, `TypeFn/Wrong` | `_buildTypeFunction` line by line over a memo, a record of makers and a table of forwards; the decorated functions and the user's program are arbitrary programs that call type functions and go on with what they give; invariants by induction on programs inside an induction on the depth of calls |
| C115 | `Ast/Tree`, `Ast/Model`, `Ast/Spec`, `Ast/Align`, `Ast/Round`, `Ast/Whole`, `Ast/Clean`, `Ast/Props`, `Ast/Wrong` | Python's grammar as a table per version, the alternatives and converters of python_ast.py as tables, the two conversions as recursive functions; the tables are checked against each other once, the conversions by induction over the tree |
| C116 | `Source/Model`, `Source/Spec`, `Source/Order`, `Source/Props`, `Source/Cases`, `Source/Wrong` | the search for functions in a tree and their matching with the code objects of Python's compiler, whose order of compilation is given as a specification; by induction over the tree that the two orders agree for plain programs, by induction over the depth of code objects that the memo stays right and complete; the choice among lambdas as a function of their codes |
| C117 | `PyDict/Model`, `PyDict/Spec`, `PyDict/Props`, `PyDict/Wrong` | the comparison loop over the entries of the plain dictionary, with the conversions of C93 for keys and the comparisons of C113 for values; the specification is Python's equality of dictionaries; that the conversion of keys is one to one, and counting (as many distinct keys, all of them found, so none left over) |
| C118 | `Returns/Model`, `Returns/Spec`, `Returns/Props`, `Returns/Wrong` | the recursion up the classes that narrows the result type, with the test whether one type is trivially another; the specification is membership of values in types; induction on the classes above |
| C119 | `Returns/Model`, `Returns/Spec`, `Returns/Props`, `Returns/Wrong` | the compiler's scan of overloads with possible, certain and excluded matches that collects the pathways of result types, compared with C118 for each set of arguments that agrees with these; induction on the scan and on the classes |
| C120 | `Ptr/Model`, `Ptr/Spec`, `Ptr/Props`, `Ptr/Wrong` | addresses are 64-bit vectors and memory a function from addresses to bytes; the specification is an array with positions as natural numbers; modular arithmetic, and induction on the bytes that are copied |
| C121 | `ModuleOf/Model`, `ModuleOf/Spec`, `ModuleOf/Props`, `ModuleOf/Wrong` | a state with the members, the definitions of forwards and who made them; invariants by induction on the history: each forward of the module is defined or still the member it was made for |
| C122 | `Code/Model`, `Code/Spec`, `Code/Props`, `Code/Wrong` | a disk is a function from paths to entries and a directory that is read a tree; what is on the disk after some files is an invariant of writing; histories by induction with the invariant that root modules are registered; trees by structural induction |
| C123 | `Mro/Super` | on the class model of C73 to C77; with one base an order is the class and the order of its base, so what follows a class is the same in all orders, by strong induction; the rest from the theorem that the overloads of a class are those of the bodies along its order |
| C124 | `Macro/Model`, `Macro/Spec`, `Macro/Props`, `Macro/Wrong` | checking, naming, caching and executing as functions on a state of macros and cached files, with Python's compiler and `exec` as parameters; file names are injective because they end with digits after a blank; histories by induction with the invariant that names in use have smaller call numbers |
| C125 | `Iters/Model`, `Iters/Spec`, `Iters/Props` | an iterator is a position, and a history the list of contents that the calls find; Python's iterator is a number of items or the end; equivalence by induction on the history |
| C126 | `RawBytes/Model`, `RawBytes/Props` | a layout is a count of 32 bits and memory; crashes are results; cutting bytes into elements by induction on their number |
| C127 | `Cell/Model`, `Cell/Props` | a cell is a flag and memory that is alive or destroyed; refinement of an optional value by induction on the history |
| C128 | `TempRef/Model`, `TempRef/Props` | a state machine of references, pending actions and trace functions; invariants by induction on the history |
| C129 | `Gil/Model`, `Gil/Props` | a transition system of threads, their scopes, the lock and the helper thread; an invariant of all reachable states |
| C130 | `DateRange/Model`, `DateRange/Props` | the loop with a number of rounds; induction on the days to the end, with the calendar of C32 and C34 |
| C131 | `SubclassOf/Model`, `SubclassOf/Props` | the wrapper of class values, on the class statements of C74 and C75; cases on what the compiler concludes from two classes |
| C50 | `MapReduce/Model`: map's process-wide type cache, the element loop, reduce and their compiled forms, over an arbitrary world of functions and types | cache invariant over every history; fold equations; refutations of history independence |

## Disagreements between the code and the properties

Each is proved in Lean on the model with a concrete witness; the theorem that remains true is named `_partial`.

* C03 `SortedDict`: zig-zag insertion gives linear height (`balance_refuted`, `no_logarithmic_bound`).
* C05 `pickHashTableSize` does not terminate for requests between 2^30 and 2^31, i.e. above 2^28 live entries
  (`pick_hangs`).
* C07 `Set.intersection_update(other_set)` discards from the table it is visiting; when the table is compacted the
  visit ends early and elements that are not in the other set survive (`intersection_update_wrong`). It also compares
  through a pointer into storage that has been reallocated. `s.isdisjoint(s)` is false for empty `s`
  (`isdisjoint_wrong`). `Set == set` and `Set <= set` are true as soon as one element is shared
  (`python_comparison_wrong`, `python_subset_is_overlap`).
* C08 `d1.keys() == d2.keys()` compares only sizes (`keys_view_ignores_keys`).
* C09 compiled code does not find entries stored by the interpreter under an `object` key with a negative hash, and
  vice versa (`object_keys_disagree`, `object_keys_disagree_reverse`).
* C28–C30 `INT64_MIN % negative`, `INT64_MIN // -1`, right shift of negative numbers.
* C33, C34 weekday before 1970, `lastWeekday`.
* C36 the instant at which daylight saving ends; the fold check is too weak.
* C39 `sort(values, key)` skips runs of neighbouring values that are `==`, although it orders by key; values that are
  equal but have different keys end up out of order (`sort_key_refuted`). C40 `searchSorted` returns the insertion
  point, never the documented -1 (`searchSorted_absent`).
* C43 positional-only markers are ignored (`g(a=1)` accepted, `h(1, a=2)` rejected) and functions with keyword-only
  parameters cannot be wrapped (`positional_only_ignored`, `keyword_only_unsupported`).
* C46 `Slab::allocate` checks the request without its header, so the last block can end past the slab
  (`slab_overflow_possible`); `tp_realloc` books the size its caller claims (`tpRealloc_trusts_caller`).
* C54 an object is entered in the copier's memo only after its children: a value that contains itself is copied for
  ever (`deepcopy_of_cycle_never_finishes`); `TypedCell` leaves its content out of the predicted size
  (`cell_prediction_wrong`); counting follows members that were never initialised (`count_reads_uninitialised_member`).
* C55 `HeldClass::assign` copies a member that was unset in the target and then *clears* its flag: the attribute is lost
  and its reference leaks (`assign_loses_member`). The deep copier never clears flags and its memory comes from
  `malloc` for `deepcopy` and for small slabs, so unset members can read as set (`deepcopy_members_dirty`).
* C13: a varint of more than ten bytes (never written by the library) makes the reader shift a 64-bit word by 64 or more, which C++ leaves
  undefined (`Wire.overlong_varint_undefined`).
* C10: keys are converted one by one and never deduplicated, so `ConstDict(float, str)({2**53: "a", 2**53 + 1: "b"})` holds two
  equal keys (`ConstDict.colliding_keys_kept`).
* C12: `!=` on ConstDict key views compares values as well (`Py_NE` drops `compareValues`), so views can be `==` and `!=` at once
  (`ConstDict.keys_view_ne_compares_values`).
* C56: compiled `<` on ConstDicts is lexicographic by pairs with the size last; the interpreter compares the size first, then keys,
  then values (`ConstDict.compiled_order_disagrees`).  A compiled literal with a repeated key keeps both entries
  (`ConstDict.compiled_literal_keeps_duplicates`).
* C44 `createsCycle(n, n)` answers False (the walk starts at `dest` and only tests its children), although adding the edge makes
  `levels` raise (`createsCycle_self_refuted`).  `levels` and `createsCycle` recurse, so chains longer than Python's recursion limit
  raise RecursionError; the model has no recursion limit.
* C45 `markDirty` of a node that is not known raises KeyError after the node was put in the dirty set; if it becomes known and is
  marked again later nothing is lost, but the failed marking may survive as a pending one (`MaybePending`).
* C47 an exhausted ListOf iterator goes on if the list grows (`exhausted_iterator_revives`); `resize`/`reserve` of a negative size ask
  for nearly 2^64 elements (`negative_sizes_fault`), compiled they destroy elements in front of the storage
  (`compiled_negative_resize_faults`); an index beyond 64 bits reaches the last element (`huge_index_reaches_last_element`).  Compiled
  `l.append(l[j])` and `l.extend(l)` read freed storage when the list is full and elements are passed by reference
  (`compiled_append_of_own_element_faults`, `compiled_self_extension_faults`); `l[::2**63-1]` writes outside its result
  (`compiled_huge_step_faults`); a compiled for loop over a list that shrinks reads destroyed elements
  (`compiled_for_over_shrinking_list_faults`).
* C48 an empty TupleOf is a null pointer with hash 0x123, except when a compiled comprehension makes it: then it is stored and hashes
  to 0 (`empty_tuples_hash_differently`).  Compiled `hash` of the null one loads through it (`compiled_hash_of_empty_faults`).  ListOf
  is hashable, and its cached hash is not dropped when the list changes (`list_hash_goes_stale`).
* C19 `StringType::deserialize` keeps the byte count of the field in 32 bits with a sign: strings of 2^31 bytes or more are lost
  (`Str.big_string_lost`).  A multi-byte sequence cut short at the end of the field is completed from whatever follows
  (`Str.truncated_reads_past_end`).
* C20 the empty string is normally a null pointer; some operations make a stored string with no code points, which is not `==` to `""`
  (`Str.empty_not_equal`).  Containers compare their strings with an interpreter's string once with Py_EQ and once with Py_LT, but the
  second answer is for the operands the other way round: `TupleOf(str)(("a",)) < ("b",)` is False (`Str.order_with_python_reversed`).
* C21 the hash covers the stored bytes, hence the width: a string decoded from UTF-8 can be stored wider than it needs and then hashes
  differently from an equal one (`Str.equal_strings_hash_differently`), so such a key is not found in a deserialized Dict.
* C22 `"".count("")` is 0 where Python gives 1 (`count_of_empty`).
* C23 `"  ".split(None, 0)` and `rsplit` give `[""]` where Python gives `[]` (`split_blank_zero`); `"".join(["", ""])` is a stored
  string without code points and not `==` to `""` (`join_of_empty_not_empty`).
* C24 compiled `s[1:n]` with a constant lower and a variable upper bound ignores the upper bound
  (`constant_slice_ignores_bound`); compiled `s[:]` does not give a string (`full_slice_is_no_string`).
* C21 a slice or an item keeps the width of the string it is cut from: `"a€"[0] == "a"` but the hashes differ
  (`item_hashes_differently`).
* C25 compiled `int("9223372036854775808")` wraps to -9223372036854775808 (`Str.int_wraps`)
* C26 compiled `"ab".center(5)` is " ab  ", in the interpreter "  ab " (`Str.center_differs`)
* C20/C26 compiled `"a".replace("a", "")` is a stored string of length 0, which is not `==` to "" (`Str.replaced_by_nothing`)
* C27 compiled `"ÿ".upper()` is "x": mapped characters are cut to the storage width of the string (`Str.upper_truncates`); `"AΣ".lower()`
  ends in σ and not ς (`Str.lower_ignores_final_sigma`); `title` takes letters without case for the beginning of a word
  (`Str.title_after_uncased`); `capitalize` uses upper case for title case (`Str.capitalize_not_title`)
* C21/C27 the lower case of the Kelvin sign equals "k" but has another hash (`Str.kelvin`)
* C15 a value is written by its type: an immutable object (`TupleOf`, `ConstDict`, `Alternative`) that is referenced
  twice is written twice and comes back as two equal objects. This is not visible through `==`.
* C15 damaged data: an integer block longer than the list (TupleOrListOfType.hpp 354-392, theorem
  `Typed.int_block_overrun`), more items than announced in a `ConstDict` or `Dict`, and a plain list of elements of size 0
  lead to undefined behaviour instead of an error; the model has the error `undefined` for them. A `OneOf` message with an
  unknown field number is not skipped.
* C15 an `Alternative` with more than 256 cases, none of which has data, keeps the case in one byte; the grammar allows
  only the first 256 cases.
* C18 a single string of 4 GiB or more in a compressing context: the 32 bit size of its block overflows and the stream cannot be read (`Stream.huge_block_lost`).
* C38 `adjustAmPm` adds 12 to every PM hour, so 12 PM becomes hour 24 and is rejected, by `parse_with_format`
  (date_parser.py:315-316) and `parse_non_iso_time` (date_parser.py:863-864).
* C59 `-` is among the characters the ISO tokenizer drops (date_parser.py:635-637), so a negative UTC offset adds time
  tokens; with more than three of them the time silently becomes 00:00:00 (date_parser.py:713-737).
* C60 weekdays before 1969-12-27 are outside 0..6 (C33): `%a` and `%A` raise `KeyError`, `%w` and `%u` write 12 and the
  like. `%Z` and `%z` always write UTC (date_formatter.py:229-236).
* C61 `parse_with_format` skips plain characters of the format without comparing them (date_parser.py:306-308) and
  ignores what follows.
* C49 `typeSubsumes(int, Value(True))` holds because `isinstance(True, int)` does (merge_type_wrappers.py:81-82).
* C62 (Flow/Refute.lean, one program each): type states at `break` and `continue` are dropped; a loop with `break` whose body
  and `else` return is taken not to end; `finally` is converted with the types after the body; the state of a handler goes
  through `else`; all `try` statements of a function share `.exc_occurred`, so nested ones skip or run the outer `else`; nested
  handlers with one name destroy it twice; handler names are not counted as assigned; handling an exception inside `finally` or
  a handler loses the pending one; `isinstance(x, int)` narrows a bool to int; `break` in an inner loop's `else` does not leave
  the outer loop.
* C50 `map` caches the result type by (type of function, type of tuple) but computes it from the runtime
  types of the elements and from what the function closes over: a first call with an int in a
  `OneOf(int, str)` element makes a later call with a str raise (`map_depends_on_history`), and two closures
  of one type interfere (`map_depends_on_closures`). A function that always raises makes `map` raise
  `AttributeError` (`map_hides_exception`). Compiled `reduce` of an empty tuple emits no code at all
  (`reduce_empty_compiled`).
* C63, C64 the jobs of `pmap` catch `Exception` only: a function that raises `SystemExit` or `KeyboardInterrupt` ends its worker
  thread, the job is never reported, and `pmap` blocks for ever (`base_exception_hangs`).
* C65 a `yield` whose expression raises leaves the generator suspended at that `yield`: the next call goes on after it; inside a
  `try`, the handler runs with every `if` false, and a `finally` block does not run (`yield_raises_resumes`, `yield_raises_in_try`,
  `yield_raises_skips_finally`).
* C65 `return v` in a generator is `raise StopIteration(v)`: inside `try` it skips `finally` and is caught by `except Exception`; a
  compiled `for` over such a generator raises (`return_value_skips_finally`, `return_value_is_caught`, `for_over_return_value_raises`).
* C66 rewriting the loops of a generator drops the position of `with` (for_loop_codegen.py:155-160), so that all `with` statements of
  a generator keep their manager in the same variable: in nested ones the inner manager is left twice, the outer one never.
* C66 the loops of a generator expression have no line number and share their iterator variable.
* C66, C67 `with m as t`: if assigning to `t` raises, the manager is not left (withblock_codegen.py:130-157).
* C65 a `yield` in `finally` loses the pending exception or return; a bare `raise` after a `yield` in a handler finds no exception;
  `StopIteration` raised in a body ends it quietly instead of becoming `RuntimeError`; `except E as name` does not bind the name where
  the handler looks for it (`yield_in_finally_loses_exception`, `yield_in_finally_loses_return`, `bare_raise_after_yield`,
  `stopiteration_ends_quietly`, `except_as_not_bound`).
* C57 `else` of a `for` over a list, `TupleOf`, string, bytes or range never runs (for_loop_codegen.py:229, 246-250: the flag is never
  set). Items appended during the loop are not visited; after the sequence has shrunk, memory behind its end is read.
* C57 after a `for` over a tuple, what follows is dropped if the `else` clause does not come to its end (`else: return`), or if the body
  ends in `return` behind a conditional `break` or `continue` (function_conversion_context.py:2199-2203, 2215); the program then runs
  into `Unreachable`. `break` in the `else` of any `for` is absorbed. A tuple variable assigned in the body changes the items.
* C68 ranges of 2^63 or more items are empty, `step = -2^63` loses its item, `step = 0` raises `ZeroDivisionError` instead of
  `ValueError`; the iterator of a range wraps around and resumes after `StopIteration`. `len(range(n))` is 3, `range(0)` is true,
  `range(n)[1]` is `n`, `in` and `==` compare the parameters (tuple_wrapper.py:291-292, 311-354, 594-623).
* C69 the clauses of a comprehension are nested inside out (python_ast.py:1454-1466): `[z for y in t for z in y]` raises
  `UnboundLocalError`; and since the loops have no line number, they share their hidden variables: `[(x, y) for x in a for y in b]`
  on one line contains only the pairs with `b[0]`. Several `if`s of one clause are tested from right to left. The leftmost
  iterable is evaluated inside: `[x for x in x]` raises. (`shadow_compiled`, `flatten_compiled`, `product_compiled`,
  `tests_in_wrong_order`; the only test with two clauses, generators_test.py:834-844, is skipped.)
* C70 `mbedtls_sha1_update_ret` adds `(uint32_t) ilen` to the counter and carries at most one (Sha1.cpp:260-264):
  the high part of the length of a piece of 2^32 bytes or more is lost and the padding holds a wrong length
  (`long_message_wrong_length`). `ShaHash::SHA1` of nothing is 20 zero bytes (ShaHash.hpp:163-172), not the
  SHA-1 of the empty string that `Hash.from_string("")` gives in Python (`empty_message_wrong`).
* C71 `sha_hash` does not hash the type of a value (hash.py:80-101): a float has the hash of the integer with its
  bits, `()` that of 0, `None` that of `""`, bytes that of the string that is their `repr`, any other value that
  of its serialization; integers beyond 64 bits raise `struct.error`.
* C72 the loop on integers beyond 64 bits adds the result of `PyLong_AsLongAndOverflow`, which is -1 on every
  overflow, and then shifts by 32 bits (MutuallyRecursiveTypeGroup.cpp:853-870): all but the highest bits are
  dropped. `identityHash(2**64) == identityHash(2**64 + 1)`, and so for functions that differ in such a constant.
* C73 `class C(A, B, B)` is accepted and has `B` twice in its order; Python raises a TypeError (`repeated_base_refuted`).
* C75 class members are compared with those in the bodies of the direct bases only, so `class C(A, B)` is accepted
  when `A` and `B` give different values to a class member; the compiler takes such classes to have no common
  subclass and folds `isinstance` to False (`could_be_no_refuted`).
* C76 a class with a data member and a method of the same name: the interpreter finds the member, compiled code the
  method. A class member redefined in a grandchild: compiled code uses the value of the class it knows
  (`compiled_attribute_refuted`). A value in a subclass does not hide a method of a base (`attribute_of_first_refuted`).
* C77: `np_compileClassDispatch` returns normally if the method does not compile and an exception is being propagated already
  (a call made by a `__del__` during unwinding), and compiled code then calls the null pointer in the slot
  (`failed_compile_calls_null`).
* C78, C79: if a module can be used but one it was linked with cannot (say a global variable that one names is
  gone), `loadModuleByHash` marks the latter and returns False without marking the former, so that the assertion in
  `loadForSymbol` fails (compiler_cache.py:110-118, 168-175): the function is not compiled again, the call raises
  AssertionError (`ask_fails`, `asking_asserts`). The next process does not see either module.
* C78, C79: functions repeated in a module for inlining are given to the llvm converter when the module is loaded
  (native_compiler.py:182), but are not defined for `isFunctionDefined` (native_compiler.py:185). If their own module
  cannot be used, the compiler compiles them, and the assertion of native_ast_to_llvm.py:283 fails (`add_fails`,
  `compiling_asserts`).
* C79: a module that cannot be used at first is taken out of the index; if it is loaded later with another module, its
  functions are defined, but `functionPointerByName` gives None for them (`defined_but_not_there`). If no module with
  a function can be used it raises "Can't find a module", where its documentation says None (`fetching_raises`).
* C79: a module that one process cannot use is marked for all processes that start later, also those that could use it
  (`marked_unseen`, `one_marks_for_all`), and so is, in effect, every module linked with it.
* C80: a local function that calls itself, and whose name no other nested code reads, cannot be compiled: its name is a free variable of its code, the analysis takes it out (python_ast_analysis.py:470-473) and function_conversion_context.py:965-966 asserts that it is there (`self_recursive_not_found`). Functions that call each other are fine.
* C80: `nonlocal` is meant to be rejected, but python_ast_analysis.py:510 asks for `Nonlocal` where python_ast.py:352 has `NonLocal`; a function that only assigns such a variable fails the same assertion (`nonlocal_not_found`).
* C80: names of `except ... as name` are not counted as assigned, keyword-only and positional-only parameters do not hide outer variables, and earlier clauses of a comprehension see names bound by later ones as outer ones (`handler_name_leaks`, `keyword_only_leaks`, `later_target_leaks`).
* C81: variables of a generator in keyword arguments, keys of dict displays and handlers of nested functions are not rewritten (`keyword_argument_left`, `handler_left`); `[x for x in xs]` in a generator with a variable `x` reads that variable (`comprehension_reads_generator`); default values of functions nested twice are rewritten though they mean a parameter (`nested_default_reads_generator`).
* C82: a parameter that is also the name of a local function defined once is ignored, whatever is passed (`parameter_ignored`); a function is found before its definition was executed (`not_yet_defined`, documented); a handler with the name of a function ends in an `AssertionError` (`handler_named_like_function`).
* C83: a default value that mentions a local variable of the enclosing function is computed with that variable being `None`, at compile time (`default_of_local`); globals are those at compile time (`default_of_changed_global`).
* C85: the calls that destroy temporaries may throw (python_to_native_converter.py:277 types every call so); teardowns run one after the other, so if one throws those behind it leak (`throwing_destructor_leaks`).
* C86: the cleanup of `except T as x` destroys `x` without looking at its flag (function_conversion_context.py:1759-1771), so nested handlers with one name destroy it twice (`nested_handler_destroys_twice`); names of handlers are not counted as assigned (python_ast_analysis.py:103-140), so an outer handler takes a destroyed variable for initialized (`handler_name_forgotten`).
* C86: in `a() < b() < c()` the slot of `b()` is allocated in the context of a branch and torn down at its end, and then compared with `c()` (expression_conversion_context.py:1824-1846, `chained_comparison_reads_dead_slot`).
* C87: compiled `any` calls `all` (all_any_wrapper.py:61-62): `any([0, 1])` is false and `any([])` is true; it is right exactly for nonempty sequences whose elements are all true or all false, which are the ones tested (`any_right_only_if`).
* C87: `min(a, b, key=f)` calls `f` twice for each argument (min_max_wrapper.py:187 and 199) and initializes slots that hold values (lines 214-215), so these leak whenever a later argument is chosen (`key_called_twice`, `keyed_result_partial`).
* C88: slices of a `TupleOf` that are empty go through a null pointer (tuple_of_wrapper.py:262, 553-565), as do all slices of an empty one (`compiled_slice_of_empty_tuple_faults`).
* C89: in compiled code `s.intersection_update(s)` empties `s` (set_wrapper.py:214-218: the set is cleared before the loop over it) and `s.difference_update(s)` raises `RuntimeError` after removing one element (lines 228-231), for every nonempty set (`intersection_update_with_itself`, `difference_update_with_itself`).
* C89: compiled `union`, `intersection` and `difference` raise `TypeError` for arguments that are not sets of the same type (set_wrapper.py:184-225; `union_with_a_list_raises`), and without arguments return the set itself, so that changing the result changes the set (`union_of_nothing_is_the_set_itself`).
* C89: compiled `symmetric_difference` with a list toggles repeated elements when the list is less than half as long as the set, and raises when it is more than twice as long (set_wrapper.py:152-159; `symmetric_difference_with_a_list`).
* C92: when no object of a group can be chosen as its root (for instance two alternatives with the same name that refer to each other), the hash of the group is poison (MutuallyRecursiveTypeGroup.cpp:429-434 and 546-549), and so is the identity hash of its types; `Type::typesEquivalent` (Type.hpp:601-615) compares identity hashes only, so all such types of one category are equivalent, whatever they contain (`poisoned_types_equivalent`, `unrelated_types_equivalent`).
* C92: the walk over a code object leaves out `co_flags` and `co_posonlyargcount` (CompilerVisibleObjectVisitor.hpp:682-706; the comment there says that the flags hold nothing that is not elsewhere). `def g(x, *y): return y` and `def g(x, **y): return y` on the same line of two versions of a module therefore have the same identity hash, and so have their callers (`star_and_starstar_same_walk`).
* C95: comparing an `int` constant with a Python value asks `PyLong_Check` (PyRegisterTypeInstance.hpp:896-915), which booleans pass: `OneOf(1, bool)(True)` is the integer 1 (`true_becomes_one`, `oneOf_not_restored`). Floats are compared with `==`, so `OneOf(0.0, float)(-0.0)` is 0.0 (`zero_loses_sign`).
* C96: Python integers that do not fit 64 bits are masked (PyRegisterTypeInstance.hpp:588-603, whose comment says that casts may throw information away, and 922-933), at every level, also where no conversion is allowed: `int` storage takes 2**64+5 as 5 (`wide_int_wraps`, `wide_int_five`) and `OneOf(1, None)` takes 2**64+1 as 1 (`wide_int_is_constant`).
* C96: `int` to `float` and `Int32` to `Float32` count as upcasts (RegisterTypes.hpp:97-124) though they round (`int_upcast_lossy`, `int32_upcast_lossy`).
* C96: the level for the parts is not always that of the whole: `TupleOf(ListOf(int))` takes a tuple of lists at the Implicit level, at which `ListOf(int)` takes no list (`implicit_lists_in_tuples`); at the ImplicitContainers level a `NamedTuple` with a `ListOf` field takes a dictionary with a list but not a tuple with one (`named_tuple_refuses_tuple`), since PyCompositeTypeInstance.cpp:44-54 lowers the level to Implicit.
* C98, C99: the `cmp` of floats (RegisterTypes.hpp:223-232) takes what is neither less nor greater for equal, so inside a container NaN equals every float, equality is not transitive and equal values have different hashes (`nan_equals_every_float`, `nan_breaks_equality`).
* C100: compiled `!=` of floats is `fcmp_ordered` (native_ast_to_llvm_function_converter.py:1269-1276), so `nan != x` is False (`compiled_nan_is_not_unequal`); hence compiled `TupleOf` equality, which uses `!=`, and `Tuple` equality, which uses `==`, disagree about NaN (`compiled_nan_in_tuples`).
* C100: inside a container the interpreter compares OneOfs by alternative first, compiled code by what they hold: `(1,)` and `(1.0,)` as `TupleOf(OneOf(int, float))` are equal only in compiled code (`oneof_equality_disagrees`), and `None < 1` inside a tuple of `OneOf(None, int)` is True in the interpreter and a TypeError in compiled code (`oneof_ordering_disagrees`). Compiled `None <= None` is False (none_wrapper.py:53-58, `compiled_none_is_not_at_most_none`).
* C100: the compiled hash of a `TupleOf` accumulates `hash(item)`, in which -1 has become -2 (tuple_of_wrapper.py:102-104, hash_wrapper.py:20-30), the interpreter's the raw hash, so `TupleOf(float)((-1.0, 2.0))` as a key stored by one is not found by the other (`compiled_hash_of_minus_one_disagrees`).
* C102: compiled `b''.split(sep, 0)` is `[]`, in Python `[b'']` (`split_empty_zero`); when the limit is reached, the white space before what is left is kept: `b'a  b'.split(None, 1)` is `[b'a', b' b']` (`split_keeps_white`).
* C103: compiled `center` of bytes puts the greater half on the other side than Python whenever the width and the number of bytes to fill are odd (`center_differs`).
* C104: an empty bytes object is a null pointer when it comes from the interpreter, from slicing or from `strip`, and an object of length 0 when it comes from `split`, `join`, `replace`, `translate`, `zfill` or `expandtabs`. `cmpStatic` and `hash` tell these apart (BytesType.cpp:19-38, `empty_not_equal`), so `b'a,,b'.split(b',')[1] == b''` is False in compiled code (`split_join_not_normal`, `other_not_normal`).
* C105: in `to_float64` a second digit behind the point or in the exponent leads back to the state for the whole part (StringType.cpp:1852-1870), so compiled `float('10.20.30')` is 10.2 instead of a ValueError (`two_points_accepted`, for all digits). `float('.')` is 0.0 (`bare_point_accepted`), `float('inf\0x')` is inf (`nul_accepted`), and only 48 characters are read, so `float('1' + '0' * 60)` is 1e47 (`long_literal_cut`). Digits of other scripts are refused (`other_digits_refused`). `int(b'\x1c1')` is 1 (`unicode_space_accepted`).
* C106: `Array.get`, `Array.set`, `Matrix.get` and `Matrix.set` do not check their indices (array.py:287-291, 655-659): `m.get(0, cols)` is the first entry of the next row, and negative indices count from the end of the list (`get_overruns`, `get_unchecked`). The transpose is a copy, so assigning to a row of `m.transpose()` leaves `m` as it was.
* C107: `Array.__iadd__` gives `axpy` the two strides the wrong way round (array.py:86). With float arrays of two elements or more, `a + b` writes outside the new list whenever `b` has a stride of two or more, as a diagonal or a row of a transposed matrix has (`addFloat_faults`), and `+=` may add to wrong cells silently (`iadd_wrong_cell`). An element operation that raises in the middle of an assigning operator leaves the first elements changed (`iop_stops`).
* C108: when the inner dimension or the number of columns is zero, `gemm` gets a leading dimension of zero, which the library declares illegal (`matmul_empty`). Not proved but seen: for Float32 the names `faxpy_`, `fgemm_` and `fgemv_` do not exist in BLAS (typed_python/array/fortran.py:147, 238, 342); `Matrix._inplaceBinop` starts in the other matrix at its own offset (array.py:470) and the products with arrays ignore the offset (array.py:764, 789), harmless because no operation makes a matrix with an offset.
* C109: at the level `Implicit`, `TupleOf(ListOf(float))` is refused for `Tuple(ListOf(int))` by the compiler and accepted by the interpreter (`refused_but_accepted`). The test for a number literal asks whether the target type converts to that of the literal (typed_python/compiler/type_wrappers/arithmetic_wrapper.py:146), so `1.5` becomes the integer 1 at the level `Upcast` (`literal_loses_fraction`).
* C110: compiled code refuses to convert what is not finite to an integer, which the interpreter truncates (`infinite_float_differs`), takes NaN for false (`nan_truth_differs`), rounds an integer to a Float32 once instead of twice (`single_rounding_differs`), takes `1.0` for the constant in `OneOf(1, float)` (`constant_differs`), also when it copies a container inside a tuple (`copy_differs`), converts a OneOf that holds `None`, bytes or a container to text, numbers and booleans without asking for the level (`none_differs`, `bytes_differ`, `truth_differs`), takes text apart at a level at which the interpreter refuses (`text_differs`), never converts a TupleOf to a Tuple (`shape_differs`), and accepts a OneOf of a Tuple for a NamedTuple at the level `Signature` (`signature_differs`). Not proved but seen: `PreReservedTupleOrList.__hash__` takes two arguments (typed_python/compiler/type_wrappers/tuple_of_wrapper.py:127), and `InitializeRefAsImplicitContainers.__eq__` compares with the other class (typed_python/compiler/converter_utils.py:96-97).
* C111: a stream can make a ListOf(int) be a ListOf(str) as well, because a reference to an object is not checked against a type (`mixed_lists`); lists of plain data take booleans and choices from raw memory (`raw_memory`); a ConstDict is not sorted and a Set can have an element twice (`unsorted_keys`, `twice_in_a_set`). Numbers of eleven bytes, text that ends within a character, more items than announced and raw values without a size lead to shifts by 70, reads and writes outside the memory and a division by zero (`undefined_reads`).
* C112: a `TupleOf` or `ListOf` of records of numbers is raw memory, so four records of one byte are read as two records of two after a field is added (`plain_records`), or refused (`plain_records_refused`); the message of an unknown case of a `OneOf` is not stepped over and is read as the next fields (`dropped_case`); an object first met in a field the reader does not know cannot be found when it is met again (`lost_object`).
* C113: text and bytes are ordered by length first and backwards when the other side is a plain object (`text_backwards`, `bytes_backwards`), and the result of `memcmp` is cut to eight bits, which makes the order of bytes circular (`bytes_twisted`, `bytes_circle`) and leaves equality to a property of `memcmp` the C standard does not promise (`text_equal_memcmp`); text is less than and `None` greater than every number where Python refuses (`text_before_numbers`, `none_after_all`); a Python integer beyond 64 bits is compared without its upper bits (`large_integers`, `equality_not_transitive`), a large unsigned number equals a negative one (`unsigned_negative`), an integer equals the double it rounds to (`rounded`), and a NaN in a tuple is greater than every float (`nan_greater`).
* C114: `F(1)`, `F(1.0)` and `F(True)` are one call of a type function, and the first decides the type (`equal_arguments`, `first_decides`), while `F(1)` and `F(x=1)` are two and give two types (`position_or_name`); a function stopped by KeyboardInterrupt gives an undefined forward ever after (`interrupted_forever`); when a function fails after another has used its forward, the other's type keeps an undefined forward for good, although called first it would have raised (`orphaned`); a function that gives the type of one under way goes on giving a forward (`forward_given`); a dictionary argument reaches the function as a tuple of pairs (`dict_as_tuple`).
* C115: before Python 3.9 `x[1, 2]` and `x[a:b, c]` come back with an `ExtSlice` whose parts are no slices, which `compile` refuses (`comma_breaks`, `slice_and_index_breaks`); a function with an assignment expression anywhere in it is not converted (`walrus_refused`, `refused_around`), nor one with `from . import x` (`relative_import_refused`); in Python 3.7 whole numbers beyond 64 bits come back as other numbers without an error (`number_wraps`), and the place of `...` is lost (`ellipsis_place`).
* C116: in `d[(lambda: 1)()] = lambda: 2` and in `[lambda: x for x in y if any(z for z in x)]` each of the two functions gets the source of the other without an error (`swapped`, `swapped_comprehension`); two functions inside one that give equal code objects (before Python 3.11: the same text twice on a line, `sum(x for x in a) + sum(x for x in b)`) make the source be refused the first time and given the second time, without that of the functions inside (`repeated`); comprehensions over comprehensions, and functions as default values of inner functions, are refused (`iterable_refused`, `default_refused`); of `lambda x: (x + 1) * 2, lambda x: (x + 2) * 1` on a line the second gets the source of the first (`picked_other`, `never_own`), and next to a lambda with a constant default value none is found (`default_on_line`).
* C117: the keys of the plain dictionary are converted to the key type before they are looked up, at a level where floats are cut and large integers lose their upper bits: `Dict(int, int)({1: 5}) == {1.5: 5}`, `Dict(int, int)({1: 5, 2: 6}) == {1.25: 5, 1.5: 5}`, `Dict(Int8, int)({1: 5}) == {257: 5}` and `Dict(bool, int)({True: 5}) == {7: 5}` are all True (`float_keys`, `keys_fall_together`, `large_keys`, `true_keys`); a ConstDict converts at a level where an `int` only becomes a 64-bit integer, so that `ConstDict(Int32, int)({1: 5}) == {1: 5}` is False (`constDict_refuses`, `constDict_not_itself`).
* C118: Type.cpp:277 has `return true` inside the loop over the alternatives, so of two unions only the first alternative is compared: a method that states `OneOf(int, str)` may override one that states `OneOf(int, float)` and return text (`only_first_compared`, `promise_broken`). Lines 267-269 let `SubclassOf(C)` pass for an instance of `C` (`class_for_instance`). In the other direction, a `Value` or `SubclassOf` is refused for a union that has it as an alternative (257-259 and 267-269 return before unions are looked at), and a union of two classes is refused for their common base (`value_refused`, `subclass_refused`, `oneOf_refused`).
* C119: overloads that state nothing leave no pathway in the compiler's list (function_signature_calculator.py:414-444), so the compiler expects the type of another overload where the interpreter takes anything (`expects_too_much`, `forgets_the_silent`), and is certain of an exception where there is none (`expects_an_error`). Line 523 passes the type of the last positional argument for each keyword to a function that computes the result type, and fails where there are keywords alone (`keywords_lost`, `keywords_alone`).
* C120: PyPointerToInstance.cpp:256 divides the difference of two pointers by a `size_t`, and so as an unsigned number: with `p` a pointer to integers, `p - (p + 1)` is 2305843009213693951 in the interpreter and -1 in compiled code (`sub_negative`, `sub_one`). The difference of pointers to elements of no size ends the process (`sub_empty`). `p[1.5]` is `p[1]` in the interpreter and an error in compiled code (`float_index`); `p[2**64]` is `p[0]`, where `p + 2**64` leaves an exception behind (`large_index`); `str(p)` in compiled code writes a decimal number after 0x (`str_decimal`).
* C121: reading a member that a frozen module lacks makes a new forward, which nobody can define through the module any more (`grows_frozen`), although freezing is said to forbid changes. A member that was assigned a forward, `m.A = m.B`, makes freezing fail even after B is defined (`alias_never_freezes`, `alias_of_int`), and assigning both afterwards gives one forward two meanings (`one_forward_two_types`). A forward of another module inside a member is not noticed (`foreign_forward`). Defining `m.B.define(int)` leaves the member a forward (`defined_directly`).
* C122: a codebase made from a directory has a root directory and so counts as instantiated (Codebase.py:86): instantiating it does nothing, and its modules cannot be imported unless its parent directory was on the path before (`from_path_does_nothing`); one made from a relative path without a slash has the root directory '' and can never be instantiated (`relative_never`). The documentation forbids root modules that exist locally (Codebase.py:44-45), but only those of other codebases are refused (`hides_local`), and `markNative` refuses none (`native_overwrites`). Paths with `..` and absolute paths are written outside the directory (`escapes`). A failure leaves files behind (`half_written`). Only the path from the root is tested for a dot (Codebase.py:193), so hidden directories inside are read (`hidden_read`). A path that ends with a slash makes every file a root module (`slash_at_end`). Two files can have one module name (`one_name_two_files`). A second codebase with the same files has no root directory (`second_without_directory`).
* C123: a class has the methods that it inherits in its own dictionary (PyClassInstance.cpp:719-737), so `super().f` stops at the next class if it only inherits f: in A: f; B(A); C(A): f; D(B, C) it is A's f in D, where Python has C's (`super_diamond`). Compiled code looks at the next class only (super_wrapper.py:142-148), so that a method of a second base is not found where the first base does not have it (`super_mixin`, and for all hierarchies `super_gives_up`).
* C124: the number of a call is counted for each macro (macro.py:71, 98), but the file name has only the place of its function, so two macros made from a function at one place, for example inside another function that is called twice, collide at their first calls (`collide`), and the type function remembers that failure; the next call with other arguments works. `clearAllCaches` also clears the source texts of macros, which nothing can bring back (`forgets`). The name in the error for a missing name is cut out of the message of any `NameError` (macro.py:115-118): a local variable without a value is reported as `ariabl` (`unbound_local`), and a macro in a macro as `ourc` (`nested_error`). A last line that is not a string can raise a TypeError instead of a MacroFormatError (`last_line`).
* C125: in compiled code the position of an iterator of a list grows also at the end, so that it goes on, with items left out, if the list grows afterwards (`calls_as_python` and the example after `string_next_endless`). A loop over such an iterator counts from zero, because its class has `__typed_python_int_iter_size__`, so items are given again (`loop_restarts`). `BytesIterator.__iter__` takes an item and raises StopIteration, and reads through a null pointer at the end (bytes_wrapper.py:1822-1826, `bytes_loop_fails`). `StringIterator.__next__` calls itself (string_wrapper.py:1102-1106, `string_next_endless`), and there is no `StringIterator.__iter__`, so that it cannot be looped over.
* C126: `TupleOf(T).fromBytes` starts from an empty tuple, which has no layout (TupleOrListOfType.hpp:207-210), and reserves space in it, so it crashes for all bytes that it does not refuse (`tuple_never`). Compiled code reads the count of an empty tuple and of no bytes through a null pointer (_runtime.cpp:2713-2716, 2730, `compiled_empty`). For elements without bytes the size is tested and divided by all the same (PyTupleOrListOfInstance.cpp:438, `no_size`). For an argument that is not bytes an error is set, but the function goes on (PyTupleOrListOfInstance.cpp:409-415, `not_bytes`). The count has 32 bits (`too_many`).
* C127: in compiled code `destroyUnsafe` (typed_cell_wrapper.py:146-148) does not reset the flag, so that a cell that is cleared there stays set: reading it reads what was destroyed, and setting or clearing it destroys it again (`compiled_clear_dangles`); for plain values nothing happens at all (`compiled_clear_nothing`). Setting a value destroys the old one before the new one is converted (TypedCellType.hpp:217-224, typed_cell_wrapper.py:34-38, `failing_set`). The comparison has a test for `Py_NE` the wrong way round (TypedCellType.hpp:171), so that `!=` raises and `<` answers whether the cells are the same (`ne_raises`).
* C128: references are ended by lines and not by statements (PyTemporaryReferenceTracer.cpp:80), so that a second statement on the same line still has the reference (`same_line`), and a reference that is made on a later line of a statement is lost when Python goes back to its first line (`back_to_first_line`; Python does this since 3.8). Lambdas and the code of modules have no lines of statements (internals.py:638-643), so that their references last until they are left (`no_statements`). `sys.settrace` takes the tracer away, and references that were made before are not ended (`settrace_forgets`). The program's trace function is remembered once for all threads (PyTemporaryReferenceTracer.cpp:125-126), so that a second thread's overwrites the first's (`thread_loses`).
* C129: the lock is given up by a helper thread (PyGilState.cpp:165-206), and a process that is forked has no such thread, but `gilReleaseThreadLoopActive` is copied. There compiled code keeps the lock as long as it runs, and if it waits for another thread, for ever (`waits_for_loop`, `fork_starves`).
* C130: in reverse, `daterange` begins with the end and leaves out the start (`reversed_wrong`; the test of the project expects this, the documentation says that the start is included and the end excluded; `reversed_is` and `reversed_weeks` say which dates are there), at the first days of year 0 the step before the start raises (`reversed_first_days`), and months and years raise (`reversed_months`). With a step size of 0 it never ends (`zero_endless`).
* C131: with `class A(Class): X = 1`, `class B(Class): X = 2`, `class C(A, B)`, compiled code that holds `C` as a `SubclassOf(A)` finds that it is not a subclass of `B` and does not convert it to `SubclassOf(B)` (`issubclass_wrong`); held as a `SubclassOf(B)`, its `X` is 2, the interpreter has 1 (`class_member_wrong`). The conversion of a `SubclassOf(C)` to the type of a base of `C` succeeds for every class held, which becomes that base (`to_known_base`).
* C51 negative components are accepted.

## Not modelled

Code generation (LLVM conversion of expressions), the CPython API glue, module loading/hotswap, regular Python
objects inside containers (`object` members), floating point text conversion, Unicode database tables
(treated as arbitrary functions), memory management except where named above.
Of ListOf/TupleOf: `TupleOf` values made by compiled slicing and by `fromBytes` (their code stores through the null layout of an empty
tuple; read, not modelled), `toArray`, `transform` and buffer access.

Of the compiler (C62): variables in closures, `for`, `with`, `del`, augmented assignment, conversion of the returned value to the
function's type, and everything inside an expression. The repeated conversion of the whole function until its slot types are final
is represented by its result: the slots hold the types assigned to them (`settled`).

Of `pmap` (C63, C64): effects of the mapped function other than its result, changes to the list while it is mapped, starting the
threads (`ensureThreads`), and the conversion of results to `OutT`.

Of generators (C65, C66): `yield` as an expression, the types of the hidden variables, generator
expressions, the adaptors around untyped iterators, the types of the members and of the yielded values.

Of loops (C57): values of a `OneOf` type, which are split before the loop is converted, constant conditions, `try` around or in a loop
(C28 and C67 have those), and the types of variables, which the conversion of a loop may widen.

Comprehensions: generator expressions (they become generators, C65), `async`, comprehensions whose clauses are on several
lines (their loops share only some hidden variables), element types, closures in elements, and what the enclosing function
does with the container.

`Sha`: the unrolled `mbedtls_internal_sha1_process` is written as a recursion over its 80 lines; `& 0x0F` is
`% 16`. The memory of a `ShaHash` is that of a little-endian machine. Of hash.py, dicts, `__sha_hash__`, strings that have no UTF-8 encoding and the
comparison of hashes are not modelled; of identity hashes, everything but constants (types, functions and their
recursive groups) is not.

`Mro`: classes are numbers in the order of their statements, names are numbers, and functions and Python objects in
class bodies are opaque. Not modelled: forward declared and recursive classes, `typesEquivalent` classes, `__getattr__` and its kin, default values, alignment (there
is none in the code), annotations without values, and the names the library itself puts in a type dictionary.

`Mro/Dispatch`: classes of which there are equivalent copies (`typesEquivalent`), the queue of empty slots that the compiler does
not read, destructors (which have one slot of their own) and the compilation itself are not modelled. Making a class, allocating a slot and installing a
function each hold the interpreter's lock and are one step; a calling thread makes one access to shared memory a step, in a
sequentially consistent memory.

The compiler cache (C78, C79): file contents are those written (no power failure, no full disk), `os.listdir`
and `os.rename` are atomic, and a process looks at one module at a time without others marking modules in between;
`dlopen` and linking do not fail; hashes of random numbers do not repeat; typed call targets are left out, as is
`linkGlobalVariables`. What a process can use is any function of the module's name and may change at every step.

Variables and scopes (`Scope/*`): the tree keeps names, bindings and scopes; all other syntax is a
`node` of its parts. Types of variables, the layout of closures (`buildClosureTypes`), and the rest of
`generator_codegen.py` (covered by `Gen/*`) are not part of it. Free variables of code objects are
Python's and are taken from the rules of scope in `Scope/Spec`. Default values are expressions over
two-place operations; mutable default values are not modelled.

Generated code (`Native/*`): native expressions keep control flow, calls as numbered acts, tests, and teardowns by tag;
values, types, `Let`, variables and memory are left out, and the expression a `Return` or `Throw` carries is an act before it.
LLVM blocks are run as the code of each scope; phi nodes, the exception object and its traceback are not modelled. That
a slot is marked once on each path and not inside a loop or try of its own (`Steps.Marked`) was checked by reading all
uses of markUninitializedSlotInitialized.

Builtins (C87): iterables are lists of values (iteration has no effects of its own); conversion of several arguments to a
common type, and unknown keyword arguments, are left out.

For C90 to C92, what the compiler sees of an object (`CompilerVisibleObjectVisitor::walk`) is a parameter, except for code objects and functions; groups made by the deserializer, intended hashes and the instances of mutable containers are not modelled; the size of `uint64_t` indices is not bounded.

For C93 to C97, numpy arrays and scalars, `RefTo`, classes, alternatives, dictionaries and sets as targets, subclasses of typed_python types, constants other than numbers, text and bytes, and exceptions raised while iterating are not modelled; float operations and the explicit conversions `bool`, `int`, `float`, `str` and `bytes` of objects are parameters.

For C98 to C100, comparisons between values of different types and with plain Python objects, classes with their own operators, dictionaries and sets as values, and cached hashes of ListOf are not modelled; the hashes of text and the comparison of numbers of different types in compiled code are parameters.

For C101 to C104, `decode`, the conversions between bytes and typed lists (`fromBytes`, `toBytes`), arguments that are not bytes, and allocation failures are not modelled. `97 in b'abc'` is a TypeError in compiled code (wrapper.py:685-711), which is not a claim about bytes arguments.

For C105, `strtod` is not modelled: the theorems are about the text it is given.

For C106 to C108, the numerical library is described by its documentation and floating point arithmetic is abstract; `repr`, the constructors with offset and strides, truncation of sizes to 32 bits, the workspace handling of LAPACK and element types other than those with the given operations are not modelled.

For C109 and C110, classes, alternatives, dictionaries, sets, pointers and Python objects are not modelled, nor are explicit conversions (level `New`), the generated code that joins the outcomes, or the reuse of a list through a OneOf at the level `ImplicitContainers`. Whether a double is finite or NaN is abstract, as are `int(b)` and `float(b)` of bytes.

For C111, the size of the machine's stack and of its memory is not modelled: a count of 2^40 elements is taken to be allocated, and counts are not truncated to 32 bits. The default values that fill in what a message does not have are a parameter.

For C112, the relation between the versions does not include places of type `ListOf`, `Dict` or `Set` that both versions have, and the maker of default values is a parameter that is assumed to succeed and to leave the stream alone.

For C113, dictionaries, sets, classes and alternatives on the typed side, objects of typed_python types on the plain side, and Python's test of identity before equality of items are not modelled; text is taken to be stored in the smallest width that holds it.

For C114, threads are not modelled (the lock of `_buildTypeFunction` is held while the function runs; the unlocked look at the memo gives only what is final), nor NaN as an argument, dictionary arguments whose keys are not text, or the test for infinite size in `Forward.define`, which is a parameter.

For C115, Python's grammar is taken from its documentation and is part of the statement, not of the code; `match` statements and the comments `# type: ignore` have no converter in the code and are left out of it, `end_lineno` and `end_col_offset` are left out since the code does not carry them, and the parser is not modelled (the search for a function's source and the memo by code object are C116).

For C116, Python's compiler is a parameter with stated laws (which code objects it makes, in which order, equal ones once); the order was taken from its documentation and source from memory and agrees with what the installed Python does on small programs. `regular` stands for what the order does not cover (constant conditions, `finally` bodies compiled more than once, annotations that are not evaluated). Reading the file, parsing it, finding the nodes that begin on a line (`AtLineNumberVisitor`, which does not look at the decorators of `async def`) and the second memo without places are not modelled.

For C117, a lookup is a search in the list of entries (C04 and C10 are about the tables), and keys whose equality is not that of their data, floats above all, are left out. A conversion that fails with a Python exception does not end the comparison of a ConstDict: PyConstDictInstance.cpp:487-488 goes on with an empty `Instance`, whose data pointer points to zeros. No key type of the model fails in that way.

For C118 and C119, whether an overload matches a set of arguments is given (C53), as is what a signature function computes; signature functions that raise are left out. The merging of result types is a parameter of which only the covering law is used. Not modelled are the checks that the compiler emits for conflicting signatures (function_signature_calculator.py:223-329 and python_typed_function_wrapper.py:378-444), and the numbers of the pathways. The compiler goes through the classes one by one and through the levels within each, and the model follows it; the interpreter's own dispatch (C53) goes through the levels first.

For C120, elements are plain data, so that assigning one copies its bytes; reference counts, `initialize` and `destroy` are not modelled, nor are pointers to the members of held classes (C55), casts, and objects with an `__index__` of their own. That PyPointerToInstance.cpp:93-95 leaves memory allocated when a conversion fails with a Python exception is noted here only.

For C121, assigning to the attributes `_items`, `frozen` and `name` of a module (module.py:67-69), which can undo freezing, is not modelled, nor are members that are no types, nor the names that recursive types take from their forwards (ForwardType.hpp:109-112).

For C122, `os.path` and the file system are modelled without links and with `..` resolved textually; reading text translates line ends (Codebase.py:207), which is not modelled, so that `round_trip` is about texts as they are read; `maxTotalBytes` counts characters. The hash of a codebase is a parameter (C71), and where it is equal the files are taken to be the same by the code. Python's import is modelled as far as the choice of a directory for a root module that is a package with an `__init__.py` or a file; `importModulesByName`, `getClassByName` and `rootlevelPathFromModule` are not modelled.

For C123, which class a method was defined in (`__class__`, internals.py:493-494) and the static type of its first argument are parameters; where the class is not in the order the compiler fails with an unbound variable instead of the TypeError it has prepared (super_wrapper.py:107-121), which is `none` in the model.

For C124, `compile` and `exec` are parameters, `isidentifier` and `iskeyword` too; macros that are called while a macro's function or its source text is executed come before or after in the history, which is the same for the state because a call changes it only between the two. Macros are called under the lock of type functions (C114), so that calls are not interleaved. `printCodeFor` is not modelled.

For C125, the pointer that `__fastnext__` gives is its value at that time; that pointers into a list dangle when it changes, and that the pointers of one string iterator all point to one member, is not modelled. Loops over lists themselves are C57.

For C126, an element is the bytes it has in memory, so that two elements are the same if their bytes are; which bytes are valid elements (for example of `bool`) is not modelled.

For C127, the reference counts of cells and the hash of an empty cell, which reads memory that was never written (TypedCellType.hpp:91-93), are not modelled.

For C128, which line events Python gives is not modelled, the histories have all of them; neither is a container that moves its contents while references to them exist (a list that grows), nor frames that are reused.

For C129, the interpreter's own lock is modelled as one owner that any waiting thread can become; its fairness, the end of the process, and Python 3.12, where the current thread state belongs to the operating system's thread, are not.

## Citations

`tools/cites.py` checks every `file:lines` citation in the model against /repo: the file and the lines exist, and a symbol named
directly after the lines occurs there.  It does not check that a definition agrees with the lines it cites.
