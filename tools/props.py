#!/usr/bin/env python3
"""Regenerates /verif/properties.jsonl (one JSON object per line)."""
import json, os
P = []
def p(id, title, statement, quantifier, why, *anchors):
    P.append(dict(id=id, title=title, statement=statement, quantifier=quantifier,
                  why_tests_cant=why, anchors=list(anchors)))
TP = "typed_python/"
# ------------------------------------------------------------------ SortedDict
p("C01", "SortedDict is an ordered finite map",
  "After any sequence of d[k]=v, del d[k], pop, setdefault on a SortedDict, every lookup (d[k], k in d, get with and without default), len(d), first(), last() and iteration/items() answer exactly as a finite map from keys to values does, and iteration yields the keys in strictly increasing comparator order, each once. Deleting or popping an absent key raises KeyError and leaves the map unchanged.",
  "all finite operation histories, all keys and values, every comparator that is a strict total order on the keys",
  "The tree shape (and hence which rotation or which deletion case runs) depends on the whole history; tests sample a few insertion orders.",
  TP+"lib/sorted_dict.py:SortedDict", TP+"lib/sorted_dict.py:Node")
p("C02", "SortedDict operations terminate and never trip their internal assertions",
  "Every SortedDict operation returns (or raises KeyError for an absent key); the recursive rebalance/set/remove calls never recurse forever, never dereference a missing child and never hit the assert in rebalance.",
  "all operation histories from the empty dict",
  "rebalance calls set, which calls rebalance; termination depends on an invariant of all reachable trees, not on a sampled tree.",
  TP+"lib/sorted_dict.py:Node.rebalance", TP+"lib/sorted_dict.py:Node.set", TP+"lib/sorted_dict.py:Node.remove")
p("C03", "SortedDict stays balanced",
  "The depth of the search tree behind a SortedDict is bounded by a logarithm of its size, as the documentation ('balanced binary search tree') promises, so lookups are O(log n).",
  "all operation histories",
  "Only specific adversarial insertion orders of unbounded length show the depth growing linearly.",
  TP+"lib/sorted_dict.py:Node.rebalance")
# ------------------------------------------------------------------ Hash table
p("C04", "Dict is a finite map",
  "After any sequence of insertions, overwrites, deletions, pops, setdefaults and clears on a Dict(K,V), lookup, membership and len answer exactly as the corresponding finite map.",
  "all operation histories, all keys, all hash functions consistent with equality (including every collision pattern and negative hashes)",
  "Correctness depends on tombstones, resizes and perturbation probing interacting over long histories with adversarial collisions.",
  TP+"hash_table_layout.hpp:hash_table_layout", TP+"DictType.cpp:DictType::insertKey", TP+"DictType.cpp:DictType::lookupValueByKey", TP+"DictType.cpp:DictType::deleteKey")
p("C05", "Dict operations terminate: a probe always reaches an empty slot",
  "No Dict/Set lookup, insert or delete loops forever: the probe sequence visits every slot of the table and every reachable table has an empty slot.",
  "all reachable tables of any size and all 32-bit hash values",
  "The probe sequence length depends on 64-bit perturbation arithmetic over tables of unbounded power-of-two size.",
  TP+"hash_table_layout.hpp:find", TP+"hash_table_layout.hpp:add", TP+"hash_table_layout.hpp:remove", TP+"hash_table_layout.hpp:resizeTable")
p("C06", "Dict iteration yields each live entry once, in insertion order",
  "Iterating a Dict or Set yields exactly the live keys, each once, ordered by when each key was (last newly) inserted; overwriting a value keeps its position, deleting and re-inserting moves it to the end; resizes and compaction never change the order.",
  "all operation histories",
  "Compaction thresholds are crossed only by particular long histories of deletions.",
  TP+"hash_table_layout.hpp:compressItemTable", TP+"hash_table_layout.hpp:allocateNewSlot", TP+"PyDictInstance.cpp")
p("C07", "Set algebra is set algebra",
  "union, intersection, difference, symmetric_difference, isdisjoint, issubset, issuperset, add, discard, remove, pop on Set(T) compute the mathematical set operations, and remove of a missing element raises KeyError without change.",
  "all sets, all elements, all hash functions consistent with equality",
  "Tests sample small sets; the property quantifies over all table states reached by histories.",
  TP+"SetType.cpp", TP+"PySetInstance.cpp", TP+"hash_table_layout.hpp")
p("C08", "Dict equality is extensional, also for keys views",
  "d1 == d2 holds iff both have the same keys with equal values; d1 != d2 is its negation; d1.keys() == d2.keys() holds iff the key sets are equal.",
  "all pairs of dicts",
  "A comparison that ignores keys of equal-sized dicts passes every test whose dicts differ in size or are equal.",
  TP+"DictType.cpp:DictType::cmp", TP+"PyDictInstance.cpp:compare_as_iterator_to_python_concrete")
p("C09", "Compiled and interpreted Dict/Set code agree on the same table",
  "The compiled table operations (add, find, remove, clear, resize) acting on a table produced by any mix of interpreted and compiled operations give the same observable map, order and exceptions as the interpreter's.",
  "all interleavings of compiled and interpreted operations, all hash values",
  "Two implementations (C++ and generated code) share memory; disagreements show only for specific tables or hash values.",
  TP+"compiler/type_wrappers/hash_table_implementation.py", TP+"compiler/type_wrappers/dict_wrapper.py", TP+"hash_table_layout.hpp")
# ------------------------------------------------------------------ ConstDict
p("C10", "ConstDict lookup finds exactly the stored keys",
  "For every ConstDict built from key/value pairs, d[k] returns the value of k if k was present and raises KeyError otherwise, len is the number of distinct keys, and iteration is in increasing key order.",
  "all ConstDicts of any size over any totally ordered key type",
  "Binary search boundary errors show only for particular sizes and positions.",
  TP+"ConstDictType.cpp:lookupIndexByKey", TP+"ConstDictType.cpp:sortKvPairs")
p("C11", "ConstDict + and - are map override and key removal",
  "a + b maps each key to b's value if present in b, else a's; a - keys removes exactly those keys; operands are unchanged and the result is again sorted with distinct keys.",
  "all ConstDicts a, b and key tuples",
  "The merge is index arithmetic over two arrays of arbitrary size.",
  TP+"ConstDictType.cpp:addDicts", TP+"ConstDictType.cpp:subtractTupleOfKeysFromDict")
p("C12", "ConstDict comparison and hash are extensional",
  "Two ConstDicts compare equal iff they represent the same map; equal ConstDicts have equal hashes; the order is total and antisymmetric.",
  "all pairs/triples of ConstDicts",
  "Transitivity and hash consistency are universally quantified over pairs and triples.",
  TP+"ConstDictType.cpp:cmp", TP+"ConstDictType.cpp:hash")
# ------------------------------------------------------------------ Serialization
p("C13", "Unsigned and signed varints round-trip",
  "Writing any 64-bit unsigned (or signed) integer and reading it back yields the same integer and consumes exactly the bytes written, whatever follows.",
  "all 2^64 values, all following byte streams",
  "2^64 values; the sign/zigzag boundary and 7-bit boundaries cannot be exhausted.",
  TP+"SerializationBuffer.hpp:writeUnsignedVarint", TP+"DeserializationBuffer.hpp:readUnsignedVarint")
p("C14", "Unknown fields can be skipped: discarding a message consumes exactly that message",
  "For every well-formed wire message (nested arbitrarily) followed by any bytes, skipping it advances the reader by exactly the message's length, and copying it to another buffer reproduces it byte for byte (up to re-encoding) and decodes to the same message.",
  "all message trees of any depth, all trailing bytes",
  "Nesting depth and the mix of wire types are unbounded.",
  TP+"DeserializationBuffer.hpp:finishReadingMessageAndDiscard", TP+"SerializationBuffer.hpp:copyMessageToOtherBuffer", TP+"WireType.hpp")
p("C15", "serialize/deserialize round-trips typed values",
  "deserialize(T, serialize(T, x)) == x and consumes the whole message for every value of types built from bool, the integer types, bytes, str, None, Tuple/NamedTuple, TupleOf, ListOf, ConstDict, Dict, Set, OneOf and Alternative.",
  "all types in the grammar, all values of each",
  "Types nest arbitrarily and containers are unbounded.",
  TP+"SerializationBuffer.hpp", TP+"TupleOrListOfType.hpp:serialize", TP+"CompositeType.hpp:serialize", TP+"OneOfType.hpp", TP+"AlternativeType.hpp", TP+"ConstDictType.hpp", TP+"DictType.hpp")
p("C16", "Block-compressed integer lists round-trip",
  "A ListOf/TupleOf of 64-bit ints serialized in width-tagged blocks (1/2/4/8 bytes, at most 255 elements per block) deserializes to the same sequence.",
  "all integer sequences of any length",
  "Block splitting depends on every element's width and on the 255 limit.",
  TP+"TupleOrListOfType.hpp:serializeIntList", TP+"TupleOrListOfType.hpp:deserializeIntList")
p("C17", "Shared and cyclic references survive serialization",
  "When the same mutable object is referenced several times in a graph (including from itself), deserialization rebuilds one object per original object with the same sharing.",
  "all object graphs",
  "Sharing patterns are arbitrary graphs.",
  TP+"SerializationBuffer.hpp:cachePointer", TP+"DeserializationBuffer.hpp:addCachedPointer", TP+"TupleOrListOfType.hpp:serialize")
p("C18", "Consolidating and compressing the output stream does not change its content",
  "Whatever the sequence and sizes of writes, and whatever order compression workers finish blocks in, the produced stream decodes, in reads of any sizes, to exactly the concatenation of the bytes written, as long as no single block compresses to 4 GiB or more (its size is stored in 32 bits); and every schedule finishes.",
  "all write sequences, all block boundaries, all schedules of compression threads",
  "Thread schedules and block boundary positions cannot be enumerated.",
  TP+"SerializationBuffer.hpp", TP+"SerializationBuffer.cpp", TP+"DeserializationBuffer.cpp")
# ------------------------------------------------------------------ Strings
p("C19", "UTF-8 encoding of str round-trips",
  "Serializing any str and deserializing it yields the same code points; the byte count computed up front equals the bytes written.",
  "all strings of any length over all code points 0..0x10FFFF",
  "1.1 million code points in arbitrary sequences.",
  TP+"Unicode.hpp:encodeUtf8", TP+"StringType.cpp:decodeUtf8ToTyped", TP+"StringType.cpp:countUtf8Codepoints")
p("C20", "String equality/ordering depend only on the code points",
  "Comparison of two str values compiled code can produce gives exactly the lexicographic code point order, independent of how many bytes per code point each uses, and == is True iff they have the same code points.",
  "all pairs of representable strings, all storage widths",
  "Nine width combinations times unbounded strings, plus the null representation of the empty string.",
  TP+"StringType.cpp:cmpStatic", TP+"StringType.cpp:cmpStaticEq", TP+"StringType.cpp:join")
p("C21", "Equal strings hash equally",
  "If two str values are equal then they have the same hash, so a Dict(str, T) finds a key whichever way the equal string was produced (literal, slice, concatenation, deserialization).",
  "all pairs of equal strings however produced",
  "The storage width is invisible at the API; tests compare literals built the same way.",
  TP+"StringType.hpp:hash_static", TP+"StringType.cpp:getitem", TP+"StringType.cpp:createFromUtf8", TP+"HashAccumulator.hpp")
p("C22", "find/rfind/index/count/in agree with Python",
  "Compiled s.find(sub,start,stop), rfind, index, rindex and `sub in s` return the first/last position of an occurrence within the Python-normalised window, and count the number of non-overlapping occurrences found left to right.",
  "all strings, substrings, and 64-bit start/stop",
  "Negative, out-of-range and empty-substring combinations are unbounded.",
  TP+"StringType.cpp:find", TP+"StringType.cpp:rfind", TP+"StringType.cpp:count")
p("C23", "split/rsplit/splitlines/join/partition invert each other",
  "sep.join(s.split(sep, n)) == s and sep.join(s.rsplit(sep,n)) == s; no piece (except the unsplit remainder) contains sep; split has at most n+1 pieces; ''.join(s.splitlines(True)) == s; partition pieces concatenate to s.",
  "all strings, separators and limits",
  "Overlapping separators and limits interact over unbounded strings.",
  TP+"StringType.cpp:split", TP+"StringType.cpp:rsplit", TP+"StringType.cpp:splitlines", TP+"StringType.cpp:join", TP+"compiler/type_wrappers/string_wrapper.py:strPartition")
p("C24", "Indexing, slicing, strip, concatenation and repetition agree with Python",
  "Compiled s[i], s[a:b], s.strip/lstrip/rstrip, s+t, s*n give the same code points (and the same IndexErrors) as CPython.",
  "all strings, all 64-bit indices",
  "Index normalisation has boundary cases at every length.",
  TP+"StringType.cpp:getsubstr", TP+"StringType.cpp:getitem", TP+"StringType.cpp:strip", TP+"StringType.cpp:concatenate", TP+"StringType.cpp:mult")
p("C25", "int(str) accepts exactly Python's decimal grammar and computes its value",
  "Compiled int(s) succeeds iff s is (spaces) [sign] digits with single underscores between digits (spaces), and then returns the decimal value (modulo 2^64); otherwise it raises ValueError.",
  "all strings",
  "A state machine over arbitrary-length input.",
  TP+"StringType.cpp:to_int64")
p("C26", "replace/startswith/endswith/justify/zfill/expandtabs agree with Python",
  "Compiled str.replace replaces exactly the first n non-overlapping occurrences; startswith/endswith with ranges, center/ljust/rjust/zfill/expandtabs match CPython's definitions.",
  "all strings and arguments",
  "Empty patterns, limits and ranges over unbounded strings.",
  TP+"compiler/type_wrappers/string_wrapper.py:strReplace", TP+"compiler/type_wrappers/string_wrapper.py:strRangeStartswith")
p("C27", "Case mapping preserves characters",
  "Compiled upper/lower/title/capitalize/swapcase/casefold yield the concatenation of the Unicode mapping of each character, whatever the storage width, without writing outside the allocated result.",
  "all strings and all per-character mappings of up to 3 code points",
  "Characters whose mapping needs a wider storage than the input's are rare.",
  TP+"StringType.cpp:unicode_generic")
# ------------------------------------------------------------------ Arithmetic
p("C28", "Compiled // and % agree with Python",
  "For 64-bit operands with nonzero divisor, compiled a // b and a % b equal Python's floor division and modulo whenever the result is representable, a == (a//b)*b + a%b, and division by zero raises ZeroDivisionError.",
  "all 2^128 operand pairs",
  "Edge operands (INT64_MIN, negative divisors) are a vanishing fraction of the input space.",
  TP+"_runtime.cpp:nativepython_runtime_mod_int64_int64", TP+"_runtime.cpp:nativepython_runtime_floordiv_int64_int64", TP+"PyRegisterTypeInstance.hpp:pyMod", TP+"PyRegisterTypeInstance.hpp:pyFloorDiv")
p("C29", "Compiled and interpreted fixed-width arithmetic agree",
  "For the fixed-width integer types, the interpreter's operator functions and the compiled runtime functions return the same value or both raise.",
  "all operand pairs of each operator",
  "Two separately written implementations; disagreement is confined to edge operands.",
  TP+"_runtime.cpp", TP+"PyRegisterTypeInstance.hpp")
p("C30", "Shifts agree with Python",
  "a << b and a >> b equal multiplication and floor division by 2^b (mod 2^64 for <<), negative shift counts raise ValueError.",
  "all operand pairs",
  "Rounding direction on negative operands differs only for some values.",
  TP+"_runtime.cpp:nativepython_runtime_rshift_int64_int64", TP+"_runtime.cpp:nativepython_runtime_lshift_int64_int64")
p("C31", "Numeric promotion is a join",
  "The result type of mixed arithmetic is independent of operand order and of grouping, adding a type to itself changes nothing, the result is at least as wide as both, float if either is float, signed if either is signed; compiler and interpreter use the same table.",
  "all pairs and triples of numeric types",
  "Associativity/consistency is over all triples and two separate tables.",
  TP+"type_promotion.py:computeArithmeticBinaryResultType", TP+"PromotesTo.hpp")
# ------------------------------------------------------------------ Dates
p("C32", "Calendar conversion is a bijection",
  "Date.fromDaysSinceEpoch and daysSinceEpoch are mutually inverse between all valid Gregorian dates and all day numbers, consecutive dates have consecutive numbers, and day_of_year is the ordinal within the year.",
  "all dates and all integers (proleptic, negative included where the API allows)",
  "Unbounded day numbers, with era/century/leap interactions.",
  TP+"lib/datetime/chrono.py:Chrono.days_from_civil", TP+"lib/datetime/chrono.py:Chrono.civil_from_days", TP+"lib/datetime/chrono.py:Chrono.day_of_year")
p("C33", "weekday is the day of the week",
  "Date.weekday() is in 0..6, advances by one (mod 7) each day, and is 4 on 1970-01-01; get_nth_dow_of_month returns the n-th such weekday of that month.",
  "all dates",
  "Only dates before 1970 exercise the negative branch.",
  TP+"lib/datetime/chrono.py:Chrono.weekday_from_days", TP+"lib/datetime/chrono.py:Chrono.get_nth_dow_of_month")
p("C34", "Date stepping lands where it says",
  "nextWeekday(w) is the first date on or after d with weekday w; lastWeekday(w) the last on or before; nextMonth/nextYear land in the right month with the day clamped; lastDayOfMonth, daysInMonth, next/previous are consistent.",
  "all dates and steps",
  "Depends on all weekday/month-length combinations.",
  TP+"lib/datetime/date_time.py:Date")
p("C35", "Timestamp/datetime conversion round-trips in fixed-offset zones",
  "tz.timestamp(tz.datetime(ts)) == ts and tz.datetime(tz.timestamp(dt)) == dt for every fixed offset, and later instants read later on the clock.",
  "all instants, all offsets",
  "Floor division on negative instants; unbounded domain.",
  TP+"lib/datetime/date_time.py:Timezone._datetimeFromTimestampAndOffset", TP+"lib/datetime/date_time.py:FixedOffsetTimezone")
p("C36", "Daylight-saving zones: every instant round-trips with the right fold",
  "For each instant ts, tz.timestamp(tz.datetime(ts), fold) == ts for one of the two fold flags; local times skipped by the spring change raise NonexistentDateTime, and asking for the second occurrence of a non-repeated time raises OneFoldOnlyError.",
  "all instants in a year, all boundary rules",
  "The behaviour changes at two instants a year.",
  TP+"lib/datetime/date_time.py:DaylightSavingsTimezone", TP+"lib/datetime/date_time.py:SwitchOffsetTimezone", TP+"lib/datetime/date_time.py:PytzTimezone")
p("C37", "Formatting then parsing a timestamp gives it back",
  "Parsing the ISO (or '%Y-%m-%d %H:%M:%S') rendering of a whole-second timestamp returns that timestamp; so does parsing with any format on the 24-hour clock that writes all components, in any timezone of fixed offset given to both; a format that writes less gives the instant of the written part.",
  "all whole-second timestamps in years 0..9999, all formats made of %Y %m %b %B %d %H %M %S (and %Z %z in UTC) and ASCII text, all fixed offsets",
  "Billions of instants; padding and tokenisation edge cases.",
  TP+"lib/datetime/date_formatter.py:DateFormatter.format", TP+"lib/datetime/date_parser.py:DateParser.parse_iso_str", TP+"lib/datetime/date_parser.py:DateParser.parse_with_format")
p("C38", "12-hour clock parsing",
  "A time written with AM/PM parses to the hour it denotes: 12 AM is 0, 1..11 AM are 1..11, 12 PM is 12, 1..11 PM are 13..23.",
  "all hours and minutes",
  "A universally quantified statement over the input grammar.",
  TP+"lib/datetime/date_parser.py:DateParser.parse_with_format", TP+"lib/datetime/date_parser.py:DateParser.parse_non_iso_time", TP+"lib/datetime/date_formatter.py:convert_to_12h")
# ------------------------------------------------------------------ sorting
p("C39", "sort sorts",
  "sort(l) leaves l a permutation of its input, in nondecreasing order, for every pseudo-random seed; sorted(l) does so on a copy; with a key function the result is ordered by key.",
  "all lists, all total orders, all pivot sequences",
  "Pivot choice is pseudo-random and the recursion depends on duplicates.",
  TP+"lib/sorting.py:sort", TP+"lib/sorting.py:quicksort")
p("C40", "searchSorted returns an insertion point",
  "For a sorted list, searchSorted(x, l) returns an index i with l[:i] < x... such that inserting x at i keeps the list sorted; if x occurs it returns the index of an occurrence.",
  "all sorted lists and probes",
  "Binary search boundary conditions at all sizes.",
  TP+"lib/sorting.py:searchSorted")
# ------------------------------------------------------------------ queue
p("C41", "TypedQueue is a FIFO that neither loses nor duplicates elements",
  "Under any interleaving of any number of threads calling put/putMany/get/getNonblocking/getMany, the sequence of elements removed is a prefix of the sequence of elements put (in the order the operations took effect), and len is their difference.",
  "all thread counts, all schedules, all programs over the queue API",
  "Interleavings of lock operations are unbounded.",
  TP+"typed_queue.py:TypedQueue")
p("C42", "TypedQueue never deadlocks or fails internally",
  "No schedule leads to releasing an unheld lock, to popping an empty list, or to all threads blocked while the queue is non-empty; a blocked get proceeds once an element is available and the lock is free.",
  "all schedules",
  "Lost-wakeup bugs need particular schedules.",
  TP+"typed_queue.py:TypedQueue")
# ------------------------------------------------------------------ calls, graph, slab
p("C43", "Argument binding matches Python's calling convention",
  "Calling a typed Function with positional and keyword arguments binds parameters exactly as Python does (defaults, *args, keyword-only parameters, **kwargs) and rejects exactly the calls Python rejects.",
  "all signatures and all argument lists",
  "Signatures and call shapes are unbounded.",
  TP+"FunctionCallArgMapping.hpp:FunctionCallArgMapping")
p("C44", "Graph levels give a topological order",
  "levels() either raises because the graph has a cycle, or assigns each node one more than the maximum of its predecessors; topologicalSort lists every node after its predecessors; createsCycle(a,b) answers whether b already reaches a.",
  "all finite directed graphs",
  "Arbitrary graphs.",
  TP+"compiler/directed_graph.py:DirectedGraph")
p("C45", "Dirty-function worklist loses no work",
  "Every function marked dirty and not dropped is eventually returned by getNextDirtyNode, each at most once per marking; when a return signature changes all callers become dirty; None is returned only when nothing is dirty.",
  "all histories of addRoot/addEdge/markDirty/dropNode/getNextDirtyNode",
  "Histories are unbounded and priorities interact.",
  TP+"compiler/function_dependency_graph.py:FunctionDependencyGraph")
p("C46", "Slab allocations are disjoint, aligned and inside the slab",
  "All allocations made from a slab of the size deepBytecount predicts succeed, do not overlap each other or each other's headers, are 16-byte aligned and lie inside the slab; an allocation that does not fit raises.",
  "all allocation sequences",
  "Sizes and sequences are unbounded; the boundary is hit only by exact-fit sequences.",
  TP+"Slab.hpp:Slab::allocate", TP+"Memory.hpp:bytesRequiredForAllocation")
# ------------------------------------------------------------------ lists
p("C47", "ListOf behaves as a sequence",
  "append, extend (also by itself), pop, insert by index assignment, resize, reserve, reverse, clear, + and slicing on ListOf/TupleOf give the same element sequence as on Python lists, never read beyond the element count, and capacity is always at least the length.",
  "all operation histories",
  "Capacity growth and index arithmetic over unbounded histories.",
  TP+"TupleOrListOfType.cpp", TP+"PyTupleOrListOfInstance.cpp")
p("C48", "TupleOf ordering is lexicographic and hashing is consistent",
  "Comparison of TupleOf/ListOf values is the lexicographic total order of their elements, and equal TupleOf values hash equally.",
  "all sequences over any element type with a consistent order and hash",
  "Universally quantified over pairs and triples.",
  TP+"TupleOrListOfType.cpp:cmp", TP+"TupleOrListOfType.cpp:hash")
p("C49", "Control-flow merge of variable types is sound",
  "After merging the type states of two control flow paths, every concrete variable assignment possible on either path is still allowed, and a variable is 'definitely initialised' only if it is on both.",
  "all pairs of states and all concrete environments",
  "Soundness quantifies over all concrete environments.",
  TP+"compiler/function_stack_state.py:FunctionStackState.becomeMerge", TP+"compiler/merge_type_wrappers.py:mergeTypes")
p("C50", "map and reduce over typed tuples",
  "map(f, t) yields the tuple of f applied to each element in order and depends only on f and t, not on earlier calls; reduce(f, t) is f(...f(f(t0), t1)..., tn), and None for an empty tuple.",
  "all functions, tuples and call histories",
  "map keeps a process-wide type cache, so results can depend on the history of earlier calls.",
  TP+"lib/map.py:Map.mapTuple", TP+"lib/reduce.py:Reduce.reduceTuple")
p("C51", "Only existing dates can be constructed",
  "Date(y, m, d) succeeds exactly when that date exists in the Gregorian calendar (years from 0) and raises NonexistentDate otherwise.",
  "all integer triples",
  "Tests try a handful of invalid dates.",
  TP+"lib/datetime/date_time.py:Date.__init__", TP+"lib/datetime/chrono.py:Chrono.is_valid_date")
p("C52", "Dict and Set memory stays proportional to the number of live entries",
  "Whatever the history, the item storage and the index of a Dict or Set stay within a constant factor of the largest number of entries it has held; inserting and deleting for ever does not grow memory.",
  "all operation histories",
  "Leaks of tombstones show only after long insert/delete histories.",
  TP+"hash_table_layout.hpp:allocateNewSlot", TP+"hash_table_layout.hpp:compressItemTable", TP+"hash_table_layout.hpp:resizeTable")
p("C53", "Overload choice is deterministic: strictest conversion level first, then declaration order",
  "Calling a function with several overloads runs the first overload (in declaration order) that accepts the call at the strictest conversion level at which any overload accepts it, with every argument converted to its annotation; TypeError is raised exactly when no overload accepts the call at any level.",
  "all overload lists, all argument lists, all conversion behaviours of the types involved",
  "The interaction of levels, overload order, defaults, *args and **kwargs is a product space no test suite covers.",
  TP+"PyFunctionInstance.cpp:PyFunctionInstance::tryToCallAnyOverload", TP+"PyFunctionInstance.cpp:PyFunctionInstance::tryToCallOverload", TP+"FunctionCallArgMapping.hpp:applyTypeCoercion")
p("C54", "Deep copies are isomorphic, sharing-preserving and exactly as large as predicted",
  "deepcopyContiguous(x) returns a value isomorphic to x: two references to one object become two references to one copy, distinct objects stay distinct, nothing of x is shared or changed, all reference counts are right; the slab that is sized in advance is filled exactly.",
  "all finite object graphs, with any amount of sharing",
  "Sharing patterns and the agreement between the counting and the copying traversal quantify over all graphs; a wrong prediction overruns a slab silently.",
  TP+"_types.cpp:deepcopyContiguous", TP+"Slab.hpp:Slab::allocate", TP+"TupleOrListOfType.hpp:deepcopyConcrete", TP+"AlternativeType.hpp:deepBytecountConcrete", TP+"ClassType.hpp:deepcopyConcrete")
p("C55", "Class members: assignment, deletion, copying and destruction",
  "After any history of attribute assignments and deletions each member of a Class instance holds the value last assigned to it, or its default, or reads as not initialised if deleted or never set; members do not influence each other; copying or assigning a whole instance transfers exactly the set members; no value is leaked, released twice or read from raw memory.",
  "all class definitions (any number of members), all operation histories, any previous content of the memory",
  "Initialisation bits are packed eight to a byte into memory that is not cleared: errors depend on member position, history and what was in the memory before.",
  TP+"HeldClassType.cpp:HeldClass::setAttribute", TP+"HeldClassType.cpp:HeldClass::delAttribute", TP+"HeldClassType.cpp:HeldClass::constructor", TP+"HeldClassType.cpp:HeldClass::assign", TP+"HeldClassType.cpp:HeldClass::copy_constructor", TP+"HeldClassType.cpp:HeldClass::destroy")
p("C56", "ConstDict behaves the same in compiled and interpreted code",
  "Every ConstDict operation (literal, +, -, lookup, in, ==, !=, <, <=, >, >=) gives the same answer inside a compiled function as in the interpreter, and the compiled + never writes outside the memory it allocated.",
  "all programs of ConstDict operations, all keys and values",
  "The compiled operations are separate implementations (merges, binary searches, comparisons) of the same functions.",
  TP+"compiler/type_wrappers/const_dict_wrapper.py", TP+"ConstDictType.cpp")
p("C58", "String predicates agree with Python's definitions",
  "Compiled isalpha, isalnum, isdecimal, isdigit, isnumeric, isspace, isprintable, islower, isupper and istitle answer as Python defines them from the properties of the characters, for every string and storage width.",
  "all strings, all assignments of properties to characters",
  "istitle and islower depend on neighbouring characters in strings of any length.",
  TP+"StringType.cpp:StringType::istitle", TP+"StringType.cpp:StringType::islower", TP+"StringType.cpp:StringType::isalnum")
p("C59", "Offsets in ISO 8601 texts are honoured",
  "DateParser.parse of an ISO 8601 date and time followed by Z, +hh:mm, +hhmm, -hh:mm or -hhmm returns the instant denoted: the written clock reading minus the offset.",
  "all dates and times in years 0..9999, all offsets",
  "The tokenizer decides what an offset is from the separators; only a statement over all texts rules out silent misreadings.",
  TP+"lib/datetime/date_parser.py:DateParser.parse_iso_str", TP+"lib/datetime/date_parser.py:DateParser._get_tokens", TP+"lib/datetime/date_parser.py:DateParser.get_timezone_from_string")
p("C60", "Format directives write what strftime defines",
  "DateFormatter.format writes, for every supported directive, what strftime defines for the clock reading of the timestamp in the given timezone: padded numbers, month and weekday names, twelve-hour clock, day of year, century, timezone name and offset.",
  "all whole-second timestamps in years 0..9999, all formats over the supported directives, all fixed offsets",
  "The text depends on the calendar for every day; weekday names before 1970 are a corner no example list reaches.",
  TP+"lib/datetime/date_formatter.py:DateFormatter.format", TP+"lib/datetime/date_formatter.py:convert_to_12h")
p("C61", "Parsing with a format rejects texts that do not match it",
  "DateParser.parse(text, format) returns a timestamp only if the text has the shape the format describes, and raises ValueError otherwise.",
  "all texts, all formats",
  "A claim about all non-matching texts.",
  TP+"lib/datetime/date_parser.py:DateParser.parse_with_format")
p("C62", "Compiled control flow does what Python does",
  "A compiled function made of assignments, returns, raises, asserts, if, while, break, continue and try/except/else/finally returns the same value or raises the same exception as the Python function, and never reads an uninitialised variable, reads a variable as a type its value does not have, or runs past its end.",
  "all functions of these statements, all types of their variables, all argument values, all values and exceptions of their expressions, all numbers of loop iterations",
  "Type states are merged at compile time along every path of every program; a test runs one path of one program.",
  TP+"compiler/function_conversion_context.py:FunctionConversionContext.convert_statement_ast", TP+"compiler/function_stack_state.py:FunctionStackState", TP+"compiler/expression_conversion_context.py:namedVariableLookup")
p("C63", "pmap is a parallel list comprehension",
  "pmap(lst, f, OutT, minGranularity) returns ListOf(OutT)([f(x) for x in lst]) with the elements in order, or raises the exception of the first element of lst for which f raises; every output element is initialised at most once and, if pmap raises, destroyed exactly when it was initialised.",
  "all lists, functions (which may call pmap themselves to any depth), granularities, numbers of worker threads, concurrent callers, and interleavings of the threads",
  "The elements are computed by worker threads in an order no test controls; only a statement over all schedules covers every race.",
  TP+"lib/pmap.py:pmap", TP+"lib/pmap.py:ListJob", TP+"lib/pmap.py:workExecutor")
p("C64", "pmap always returns",
  "Every call of pmap returns or raises after finitely many steps, under every schedule: workers that block in nested calls never wait for each other in a circle, and no job is lost.",
  "all programs calling pmap, nested to any depth, all numbers of workers, all schedules",
  "Deadlock freedom quantifies over all reachable states of all threads.",
  TP+"lib/pmap.py:pmap", TP+"lib/pmap.py:workExecutor", TP+"typed_queue.py:TypedQueue")
p("C65", "A compiled generator yields what the Python generator yields",
  "Calling next on a generator made by a compiled function returns the same values, raises StopIteration with the same argument or raises the same exceptions, call after call, as the Python generator with the same body, with the same effects on shared state in between; a finished generator stays finished.",
  "all bodies made of simple statements, yield, if, while, break, continue, return, raise and try/except/else/finally, all numbers of calls, everything the consumer does between the calls",
  "The body is rewritten so that it can be entered at any of its yields, through any nesting of statements; a test resumes one program at a few of its yields.",
  TP+"compiler/generator_codegen.py:GeneratorCodegen", TP+"generator.py:Generator", TP+"python_ast_analysis.py:countYieldStatements")
p("C66", "for and with in a compiled generator do what they do in Python",
  "In a compiled generator, a for statement takes the items of one iterator in order, across any number of suspensions, runs else exactly when the iterator is exhausted and shares nothing with other loops; a with statement enters its managers in order and leaves each of them exactly once, in reverse order, however the body is left, and an exception swallowed by a manager is gone: every call of next does what it does in Python.",
  "all bodies with for and with nested in any statements, all iterators and managers, all histories of calls, everything the consumer does in between",
  "Both statements are rewritten to hidden variables that live across suspensions; whether two statements share a hidden variable depends on their nesting, and the existing test nests two with statements over one manager, where a mix-up does not show.",
  TP+"compiler/for_loop_codegen.py:rewriteForLoops", TP+"compiler/withblock_codegen.py:expandWithBlockIntoTryCatch", TP+"compiler/generator_codegen.py:GeneratorCodegen.changeStatementInner")

p("C67", "with in a compiled function leaves every manager it entered",
  "A compiled function with with statements enters its managers in order and leaves each manager it entered exactly once, in reverse order, telling it about the exception if there is one, whether the body ends normally, raises, returns, breaks or continues; it ends as the Python function does, in the same state.",
  "all bodies of nested with, if, while and try statements, all managers, all ways to leave a block",
  "A manager left twice or not at all shows only for particular ways to leave particular nestings, and only if the manager keeps count.",
  TP+"compiler/withblock_codegen.py:expandWithBlockIntoTryCatch", TP+"compiler/function_conversion_context.py:FunctionConversionContext.convert_statement_ast")
p("C57", "Loops in compiled functions run as in Python",
  "A compiled function made of assignments, if, while, for, break, continue and return ends as the Python function does, with the same value or exception and the same effects: for visits the items of a list, tuple, string, range or iterator in order, including items added during the loop, else runs exactly when the loop was not left by break, break and continue act on the innermost loop whose body they are in, and what follows a loop runs when the loop is left.",
  "all nestings of these statements, all sequences, tuples and iterators, all ways to leave a loop",
  "Each kind of iterable is converted by a different piece of code, and what follows a loop is left out where the compiler thinks it is unreachable; which code is wrong depends on the shape of the whole loop.",
  TP+"compiler/function_conversion_context.py:FunctionConversionContext.convert_iteration_expression", TP+"compiler/for_loop_codegen.py:rewriteIntiterForLoop", TP+"compiler/type_wrappers/tuple_wrapper.py:TupleWrapper.get_iteration_expressions")
p("C68", "range in compiled code is Python's range",
  "In compiled code, a for loop over range(start, stop, step) visits start, start + step, start + 2*step, ... as long as these are before stop, next on its iterator produces the same items and then raises StopIteration for ever, and len, truth, indexing, in and == of a range speak of these items.",
  "all 64-bit integers start, stop and step",
  "The number of items is computed with wrapping arithmetic; a test samples small ranges, and the values where it goes wrong are the extreme ones.",
  TP+"compiler/type_wrappers/range_wrapper.py:RangeCls", TP+"compiler/type_wrappers/range_wrapper.py:RangeIterator", TP+"compiler/type_wrappers/tuple_wrapper.py:TupleWrapper")
p("C69", "Comprehensions in compiled code make what they make in Python",
  "A list, set or dict comprehension in a compiled function makes the container that the nested for and if blocks, from left to right, would fill, evaluates the leftmost iterable in the enclosing scope, and raises and changes what they would raise and change.",
  "all comprehensions: any number of for and if clauses, any iterables, tests and elements, any contents of the iterables",
  "A comprehension is rewritten to a function; whether the nesting, the order of tests and the scopes survive depends on its shape and on its data, and the existing tests have one for clause.",
  TP+"python_ast.py:evaluateFunctionDefWithLocalsInCells", TP+"compiler/function_conversion_context.py:ComprehensionConversionContextBase", TP+"compiler/type_wrappers/python_typed_function_wrapper.py:PythonTypedFunctionWrapper.convert_comprehension")

p("C70", "The built-in SHA-1 is SHA-1",
  "The digest of a byte string, hashed in one piece or in any number of pieces, is the SHA-1 of FIPS 180-4; the sum of two hashes is the SHA-1 of the one followed by the other, the same in C++ as in Python, and poison if one of them is poison.",
  "all byte strings, all ways to cut them into pieces, all pairs of hashes",
  "A test compares a few messages; the buffering depends on the lengths of all the pieces, the padding on the length of the whole, and the length counter is wrong only for messages no test would hash.",
  TP+"Sha1.cpp:mbedtls_internal_sha1_process", TP+"Sha1.cpp:mbedtls_sha1_update_ret", TP+"Sha1.cpp:mbedtls_sha1_finish_ret", TP+"ShaHash.hpp:ShaHash", TP+"hash.py:Hash")
p("C71", "sha_hash tells values apart",
  "Every value made of None, bools, numbers, strings, bytes and tuples has a sha_hash, equal values have equal hashes, and two different values have the same hash only if SHA-1 itself collides on messages hashed on the way.",
  "all values, nested to any depth, all pairs of them",
  "That no two of infinitely many values share a hash is not testable; which encodings coincide is a question about all pairs of types.",
  TP+"hash.py:sha_hash", TP+"hash.py:Hash.from_integer", TP+"hash.py:Hash.__add__")
p("C72", "identityHash tells constants apart",
  "Two constants (None, bools, integers, strings, bytes, floats, builtin types) have the same identityHash only if they are the same constant of the same type or SHA-1 collides on messages hashed on the way, so that code that differs in a constant is never taken for the same code.",
  "all pairs of constants",
  "A test compares a few pairs; the integers for which the hash drops bits are those beyond 64 bits.",
  TP+"MutuallyRecursiveTypeGroup.cpp:MutuallyRecursiveTypeGroup::shaHashOfSimplePyObjectConstant", TP+"_types.cpp:identityHash", TP+"ShaHash.hpp:ShaHash")

p("C73", "Classes are ordered as in Python",
  "A class statement gives the new class the method resolution order that Python's C3 rule gives it, and fails exactly if Python's rule has none: the class comes first, every class comes before its bases, bases keep the order in which they were written, the order of a class is kept in those of its subclasses, and issubclass holds exactly for the classes in the order.",
  "all histories of class statements, any number of classes and bases",
  "Whether a hierarchy has an order depends on all its classes; a test builds a few diamonds.",
  TP+"HeldClassType.hpp:HeldClass::_computeMroSequence", TP+"HeldClassType.cpp:HeldClass::Make", TP+"internals.py:ClassMetaclass.__new__")
p("C74", "Instances of subclasses are laid out as their superclasses expect",
  "A class has the data members of each of its superclasses, in the same order and before its own, with no name used twice; compiled code that knows an instance only as one of a superclass finds every member where the interpreter keeps it; members overlap neither each other nor the bits that say which are initialized; and a class declared final has no subclasses.",
  "all histories of class statements, all pairs of a class and a superclass, all members of any sizes",
  "The place of a member depends on all bases of all classes above; code compiled against one class runs on instances of classes made later.",
  TP+"HeldClassType.hpp:HeldClass::initializeMRO", TP+"HeldClassType.cpp:HeldClass::Make", TP+"HeldClassType.cpp:HeldClass::updateBytesOfInitBits", TP+"compiler/type_wrappers/class_wrapper.py:ClassWrapper.memberPtr")
p("C75", "What the compiler concludes from two classes is true",
  "Where compiled code decides an isinstance test without looking at the instance, the answer is right for every instance that can get there: it says yes exactly if the one class is a subclass of the other, and no only if no class, existing or defined later, is a subclass of both.",
  "all histories of class statements, before and after the code is compiled",
  "The answer has to hold for classes that do not exist yet.",
  TP+"compiler/type_wrappers/class_wrapper.py:classCouldBeInstanceOf")
p("C76", "Attributes of instances are found as in Python, compiled or not",
  "An attribute of an instance is the one defined by the first class of the method resolution order whose body binds the name, overloads of later classes following those of earlier ones; and compiled code that knows the instance as one of any superclass finds the same attribute as the interpreter.",
  "all histories of class statements, all names, all pairs of a class and a superclass",
  "Six kinds of definitions are kept in separate tables which the interpreter and the compiler search in different orders; a test covers a few combinations.",
  TP+"HeldClassType.hpp:HeldClass::mergeOwnFunctionsIntoInheritanceTree", TP+"PyClassInstance.cpp:PyClassInstance::tpGetattrGeneric", TP+"compiler/type_wrappers/class_wrapper.py:ClassWrapper.convert_attribute")

p("C77", "A method call in compiled code runs the method of the instance's own class",
  "However threads are interleaved that define classes, load compiled modules, compile methods and call them, a call of a method on an instance that the caller knows as one of any superclass runs the function compiled for the instance's own class, that superclass and the types of the call; it never jumps through an empty or moved table; a call whose method compiles is made; and casts to superclasses and back keep the right table.",
  "all interleavings of class statements, loads, compilations and calls of any number of threads, all hierarchies, all chains of casts",
  "The tables are shared, grow while other threads read them, and are copied into classes made later; a test runs a few schedules.",
  TP+"HeldClassType.hpp:ClassDispatchTable", TP+"HeldClassType.hpp:HeldClass::allocateMethodDispatch", TP+"_runtime.cpp:np_compileClassDispatch", TP+"compiler/type_wrappers/class_wrapper.py:ClassWrapper.dispatchToSingleOverload", TP+"compiler/python_to_native_converter.py:PythonToNativeConverter.compileSingleClassDispatch")

p("C78", "The compiler cache survives crashes and concurrent use",
  "However processes that share a compiler cache are interleaved, and wherever they are killed, every module that a process can see in it is complete, as are the modules it was linked with, and these define all the functions it calls; a starting process never fails over what others left behind; what a process loads is loaded once, after everything it needs; what was compiled by a process that is gone is still there; and looking in the cache ends without errors.",
  "all numbers of processes, all interleavings of their steps down to single files, all crash points, all call graphs",
  "A crash between two writes or a rename in another process is not something a test can place; the states of the directory are unbounded.",
  TP+"compiler/native_compiler/compiler_cache.py:CompilerCache.writeModuleToDisk", TP+"compiler/native_compiler/compiler_cache.py:CompilerCache.addModule", TP+"compiler/native_compiler/compiler_cache.py:CompilerCache.loadNameManifestFromStoredModuleByHash", TP+"compiler/native_compiler/compiler_cache.py:CompilerCache.loadModuleByHash")
p("C79", "The compiler cache changes how fast functions are compiled, not whether they work",
  "A function that was compiled before, by any process, is found by processes started later if they can use its module; asking whether a function is defined gives an answer, yes only if it is loaded, and no only if no module with it can be used, and then it can be compiled; a function that is defined can be fetched, is that of a module which defines it, and does not change.",
  "all histories of all processes that share a cache, all call graphs, all changes of what each process can use",
  "What is in the cache depends on everything that ran before, possibly with other versions of the program.",
  TP+"compiler/native_compiler/native_compiler.py:NativeCompiler.isFunctionDefined", TP+"compiler/native_compiler/native_compiler.py:NativeCompiler.functionPointerByName", TP+"compiler/native_compiler/native_compiler.py:NativeCompiler.addFunctions", TP+"compiler/native_compiler/compiler_cache.py:CompilerCache.loadForSymbol", TP+"compiler/native_compiler/compiler_cache.py:CompilerCache.markModuleHashInvalid")

p("C80", "A nested function in compiled code sees the variables around it",
  "In a compiled function, every variable that a nested function, lambda, comprehension or class takes from the enclosing function by Python's rules of scope is kept where the nested code finds it, so that such code compiles; nothing else is; and the variables of a function are those Python makes local to it.",
  "all function bodies: all nestings of functions, lambdas, comprehensions and classes, all parameters and names",
  "Scoping is decided for whole programs of any depth; a test shows one nesting at a time.",
  TP+"compiler/python_ast_analysis.py:computeVariablesReadByClosures", TP+"compiler/python_ast_analysis.py:computeReadVariables", TP+"compiler/python_ast_analysis.py:computeVariablesAssignmentCounts", TP+"compiler/function_conversion_context.py:ConversionContextBase.functionDefToClosurelessFunction")
p("C81", "Code inside a generator uses the generator's variables and no others",
  "When a generator is compiled, every use of one of its variables, at any depth of nested functions, lambdas and comprehensions, refers to the variable kept in the generator object; names that nested code binds itself, and all other names, keep their meaning.",
  "all bodies of generators, all sets of variables, all nestings",
  "The rewriting is recursive over the syntax; a test covers one shape of program.",
  TP+"compiler/generator_codegen.py:GeneratorCodegen._changeInteriorObject")
p("C82", "A local function means the same in compiled code, whatever was executed",
  "A variable holding a local function has, in compiled code, the value Python gives it after the same statements were executed.",
  "all function bodies, all sequences of executed bindings, all arguments",
  "Compiled code assumes that a function defined once has been defined, for all paths through the body.",
  TP+"compiler/function_conversion_context.py:FunctionConversionContext.__init__", TP+"compiler/function_conversion_context.py:ConversionContextBase.localVariableExpression", TP+"compiler/function_conversion_context.py:ConversionContextBase.closurePathToName")
p("C83", "Default values of local functions are those of Python",
  "A call in compiled code of a local function that leaves out an argument passes the value the default had when the function's definition was executed.",
  "all default expressions, all values of local and global variables",
  "The default may be any expression over the variables of the enclosing call.",
  TP+"compiler/function_conversion_context.py:ConversionContextBase.functionDefToClosurelessFunction", TP+"python_ast.py:evaluateFunctionDefWithLocalsInCells", TP+"compiler/expression_conversion_context.py:ExpressionConversionContext.computeFunctionArgumentMapping")

p("C84", "Generated code does what its native expressions say",
  "Code generated for a compiled function runs the calls of the function in the order its native expressions say, whatever throws and wherever it returns: every handler, cleanup and teardown runs exactly where it should, a jump out of nested cleanups reaches the block it names after running them all, and generating the code never fails an assertion.",
  "all nestings of branches, loops, try/catch, propagators, cleanups and returns to named blocks; all choices of which calls throw and which tests hold",
  "Every combination of nested control flow with every way to leave it is a different piece of generated code.",
  TP+"compiler/native_compiler/native_ast_to_llvm_function_converter.py:TeardownHandler", TP+"compiler/native_compiler/native_ast_to_llvm_function_converter.py:FunctionConverter.convert", TP+"compiler/native_compiler/native_ast.py:Expression", TP+"compiler/expression_conversion_context.py:ExpressionConversionContext")
p("C85", "Temporaries of compiled code are destroyed exactly once",
  "Every temporary value that a compiled function makes is destroyed exactly once before the function ends, on every path: normal, exceptional, by return, break or continue; none is destroyed that was not made.",
  "all bodies built from the compiler's contexts, all executions",
  "A leak or double free may need one particular call to throw inside one particular nesting.",
  TP+"compiler/expression_conversion_context.py:ExpressionConversionContext.push", TP+"compiler/expression_conversion_context.py:ExpressionConversionContext.allocateUninitializedSlot", TP+"compiler/expression_conversion_context.py:ExpressionConversionContext.markUninitializedSlotInitialized", TP+"compiler/expression_conversion_context.py:ExpressionConversionContext.finalize")
p("C86", "Variables bound by except clauses, and operands of chained comparisons, are destroyed once and not used afterwards",
  "In compiled code the exception that `except T as x` binds is destroyed exactly once when the handler ends, however it ends and whatever x held before; operands of a chained comparison are evaluated once and live until they are compared.",
  "all bodies and handlers, all nestings, all lengths of chains, all executions",
  "A double free does not show in most runs.",
  TP+"compiler/function_conversion_context.py:FunctionConversionContext.convert_statement_ast", TP+"compiler/function_conversion_context.py:FunctionConversionContext.assignToLocalVariable", TP+"compiler/expression_conversion_context.py:ExpressionConversionContext.convert_expression_ast")

p("C87", "any, all, min and max in compiled code are Python's",
  "any, all, min and max give in compiled code the result, or the exception, they give in Python; they look at the same elements, call the key once for each and make the same comparisons in the same order; ties go to the first; nothing leaks.",
  "all sequences of any elements; all truth values, keys and comparisons, with any effects and exceptions",
  "A test has a few sequences; the ones that tell any from all were not among them.",
  TP+"compiler/type_wrappers/all_any_wrapper.py:AnyWrapper", TP+"compiler/type_wrappers/min_max_wrapper.py:MinMaxWrapper.convert_call", TP+"compiler/type_wrappers/min_max_wrapper.py:i_min_key")
p("C88", "Slices of a TupleOf in compiled code are Python's",
  "A slice of a TupleOf in compiled code has the elements of the same slice in Python, for every start, stop and step.",
  "all tuples, all starts, stops and steps",
  "Empty results and empty tuples take other representations.",
  TP+"compiler/type_wrappers/tuple_of_wrapper.py:list_or_tupleof_of_slice", TP+"compiler/type_wrappers/tuple_of_wrapper.py:PreReservedTupleOrList")

p("C89", "Set methods in compiled code compute set algebra",
  "Membership, add, discard, remove, pop, clear, copies, unions, intersections, differences, symmetric differences, the updating forms of these, subset, superset and disjointness tests and the six comparisons of Set(T) give in compiled code the answers of mathematical set algebra, also for sets changed by the interpreter in between, with sets or other iterables as arguments, and with the set itself as argument.",
  "all programs of compiled and interpreted calls on any number of Set objects; all element types with a lawful hash and equality",
  "The operators choose among algorithms by the sizes of the sets, and loop over a set that may be the one they change; tests use distinct sets.",
  TP+"compiler/type_wrappers/set_wrapper.py:set_union", TP+"compiler/type_wrappers/set_wrapper.py:set_symmetric_difference_update", TP+"compiler/type_wrappers/set_wrapper.py:SetWrapper.convert_method_call", TP+"compiler/type_wrappers/set_wrapper.py:SetIterator", TP+"compiler/type_wrappers/hash_table_implementation.py:set_add_or_remove")

p("C90", "Types are grouped with exactly the types they are mutually recursive with",
  "Asking for the recursive group of a type or object never raises an internal error and always finishes; afterwards everything it refers to, directly or not, has a group, two of these have the same group exactly when each refers to the other, each has one index in its group, and a group once given never changes - also when several threads ask for overlapping types at the same time.",
  "all graphs of objects and types; all numbers of threads, calls and schedules of their steps; bounds on the number of steps for all finite graphs",
  "The search merges groups on a stack while other threads may register the same objects between two steps; tests use small graphs and one thread.",
  TP+"MutuallyRecursiveTypeGroup.cpp:MutuallyRecursiveTypeGroup::ensureRecursiveTypeGroup", TP+"MutuallyRecursiveTypeGroup.cpp:MutuallyRecursiveTypeGroupSearch", TP+"MutuallyRecursiveTypeGroup.cpp:MutuallyRecursiveTypeGroup::buildCompilerRecursiveGroup")

p("C91", "Identity hashes are the same in every process",
  "The identity hash of a type, function or object is the same in all processes in which it looks the same to the compiler: it does not depend on memory addresses, on which types were hashed before, on the order of those calls or on the schedule of threads.",
  "all graphs of objects and types; all placements of objects in memory; all histories and schedules of calls in both processes",
  "The objects of a group are kept in a set ordered by address and the root is chosen from maps filled in that order; a test runs in one memory layout.",
  TP+"MutuallyRecursiveTypeGroup.cpp:MutuallyRecursiveTypeGroup::computeRoot", TP+"MutuallyRecursiveTypeGroup.cpp:MutuallyRecursiveTypeGroup::computeHash", TP+"MutuallyRecursiveTypeGroup.cpp:MutuallyRecursiveTypeGroup::shaHash", TP+"Type.hpp:Type::identityHash")

p("C92", "Types with the same identity hash are interchangeable",
  "Two types or functions have the same identity hash only if the compiler cannot tell them apart: following what they refer to, to any depth, finds the same things. The runtime treats two types as equivalent only in that case.",
  "all graphs of objects and types, in one process or in two; all histories and schedules; any hash function without collisions",
  "It is a statement about all pairs of types; tests compare a few, and the interesting ones are infinite as trees.",
  TP+"MutuallyRecursiveTypeGroup.cpp:MutuallyRecursiveTypeGroup::computeTopoHash", TP+"CompilerVisibleObjectVisitor.hpp:CompilerVisibleObjectVisitor::walk", TP+"Type.hpp:Type::typesEquivalent")

p("C93", "A more permissive conversion never changes the result of a stricter one",
  "If a Python value converts to a type at some conversion level, then at every more permissive level it converts too, and to the same value. So whether a value arrives through an assignment, an argument or an explicit call of the type, wherever two of these accept it they store the same.",
  "all types built from None, numbers, str, bytes, constants, TupleOf, ListOf, Tuple, NamedTuple and OneOf, to any depth; all Python values; all pairs of levels",
  "Each type has its own rules for the level of its parts; a test fixes a type, a value and two levels.",
  TP+"PyInstance.cpp:PyInstance::copyConstructFromPythonInstance", TP+"ConversionLevel.hpp:ConversionLevel", TP+"PyTupleOrListOfInstance.cpp:PyTupleOrListOfInstance::copyConstructFromPythonInstanceConcrete", TP+"PyCompositeTypeInstance.cpp:PyCompositeTypeInstance::copyConstructFromPythonInstanceConcrete", TP+"PyOneOfInstance.hpp:PyOneOfInstance")

p("C94", "OneOf takes the first alternative that accepts a value with the least conversion",
  "A value stored in a OneOf becomes the alternative that accepts it at the least conversion level, the first such in the order they were given. Whether a value is accepted depends neither on the order nor on the nesting of alternatives. A OneOf has each alternative once, those of nested OneOfs in their place, and its default is that of the first alternative that has one.",
  "all lists of alternatives, nested to any depth; all Python values; all levels",
  "The quick test that skips alternatives must never skip one that would have accepted; it is a statement about all values and types.",
  TP+"PyOneOfInstance.hpp:PyOneOfInstance", TP+"PyInstance.cpp:PyInstance::pyValCouldBeOfType", TP+"OneOfType.cpp:OneOfType::Make", TP+"OneOfType.cpp:OneOfType::constructor")

p("C95", "Values keep their type in a OneOf, and what is read from a variable can be stored back",
  "A value whose type is one of the alternatives of a OneOf is stored as that type. A value read from typed storage and converted to the type of the storage, at any level, is stored as it was and reads the same.",
  "all types and all values of them, choices with constants included; all levels",
  "Constants, booleans, integers and floats overlap under Python equality; tests try a few combinations.",
  TP+"PyOneOfInstance.hpp:PyOneOfInstance", TP+"PyValueInstance.hpp:PyValueInstance", TP+"PyRegisterTypeInstance.hpp:PyRegisterTypeInstance::compare_to_python_concrete", TP+"PyInstance.cpp:PyInstance::extractPythonObject")

p("C96", "Upcasting keeps the content of a value",
  "A conversion at the levels up to UpcastContainers stores what it was given: numbers with their value, text and bytes unchanged, sequences item by item in order, dictionaries and named tuples part by part with the default for what is missing, nothing dropped.",
  "all types, nested to any depth; all Python values; all levels up to UpcastContainers",
  "Widths, signs and nesting multiply; tests try boundary values of a few pairs.",
  TP+"RegisterTypes.hpp:isValidUpcast", TP+"PyRegisterTypeInstance.hpp:PyRegisterTypeInstance::copyConstructFromPythonInstanceConcrete", TP+"PyCompositeTypeInstance.cpp:PyNamedTupleInstance::constructFromPythonArgumentsConcreteWithLevel")

p("C97", "What a conversion stores is a value of its type",
  "Whatever is converted, at whatever level, the storage then holds a value of the type: every number in the range of its machine type, every item, field and alternative a value of its own type, and every missing field a default of its type.",
  "all types, nested to any depth; all Python values; all levels",
  "Storage is raw memory that the compiled code trusts; a test sees one conversion.",
  TP+"PyInstance.cpp:PyInstance::copyConstructFromPythonInstance", TP+"PyTupleOrListOfInstance.cpp:PyTupleOrListOfInstance::copyConstructFromPythonInstanceConcrete", TP+"CompositeType.cpp:CompositeType::constructor")

p("C98", "Comparing values of a type is the lexicographic order of their contents",
  "The six comparison operators between two values of one type without NaN agree with one total order: None and text as in Python, numbers by value, sequences and tuples lexicographically with a proper prefix first, OneOfs by alternative first, Alternatives by case first and then by fields. Exactly one of <, == and > holds, <= is < or ==, != is not ==, < is transitive, and equal values cannot be told apart by comparing them with others.",
  "all types built from None, numbers, floats, str, bytes, TupleOf, ListOf, Tuple, NamedTuple, OneOf and Alternative, recursive ones included; all pairs and triples of values",
  "The operators are separate code paths with early exits per type; that they fit together is a statement about all pairs and triples of nested values.",
  TP+"Type.cpp:Type::cmp", TP+"CompositeType.cpp:CompositeType::cmp", TP+"TupleOrListOfType.cpp:TupleOrListOfType::cmp", TP+"OneOfType.cpp:OneOfType::cmp", TP+"AlternativeType.cpp:Alternative::cmp", TP+"RegisterTypes.hpp:RegisterType::cmp")

p("C99", "Equal values have equal hashes",
  "Two values of one type that compare equal have the same hash, so either finds the other in a Dict or Set; and the hash given to Python is never -1, which Python takes for an error.",
  "all types as in C98; all pairs of values without NaN",
  "0.0 and -0.0, cached hashes and nested choices must all agree; a test tries a few pairs.",
  TP+"HashAccumulator.hpp:HashAccumulator", TP+"TupleOrListOfType.cpp:TupleOrListOfType::hash", TP+"CompositeType.cpp:CompositeType::hash", TP+"OneOfType.cpp:OneOfType::hash", TP+"AlternativeType.cpp:Alternative::hash", TP+"PyInstance.cpp:PyInstance::tp_hash")

p("C100", "Compiled code compares and hashes values as the interpreter does",
  "For two values of one type, each comparison operator in a compiled function gives what the interpreter gives, and hash() gives the same number; so a Dict or Set filled by one is searched correctly by the other.",
  "all types as in C98; all pairs of values and all operators",
  "There are two implementations, C++ and generated code, per type; agreement is a statement about all nested values.",
  TP+"compiler/type_wrappers/tuple_of_wrapper.py:tuple_compare_eq", TP+"compiler/type_wrappers/tuple_wrapper.py:TupleWrapper", TP+"compiler/type_wrappers/one_of_wrapper.py:OneOfWrapper", TP+"compiler/type_wrappers/hash_wrapper.py:HashWrapper", TP+"compiler/native_ast_to_llvm_function_converter.py:FunctionConverter")

p("C101", "Searching in compiled bytes finds what Python finds",
  "In a compiled function, find and rfind of a bytes object give the least and greatest place within the bounds where the bytes sought stand, or -1; index and rindex raise ValueError exactly where these give -1; count gives the number of occurrences one finds going from left to right without overlap; `in` says whether there is an occurrence; startswith and endswith compare with the ends of the slice; indexing and slicing treat negative and large bounds as Python does; partition and rpartition cut at the first and last occurrence.",
  "all bytes objects, all sought bytes, all bounds, negative ones included",
  "Bounds, empty needles, overlaps and negative indices multiply; a test tries a few.",
  TP+"compiler/type_wrappers/bytes_wrapper.py:bytes_find", TP+"compiler/type_wrappers/bytes_wrapper.py:bytes_rfind", TP+"compiler/type_wrappers/bytes_wrapper.py:bytes_count", TP+"compiler/type_wrappers/bytes_wrapper.py:bytes_index", TP+"compiler/type_wrappers/bytes_wrapper.py:bytes_startswith_range", TP+"compiler/type_wrappers/bytes_wrapper.py:bytes_endswith_range", TP+"compiler/type_wrappers/bytes_wrapper.py:bytes_partition", TP+"compiler/type_wrappers/bytes_wrapper.py:bytes_rpartition")

p("C102", "Compiled bytes split and join as Python's",
  "split and rsplit cut at the separator from the left and from the right, at most maxsplit times, or into words between ASCII white space; splitlines cuts at line ends; join puts the separator between the parts; joining what split gives with the same separator restores the bytes; an empty separator raises ValueError.",
  "all bytes objects, separators and limits",
  "The limits, adjacent separators and ends interact; tests try a few inputs.",
  TP+"BytesType.cpp:BytesType::split", TP+"BytesType.cpp:BytesType::rsplit", TP+"BytesType.cpp:BytesType::splitlines", TP+"BytesType.cpp:BytesType::join")

p("C103", "The other methods of compiled bytes do what Python's do",
  "isalnum, isalpha, isdigit, islower, isspace, istitle and isupper, upper, lower, capitalize, swapcase and title, strip, lstrip and rstrip with and without an argument, +, *, ljust, rjust, center, zfill, expandtabs, replace, translate and maketrans give in a compiled function what they give in Python.",
  "all bytes objects and all arguments",
  "Each method has its own loop over bytes of any length; tests try short inputs.",
  TP+"BytesType.cpp:BytesType::title", TP+"BytesType.cpp:BytesType::lower", TP+"BytesType.cpp:BytesType::strip", TP+"BytesType.cpp:BytesType::concatenate", TP+"BytesType.cpp:BytesType::mult", TP+"BytesType.cpp:BytesType::replace", TP+"BytesType.cpp:BytesType::translate", TP+"BytesType.cpp:BytesType::maketrans", TP+"compiler/type_wrappers/bytes_wrapper.py:bytes_center", TP+"compiler/type_wrappers/bytes_wrapper.py:bytes_isalnum", TP+"compiler/type_wrappers/bytes_wrapper.py:bytes_istitle", TP+"compiler/type_wrappers/bytes_wrapper.py:bytes_expandtabs", TP+"compiler/type_wrappers/bytes_wrapper.py:bytes_zfill")

p("C104", "Bytes objects are compared and hashed by their bytes",
  "The comparison operators between bytes objects, in compiled code, in the interpreter and inside containers, are those of the lexicographic order of the bytes, however the objects were made; equal bytes have equal hashes, and so are the same key of a Dict.",
  "all pairs of bytes objects, whatever operation made them",
  "An empty result can be represented in two ways, and every operation chooses one of them.",
  TP+"BytesType.cpp:BytesType::cmp", TP+"BytesType.cpp:BytesType::cmpStatic", TP+"BytesType.cpp:BytesType::hash", TP+"PyBytesInstance.hpp:PyBytesInstance", TP+"compiler/type_wrappers/bytes_wrapper.py:BytesWrapper")

p("C105", "float(text), float(bytes) and int(bytes) read what Python reads",
  "In a compiled function, float() of a string or bytes object and int() of a bytes object succeed exactly on the texts Python accepts: a number with optional sign, point, exponent and single underscores between digits, or inf, infinity or nan in any case, with white space around; the result is the number the whole text stands for, and anything else raises ValueError.",
  "all strings and bytes objects of any length",
  "The language is infinite and the reader is a state machine with fourteen states; tests try a handful of literals.",
  TP+"StringType.cpp:StringType::to_float64", TP+"BytesType.cpp:BytesType::to_float64", TP+"BytesType.cpp:BytesType::to_int64", TP+"_runtime.cpp:np_str_to_float64")

p("C106", "Rows and diagonals share a matrix, everything else is a copy",
  "After any sequence of operations of the array package, m[i] and m.diagonal() show the entries of m and writing one of their elements changes exactly that entry of m and what other windows show of it; clones, transposes, flattened matrices and new matrices show the entries they were made of and never change when the original does; indices outside the shape raise.",
  "all sequences of operations on arrays and matrices of any shape and element type",
  "Windows over one list with offset and strides interact through every operation; tests look at a few small shapes.",
  TP+"array/array.py:Array_", TP+"array/array.py:Matrix_")

p("C107", "Arithmetic on arrays and matrices is element by element",
  "a op b, a op= b and the functions of one argument give at each index the operation of the elements at that index, for every kind of array (whole, row of a matrix or of a transposed matrix, diagonal) and matrix, also when the operands share elements; operands of different shape are refused before anything changes, and nothing else changes.",
  "all reachable arrays and matrices, all shapes, all element operations including those that raise",
  "Strides and sharing multiply the cases; a loop that overtakes the data it reads fails for particular layouts only.",
  TP+"array/array.py:Array_._inplaceBinop", TP+"array/array.py:Matrix_._inplaceBinop", TP+"array/fortran.py:axpy")

p("C108", "Products and inverses hand the library the right matrices",
  "m @ o, m @ a, a @ m and a @ b have as entries the sums of products of rows and columns, ~m is the inverse the library computes of m or NaN when it reports none, whatever the layout of the operands; shapes that do not fit are refused, and the operands do not change.",
  "all reachable arrays and matrices of any shape and layout",
  "The library stores matrices by columns and the package by rows, possibly transposed; each combination of layout and shape is a different call.",
  TP+"array/array.py:Matrix_.__matmul__", TP+"array/array.py:Matrix_.__rmatmul__", TP+"array/array.py:Matrix_.__invert__", TP+"array/fortran.py:gemm", TP+"array/fortran.py:gemv")

p("C109", "What the compiler says in advance about a conversion is what happens",
  "When compiled code passes, returns or stores a value of one declared type where another is declared, the compiler decides beforehand that the conversion succeeds, fails or may fail. If it says that it succeeds, it does for every value; if it says that it fails, the interpreter refuses every value of that type too; and whenever compiled code reports success, a value of the target type has been stored.",
  "all pairs of types built of None, numbers, text, bytes, constants, TupleOf, ListOf, Tuple, NamedTuple and OneOf, nested to any depth, all values, all implicit conversion levels",
  "Types nest without bound and each wrapper has its own rules at each level; the generated code skips the check exactly where the compiler was sure, so a wrong promise is memory that was never initialised.",
  TP+"compiler/type_wrappers/wrapper.py:can_convert_to_type", TP+"compiler/type_wrappers/wrapper.py:convert_to_type_with_target", TP+"compiler/type_wrappers/one_of_wrapper.py:convert_to_self_with_target", TP+"compiler/type_wrappers/tuple_of_wrapper.py:convert_to_self_with_target", TP+"compiler/type_wrappers/tuple_wrapper.py:convert_to_self_with_target")

p("C110", "Implicit conversions in compiled code give what they give in the interpreter",
  "A value converted implicitly to a declared type in compiled code becomes the same value, with the same alternative chosen in every OneOf, as the interpreter makes of it at the same conversion level, and is refused when the interpreter refuses it.",
  "all pairs of types built of None, numbers, text, bytes, constants, TupleOf, ListOf, Tuple, NamedTuple and OneOf, nested to any depth, all values, all implicit conversion levels",
  "Two independent implementations, in Python and in C++, have to agree on infinitely many pairs of types at five levels; tests compare a few pairs.",
  TP+"compiler/type_wrappers/wrapper.py:convert_to_type", TP+"PyInstance.hpp:copyConstructFromPythonInstanceConcrete", TP+"PyOneOfInstance.hpp", TP+"compiler/type_wrappers/arithmetic_wrapper.py:convert_to_type_with_target")

p("C111", "Whatever bytes are deserialized, the result is a value of the type or an exception",
  "Deserializing bytes that were damaged, cut off or made up ends, and either raises an exception or returns a value of the type: numbers in range, as many fields as the type has, a choice the type offers, and references to objects that have the type they are used at. It never reads or writes outside its memory.",
  "all byte strings, all types of the serialization grammar, recursive ones included",
  "There is no list of all ways to damage a message; counts, tags, references and lengths in it are all chosen by whoever wrote it, and each reader trusts different ones.",
  TP+"DeserializationBuffer.hpp:consumeCompoundMessage", TP+"DeserializationBuffer.hpp:lookupCachedPointer", TP+"TupleOrListOfType.hpp:deserialize", TP+"ConstDictType.hpp:deserialize", TP+"DictType.hpp:deserialize", TP+"SetType.hpp:deserialize", TP+"CompositeType.hpp:deserialize", TP+"StringType.hpp:deserialize")

p("C112", "A value written by one version of a program is read by another whose types gained or lost fields at the end",
  "Serialize with one version of a program, deserialize with another in which tuples and named tuples have fields added or dropped at the end, and OneOf and Alternative have cases added at the end, at any depth. The fields both versions know keep their values, fields the reader does not know are discarded whatever they contain, and fields the message does not have take their default values; nothing else of the stream is read.",
  "all pairs of versions of all types, all values, whatever stands behind the message in the stream",
  "A test reads the handful of old files it has; which fields will be added, what their types contain, and which objects are shared between a field that is dropped and one that is kept is only known in the future.",
  TP+"CompositeType.hpp:deserialize", TP+"CompositeType.cpp:m_serialize_typecodes_to_position", TP+"DeserializationBuffer.hpp:finishReadingMessageAndDiscard", TP+"OneOfType.hpp:deserialize", TP+"TupleOrListOfType.hpp:serialize")

p("C113", "Comparing a typed value with a plain Python object answers what Python answers for the same contents",
  "Compare a typed number, text, bytes object, constant, OneOf, ListOf, TupleOf, Tuple or NamedTuple with a plain Python object, on either side of any of the six operators. The answer is the one Python gives when the typed value is replaced by the plain object with the same contents, and an error is raised exactly where Python raises one.",
  "all types, all their values, all plain Python objects, all six operators, either order of the operands",
  "Tests compare a few small numbers and short texts; whether equality and order are right for texts of different lengths and widths, large numbers, NaN and objects of other kinds, nested at any depth, takes all pairs of values.",
  TP+"PyInstance.cpp:compare_to_python", TP+"PyRegisterTypeInstance.hpp:pyCompare", TP+"PyStringInstance.hpp:compare_to_python_concrete", TP+"PyBytesInstance.hpp:compare_to_python_concrete", TP+"PyTupleOrListOfInstance.cpp:compare_to_python_concrete", TP+"PyCompositeTypeInstance.cpp:compare_to_python_concrete", TP+"util.hpp:cmpResultToBoolForPyOrdering")

p("C114", "A type function runs once for its arguments and afterwards always gives the same type",
  "Call functions decorated as type functions in any order, letting them call each other and themselves. For equal arguments the function's body is run at most once; every later call gives the same type object, or raises the same exception, without running it. A call made while the same call is under way gives a forward type which becomes the result. When all is done no type mentions a forward without a definition, and asking which call made a type and making that call again gives the type. The order of keyword arguments and of the items of a dictionary argument makes no difference.",
  "all functions and all ways they call each other, all programs calling them, all arguments",
  "Tests call a few functions in one order; whether the memo stays right when functions call each other in circles, fail half way or are called in another order takes all programs.",
  TP+"type_function.py:_buildTypeFunction", TP+"type_function.py:isTypeFunctionType", TP+"type_function.py:reconstructTypeFunctionType", TP+"ForwardType.hpp:define")

p("C115", "A function's source survives being made a typed tree and back",
  "Take the syntax tree of any Python program, make the typed tree of it that the compiler, the identity hash and serialization work on, and turn that back into a syntax tree. The result is the same program: the same nodes, names, constants and places, but for comments for type checkers; it is a tree that Python compiles, and doing it again changes nothing. With places left out, two programs have the same typed tree just when they differ in nothing but their places and file names.",
  "all syntax trees of Python 3.7 to 3.10 of any size and depth, all file names",
  "Tests convert a few functions in the one version of Python they run in; a program nobody wrote yet, an operand in an unusual position or another version needs all trees.",
  TP+"python_ast.py:convertPyAstToAlgebraic", TP+"python_ast.py:convertAlgebraicToPyAst_", TP+"python_ast.py:convertAlgebraicToSlice", TP+"python_ast.py:convertFunctionToAlgebraicPyAst", TP+"python_ast.py:converters")

p("C116", "The source that is found for a function is its source",
  "When the compiler, the identity hash or serialization asks for the source of a function, what it gets is the source the function was made from, and after that it can also get the source of every function, class body, lambda and comprehension inside it, at any depth, each its own. Among several lambdas on a line the function's own is taken, or there is an error.",
  "all programs of any size and depth, all orders in which sources are asked for, all sets of functions on a line",
  "Tests ask for a few functions written for them; which function gets which source depends on the order in which Python compiles each form of expression, and a wrong match shows in no error.",
  TP+"python_ast.py:cacheAstForCode", TP+"python_ast.py:replaceFirstComprehensionArg", TP+"python_ast.py:stripDecoratorFromFuncDef", TP+"compiler/python_ast_analysis.py:extractFunctionDefsInOrder", TP+"compiler/python_ast_util.py:pyAstForCode", TP+"compiler/python_ast_util.py:isPossibleAstFor")

p("C117", "A Dict or ConstDict compared with a plain dict answers what Python answers",
  "Comparing a Dict or a ConstDict with a Python object answers what Python answers for the plain dictionary with the same contents: equal exactly if the object is a dictionary with as many entries, and each key has an equal key with an equal value; ordering them is an error. The same with the plain dictionary on the left.",
  "all dictionaries of any size, all value types, all plain dictionaries with keys and values of any kind, both orders of the operands, all six operators",
  "Tests compare a few dictionaries with the same keys in both; the answer depends on what each key of the other side becomes when it is converted, over an unlimited range of objects.",
  TP+"PyDictInstance.cpp:compare_to_python_concrete", TP+"PyConstDictInstance.cpp:compare_to_python_concrete", TP+"PyInstance.cpp:compare_to_python", TP+"RegisterTypes.hpp:isValidConversion")

p("C118", "What an overriding method returns has the type that the overridden methods promise",
  "If a method states a result type and the methods it overrides state theirs for the same arguments, then either every result of the call has all these types, or the call raises an exception that says the return types conflict. The result type is the nearest that is stated, and there is no exception when each stated type is a narrower one than those above it.",
  "all class hierarchies and orders of base classes, all lists of overloads, all arguments, all stated result types among classes, values, class objects and unions of them",
  "Tests have one base class with one overload and one pair of types; which promise applies depends on which overload of each class above matches first, over hierarchies of any depth and unions of any size.",
  TP+"PyFunctionInstance.cpp:determineReturnTypeForMatchedCall", TP+"Type.cpp:canConvertToTrivially")

p("C119", "The result type the compiler expects for a method call is the one the interpreter enforces",
  "The type the compiler gives to the result of a method call covers the type the interpreter would convert the result to for each set of arguments that is possible there; the compiler expects an exception only where the interpreter raises one, and expects nothing only where no class states a type.",
  "all class hierarchies, all lists of overloads, all decided and undecided matches of argument types, all arguments",
  "Tests compile a few hierarchies in which every overload states its type; the pathways multiply with the overloads that may match, and the tests have to pick the arguments.",
  TP+"compiler/type_wrappers/function_signature_calculator.py:FunctionSignatureCalculator", TP+"compiler/type_wrappers/python_typed_function_wrapper.py:convert_call", TP+"PyFunctionInstance.cpp:determineReturnTypeForMatchedCall")

p("C120", "Pointers into a list are pointers as in C",
  "For pointers into an array of elements, p + n points n elements further, p - q is the number of elements between them with its sign, comparisons follow the positions, p[n] = v changes that element and nothing else, p.x points to the member x of the element, and a pointer is false only if it is null; all this in compiled code and in the interpreter alike.",
  "all arrays of any length and element size anywhere in memory, all positions, all indices in both directions, all memory contents",
  "Tests add one and subtract a pointer that is in front; signs, sizes and the overlap of elements are statements about all addresses.",
  TP+"PyPointerToInstance.cpp:pyOperatorConcrete", TP+"PointerToType.hpp:offsetBy", TP+"compiler/type_wrappers/pointer_to_wrapper.py:PointerToWrapper")

p("C121", "A frozen module of types has everything defined",
  "Reading a member of a Module before it is defined gives a forward, which the later assignment to this member defines. A member that is a type keeps it. freeze succeeds only if all members are types and every forward that the module gave out is defined; after that nothing can be assigned and members keep their types.",
  "all histories of reading, assigning, defining classes and freezing, with members of any names in any order, failing steps included",
  "Tests define two classes in one order; that no order leaves an undefined forward in a frozen module is a statement about all histories.",
  TP+"module.py:Module", TP+"ForwardType.hpp:define")

p("C122", "An instantiated codebase is on the disk and can be imported",
  "Instantiating a codebase writes exactly its files, with their contents, below its directory and nothing elsewhere; its modules are those its files define, and its root modules are found in its directory from then on, whatever is instantiated later. Installed codebases have no root module in common, the same files are instantiated once, and reading a directory and instantiating it elsewhere gives the same Python files.",
  "all file maps and directory trees of any depth and size, all disks, all histories of making and instantiating codebases",
  "Tests instantiate one codebase of three files; paths, clashes of names and orders of instantiation are unlimited.",
  TP+"Codebase.py:Codebase")

p("C123", "super() finds the method that Python finds",
  "In a method, super().f is the f of the first class after the method's class, in the order of the classes of the instance, whose body defines f, and it is the same one in the interpreter and in compiled code.",
  "all hierarchies of classes that any sequence of class statements makes, all classes in them, all method names",
  "Tests call super() in one chain and in one diamond in which every class defines the method; hierarchies are unlimited.",
  TP+"compiler/type_wrappers/super_wrapper.py:SuperWrapper.convert_call", TP+"compiler/type_wrappers/super_wrapper.py:SuperInstanceWrapper.convert_attribute", TP+"PyClassInstance.cpp:mirrorTypeInformationIntoPyTypeConcrete")

p("C124", "A macro gives what its source text defines, and its source text stays available",
  "A call of a macro gives exactly the value that the returned name has after its lines have been executed in the globals of its function, hidden by the returned namespace; anything that does not have the documented format is refused. No call fails because of another call, and the compiler finds the lines of every call under its own file name ever after. A name that is missing is named in the error.",
  "all macros, all histories of calls of macros and of reading files, all source texts and namespaces, all programs",
  "Tests call a few macros once or twice; histories, places and texts are unlimited.",
  TP+"macro.py:ConcreteMacro.__call__", TP+"macro.py:checkFormat", TP+"compiler/python_ast_util.py:getLines")

p("C125", "An iterator gives each item once and stays at the end",
  "In compiled code an iterator over a list, a tuple, a string or bytes gives the items one after another, each once, and then the end for ever, as in Python, also if a list changes in between; and a loop over an iterator goes on where it stands.",
  "all sequences, all numbers of calls, all changes of a list between the calls, all positions",
  "Tests loop over sequences but hardly over iterators; sequences of changes and calls are unlimited.",
  TP+"compiler/type_wrappers/tuple_of_wrapper.py:TupleOrListOfIterator", TP+"compiler/type_wrappers/string_wrapper.py:StringIterator", TP+"compiler/type_wrappers/bytes_wrapper.py:BytesIterator", TP+"compiler/for_loop_codegen.py:rewriteIntiterForLoop")

p("C126", "The raw bytes of a list give the list again",
  "toBytes gives the bytes of the elements of a ListOf or TupleOf in their order, and fromBytes of these bytes gives a list or tuple with the same elements, in the interpreter and in compiled code; bytes that do not make up whole elements, elements that are not plain memory, and things that are not bytes are refused.",
  "all element sizes, all lists and tuples of any length, all byte strings",
  "Tests convert one list of integers; sizes and lengths are unlimited.",
  TP+"PyTupleOrListOfInstance.cpp:toBytes", TP+"PyTupleOrListOfInstance.cpp:fromBytes", TP+"_runtime.cpp:tp_list_or_tuple_of_to_bytes", TP+"_runtime.cpp:tp_list_or_tuple_of_from_bytes")

p("C127", "A typed cell holds the value that was set last",
  "Reading a TypedCell gives the value that was set last, or an error if none was set since it was made or last cleared, and isSet says which; setting a value that cannot be converted changes nothing; this is the same for every mixture of interpreted and compiled operations, and == and != say whether two cells are the same cell.",
  "all histories of set, clear, get and isSet of any length, in the interpreter, in compiled code and mixed, for plain and other element types",
  "Tests set and read a cell a few times in one of the two ways; histories are unlimited.",
  TP+"TypedCellType.hpp:TypedCellType", TP+"PyTypedCellInstance.hpp:PyTypedCellInstance", TP+"compiler/type_wrappers/typed_cell_wrapper.py:cell_clear")

p("C128", "A held object taken from a container is a reference during its statement and a copy afterwards",
  "What an expression takes out of a list or an instance that holds objects in place refers to the container until its statement ends, so that changes reach the container; when the next statement begins, an exception arrives or the frame is left it becomes a copy that nothing else changes; the container stays alive meanwhile, and a debugger's trace function is given the same events as without such references.",
  "all histories of taking, changing, statements, calls, exceptions, returns and sys.settrace, in any frames and threads",
  "Tests take one object in a function with one statement on each line and no debugger; histories and layouts of code are unlimited.",
  TP+"PyTemporaryReferenceTracer.cpp:globalTraceFun", TP+"PyInstance.cpp:extractPythonObject", TP+"internals.py:extractCodeObjectNewStatementLineNumbers")

p("C129", "Compiled code gives up the interpreter lock and has it whenever it uses Python",
  "While compiled code runs, other Python threads can have the interpreter lock; whenever code uses Python objects, its thread has the lock, and no other thread uses Python at that time; the process never ends itself with an internal error, and a thread that wants to go back to Python can get the lock.",
  "all schedules of any number of threads, with the helper thread on or off at any time, and scopes nested in any way and to any depth",
  "Tests run two threads with one schedule each; a missing lock shows only in rare schedules.",
  TP+"PyGilState.cpp:ReleaseableThreadState", TP+"PyGilState.cpp:gilReleaseThreadLoop", TP+"PyGilState.hpp:PyEnsureGilReleased")

p("C130", "A range of dates has the dates from the start up to the end",
  "daterange gives the dates after 0, stepSize, 2 stepSize ... days, weeks, months or years from the start, which it has, up to the end, which it does not have; in months that are too short it takes the last day without shortening later months; reversed gives them in reverse; it always ends.",
  "all existing dates from year 0 on, all step sizes, all kinds of steps, both directions",
  "Tests try a few ranges; the calendar and the step sizes are unlimited.",
  TP+"lib/datetime/date_time_util.py:daterange")

p("C131", "Class values in compiled code are compared and converted by their actual class",
  "In compiled code with a class held as a SubclassOf(C), issubclass with a known class or with another class value is true exactly if the class held is a subclass; it converts to SubclassOf(D) exactly if it is a subclass of D, and stays the same class; it converts to the type D only if it is D; its class members are those of the class held; also for classes made after the code was compiled.",
  "all hierarchies of classes, all classes made after compilation, all static and actual classes",
  "Tests use a few classes; hierarchies and later class statements are unlimited.",
  TP+"compiler/type_wrappers/subclass_of_wrapper.py:SubclassOfWrapper", TP+"_runtime.cpp:np_typePtrIsSubclass")

if __name__ == "__main__":
    here = os.path.dirname(os.path.abspath(__file__))
    with open(os.path.join(here, "..", "properties.jsonl"), "w") as f:
        for x in P:
            f.write(json.dumps(x) + "\n")
    print(len(P))
