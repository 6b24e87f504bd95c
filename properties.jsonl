{"id": "C01", "title": "SortedDict is an ordered finite map", "statement": "After any sequence of d[k]=v, del d[k], pop, setdefault on a SortedDict, every lookup (d[k], k in d, get with and without default), len(d), first(), last() and iteration/items() answer exactly as a finite map from keys to values does, and iteration yields the keys in strictly increasing comparator order, each once. Deleting or popping an absent key raises KeyError and leaves the map unchanged.", "quantifier": "all finite operation histories, all keys and values, every comparator that is a strict total order on the keys", "why_tests_cant": "The tree shape (and hence which rotation or which deletion case runs) depends on the whole history; tests sample a few insertion orders.", "anchors": ["typed_python/lib/sorted_dict.py:SortedDict", "typed_python/lib/sorted_dict.py:Node"]}
{"id": "C02", "title": "SortedDict operations terminate and never trip their internal assertions", "statement": "Every SortedDict operation returns (or raises KeyError for an absent key); the recursive rebalance/set/remove calls never recurse forever, never dereference a missing child and never hit the assert in rebalance.", "quantifier": "all operation histories from the empty dict", "why_tests_cant": "rebalance calls set, which calls rebalance; termination depends on an invariant of all reachable trees, not on a sampled tree.", "anchors": ["typed_python/lib/sorted_dict.py:Node.rebalance", "typed_python/lib/sorted_dict.py:Node.set", "typed_python/lib/sorted_dict.py:Node.remove"]}
{"id": "C03", "title": "SortedDict stays balanced", "statement": "The depth of the search tree behind a SortedDict is bounded by a logarithm of its size, as the documentation ('balanced binary search tree') promises, so lookups are O(log n).", "quantifier": "all operation histories", "why_tests_cant": "Only specific adversarial insertion orders of unbounded length show the depth growing linearly.", "anchors": ["typed_python/lib/sorted_dict.py:Node.rebalance"]}
{"id": "C04", "title": "Dict is a finite map", "statement": "After any sequence of insertions, overwrites, deletions, pops, setdefaults and clears on a Dict(K,V), lookup, membership and len answer exactly as the corresponding finite map.", "quantifier": "all operation histories, all keys, all hash functions consistent with equality (including every collision pattern and negative hashes)", "why_tests_cant": "Correctness depends on tombstones, resizes and perturbation probing interacting over long histories with adversarial collisions.", "anchors": ["typed_python/hash_table_layout.hpp:hash_table_layout", "typed_python/DictType.cpp:DictType::insertKey", "typed_python/DictType.cpp:DictType::lookupValueByKey", "typed_python/DictType.cpp:DictType::deleteKey"]}
{"id": "C05", "title": "Dict operations terminate: a probe always reaches an empty slot", "statement": "No Dict/Set lookup, insert or delete loops forever: the probe sequence visits every slot of the table and every reachable table has an empty slot.", "quantifier": "all reachable tables of any size and all 32-bit hash values", "why_tests_cant": "The probe sequence length depends on 64-bit perturbation arithmetic over tables of unbounded power-of-two size.", "anchors": ["typed_python/hash_table_layout.hpp:find", "typed_python/hash_table_layout.hpp:add", "typed_python/hash_table_layout.hpp:remove", "typed_python/hash_table_layout.hpp:resizeTable"]}
{"id": "C06", "title": "Dict iteration yields each live entry once, in insertion order", "statement": "Iterating a Dict or Set yields exactly the live keys, each once, ordered by when each key was (last newly) inserted; overwriting a value keeps its position, deleting and re-inserting moves it to the end; resizes and compaction never change the order.", "quantifier": "all operation histories", "why_tests_cant": "Compaction thresholds are crossed only by particular long histories of deletions.", "anchors": ["typed_python/hash_table_layout.hpp:compressItemTable", "typed_python/hash_table_layout.hpp:allocateNewSlot", "typed_python/PyDictInstance.cpp"]}
{"id": "C07", "title": "Set algebra is set algebra", "statement": "union, intersection, difference, symmetric_difference, isdisjoint, issubset, issuperset, add, discard, remove, pop on Set(T) compute the mathematical set operations, and remove of a missing element raises KeyError without change.", "quantifier": "all sets, all elements, all hash functions consistent with equality", "why_tests_cant": "Tests sample small sets; the property quantifies over all table states reached by histories.", "anchors": ["typed_python/SetType.cpp", "typed_python/PySetInstance.cpp", "typed_python/hash_table_layout.hpp"]}
{"id": "C08", "title": "Dict equality is extensional, also for keys views", "statement": "d1 == d2 holds iff both have the same keys with equal values; d1 != d2 is its negation; d1.keys() == d2.keys() holds iff the key sets are equal.", "quantifier": "all pairs of dicts", "why_tests_cant": "A comparison that ignores keys of equal-sized dicts passes every test whose dicts differ in size or are equal.", "anchors": ["typed_python/DictType.cpp:DictType::cmp", "typed_python/PyDictInstance.cpp:compare_as_iterator_to_python_concrete"]}
{"id": "C09", "title": "Compiled and interpreted Dict/Set code agree on the same table", "statement": "The compiled table operations (add, find, remove, clear, resize) acting on a table produced by any mix of interpreted and compiled operations give the same observable map, order and exceptions as the interpreter's.", "quantifier": "all interleavings of compiled and interpreted operations, all hash values", "why_tests_cant": "Two implementations (C++ and generated code) share memory; disagreements show only for specific tables or hash values.", "anchors": ["typed_python/compiler/type_wrappers/hash_table_implementation.py", "typed_python/compiler/type_wrappers/dict_wrapper.py", "typed_python/hash_table_layout.hpp"]}
{"id": "C10", "title": "ConstDict lookup finds exactly the stored keys", "statement": "For every ConstDict built from key/value pairs, d[k] returns the value of k if k was present and raises KeyError otherwise, len is the number of distinct keys, and iteration is in increasing key order.", "quantifier": "all ConstDicts of any size over any totally ordered key type", "why_tests_cant": "Binary search boundary errors show only for particular sizes and positions.", "anchors": ["typed_python/ConstDictType.cpp:lookupIndexByKey", "typed_python/ConstDictType.cpp:sortKvPairs"]}
{"id": "C11", "title": "ConstDict + and - are map override and key removal", "statement": "a + b maps each key to b's value if present in b, else a's; a - keys removes exactly those keys; operands are unchanged and the result is again sorted with distinct keys.", "quantifier": "all ConstDicts a, b and key tuples", "why_tests_cant": "The merge is index arithmetic over two arrays of arbitrary size.", "anchors": ["typed_python/ConstDictType.cpp:addDicts", "typed_python/ConstDictType.cpp:subtractTupleOfKeysFromDict"]}
{"id": "C12", "title": "ConstDict comparison and hash are extensional", "statement": "Two ConstDicts compare equal iff they represent the same map; equal ConstDicts have equal hashes; the order is total and antisymmetric.", "quantifier": "all pairs/triples of ConstDicts", "why_tests_cant": "Transitivity and hash consistency are universally quantified over pairs and triples.", "anchors": ["typed_python/ConstDictType.cpp:cmp", "typed_python/ConstDictType.cpp:hash"]}
{"id": "C13", "title": "Unsigned and signed varints round-trip", "statement": "Writing any 64-bit unsigned (or signed) integer and reading it back yields the same integer and consumes exactly the bytes written, whatever follows.", "quantifier": "all 2^64 values, all following byte streams", "why_tests_cant": "2^64 values; the sign/zigzag boundary and 7-bit boundaries cannot be exhausted.", "anchors": ["typed_python/SerializationBuffer.hpp:writeUnsignedVarint", "typed_python/DeserializationBuffer.hpp:readUnsignedVarint"]}
{"id": "C14", "title": "Unknown fields can be skipped: discarding a message consumes exactly that message", "statement": "For every well-formed wire message (nested arbitrarily) followed by any bytes, skipping it advances the reader by exactly the message's length, and copying it to another buffer reproduces it byte for byte (up to re-encoding) and decodes to the same message.", "quantifier": "all message trees of any depth, all trailing bytes", "why_tests_cant": "Nesting depth and the mix of wire types are unbounded.", "anchors": ["typed_python/DeserializationBuffer.hpp:finishReadingMessageAndDiscard", "typed_python/SerializationBuffer.hpp:copyMessageToOtherBuffer", "typed_python/WireType.hpp"]}
{"id": "C15", "title": "serialize/deserialize round-trips typed values", "statement": "deserialize(T, serialize(T, x)) == x and consumes the whole message for every value of types built from bool, the integer types, bytes, str, None, Tuple/NamedTuple, TupleOf, ListOf, ConstDict, Dict, Set, OneOf and Alternative.", "quantifier": "all types in the grammar, all values of each", "why_tests_cant": "Types nest arbitrarily and containers are unbounded.", "anchors": ["typed_python/SerializationBuffer.hpp", "typed_python/TupleOrListOfType.hpp:serialize", "typed_python/CompositeType.hpp:serialize", "typed_python/OneOfType.hpp", "typed_python/AlternativeType.hpp", "typed_python/ConstDictType.hpp", "typed_python/DictType.hpp"]}
{"id": "C16", "title": "Block-compressed integer lists round-trip", "statement": "A ListOf/TupleOf of 64-bit ints serialized in width-tagged blocks (1/2/4/8 bytes, at most 255 elements per block) deserializes to the same sequence.", "quantifier": "all integer sequences of any length", "why_tests_cant": "Block splitting depends on every element's width and on the 255 limit.", "anchors": ["typed_python/TupleOrListOfType.hpp:serializeIntList", "typed_python/TupleOrListOfType.hpp:deserializeIntList"]}
{"id": "C17", "title": "Shared and cyclic references survive serialization", "statement": "When the same mutable object is referenced several times in a graph (including from itself), deserialization rebuilds one object per original object with the same sharing.", "quantifier": "all object graphs", "why_tests_cant": "Sharing patterns are arbitrary graphs.", "anchors": ["typed_python/SerializationBuffer.hpp:cachePointer", "typed_python/DeserializationBuffer.hpp:addCachedPointer", "typed_python/TupleOrListOfType.hpp:serialize"]}
{"id": "C18", "title": "Consolidating and compressing the output stream does not change its content", "statement": "Whatever the sequence and sizes of writes, and whatever order compression workers finish blocks in, the produced stream decodes, in reads of any sizes, to exactly the concatenation of the bytes written, as long as no single block compresses to 4 GiB or more (its size is stored in 32 bits); and every schedule finishes.", "quantifier": "all write sequences, all block boundaries, all schedules of compression threads", "why_tests_cant": "Thread schedules and block boundary positions cannot be enumerated.", "anchors": ["typed_python/SerializationBuffer.hpp", "typed_python/SerializationBuffer.cpp", "typed_python/DeserializationBuffer.cpp"]}
{"id": "C19", "title": "UTF-8 encoding of str round-trips", "statement": "Serializing any str and deserializing it yields the same code points; the byte count computed up front equals the bytes written.", "quantifier": "all strings of any length over all code points 0..0x10FFFF", "why_tests_cant": "1.1 million code points in arbitrary sequences.", "anchors": ["typed_python/Unicode.hpp:encodeUtf8", "typed_python/StringType.cpp:decodeUtf8ToTyped", "typed_python/StringType.cpp:countUtf8Codepoints"]}
{"id": "C20", "title": "String equality/ordering depend only on the code points", "statement": "Comparison of two str values compiled code can produce gives exactly the lexicographic code point order, independent of how many bytes per code point each uses, and == is True iff they have the same code points.", "quantifier": "all pairs of representable strings, all storage widths", "why_tests_cant": "Nine width combinations times unbounded strings, plus the null representation of the empty string.", "anchors": ["typed_python/StringType.cpp:cmpStatic", "typed_python/StringType.cpp:cmpStaticEq", "typed_python/StringType.cpp:join"]}
{"id": "C21", "title": "Equal strings hash equally", "statement": "If two str values are equal then they have the same hash, so a Dict(str, T) finds a key whichever way the equal string was produced (literal, slice, concatenation, deserialization).", "quantifier": "all pairs of equal strings however produced", "why_tests_cant": "The storage width is invisible at the API; tests compare literals built the same way.", "anchors": ["typed_python/StringType.hpp:hash_static", "typed_python/StringType.cpp:getitem", "typed_python/StringType.cpp:createFromUtf8", "typed_python/HashAccumulator.hpp"]}
{"id": "C22", "title": "find/rfind/index/count/in agree with Python", "statement": "Compiled s.find(sub,start,stop), rfind, index, rindex and `sub in s` return the first/last position of an occurrence within the Python-normalised window, and count the number of non-overlapping occurrences found left to right.", "quantifier": "all strings, substrings, and 64-bit start/stop", "why_tests_cant": "Negative, out-of-range and empty-substring combinations are unbounded.", "anchors": ["typed_python/StringType.cpp:find", "typed_python/StringType.cpp:rfind", "typed_python/StringType.cpp:count"]}
{"id": "C23", "title": "split/rsplit/splitlines/join/partition invert each other", "statement": "sep.join(s.split(sep, n)) == s and sep.join(s.rsplit(sep,n)) == s; no piece (except the unsplit remainder) contains sep; split has at most n+1 pieces; ''.join(s.splitlines(True)) == s; partition pieces concatenate to s.", "quantifier": "all strings, separators and limits", "why_tests_cant": "Overlapping separators and limits interact over unbounded strings.", "anchors": ["typed_python/StringType.cpp:split", "typed_python/StringType.cpp:rsplit", "typed_python/StringType.cpp:splitlines", "typed_python/StringType.cpp:join", "typed_python/compiler/type_wrappers/string_wrapper.py:strPartition"]}
{"id": "C24", "title": "Indexing, slicing, strip, concatenation and repetition agree with Python", "statement": "Compiled s[i], s[a:b], s.strip/lstrip/rstrip, s+t, s*n give the same code points (and the same IndexErrors) as CPython.", "quantifier": "all strings, all 64-bit indices", "why_tests_cant": "Index normalisation has boundary cases at every length.", "anchors": ["typed_python/StringType.cpp:getsubstr", "typed_python/StringType.cpp:getitem", "typed_python/StringType.cpp:strip", "typed_python/StringType.cpp:concatenate", "typed_python/StringType.cpp:mult"]}
{"id": "C25", "title": "int(str) accepts exactly Python's decimal grammar and computes its value", "statement": "Compiled int(s) succeeds iff s is (spaces) [sign] digits with single underscores between digits (spaces), and then returns the decimal value (modulo 2^64); otherwise it raises ValueError.", "quantifier": "all strings", "why_tests_cant": "A state machine over arbitrary-length input.", "anchors": ["typed_python/StringType.cpp:to_int64"]}
{"id": "C26", "title": "replace/startswith/endswith/justify/zfill/expandtabs agree with Python", "statement": "Compiled str.replace replaces exactly the first n non-overlapping occurrences; startswith/endswith with ranges, center/ljust/rjust/zfill/expandtabs match CPython's definitions.", "quantifier": "all strings and arguments", "why_tests_cant": "Empty patterns, limits and ranges over unbounded strings.", "anchors": ["typed_python/compiler/type_wrappers/string_wrapper.py:strReplace", "typed_python/compiler/type_wrappers/string_wrapper.py:strRangeStartswith"]}
{"id": "C27", "title": "Case mapping preserves characters", "statement": "Compiled upper/lower/title/capitalize/swapcase/casefold yield the concatenation of the Unicode mapping of each character, whatever the storage width, without writing outside the allocated result.", "quantifier": "all strings and all per-character mappings of up to 3 code points", "why_tests_cant": "Characters whose mapping needs a wider storage than the input's are rare.", "anchors": ["typed_python/StringType.cpp:unicode_generic"]}
{"id": "C28", "title": "Compiled // and % agree with Python", "statement": "For 64-bit operands with nonzero divisor, compiled a // b and a % b equal Python's floor division and modulo whenever the result is representable, a == (a//b)*b + a%b, and division by zero raises ZeroDivisionError.", "quantifier": "all 2^128 operand pairs", "why_tests_cant": "Edge operands (INT64_MIN, negative divisors) are a vanishing fraction of the input space.", "anchors": ["typed_python/_runtime.cpp:nativepython_runtime_mod_int64_int64", "typed_python/_runtime.cpp:nativepython_runtime_floordiv_int64_int64", "typed_python/PyRegisterTypeInstance.hpp:pyMod", "typed_python/PyRegisterTypeInstance.hpp:pyFloorDiv"]}
{"id": "C29", "title": "Compiled and interpreted fixed-width arithmetic agree", "statement": "For the fixed-width integer types, the interpreter's operator functions and the compiled runtime functions return the same value or both raise.", "quantifier": "all operand pairs of each operator", "why_tests_cant": "Two separately written implementations; disagreement is confined to edge operands.", "anchors": ["typed_python/_runtime.cpp", "typed_python/PyRegisterTypeInstance.hpp"]}
{"id": "C30", "title": "Shifts agree with Python", "statement": "a << b and a >> b equal multiplication and floor division by 2^b (mod 2^64 for <<), negative shift counts raise ValueError.", "quantifier": "all operand pairs", "why_tests_cant": "Rounding direction on negative operands differs only for some values.", "anchors": ["typed_python/_runtime.cpp:nativepython_runtime_rshift_int64_int64", "typed_python/_runtime.cpp:nativepython_runtime_lshift_int64_int64"]}
{"id": "C31", "title": "Numeric promotion is a join", "statement": "The result type of mixed arithmetic is independent of operand order and of grouping, adding a type to itself changes nothing, the result is at least as wide as both, float if either is float, signed if either is signed; compiler and interpreter use the same table.", "quantifier": "all pairs and triples of numeric types", "why_tests_cant": "Associativity/consistency is over all triples and two separate tables.", "anchors": ["typed_python/type_promotion.py:computeArithmeticBinaryResultType", "typed_python/PromotesTo.hpp"]}
{"id": "C32", "title": "Calendar conversion is a bijection", "statement": "Date.fromDaysSinceEpoch and daysSinceEpoch are mutually inverse between all valid Gregorian dates and all day numbers, consecutive dates have consecutive numbers, and day_of_year is the ordinal within the year.", "quantifier": "all dates and all integers (proleptic, negative included where the API allows)", "why_tests_cant": "Unbounded day numbers, with era/century/leap interactions.", "anchors": ["typed_python/lib/datetime/chrono.py:Chrono.days_from_civil", "typed_python/lib/datetime/chrono.py:Chrono.civil_from_days", "typed_python/lib/datetime/chrono.py:Chrono.day_of_year"]}
{"id": "C33", "title": "weekday is the day of the week", "statement": "Date.weekday() is in 0..6, advances by one (mod 7) each day, and is 4 on 1970-01-01; get_nth_dow_of_month returns the n-th such weekday of that month.", "quantifier": "all dates", "why_tests_cant": "Only dates before 1970 exercise the negative branch.", "anchors": ["typed_python/lib/datetime/chrono.py:Chrono.weekday_from_days", "typed_python/lib/datetime/chrono.py:Chrono.get_nth_dow_of_month"]}
{"id": "C34", "title": "Date stepping lands where it says", "statement": "nextWeekday(w) is the first date on or after d with weekday w; lastWeekday(w) the last on or before; nextMonth/nextYear land in the right month with the day clamped; lastDayOfMonth, daysInMonth, next/previous are consistent.", "quantifier": "all dates and steps", "why_tests_cant": "Depends on all weekday/month-length combinations.", "anchors": ["typed_python/lib/datetime/date_time.py:Date"]}
{"id": "C35", "title": "Timestamp/datetime conversion round-trips in fixed-offset zones", "statement": "tz.timestamp(tz.datetime(ts)) == ts and tz.datetime(tz.timestamp(dt)) == dt for every fixed offset, and later instants read later on the clock.", "quantifier": "all instants, all offsets", "why_tests_cant": "Floor division on negative instants; unbounded domain.", "anchors": ["typed_python/lib/datetime/date_time.py:Timezone._datetimeFromTimestampAndOffset", "typed_python/lib/datetime/date_time.py:FixedOffsetTimezone"]}
{"id": "C36", "title": "Daylight-saving zones: every instant round-trips with the right fold", "statement": "For each instant ts, tz.timestamp(tz.datetime(ts), fold) == ts for one of the two fold flags; local times skipped by the spring change raise NonexistentDateTime, and asking for the second occurrence of a non-repeated time raises OneFoldOnlyError.", "quantifier": "all instants in a year, all boundary rules", "why_tests_cant": "The behaviour changes at two instants a year.", "anchors": ["typed_python/lib/datetime/date_time.py:DaylightSavingsTimezone", "typed_python/lib/datetime/date_time.py:SwitchOffsetTimezone", "typed_python/lib/datetime/date_time.py:PytzTimezone"]}
{"id": "C37", "title": "Formatting then parsing a timestamp gives it back", "statement": "Parsing the ISO (or '%Y-%m-%d %H:%M:%S') rendering of a whole-second timestamp returns that timestamp; so does parsing with any format on the 24-hour clock that writes all components, in any timezone of fixed offset given to both; a format that writes less gives the instant of the written part.", "quantifier": "all whole-second timestamps in years 0..9999, all formats made of %Y %m %b %B %d %H %M %S (and %Z %z in UTC) and ASCII text, all fixed offsets", "why_tests_cant": "Billions of instants; padding and tokenisation edge cases.", "anchors": ["typed_python/lib/datetime/date_formatter.py:DateFormatter.format", "typed_python/lib/datetime/date_parser.py:DateParser.parse_iso_str", "typed_python/lib/datetime/date_parser.py:DateParser.parse_with_format"]}
{"id": "C38", "title": "12-hour clock parsing", "statement": "A time written with AM/PM parses to the hour it denotes: 12 AM is 0, 1..11 AM are 1..11, 12 PM is 12, 1..11 PM are 13..23.", "quantifier": "all hours and minutes", "why_tests_cant": "A universally quantified statement over the input grammar.", "anchors": ["typed_python/lib/datetime/date_parser.py:DateParser.parse_with_format", "typed_python/lib/datetime/date_parser.py:DateParser.parse_non_iso_time", "typed_python/lib/datetime/date_formatter.py:convert_to_12h"]}
{"id": "C39", "title": "sort sorts", "statement": "sort(l) leaves l a permutation of its input, in nondecreasing order, for every pseudo-random seed; sorted(l) does so on a copy; with a key function the result is ordered by key.", "quantifier": "all lists, all total orders, all pivot sequences", "why_tests_cant": "Pivot choice is pseudo-random and the recursion depends on duplicates.", "anchors": ["typed_python/lib/sorting.py:sort", "typed_python/lib/sorting.py:quicksort"]}
{"id": "C40", "title": "searchSorted returns an insertion point", "statement": "For a sorted list, searchSorted(x, l) returns an index i with l[:i] < x... such that inserting x at i keeps the list sorted; if x occurs it returns the index of an occurrence.", "quantifier": "all sorted lists and probes", "why_tests_cant": "Binary search boundary conditions at all sizes.", "anchors": ["typed_python/lib/sorting.py:searchSorted"]}
{"id": "C41", "title": "TypedQueue is a FIFO that neither loses nor duplicates elements", "statement": "Under any interleaving of any number of threads calling put/putMany/get/getNonblocking/getMany, the sequence of elements removed is a prefix of the sequence of elements put (in the order the operations took effect), and len is their difference.", "quantifier": "all thread counts, all schedules, all programs over the queue API", "why_tests_cant": "Interleavings of lock operations are unbounded.", "anchors": ["typed_python/typed_queue.py:TypedQueue"]}
{"id": "C42", "title": "TypedQueue never deadlocks or fails internally", "statement": "No schedule leads to releasing an unheld lock, to popping an empty list, or to all threads blocked while the queue is non-empty; a blocked get proceeds once an element is available and the lock is free.", "quantifier": "all schedules", "why_tests_cant": "Lost-wakeup bugs need particular schedules.", "anchors": ["typed_python/typed_queue.py:TypedQueue"]}
{"id": "C43", "title": "Argument binding matches Python's calling convention", "statement": "Calling a typed Function with positional and keyword arguments binds parameters exactly as Python does (defaults, *args, keyword-only parameters, **kwargs) and rejects exactly the calls Python rejects.", "quantifier": "all signatures and all argument lists", "why_tests_cant": "Signatures and call shapes are unbounded.", "anchors": ["typed_python/FunctionCallArgMapping.hpp:FunctionCallArgMapping"]}
{"id": "C44", "title": "Graph levels give a topological order", "statement": "levels() either raises because the graph has a cycle, or assigns each node one more than the maximum of its predecessors; topologicalSort lists every node after its predecessors; createsCycle(a,b) answers whether b already reaches a.", "quantifier": "all finite directed graphs", "why_tests_cant": "Arbitrary graphs.", "anchors": ["typed_python/compiler/directed_graph.py:DirectedGraph"]}
{"id": "C45", "title": "Dirty-function worklist loses no work", "statement": "Every function marked dirty and not dropped is eventually returned by getNextDirtyNode, each at most once per marking; when a return signature changes all callers become dirty; None is returned only when nothing is dirty.", "quantifier": "all histories of addRoot/addEdge/markDirty/dropNode/getNextDirtyNode", "why_tests_cant": "Histories are unbounded and priorities interact.", "anchors": ["typed_python/compiler/function_dependency_graph.py:FunctionDependencyGraph"]}
{"id": "C46", "title": "Slab allocations are disjoint, aligned and inside the slab", "statement": "All allocations made from a slab of the size deepBytecount predicts succeed, do not overlap each other or each other's headers, are 16-byte aligned and lie inside the slab; an allocation that does not fit raises.", "quantifier": "all allocation sequences", "why_tests_cant": "Sizes and sequences are unbounded; the boundary is hit only by exact-fit sequences.", "anchors": ["typed_python/Slab.hpp:Slab::allocate", "typed_python/Memory.hpp:bytesRequiredForAllocation"]}
{"id": "C47", "title": "ListOf behaves as a sequence", "statement": "append, extend (also by itself), pop, insert by index assignment, resize, reserve, reverse, clear, + and slicing on ListOf/TupleOf give the same element sequence as on Python lists, never read beyond the element count, and capacity is always at least the length.", "quantifier": "all operation histories", "why_tests_cant": "Capacity growth and index arithmetic over unbounded histories.", "anchors": ["typed_python/TupleOrListOfType.cpp", "typed_python/PyTupleOrListOfInstance.cpp"]}
{"id": "C48", "title": "TupleOf ordering is lexicographic and hashing is consistent", "statement": "Comparison of TupleOf/ListOf values is the lexicographic total order of their elements, and equal TupleOf values hash equally.", "quantifier": "all sequences over any element type with a consistent order and hash", "why_tests_cant": "Universally quantified over pairs and triples.", "anchors": ["typed_python/TupleOrListOfType.cpp:cmp", "typed_python/TupleOrListOfType.cpp:hash"]}
{"id": "C49", "title": "Control-flow merge of variable types is sound", "statement": "After merging the type states of two control flow paths, every concrete variable assignment possible on either path is still allowed, and a variable is 'definitely initialised' only if it is on both.", "quantifier": "all pairs of states and all concrete environments", "why_tests_cant": "Soundness quantifies over all concrete environments.", "anchors": ["typed_python/compiler/function_stack_state.py:FunctionStackState.becomeMerge", "typed_python/compiler/merge_type_wrappers.py:mergeTypes"]}
{"id": "C50", "title": "map and reduce over typed tuples", "statement": "map(f, t) yields the tuple of f applied to each element in order and depends only on f and t, not on earlier calls; reduce(f, t) is f(...f(f(t0), t1)..., tn), and None for an empty tuple.", "quantifier": "all functions, tuples and call histories", "why_tests_cant": "map keeps a process-wide type cache, so results can depend on the history of earlier calls.", "anchors": ["typed_python/lib/map.py:Map.mapTuple", "typed_python/lib/reduce.py:Reduce.reduceTuple"]}
{"id": "C51", "title": "Only existing dates can be constructed", "statement": "Date(y, m, d) succeeds exactly when that date exists in the Gregorian calendar (years from 0) and raises NonexistentDate otherwise.", "quantifier": "all integer triples", "why_tests_cant": "Tests try a handful of invalid dates.", "anchors": ["typed_python/lib/datetime/date_time.py:Date.__init__", "typed_python/lib/datetime/chrono.py:Chrono.is_valid_date"]}
{"id": "C52", "title": "Dict and Set memory stays proportional to the number of live entries", "statement": "Whatever the history, the item storage and the index of a Dict or Set stay within a constant factor of the largest number of entries it has held; inserting and deleting for ever does not grow memory.", "quantifier": "all operation histories", "why_tests_cant": "Leaks of tombstones show only after long insert/delete histories.", "anchors": ["typed_python/hash_table_layout.hpp:allocateNewSlot", "typed_python/hash_table_layout.hpp:compressItemTable", "typed_python/hash_table_layout.hpp:resizeTable"]}
{"id": "C53", "title": "Overload choice is deterministic: strictest conversion level first, then declaration order", "statement": "Calling a function with several overloads runs the first overload (in declaration order) that accepts the call at the strictest conversion level at which any overload accepts it, with every argument converted to its annotation; TypeError is raised exactly when no overload accepts the call at any level.", "quantifier": "all overload lists, all argument lists, all conversion behaviours of the types involved", "why_tests_cant": "The interaction of levels, overload order, defaults, *args and **kwargs is a product space no test suite covers.", "anchors": ["typed_python/PyFunctionInstance.cpp:PyFunctionInstance::tryToCallAnyOverload", "typed_python/PyFunctionInstance.cpp:PyFunctionInstance::tryToCallOverload", "typed_python/FunctionCallArgMapping.hpp:applyTypeCoercion"]}
{"id": "C54", "title": "Deep copies are isomorphic, sharing-preserving and exactly as large as predicted", "statement": "deepcopyContiguous(x) returns a value isomorphic to x: two references to one object become two references to one copy, distinct objects stay distinct, nothing of x is shared or changed, all reference counts are right; the slab that is sized in advance is filled exactly.", "quantifier": "all finite object graphs, with any amount of sharing", "why_tests_cant": "Sharing patterns and the agreement between the counting and the copying traversal quantify over all graphs; a wrong prediction overruns a slab silently.", "anchors": ["typed_python/_types.cpp:deepcopyContiguous", "typed_python/Slab.hpp:Slab::allocate", "typed_python/TupleOrListOfType.hpp:deepcopyConcrete", "typed_python/AlternativeType.hpp:deepBytecountConcrete", "typed_python/ClassType.hpp:deepcopyConcrete"]}
{"id": "C55", "title": "Class members: assignment, deletion, copying and destruction", "statement": "After any history of attribute assignments and deletions each member of a Class instance holds the value last assigned to it, or its default, or reads as not initialised if deleted or never set; members do not influence each other; copying or assigning a whole instance transfers exactly the set members; no value is leaked, released twice or read from raw memory.", "quantifier": "all class definitions (any number of members), all operation histories, any previous content of the memory", "why_tests_cant": "Initialisation bits are packed eight to a byte into memory that is not cleared: errors depend on member position, history and what was in the memory before.", "anchors": ["typed_python/HeldClassType.cpp:HeldClass::setAttribute", "typed_python/HeldClassType.cpp:HeldClass::delAttribute", "typed_python/HeldClassType.cpp:HeldClass::constructor", "typed_python/HeldClassType.cpp:HeldClass::assign", "typed_python/HeldClassType.cpp:HeldClass::copy_constructor", "typed_python/HeldClassType.cpp:HeldClass::destroy"]}
{"id": "C56", "title": "ConstDict behaves the same in compiled and interpreted code", "statement": "Every ConstDict operation (literal, +, -, lookup, in, ==, !=, <, <=, >, >=) gives the same answer inside a compiled function as in the interpreter, and the compiled + never writes outside the memory it allocated.", "quantifier": "all programs of ConstDict operations, all keys and values", "why_tests_cant": "The compiled operations are separate implementations (merges, binary searches, comparisons) of the same functions.", "anchors": ["typed_python/compiler/type_wrappers/const_dict_wrapper.py", "typed_python/ConstDictType.cpp"]}
{"id": "C58", "title": "String predicates agree with Python's definitions", "statement": "Compiled isalpha, isalnum, isdecimal, isdigit, isnumeric, isspace, isprintable, islower, isupper and istitle answer as Python defines them from the properties of the characters, for every string and storage width.", "quantifier": "all strings, all assignments of properties to characters", "why_tests_cant": "istitle and islower depend on neighbouring characters in strings of any length.", "anchors": ["typed_python/StringType.cpp:StringType::istitle", "typed_python/StringType.cpp:StringType::islower", "typed_python/StringType.cpp:StringType::isalnum"]}
{"id": "C59", "title": "Offsets in ISO 8601 texts are honoured", "statement": "DateParser.parse of an ISO 8601 date and time followed by Z, +hh:mm, +hhmm, -hh:mm or -hhmm returns the instant denoted: the written clock reading minus the offset.", "quantifier": "all dates and times in years 0..9999, all offsets", "why_tests_cant": "The tokenizer decides what an offset is from the separators; only a statement over all texts rules out silent misreadings.", "anchors": ["typed_python/lib/datetime/date_parser.py:DateParser.parse_iso_str", "typed_python/lib/datetime/date_parser.py:DateParser._get_tokens", "typed_python/lib/datetime/date_parser.py:DateParser.get_timezone_from_string"]}
{"id": "C60", "title": "Format directives write what strftime defines", "statement": "DateFormatter.format writes, for every supported directive, what strftime defines for the clock reading of the timestamp in the given timezone: padded numbers, month and weekday names, twelve-hour clock, day of year, century, timezone name and offset.", "quantifier": "all whole-second timestamps in years 0..9999, all formats over the supported directives, all fixed offsets", "why_tests_cant": "The text depends on the calendar for every day; weekday names before 1970 are a corner no example list reaches.", "anchors": ["typed_python/lib/datetime/date_formatter.py:DateFormatter.format", "typed_python/lib/datetime/date_formatter.py:convert_to_12h"]}
{"id": "C61", "title": "Parsing with a format rejects texts that do not match it", "statement": "DateParser.parse(text, format) returns a timestamp only if the text has the shape the format describes, and raises ValueError otherwise.", "quantifier": "all texts, all formats", "why_tests_cant": "A claim about all non-matching texts.", "anchors": ["typed_python/lib/datetime/date_parser.py:DateParser.parse_with_format"]}
{"id": "C62", "title": "Compiled control flow does what Python does", "statement": "A compiled function made of assignments, returns, raises, asserts, if, while, break, continue and try/except/else/finally returns the same value or raises the same exception as the Python function, and never reads an uninitialised variable, reads a variable as a type its value does not have, or runs past its end.", "quantifier": "all functions of these statements, all types of their variables, all argument values, all values and exceptions of their expressions, all numbers of loop iterations", "why_tests_cant": "Type states are merged at compile time along every path of every program; a test runs one path of one program.", "anchors": ["typed_python/compiler/function_conversion_context.py:FunctionConversionContext.convert_statement_ast", "typed_python/compiler/function_stack_state.py:FunctionStackState", "typed_python/compiler/expression_conversion_context.py:namedVariableLookup"]}
{"id": "C63", "title": "pmap is a parallel list comprehension", "statement": "pmap(lst, f, OutT, minGranularity) returns ListOf(OutT)([f(x) for x in lst]) with the elements in order, or raises the exception of the first element of lst for which f raises; every output element is initialised at most once and, if pmap raises, destroyed exactly when it was initialised.", "quantifier": "all lists, functions (which may call pmap themselves to any depth), granularities, numbers of worker threads, concurrent callers, and interleavings of the threads", "why_tests_cant": "The elements are computed by worker threads in an order no test controls; only a statement over all schedules covers every race.", "anchors": ["typed_python/lib/pmap.py:pmap", "typed_python/lib/pmap.py:ListJob", "typed_python/lib/pmap.py:workExecutor"]}
{"id": "C64", "title": "pmap always returns", "statement": "Every call of pmap returns or raises after finitely many steps, under every schedule: workers that block in nested calls never wait for each other in a circle, and no job is lost.", "quantifier": "all programs calling pmap, nested to any depth, all numbers of workers, all schedules", "why_tests_cant": "Deadlock freedom quantifies over all reachable states of all threads.", "anchors": ["typed_python/lib/pmap.py:pmap", "typed_python/lib/pmap.py:workExecutor", "typed_python/typed_queue.py:TypedQueue"]}
{"id": "C65", "title": "A compiled generator yields what the Python generator yields", "statement": "Calling next on a generator made by a compiled function returns the same values, raises StopIteration with the same argument or raises the same exceptions, call after call, as the Python generator with the same body, with the same effects on shared state in between; a finished generator stays finished.", "quantifier": "all bodies made of simple statements, yield, if, while, break, continue, return, raise and try/except/else/finally, all numbers of calls, everything the consumer does between the calls", "why_tests_cant": "The body is rewritten so that it can be entered at any of its yields, through any nesting of statements; a test resumes one program at a few of its yields.", "anchors": ["typed_python/compiler/generator_codegen.py:GeneratorCodegen", "typed_python/generator.py:Generator", "typed_python/python_ast_analysis.py:countYieldStatements"]}
{"id": "C66", "title": "for and with in a compiled generator do what they do in Python", "statement": "In a compiled generator, a for statement takes the items of one iterator in order, across any number of suspensions, runs else exactly when the iterator is exhausted and shares nothing with other loops; a with statement enters its managers in order and leaves each of them exactly once, in reverse order, however the body is left, and an exception swallowed by a manager is gone: every call of next does what it does in Python.", "quantifier": "all bodies with for and with nested in any statements, all iterators and managers, all histories of calls, everything the consumer does in between", "why_tests_cant": "Both statements are rewritten to hidden variables that live across suspensions; whether two statements share a hidden variable depends on their nesting, and the existing test nests two with statements over one manager, where a mix-up does not show.", "anchors": ["typed_python/compiler/for_loop_codegen.py:rewriteForLoops", "typed_python/compiler/withblock_codegen.py:expandWithBlockIntoTryCatch", "typed_python/compiler/generator_codegen.py:GeneratorCodegen.changeStatementInner"]}
{"id": "C67", "title": "with in a compiled function leaves every manager it entered", "statement": "A compiled function with with statements enters its managers in order and leaves each manager it entered exactly once, in reverse order, telling it about the exception if there is one, whether the body ends normally, raises, returns, breaks or continues; it ends as the Python function does, in the same state.", "quantifier": "all bodies of nested with, if, while and try statements, all managers, all ways to leave a block", "why_tests_cant": "A manager left twice or not at all shows only for particular ways to leave particular nestings, and only if the manager keeps count.", "anchors": ["typed_python/compiler/withblock_codegen.py:expandWithBlockIntoTryCatch", "typed_python/compiler/function_conversion_context.py:FunctionConversionContext.convert_statement_ast"]}
{"id": "C57", "title": "Loops in compiled functions run as in Python", "statement": "A compiled function made of assignments, if, while, for, break, continue and return ends as the Python function does, with the same value or exception and the same effects: for visits the items of a list, tuple, string, range or iterator in order, including items added during the loop, else runs exactly when the loop was not left by break, break and continue act on the innermost loop whose body they are in, and what follows a loop runs when the loop is left.", "quantifier": "all nestings of these statements, all sequences, tuples and iterators, all ways to leave a loop", "why_tests_cant": "Each kind of iterable is converted by a different piece of code, and what follows a loop is left out where the compiler thinks it is unreachable; which code is wrong depends on the shape of the whole loop.", "anchors": ["typed_python/compiler/function_conversion_context.py:FunctionConversionContext.convert_iteration_expression", "typed_python/compiler/for_loop_codegen.py:rewriteIntiterForLoop", "typed_python/compiler/type_wrappers/tuple_wrapper.py:TupleWrapper.get_iteration_expressions"]}
{"id": "C68", "title": "range in compiled code is Python's range", "statement": "In compiled code, a for loop over range(start, stop, step) visits start, start + step, start + 2*step, ... as long as these are before stop, next on its iterator produces the same items and then raises StopIteration for ever, and len, truth, indexing, in and == of a range speak of these items.", "quantifier": "all 64-bit integers start, stop and step", "why_tests_cant": "The number of items is computed with wrapping arithmetic; a test samples small ranges, and the values where it goes wrong are the extreme ones.", "anchors": ["typed_python/compiler/type_wrappers/range_wrapper.py:RangeCls", "typed_python/compiler/type_wrappers/range_wrapper.py:RangeIterator", "typed_python/compiler/type_wrappers/tuple_wrapper.py:TupleWrapper"]}
{"id": "C69", "title": "Comprehensions in compiled code make what they make in Python", "statement": "A list, set or dict comprehension in a compiled function makes the container that the nested for and if blocks, from left to right, would fill, evaluates the leftmost iterable in the enclosing scope, and raises and changes what they would raise and change.", "quantifier": "all comprehensions: any number of for and if clauses, any iterables, tests and elements, any contents of the iterables", "why_tests_cant": "A comprehension is rewritten to a function; whether the nesting, the order of tests and the scopes survive depends on its shape and on its data, and the existing tests have one for clause.", "anchors": ["typed_python/python_ast.py:evaluateFunctionDefWithLocalsInCells", "typed_python/compiler/function_conversion_context.py:ComprehensionConversionContextBase", "typed_python/compiler/type_wrappers/python_typed_function_wrapper.py:PythonTypedFunctionWrapper.convert_comprehension"]}
{"id": "C70", "title": "The built-in SHA-1 is SHA-1", "statement": "The digest of a byte string, hashed in one piece or in any number of pieces, is the SHA-1 of FIPS 180-4; the sum of two hashes is the SHA-1 of the one followed by the other, the same in C++ as in Python, and poison if one of them is poison.", "quantifier": "all byte strings, all ways to cut them into pieces, all pairs of hashes", "why_tests_cant": "A test compares a few messages; the buffering depends on the lengths of all the pieces, the padding on the length of the whole, and the length counter is wrong only for messages no test would hash.", "anchors": ["typed_python/Sha1.cpp:mbedtls_internal_sha1_process", "typed_python/Sha1.cpp:mbedtls_sha1_update_ret", "typed_python/Sha1.cpp:mbedtls_sha1_finish_ret", "typed_python/ShaHash.hpp:ShaHash", "typed_python/hash.py:Hash"]}
{"id": "C71", "title": "sha_hash tells values apart", "statement": "Every value made of None, bools, numbers, strings, bytes and tuples has a sha_hash, equal values have equal hashes, and two different values have the same hash only if SHA-1 itself collides on messages hashed on the way.", "quantifier": "all values, nested to any depth, all pairs of them", "why_tests_cant": "That no two of infinitely many values share a hash is not testable; which encodings coincide is a question about all pairs of types.", "anchors": ["typed_python/hash.py:sha_hash", "typed_python/hash.py:Hash.from_integer", "typed_python/hash.py:Hash.__add__"]}
{"id": "C72", "title": "identityHash tells constants apart", "statement": "Two constants (None, bools, integers, strings, bytes, floats, builtin types) have the same identityHash only if they are the same constant of the same type or SHA-1 collides on messages hashed on the way, so that code that differs in a constant is never taken for the same code.", "quantifier": "all pairs of constants", "why_tests_cant": "A test compares a few pairs; the integers for which the hash drops bits are those beyond 64 bits.", "anchors": ["typed_python/MutuallyRecursiveTypeGroup.cpp:MutuallyRecursiveTypeGroup::shaHashOfSimplePyObjectConstant", "typed_python/_types.cpp:identityHash", "typed_python/ShaHash.hpp:ShaHash"]}
{"id": "C73", "title": "Classes are ordered as in Python", "statement": "A class statement gives the new class the method resolution order that Python's C3 rule gives it, and fails exactly if Python's rule has none: the class comes first, every class comes before its bases, bases keep the order in which they were written, the order of a class is kept in those of its subclasses, and issubclass holds exactly for the classes in the order.", "quantifier": "all histories of class statements, any number of classes and bases", "why_tests_cant": "Whether a hierarchy has an order depends on all its classes; a test builds a few diamonds.", "anchors": ["typed_python/HeldClassType.hpp:HeldClass::_computeMroSequence", "typed_python/HeldClassType.cpp:HeldClass::Make", "typed_python/internals.py:ClassMetaclass.__new__"]}
{"id": "C74", "title": "Instances of subclasses are laid out as their superclasses expect", "statement": "A class has the data members of each of its superclasses, in the same order and before its own, with no name used twice; compiled code that knows an instance only as one of a superclass finds every member where the interpreter keeps it; members overlap neither each other nor the bits that say which are initialized; and a class declared final has no subclasses.", "quantifier": "all histories of class statements, all pairs of a class and a superclass, all members of any sizes", "why_tests_cant": "The place of a member depends on all bases of all classes above; code compiled against one class runs on instances of classes made later.", "anchors": ["typed_python/HeldClassType.hpp:HeldClass::initializeMRO", "typed_python/HeldClassType.cpp:HeldClass::Make", "typed_python/HeldClassType.cpp:HeldClass::updateBytesOfInitBits", "typed_python/compiler/type_wrappers/class_wrapper.py:ClassWrapper.memberPtr"]}
{"id": "C75", "title": "What the compiler concludes from two classes is true", "statement": "Where compiled code decides an isinstance test without looking at the instance, the answer is right for every instance that can get there: it says yes exactly if the one class is a subclass of the other, and no only if no class, existing or defined later, is a subclass of both.", "quantifier": "all histories of class statements, before and after the code is compiled", "why_tests_cant": "The answer has to hold for classes that do not exist yet.", "anchors": ["typed_python/compiler/type_wrappers/class_wrapper.py:classCouldBeInstanceOf"]}
{"id": "C76", "title": "Attributes of instances are found as in Python, compiled or not", "statement": "An attribute of an instance is the one defined by the first class of the method resolution order whose body binds the name, overloads of later classes following those of earlier ones; and compiled code that knows the instance as one of any superclass finds the same attribute as the interpreter.", "quantifier": "all histories of class statements, all names, all pairs of a class and a superclass", "why_tests_cant": "Six kinds of definitions are kept in separate tables which the interpreter and the compiler search in different orders; a test covers a few combinations.", "anchors": ["typed_python/HeldClassType.hpp:HeldClass::mergeOwnFunctionsIntoInheritanceTree", "typed_python/PyClassInstance.cpp:PyClassInstance::tpGetattrGeneric", "typed_python/compiler/type_wrappers/class_wrapper.py:ClassWrapper.convert_attribute"]}
{"id": "C77", "title": "A method call in compiled code runs the method of the instance's own class", "statement": "However threads are interleaved that define classes, load compiled modules, compile methods and call them, a call of a method on an instance that the caller knows as one of any superclass runs the function compiled for the instance's own class, that superclass and the types of the call; it never jumps through an empty or moved table; a call whose method compiles is made; and casts to superclasses and back keep the right table.", "quantifier": "all interleavings of class statements, loads, compilations and calls of any number of threads, all hierarchies, all chains of casts", "why_tests_cant": "The tables are shared, grow while other threads read them, and are copied into classes made later; a test runs a few schedules.", "anchors": ["typed_python/HeldClassType.hpp:ClassDispatchTable", "typed_python/HeldClassType.hpp:HeldClass::allocateMethodDispatch", "typed_python/_runtime.cpp:np_compileClassDispatch", "typed_python/compiler/type_wrappers/class_wrapper.py:ClassWrapper.dispatchToSingleOverload", "typed_python/compiler/python_to_native_converter.py:PythonToNativeConverter.compileSingleClassDispatch"]}
{"id": "C78", "title": "The compiler cache survives crashes and concurrent use", "statement": "However processes that share a compiler cache are interleaved, and wherever they are killed, every module that a process can see in it is complete, as are the modules it was linked with, and these define all the functions it calls; a starting process never fails over what others left behind; what a process loads is loaded once, after everything it needs; what was compiled by a process that is gone is still there; and looking in the cache ends without errors.", "quantifier": "all numbers of processes, all interleavings of their steps down to single files, all crash points, all call graphs", "why_tests_cant": "A crash between two writes or a rename in another process is not something a test can place; the states of the directory are unbounded.", "anchors": ["typed_python/compiler/native_compiler/compiler_cache.py:CompilerCache.writeModuleToDisk", "typed_python/compiler/native_compiler/compiler_cache.py:CompilerCache.addModule", "typed_python/compiler/native_compiler/compiler_cache.py:CompilerCache.loadNameManifestFromStoredModuleByHash", "typed_python/compiler/native_compiler/compiler_cache.py:CompilerCache.loadModuleByHash"]}
{"id": "C79", "title": "The compiler cache changes how fast functions are compiled, not whether they work", "statement": "A function that was compiled before, by any process, is found by processes started later if they can use its module; asking whether a function is defined gives an answer, yes only if it is loaded, and no only if no module with it can be used, and then it can be compiled; a function that is defined can be fetched, is that of a module which defines it, and does not change.", "quantifier": "all histories of all processes that share a cache, all call graphs, all changes of what each process can use", "why_tests_cant": "What is in the cache depends on everything that ran before, possibly with other versions of the program.", "anchors": ["typed_python/compiler/native_compiler/native_compiler.py:NativeCompiler.isFunctionDefined", "typed_python/compiler/native_compiler/native_compiler.py:NativeCompiler.functionPointerByName", "typed_python/compiler/native_compiler/native_compiler.py:NativeCompiler.addFunctions", "typed_python/compiler/native_compiler/compiler_cache.py:CompilerCache.loadForSymbol", "typed_python/compiler/native_compiler/compiler_cache.py:CompilerCache.markModuleHashInvalid"]}
{"id": "C80", "title": "A nested function in compiled code sees the variables around it", "statement": "In a compiled function, every variable that a nested function, lambda, comprehension or class takes from the enclosing function by Python's rules of scope is kept where the nested code finds it, so that such code compiles; nothing else is; and the variables of a function are those Python makes local to it.", "quantifier": "all function bodies: all nestings of functions, lambdas, comprehensions and classes, all parameters and names", "why_tests_cant": "Scoping is decided for whole programs of any depth; a test shows one nesting at a time.", "anchors": ["typed_python/compiler/python_ast_analysis.py:computeVariablesReadByClosures", "typed_python/compiler/python_ast_analysis.py:computeReadVariables", "typed_python/compiler/python_ast_analysis.py:computeVariablesAssignmentCounts", "typed_python/compiler/function_conversion_context.py:ConversionContextBase.functionDefToClosurelessFunction"]}
{"id": "C81", "title": "Code inside a generator uses the generator's variables and no others", "statement": "When a generator is compiled, every use of one of its variables, at any depth of nested functions, lambdas and comprehensions, refers to the variable kept in the generator object; names that nested code binds itself, and all other names, keep their meaning.", "quantifier": "all bodies of generators, all sets of variables, all nestings", "why_tests_cant": "The rewriting is recursive over the syntax; a test covers one shape of program.", "anchors": ["typed_python/compiler/generator_codegen.py:GeneratorCodegen._changeInteriorObject"]}
{"id": "C82", "title": "A local function means the same in compiled code, whatever was executed", "statement": "A variable holding a local function has, in compiled code, the value Python gives it after the same statements were executed.", "quantifier": "all function bodies, all sequences of executed bindings, all arguments", "why_tests_cant": "Compiled code assumes that a function defined once has been defined, for all paths through the body.", "anchors": ["typed_python/compiler/function_conversion_context.py:FunctionConversionContext.__init__", "typed_python/compiler/function_conversion_context.py:ConversionContextBase.localVariableExpression", "typed_python/compiler/function_conversion_context.py:ConversionContextBase.closurePathToName"]}
{"id": "C83", "title": "Default values of local functions are those of Python", "statement": "A call in compiled code of a local function that leaves out an argument passes the value the default had when the function's definition was executed.", "quantifier": "all default expressions, all values of local and global variables", "why_tests_cant": "The default may be any expression over the variables of the enclosing call.", "anchors": ["typed_python/compiler/function_conversion_context.py:ConversionContextBase.functionDefToClosurelessFunction", "typed_python/python_ast.py:evaluateFunctionDefWithLocalsInCells", "typed_python/compiler/expression_conversion_context.py:ExpressionConversionContext.computeFunctionArgumentMapping"]}
{"id": "C84", "title": "Generated code does what its native expressions say", "statement": "Code generated for a compiled function runs the calls of the function in the order its native expressions say, whatever throws and wherever it returns: every handler, cleanup and teardown runs exactly where it should, a jump out of nested cleanups reaches the block it names after running them all, and generating the code never fails an assertion.", "quantifier": "all nestings of branches, loops, try/catch, propagators, cleanups and returns to named blocks; all choices of which calls throw and which tests hold", "why_tests_cant": "Every combination of nested control flow with every way to leave it is a different piece of generated code.", "anchors": ["typed_python/compiler/native_compiler/native_ast_to_llvm_function_converter.py:TeardownHandler", "typed_python/compiler/native_compiler/native_ast_to_llvm_function_converter.py:FunctionConverter.convert", "typed_python/compiler/native_compiler/native_ast.py:Expression", "typed_python/compiler/expression_conversion_context.py:ExpressionConversionContext"]}
{"id": "C85", "title": "Temporaries of compiled code are destroyed exactly once", "statement": "Every temporary value that a compiled function makes is destroyed exactly once before the function ends, on every path: normal, exceptional, by return, break or continue; none is destroyed that was not made.", "quantifier": "all bodies built from the compiler's contexts, all executions", "why_tests_cant": "A leak or double free may need one particular call to throw inside one particular nesting.", "anchors": ["typed_python/compiler/expression_conversion_context.py:ExpressionConversionContext.push", "typed_python/compiler/expression_conversion_context.py:ExpressionConversionContext.allocateUninitializedSlot", "typed_python/compiler/expression_conversion_context.py:ExpressionConversionContext.markUninitializedSlotInitialized", "typed_python/compiler/expression_conversion_context.py:ExpressionConversionContext.finalize"]}
{"id": "C86", "title": "Variables bound by except clauses, and operands of chained comparisons, are destroyed once and not used afterwards", "statement": "In compiled code the exception that `except T as x` binds is destroyed exactly once when the handler ends, however it ends and whatever x held before; operands of a chained comparison are evaluated once and live until they are compared.", "quantifier": "all bodies and handlers, all nestings, all lengths of chains, all executions", "why_tests_cant": "A double free does not show in most runs.", "anchors": ["typed_python/compiler/function_conversion_context.py:FunctionConversionContext.convert_statement_ast", "typed_python/compiler/function_conversion_context.py:FunctionConversionContext.assignToLocalVariable", "typed_python/compiler/expression_conversion_context.py:ExpressionConversionContext.convert_expression_ast"]}
{"id": "C87", "title": "any, all, min and max in compiled code are Python's", "statement": "any, all, min and max give in compiled code the result, or the exception, they give in Python; they look at the same elements, call the key once for each and make the same comparisons in the same order; ties go to the first; nothing leaks.", "quantifier": "all sequences of any elements; all truth values, keys and comparisons, with any effects and exceptions", "why_tests_cant": "A test has a few sequences; the ones that tell any from all were not among them.", "anchors": ["typed_python/compiler/type_wrappers/all_any_wrapper.py:AnyWrapper", "typed_python/compiler/type_wrappers/min_max_wrapper.py:MinMaxWrapper.convert_call", "typed_python/compiler/type_wrappers/min_max_wrapper.py:i_min_key"]}
{"id": "C88", "title": "Slices of a TupleOf in compiled code are Python's", "statement": "A slice of a TupleOf in compiled code has the elements of the same slice in Python, for every start, stop and step.", "quantifier": "all tuples, all starts, stops and steps", "why_tests_cant": "Empty results and empty tuples take other representations.", "anchors": ["typed_python/compiler/type_wrappers/tuple_of_wrapper.py:list_or_tupleof_of_slice", "typed_python/compiler/type_wrappers/tuple_of_wrapper.py:PreReservedTupleOrList"]}
{"id": "C89", "title": "Set methods in compiled code compute set algebra", "statement": "Membership, add, discard, remove, pop, clear, copies, unions, intersections, differences, symmetric differences, the updating forms of these, subset, superset and disjointness tests and the six comparisons of Set(T) give in compiled code the answers of mathematical set algebra, also for sets changed by the interpreter in between, with sets or other iterables as arguments, and with the set itself as argument.", "quantifier": "all programs of compiled and interpreted calls on any number of Set objects; all element types with a lawful hash and equality", "why_tests_cant": "The operators choose among algorithms by the sizes of the sets, and loop over a set that may be the one they change; tests use distinct sets.", "anchors": ["typed_python/compiler/type_wrappers/set_wrapper.py:set_union", "typed_python/compiler/type_wrappers/set_wrapper.py:set_symmetric_difference_update", "typed_python/compiler/type_wrappers/set_wrapper.py:SetWrapper.convert_method_call", "typed_python/compiler/type_wrappers/set_wrapper.py:SetIterator", "typed_python/compiler/type_wrappers/hash_table_implementation.py:set_add_or_remove"]}
{"id": "C90", "title": "Types are grouped with exactly the types they are mutually recursive with", "statement": "Asking for the recursive group of a type or object never raises an internal error and always finishes; afterwards everything it refers to, directly or not, has a group, two of these have the same group exactly when each refers to the other, each has one index in its group, and a group once given never changes - also when several threads ask for overlapping types at the same time.", "quantifier": "all graphs of objects and types; all numbers of threads, calls and schedules of their steps; bounds on the number of steps for all finite graphs", "why_tests_cant": "The search merges groups on a stack while other threads may register the same objects between two steps; tests use small graphs and one thread.", "anchors": ["typed_python/MutuallyRecursiveTypeGroup.cpp:MutuallyRecursiveTypeGroup::ensureRecursiveTypeGroup", "typed_python/MutuallyRecursiveTypeGroup.cpp:MutuallyRecursiveTypeGroupSearch", "typed_python/MutuallyRecursiveTypeGroup.cpp:MutuallyRecursiveTypeGroup::buildCompilerRecursiveGroup"]}
{"id": "C91", "title": "Identity hashes are the same in every process", "statement": "The identity hash of a type, function or object is the same in all processes in which it looks the same to the compiler: it does not depend on memory addresses, on which types were hashed before, on the order of those calls or on the schedule of threads.", "quantifier": "all graphs of objects and types; all placements of objects in memory; all histories and schedules of calls in both processes", "why_tests_cant": "The objects of a group are kept in a set ordered by address and the root is chosen from maps filled in that order; a test runs in one memory layout.", "anchors": ["typed_python/MutuallyRecursiveTypeGroup.cpp:MutuallyRecursiveTypeGroup::computeRoot", "typed_python/MutuallyRecursiveTypeGroup.cpp:MutuallyRecursiveTypeGroup::computeHash", "typed_python/MutuallyRecursiveTypeGroup.cpp:MutuallyRecursiveTypeGroup::shaHash", "typed_python/Type.hpp:Type::identityHash"]}
{"id": "C92", "title": "Types with the same identity hash are interchangeable", "statement": "Two types or functions have the same identity hash only if the compiler cannot tell them apart: following what they refer to, to any depth, finds the same things. The runtime treats two types as equivalent only in that case.", "quantifier": "all graphs of objects and types, in one process or in two; all histories and schedules; any hash function without collisions", "why_tests_cant": "It is a statement about all pairs of types; tests compare a few, and the interesting ones are infinite as trees.", "anchors": ["typed_python/MutuallyRecursiveTypeGroup.cpp:MutuallyRecursiveTypeGroup::computeTopoHash", "typed_python/CompilerVisibleObjectVisitor.hpp:CompilerVisibleObjectVisitor::walk", "typed_python/Type.hpp:Type::typesEquivalent"]}
{"id": "C93", "title": "A more permissive conversion never changes the result of a stricter one", "statement": "If a Python value converts to a type at some conversion level, then at every more permissive level it converts too, and to the same value. So whether a value arrives through an assignment, an argument or an explicit call of the type, wherever two of these accept it they store the same.", "quantifier": "all types built from None, numbers, str, bytes, constants, TupleOf, ListOf, Tuple, NamedTuple and OneOf, to any depth; all Python values; all pairs of levels", "why_tests_cant": "Each type has its own rules for the level of its parts; a test fixes a type, a value and two levels.", "anchors": ["typed_python/PyInstance.cpp:PyInstance::copyConstructFromPythonInstance", "typed_python/ConversionLevel.hpp:ConversionLevel", "typed_python/PyTupleOrListOfInstance.cpp:PyTupleOrListOfInstance::copyConstructFromPythonInstanceConcrete", "typed_python/PyCompositeTypeInstance.cpp:PyCompositeTypeInstance::copyConstructFromPythonInstanceConcrete", "typed_python/PyOneOfInstance.hpp:PyOneOfInstance"]}
{"id": "C94", "title": "OneOf takes the first alternative that accepts a value with the least conversion", "statement": "A value stored in a OneOf becomes the alternative that accepts it at the least conversion level, the first such in the order they were given. Whether a value is accepted depends neither on the order nor on the nesting of alternatives. A OneOf has each alternative once, those of nested OneOfs in their place, and its default is that of the first alternative that has one.", "quantifier": "all lists of alternatives, nested to any depth; all Python values; all levels", "why_tests_cant": "The quick test that skips alternatives must never skip one that would have accepted; it is a statement about all values and types.", "anchors": ["typed_python/PyOneOfInstance.hpp:PyOneOfInstance", "typed_python/PyInstance.cpp:PyInstance::pyValCouldBeOfType", "typed_python/OneOfType.cpp:OneOfType::Make", "typed_python/OneOfType.cpp:OneOfType::constructor"]}
{"id": "C95", "title": "Values keep their type in a OneOf, and what is read from a variable can be stored back", "statement": "A value whose type is one of the alternatives of a OneOf is stored as that type. A value read from typed storage and converted to the type of the storage, at any level, is stored as it was and reads the same.", "quantifier": "all types and all values of them, choices with constants included; all levels", "why_tests_cant": "Constants, booleans, integers and floats overlap under Python equality; tests try a few combinations.", "anchors": ["typed_python/PyOneOfInstance.hpp:PyOneOfInstance", "typed_python/PyValueInstance.hpp:PyValueInstance", "typed_python/PyRegisterTypeInstance.hpp:PyRegisterTypeInstance::compare_to_python_concrete", "typed_python/PyInstance.cpp:PyInstance::extractPythonObject"]}
{"id": "C96", "title": "Upcasting keeps the content of a value", "statement": "A conversion at the levels up to UpcastContainers stores what it was given: numbers with their value, text and bytes unchanged, sequences item by item in order, dictionaries and named tuples part by part with the default for what is missing, nothing dropped.", "quantifier": "all types, nested to any depth; all Python values; all levels up to UpcastContainers", "why_tests_cant": "Widths, signs and nesting multiply; tests try boundary values of a few pairs.", "anchors": ["typed_python/RegisterTypes.hpp:isValidUpcast", "typed_python/PyRegisterTypeInstance.hpp:PyRegisterTypeInstance::copyConstructFromPythonInstanceConcrete", "typed_python/PyCompositeTypeInstance.cpp:PyNamedTupleInstance::constructFromPythonArgumentsConcreteWithLevel"]}
{"id": "C97", "title": "What a conversion stores is a value of its type", "statement": "Whatever is converted, at whatever level, the storage then holds a value of the type: every number in the range of its machine type, every item, field and alternative a value of its own type, and every missing field a default of its type.", "quantifier": "all types, nested to any depth; all Python values; all levels", "why_tests_cant": "Storage is raw memory that the compiled code trusts; a test sees one conversion.", "anchors": ["typed_python/PyInstance.cpp:PyInstance::copyConstructFromPythonInstance", "typed_python/PyTupleOrListOfInstance.cpp:PyTupleOrListOfInstance::copyConstructFromPythonInstanceConcrete", "typed_python/CompositeType.cpp:CompositeType::constructor"]}
{"id": "C98", "title": "Comparing values of a type is the lexicographic order of their contents", "statement": "The six comparison operators between two values of one type without NaN agree with one total order: None and text as in Python, numbers by value, sequences and tuples lexicographically with a proper prefix first, OneOfs by alternative first, Alternatives by case first and then by fields. Exactly one of <, == and > holds, <= is < or ==, != is not ==, < is transitive, and equal values cannot be told apart by comparing them with others.", "quantifier": "all types built from None, numbers, floats, str, bytes, TupleOf, ListOf, Tuple, NamedTuple, OneOf and Alternative, recursive ones included; all pairs and triples of values", "why_tests_cant": "The operators are separate code paths with early exits per type; that they fit together is a statement about all pairs and triples of nested values.", "anchors": ["typed_python/Type.cpp:Type::cmp", "typed_python/CompositeType.cpp:CompositeType::cmp", "typed_python/TupleOrListOfType.cpp:TupleOrListOfType::cmp", "typed_python/OneOfType.cpp:OneOfType::cmp", "typed_python/AlternativeType.cpp:Alternative::cmp", "typed_python/RegisterTypes.hpp:RegisterType::cmp"]}
{"id": "C99", "title": "Equal values have equal hashes", "statement": "Two values of one type that compare equal have the same hash, so either finds the other in a Dict or Set; and the hash given to Python is never -1, which Python takes for an error.", "quantifier": "all types as in C98; all pairs of values without NaN", "why_tests_cant": "0.0 and -0.0, cached hashes and nested choices must all agree; a test tries a few pairs.", "anchors": ["typed_python/HashAccumulator.hpp:HashAccumulator", "typed_python/TupleOrListOfType.cpp:TupleOrListOfType::hash", "typed_python/CompositeType.cpp:CompositeType::hash", "typed_python/OneOfType.cpp:OneOfType::hash", "typed_python/AlternativeType.cpp:Alternative::hash", "typed_python/PyInstance.cpp:PyInstance::tp_hash"]}
{"id": "C100", "title": "Compiled code compares and hashes values as the interpreter does", "statement": "For two values of one type, each comparison operator in a compiled function gives what the interpreter gives, and hash() gives the same number; so a Dict or Set filled by one is searched correctly by the other.", "quantifier": "all types as in C98; all pairs of values and all operators", "why_tests_cant": "There are two implementations, C++ and generated code, per type; agreement is a statement about all nested values.", "anchors": ["typed_python/compiler/type_wrappers/tuple_of_wrapper.py:tuple_compare_eq", "typed_python/compiler/type_wrappers/tuple_wrapper.py:TupleWrapper", "typed_python/compiler/type_wrappers/one_of_wrapper.py:OneOfWrapper", "typed_python/compiler/type_wrappers/hash_wrapper.py:HashWrapper", "typed_python/compiler/native_ast_to_llvm_function_converter.py:FunctionConverter"]}
{"id": "C101", "title": "Searching in compiled bytes finds what Python finds", "statement": "In a compiled function, find and rfind of a bytes object give the least and greatest place within the bounds where the bytes sought stand, or -1; index and rindex raise ValueError exactly where these give -1; count gives the number of occurrences one finds going from left to right without overlap; `in` says whether there is an occurrence; startswith and endswith compare with the ends of the slice; indexing and slicing treat negative and large bounds as Python does; partition and rpartition cut at the first and last occurrence.", "quantifier": "all bytes objects, all sought bytes, all bounds, negative ones included", "why_tests_cant": "Bounds, empty needles, overlaps and negative indices multiply; a test tries a few.", "anchors": ["typed_python/compiler/type_wrappers/bytes_wrapper.py:bytes_find", "typed_python/compiler/type_wrappers/bytes_wrapper.py:bytes_rfind", "typed_python/compiler/type_wrappers/bytes_wrapper.py:bytes_count", "typed_python/compiler/type_wrappers/bytes_wrapper.py:bytes_index", "typed_python/compiler/type_wrappers/bytes_wrapper.py:bytes_startswith_range", "typed_python/compiler/type_wrappers/bytes_wrapper.py:bytes_endswith_range", "typed_python/compiler/type_wrappers/bytes_wrapper.py:bytes_partition", "typed_python/compiler/type_wrappers/bytes_wrapper.py:bytes_rpartition"]}
{"id": "C102", "title": "Compiled bytes split and join as Python's", "statement": "split and rsplit cut at the separator from the left and from the right, at most maxsplit times, or into words between ASCII white space; splitlines cuts at line ends; join puts the separator between the parts; joining what split gives with the same separator restores the bytes; an empty separator raises ValueError.", "quantifier": "all bytes objects, separators and limits", "why_tests_cant": "The limits, adjacent separators and ends interact; tests try a few inputs.", "anchors": ["typed_python/BytesType.cpp:BytesType::split", "typed_python/BytesType.cpp:BytesType::rsplit", "typed_python/BytesType.cpp:BytesType::splitlines", "typed_python/BytesType.cpp:BytesType::join"]}
{"id": "C103", "title": "The other methods of compiled bytes do what Python's do", "statement": "isalnum, isalpha, isdigit, islower, isspace, istitle and isupper, upper, lower, capitalize, swapcase and title, strip, lstrip and rstrip with and without an argument, +, *, ljust, rjust, center, zfill, expandtabs, replace, translate and maketrans give in a compiled function what they give in Python.", "quantifier": "all bytes objects and all arguments", "why_tests_cant": "Each method has its own loop over bytes of any length; tests try short inputs.", "anchors": ["typed_python/BytesType.cpp:BytesType::title", "typed_python/BytesType.cpp:BytesType::lower", "typed_python/BytesType.cpp:BytesType::strip", "typed_python/BytesType.cpp:BytesType::concatenate", "typed_python/BytesType.cpp:BytesType::mult", "typed_python/BytesType.cpp:BytesType::replace", "typed_python/BytesType.cpp:BytesType::translate", "typed_python/BytesType.cpp:BytesType::maketrans", "typed_python/compiler/type_wrappers/bytes_wrapper.py:bytes_center", "typed_python/compiler/type_wrappers/bytes_wrapper.py:bytes_isalnum", "typed_python/compiler/type_wrappers/bytes_wrapper.py:bytes_istitle", "typed_python/compiler/type_wrappers/bytes_wrapper.py:bytes_expandtabs", "typed_python/compiler/type_wrappers/bytes_wrapper.py:bytes_zfill"]}
{"id": "C104", "title": "Bytes objects are compared and hashed by their bytes", "statement": "The comparison operators between bytes objects, in compiled code, in the interpreter and inside containers, are those of the lexicographic order of the bytes, however the objects were made; equal bytes have equal hashes, and so are the same key of a Dict.", "quantifier": "all pairs of bytes objects, whatever operation made them", "why_tests_cant": "An empty result can be represented in two ways, and every operation chooses one of them.", "anchors": ["typed_python/BytesType.cpp:BytesType::cmp", "typed_python/BytesType.cpp:BytesType::cmpStatic", "typed_python/BytesType.cpp:BytesType::hash", "typed_python/PyBytesInstance.hpp:PyBytesInstance", "typed_python/compiler/type_wrappers/bytes_wrapper.py:BytesWrapper"]}
{"id": "C105", "title": "float(text), float(bytes) and int(bytes) read what Python reads", "statement": "In a compiled function, float() of a string or bytes object and int() of a bytes object succeed exactly on the texts Python accepts: a number with optional sign, point, exponent and single underscores between digits, or inf, infinity or nan in any case, with white space around; the result is the number the whole text stands for, and anything else raises ValueError.", "quantifier": "all strings and bytes objects of any length", "why_tests_cant": "The language is infinite and the reader is a state machine with fourteen states; tests try a handful of literals.", "anchors": ["typed_python/StringType.cpp:StringType::to_float64", "typed_python/BytesType.cpp:BytesType::to_float64", "typed_python/BytesType.cpp:BytesType::to_int64", "typed_python/_runtime.cpp:np_str_to_float64"]}
{"id": "C106", "title": "Rows and diagonals share a matrix, everything else is a copy", "statement": "After any sequence of operations of the array package, m[i] and m.diagonal() show the entries of m and writing one of their elements changes exactly that entry of m and what other windows show of it; clones, transposes, flattened matrices and new matrices show the entries they were made of and never change when the original does; indices outside the shape raise.", "quantifier": "all sequences of operations on arrays and matrices of any shape and element type", "why_tests_cant": "Windows over one list with offset and strides interact through every operation; tests look at a few small shapes.", "anchors": ["typed_python/array/array.py:Array_", "typed_python/array/array.py:Matrix_"]}
{"id": "C107", "title": "Arithmetic on arrays and matrices is element by element", "statement": "a op b, a op= b and the functions of one argument give at each index the operation of the elements at that index, for every kind of array (whole, row of a matrix or of a transposed matrix, diagonal) and matrix, also when the operands share elements; operands of different shape are refused before anything changes, and nothing else changes.", "quantifier": "all reachable arrays and matrices, all shapes, all element operations including those that raise", "why_tests_cant": "Strides and sharing multiply the cases; a loop that overtakes the data it reads fails for particular layouts only.", "anchors": ["typed_python/array/array.py:Array_._inplaceBinop", "typed_python/array/array.py:Matrix_._inplaceBinop", "typed_python/array/fortran.py:axpy"]}
{"id": "C108", "title": "Products and inverses hand the library the right matrices", "statement": "m @ o, m @ a, a @ m and a @ b have as entries the sums of products of rows and columns, ~m is the inverse the library computes of m or NaN when it reports none, whatever the layout of the operands; shapes that do not fit are refused, and the operands do not change.", "quantifier": "all reachable arrays and matrices of any shape and layout", "why_tests_cant": "The library stores matrices by columns and the package by rows, possibly transposed; each combination of layout and shape is a different call.", "anchors": ["typed_python/array/array.py:Matrix_.__matmul__", "typed_python/array/array.py:Matrix_.__rmatmul__", "typed_python/array/array.py:Matrix_.__invert__", "typed_python/array/fortran.py:gemm", "typed_python/array/fortran.py:gemv"]}
{"id": "C109", "title": "What the compiler says in advance about a conversion is what happens", "statement": "When compiled code passes, returns or stores a value of one declared type where another is declared, the compiler decides beforehand that the conversion succeeds, fails or may fail. If it says that it succeeds, it does for every value; if it says that it fails, the interpreter refuses every value of that type too; and whenever compiled code reports success, a value of the target type has been stored.", "quantifier": "all pairs of types built of None, numbers, text, bytes, constants, TupleOf, ListOf, Tuple, NamedTuple and OneOf, nested to any depth, all values, all implicit conversion levels", "why_tests_cant": "Types nest without bound and each wrapper has its own rules at each level; the generated code skips the check exactly where the compiler was sure, so a wrong promise is memory that was never initialised.", "anchors": ["typed_python/compiler/type_wrappers/wrapper.py:can_convert_to_type", "typed_python/compiler/type_wrappers/wrapper.py:convert_to_type_with_target", "typed_python/compiler/type_wrappers/one_of_wrapper.py:convert_to_self_with_target", "typed_python/compiler/type_wrappers/tuple_of_wrapper.py:convert_to_self_with_target", "typed_python/compiler/type_wrappers/tuple_wrapper.py:convert_to_self_with_target"]}
{"id": "C110", "title": "Implicit conversions in compiled code give what they give in the interpreter", "statement": "A value converted implicitly to a declared type in compiled code becomes the same value, with the same alternative chosen in every OneOf, as the interpreter makes of it at the same conversion level, and is refused when the interpreter refuses it.", "quantifier": "all pairs of types built of None, numbers, text, bytes, constants, TupleOf, ListOf, Tuple, NamedTuple and OneOf, nested to any depth, all values, all implicit conversion levels", "why_tests_cant": "Two independent implementations, in Python and in C++, have to agree on infinitely many pairs of types at five levels; tests compare a few pairs.", "anchors": ["typed_python/compiler/type_wrappers/wrapper.py:convert_to_type", "typed_python/PyInstance.hpp:copyConstructFromPythonInstanceConcrete", "typed_python/PyOneOfInstance.hpp", "typed_python/compiler/type_wrappers/arithmetic_wrapper.py:convert_to_type_with_target"]}
{"id": "C111", "title": "Whatever bytes are deserialized, the result is a value of the type or an exception", "statement": "Deserializing bytes that were damaged, cut off or made up ends, and either raises an exception or returns a value of the type: numbers in range, as many fields as the type has, a choice the type offers, and references to objects that have the type they are used at. It never reads or writes outside its memory.", "quantifier": "all byte strings, all types of the serialization grammar, recursive ones included", "why_tests_cant": "There is no list of all ways to damage a message; counts, tags, references and lengths in it are all chosen by whoever wrote it, and each reader trusts different ones.", "anchors": ["typed_python/DeserializationBuffer.hpp:consumeCompoundMessage", "typed_python/DeserializationBuffer.hpp:lookupCachedPointer", "typed_python/TupleOrListOfType.hpp:deserialize", "typed_python/ConstDictType.hpp:deserialize", "typed_python/DictType.hpp:deserialize", "typed_python/SetType.hpp:deserialize", "typed_python/CompositeType.hpp:deserialize", "typed_python/StringType.hpp:deserialize"]}
{"id": "C112", "title": "A value written by one version of a program is read by another whose types gained or lost fields at the end", "statement": "Serialize with one version of a program, deserialize with another in which tuples and named tuples have fields added or dropped at the end, and OneOf and Alternative have cases added at the end, at any depth. The fields both versions know keep their values, fields the reader does not know are discarded whatever they contain, and fields the message does not have take their default values; nothing else of the stream is read.", "quantifier": "all pairs of versions of all types, all values, whatever stands behind the message in the stream", "why_tests_cant": "A test reads the handful of old files it has; which fields will be added, what their types contain, and which objects are shared between a field that is dropped and one that is kept is only known in the future.", "anchors": ["typed_python/CompositeType.hpp:deserialize", "typed_python/CompositeType.cpp:m_serialize_typecodes_to_position", "typed_python/DeserializationBuffer.hpp:finishReadingMessageAndDiscard", "typed_python/OneOfType.hpp:deserialize", "typed_python/TupleOrListOfType.hpp:serialize"]}
{"id": "C113", "title": "Comparing a typed value with a plain Python object answers what Python answers for the same contents", "statement": "Compare a typed number, text, bytes object, constant, OneOf, ListOf, TupleOf, Tuple or NamedTuple with a plain Python object, on either side of any of the six operators. The answer is the one Python gives when the typed value is replaced by the plain object with the same contents, and an error is raised exactly where Python raises one.", "quantifier": "all types, all their values, all plain Python objects, all six operators, either order of the operands", "why_tests_cant": "Tests compare a few small numbers and short texts; whether equality and order are right for texts of different lengths and widths, large numbers, NaN and objects of other kinds, nested at any depth, takes all pairs of values.", "anchors": ["typed_python/PyInstance.cpp:compare_to_python", "typed_python/PyRegisterTypeInstance.hpp:pyCompare", "typed_python/PyStringInstance.hpp:compare_to_python_concrete", "typed_python/PyBytesInstance.hpp:compare_to_python_concrete", "typed_python/PyTupleOrListOfInstance.cpp:compare_to_python_concrete", "typed_python/PyCompositeTypeInstance.cpp:compare_to_python_concrete", "typed_python/util.hpp:cmpResultToBoolForPyOrdering"]}
{"id": "C114", "title": "A type function runs once for its arguments and afterwards always gives the same type", "statement": "Call functions decorated as type functions in any order, letting them call each other and themselves. For equal arguments the function's body is run at most once; every later call gives the same type object, or raises the same exception, without running it. A call made while the same call is under way gives a forward type which becomes the result. When all is done no type mentions a forward without a definition, and asking which call made a type and making that call again gives the type. The order of keyword arguments and of the items of a dictionary argument makes no difference.", "quantifier": "all functions and all ways they call each other, all programs calling them, all arguments", "why_tests_cant": "Tests call a few functions in one order; whether the memo stays right when functions call each other in circles, fail half way or are called in another order takes all programs.", "anchors": ["typed_python/type_function.py:_buildTypeFunction", "typed_python/type_function.py:isTypeFunctionType", "typed_python/type_function.py:reconstructTypeFunctionType", "typed_python/ForwardType.hpp:define"]}
{"id": "C115", "title": "A function's source survives being made a typed tree and back", "statement": "Take the syntax tree of any Python program, make the typed tree of it that the compiler, the identity hash and serialization work on, and turn that back into a syntax tree. The result is the same program: the same nodes, names, constants and places, but for comments for type checkers; it is a tree that Python compiles, and doing it again changes nothing. With places left out, two programs have the same typed tree just when they differ in nothing but their places and file names.", "quantifier": "all syntax trees of Python 3.7 to 3.10 of any size and depth, all file names", "why_tests_cant": "Tests convert a few functions in the one version of Python they run in; a program nobody wrote yet, an operand in an unusual position or another version needs all trees.", "anchors": ["typed_python/python_ast.py:convertPyAstToAlgebraic", "typed_python/python_ast.py:convertAlgebraicToPyAst_", "typed_python/python_ast.py:convertAlgebraicToSlice", "typed_python/python_ast.py:convertFunctionToAlgebraicPyAst", "typed_python/python_ast.py:converters"]}
{"id": "C116", "title": "The source that is found for a function is its source", "statement": "When the compiler, the identity hash or serialization asks for the source of a function, what it gets is the source the function was made from, and after that it can also get the source of every function, class body, lambda and comprehension inside it, at any depth, each its own. Among several lambdas on a line the function's own is taken, or there is an error.", "quantifier": "all programs of any size and depth, all orders in which sources are asked for, all sets of functions on a line", "why_tests_cant": "Tests ask for a few functions written for them; which function gets which source depends on the order in which Python compiles each form of expression, and a wrong match shows in no error.", "anchors": ["typed_python/python_ast.py:cacheAstForCode", "typed_python/python_ast.py:replaceFirstComprehensionArg", "typed_python/python_ast.py:stripDecoratorFromFuncDef", "typed_python/compiler/python_ast_analysis.py:extractFunctionDefsInOrder", "typed_python/compiler/python_ast_util.py:pyAstForCode", "typed_python/compiler/python_ast_util.py:isPossibleAstFor"]}
{"id": "C117", "title": "A Dict or ConstDict compared with a plain dict answers what Python answers", "statement": "Comparing a Dict or a ConstDict with a Python object answers what Python answers for the plain dictionary with the same contents: equal exactly if the object is a dictionary with as many entries, and each key has an equal key with an equal value; ordering them is an error. The same with the plain dictionary on the left.", "quantifier": "all dictionaries of any size, all value types, all plain dictionaries with keys and values of any kind, both orders of the operands, all six operators", "why_tests_cant": "Tests compare a few dictionaries with the same keys in both; the answer depends on what each key of the other side becomes when it is converted, over an unlimited range of objects.", "anchors": ["typed_python/PyDictInstance.cpp:compare_to_python_concrete", "typed_python/PyConstDictInstance.cpp:compare_to_python_concrete", "typed_python/PyInstance.cpp:compare_to_python", "typed_python/RegisterTypes.hpp:isValidConversion"]}
{"id": "C118", "title": "What an overriding method returns has the type that the overridden methods promise", "statement": "If a method states a result type and the methods it overrides state theirs for the same arguments, then either every result of the call has all these types, or the call raises an exception that says the return types conflict. The result type is the nearest that is stated, and there is no exception when each stated type is a narrower one than those above it.", "quantifier": "all class hierarchies and orders of base classes, all lists of overloads, all arguments, all stated result types among classes, values, class objects and unions of them", "why_tests_cant": "Tests have one base class with one overload and one pair of types; which promise applies depends on which overload of each class above matches first, over hierarchies of any depth and unions of any size.", "anchors": ["typed_python/PyFunctionInstance.cpp:determineReturnTypeForMatchedCall", "typed_python/Type.cpp:canConvertToTrivially"]}
{"id": "C119", "title": "The result type the compiler expects for a method call is the one the interpreter enforces", "statement": "The type the compiler gives to the result of a method call covers the type the interpreter would convert the result to for each set of arguments that is possible there; the compiler expects an exception only where the interpreter raises one, and expects nothing only where no class states a type.", "quantifier": "all class hierarchies, all lists of overloads, all decided and undecided matches of argument types, all arguments", "why_tests_cant": "Tests compile a few hierarchies in which every overload states its type; the pathways multiply with the overloads that may match, and the tests have to pick the arguments.", "anchors": ["typed_python/compiler/type_wrappers/function_signature_calculator.py:FunctionSignatureCalculator", "typed_python/compiler/type_wrappers/python_typed_function_wrapper.py:convert_call", "typed_python/PyFunctionInstance.cpp:determineReturnTypeForMatchedCall"]}
{"id": "C120", "title": "Pointers into a list are pointers as in C", "statement": "For pointers into an array of elements, p + n points n elements further, p - q is the number of elements between them with its sign, comparisons follow the positions, p[n] = v changes that element and nothing else, p.x points to the member x of the element, and a pointer is false only if it is null; all this in compiled code and in the interpreter alike.", "quantifier": "all arrays of any length and element size anywhere in memory, all positions, all indices in both directions, all memory contents", "why_tests_cant": "Tests add one and subtract a pointer that is in front; signs, sizes and the overlap of elements are statements about all addresses.", "anchors": ["typed_python/PyPointerToInstance.cpp:pyOperatorConcrete", "typed_python/PointerToType.hpp:offsetBy", "typed_python/compiler/type_wrappers/pointer_to_wrapper.py:PointerToWrapper"]}
{"id": "C121", "title": "A frozen module of types has everything defined", "statement": "Reading a member of a Module before it is defined gives a forward, which the later assignment to this member defines. A member that is a type keeps it. freeze succeeds only if all members are types and every forward that the module gave out is defined; after that nothing can be assigned and members keep their types.", "quantifier": "all histories of reading, assigning, defining classes and freezing, with members of any names in any order, failing steps included", "why_tests_cant": "Tests define two classes in one order; that no order leaves an undefined forward in a frozen module is a statement about all histories.", "anchors": ["typed_python/module.py:Module", "typed_python/ForwardType.hpp:define"]}
{"id": "C122", "title": "An instantiated codebase is on the disk and can be imported", "statement": "Instantiating a codebase writes exactly its files, with their contents, below its directory and nothing elsewhere; its modules are those its files define, and its root modules are found in its directory from then on, whatever is instantiated later. Installed codebases have no root module in common, the same files are instantiated once, and reading a directory and instantiating it elsewhere gives the same Python files.", "quantifier": "all file maps and directory trees of any depth and size, all disks, all histories of making and instantiating codebases", "why_tests_cant": "Tests instantiate one codebase of three files; paths, clashes of names and orders of instantiation are unlimited.", "anchors": ["typed_python/Codebase.py:Codebase"]}
{"id": "C123", "title": "super() finds the method that Python finds", "statement": "In a method, super().f is the f of the first class after the method's class, in the order of the classes of the instance, whose body defines f, and it is the same one in the interpreter and in compiled code.", "quantifier": "all hierarchies of classes that any sequence of class statements makes, all classes in them, all method names", "why_tests_cant": "Tests call super() in one chain and in one diamond in which every class defines the method; hierarchies are unlimited.", "anchors": ["typed_python/compiler/type_wrappers/super_wrapper.py:SuperWrapper.convert_call", "typed_python/compiler/type_wrappers/super_wrapper.py:SuperInstanceWrapper.convert_attribute", "typed_python/PyClassInstance.cpp:mirrorTypeInformationIntoPyTypeConcrete"]}
{"id": "C124", "title": "A macro gives what its source text defines, and its source text stays available", "statement": "A call of a macro gives exactly the value that the returned name has after its lines have been executed in the globals of its function, hidden by the returned namespace; anything that does not have the documented format is refused. No call fails because of another call, and the compiler finds the lines of every call under its own file name ever after. A name that is missing is named in the error.", "quantifier": "all macros, all histories of calls of macros and of reading files, all source texts and namespaces, all programs", "why_tests_cant": "Tests call a few macros once or twice; histories, places and texts are unlimited.", "anchors": ["typed_python/macro.py:ConcreteMacro.__call__", "typed_python/macro.py:checkFormat", "typed_python/compiler/python_ast_util.py:getLines"]}
{"id": "C125", "title": "An iterator gives each item once and stays at the end", "statement": "In compiled code an iterator over a list, a tuple, a string or bytes gives the items one after another, each once, and then the end for ever, as in Python, also if a list changes in between; and a loop over an iterator goes on where it stands.", "quantifier": "all sequences, all numbers of calls, all changes of a list between the calls, all positions", "why_tests_cant": "Tests loop over sequences but hardly over iterators; sequences of changes and calls are unlimited.", "anchors": ["typed_python/compiler/type_wrappers/tuple_of_wrapper.py:TupleOrListOfIterator", "typed_python/compiler/type_wrappers/string_wrapper.py:StringIterator", "typed_python/compiler/type_wrappers/bytes_wrapper.py:BytesIterator", "typed_python/compiler/for_loop_codegen.py:rewriteIntiterForLoop"]}
{"id": "C126", "title": "The raw bytes of a list give the list again", "statement": "toBytes gives the bytes of the elements of a ListOf or TupleOf in their order, and fromBytes of these bytes gives a list or tuple with the same elements, in the interpreter and in compiled code; bytes that do not make up whole elements, elements that are not plain memory, and things that are not bytes are refused.", "quantifier": "all element sizes, all lists and tuples of any length, all byte strings", "why_tests_cant": "Tests convert one list of integers; sizes and lengths are unlimited.", "anchors": ["typed_python/PyTupleOrListOfInstance.cpp:toBytes", "typed_python/PyTupleOrListOfInstance.cpp:fromBytes", "typed_python/_runtime.cpp:tp_list_or_tuple_of_to_bytes", "typed_python/_runtime.cpp:tp_list_or_tuple_of_from_bytes"]}
{"id": "C127", "title": "A typed cell holds the value that was set last", "statement": "Reading a TypedCell gives the value that was set last, or an error if none was set since it was made or last cleared, and isSet says which; setting a value that cannot be converted changes nothing; this is the same for every mixture of interpreted and compiled operations, and == and != say whether two cells are the same cell.", "quantifier": "all histories of set, clear, get and isSet of any length, in the interpreter, in compiled code and mixed, for plain and other element types", "why_tests_cant": "Tests set and read a cell a few times in one of the two ways; histories are unlimited.", "anchors": ["typed_python/TypedCellType.hpp:TypedCellType", "typed_python/PyTypedCellInstance.hpp:PyTypedCellInstance", "typed_python/compiler/type_wrappers/typed_cell_wrapper.py:cell_clear"]}
{"id": "C128", "title": "A held object taken from a container is a reference during its statement and a copy afterwards", "statement": "What an expression takes out of a list or an instance that holds objects in place refers to the container until its statement ends, so that changes reach the container; when the next statement begins, an exception arrives or the frame is left it becomes a copy that nothing else changes; the container stays alive meanwhile, and a debugger's trace function is given the same events as without such references.", "quantifier": "all histories of taking, changing, statements, calls, exceptions, returns and sys.settrace, in any frames and threads", "why_tests_cant": "Tests take one object in a function with one statement on each line and no debugger; histories and layouts of code are unlimited.", "anchors": ["typed_python/PyTemporaryReferenceTracer.cpp:globalTraceFun", "typed_python/PyInstance.cpp:extractPythonObject", "typed_python/internals.py:extractCodeObjectNewStatementLineNumbers"]}
{"id": "C129", "title": "Compiled code gives up the interpreter lock and has it whenever it uses Python", "statement": "While compiled code runs, other Python threads can have the interpreter lock; whenever code uses Python objects, its thread has the lock, and no other thread uses Python at that time; the process never ends itself with an internal error, and a thread that wants to go back to Python can get the lock.", "quantifier": "all schedules of any number of threads, with the helper thread on or off at any time, and scopes nested in any way and to any depth", "why_tests_cant": "Tests run two threads with one schedule each; a missing lock shows only in rare schedules.", "anchors": ["typed_python/PyGilState.cpp:ReleaseableThreadState", "typed_python/PyGilState.cpp:gilReleaseThreadLoop", "typed_python/PyGilState.hpp:PyEnsureGilReleased"]}
{"id": "C130", "title": "A range of dates has the dates from the start up to the end", "statement": "daterange gives the dates after 0, stepSize, 2 stepSize ... days, weeks, months or years from the start, which it has, up to the end, which it does not have; in months that are too short it takes the last day without shortening later months; reversed gives them in reverse; it always ends.", "quantifier": "all existing dates from year 0 on, all step sizes, all kinds of steps, both directions", "why_tests_cant": "Tests try a few ranges; the calendar and the step sizes are unlimited.", "anchors": ["typed_python/lib/datetime/date_time_util.py:daterange"]}
{"id": "C131", "title": "Class values in compiled code are compared and converted by their actual class", "statement": "In compiled code with a class held as a SubclassOf(C), issubclass with a known class or with another class value is true exactly if the class held is a subclass; it converts to SubclassOf(D) exactly if it is a subclass of D, and stays the same class; it converts to the type D only if it is D; its class members are those of the class held; also for classes made after the code was compiled.", "quantifier": "all hierarchies of classes, all classes made after compilation, all static and actual classes", "why_tests_cant": "Tests use a few classes; hierarchies and later class statements are unlimited.", "anchors": ["typed_python/compiler/type_wrappers/subclass_of_wrapper.py:SubclassOfWrapper", "typed_python/_runtime.cpp:np_typePtrIsSubclass"]}
