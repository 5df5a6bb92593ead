{"id": "C01", "title": "Stream.transform maps every element in order", "statement": "Iterating stream.transform(f) yields exactly f(e0), f(e1), ... for the elements e0, e1, ... of the stream, with the same length; it neither drops, repeats nor reorders elements, also when the stream is infinite. Asking an iterator for more elements than there are throws invalid_argument.", "quantifier": "all streams (finite or infinite), all functions, all positions", "why_tests_cant": "streams are lazy and may be infinite; a test inspects finitely many elements of finitely many streams", "anchors": ["proptest/Stream.hpp: Stream::transform, Iterator::next", "proptest/Stream.cpp: Stream::tail"]}
{"id": "C02", "title": "Stream.filter keeps exactly the matching elements in order", "statement": "When iterating stream.filter(c) stops searching, the elements delivered are exactly those elements of the stream satisfying c, in their original order and multiplicity; the call fails to return only when the remaining stream is infinite and has no further match.", "quantifier": "all streams (finite or infinite), all predicates", "why_tests_cant": "needs every predicate and stream, including the infinite ones on which the search diverges", "anchors": ["proptest/Stream.hpp: Stream::filter"]}
{"id": "C03", "title": "Stream.concat is sequential composition", "statement": "a.concat(b) delivers all elements of a, then all elements of b; if a is infinite then b is never reached; concat is associative with the empty stream as identity.", "quantifier": "all streams, finite or infinite", "why_tests_cant": "algebraic law over infinitely many lazy streams", "anchors": ["proptest/Stream.cpp: Stream::concat"]}
{"id": "C04", "title": "Stream.take(n) delivers the first n elements", "statement": "For n >= 0, s.take(n) delivers exactly the first min(n, length) elements of s. A negative n never reaches the stop test, so the whole (shorter than 2^31 elements) stream is delivered.", "quantifier": "all streams and all n", "why_tests_cant": "quantifies over all counts and lengths including negative counts", "anchors": ["proptest/Stream.cpp: Stream::take"]}
{"id": "C05", "title": "Shrinkable.map maps every value of the shrink tree and preserves its shape", "statement": "shr.map(f) has value f(v) at every position at which shr has value v, and no other positions; map(id) changes nothing and map(g) after map(f) equals map(g o f).", "quantifier": "all shrink trees, all functions", "why_tests_cant": "shrink trees are arbitrarily deep and wide", "anchors": ["proptest/Shrinkable.cpp: ShrinkableAny::map"]}
{"id": "C06", "title": "Shrinkable.flatMap uses only the root of each produced shrinkable", "statement": "shr.flatMap(f) has at every position holding v the value of f(v); the shrinks of f(v) itself are discarded: the tree shape is that of shr.", "quantifier": "all shrink trees, all functions to shrinkables", "why_tests_cant": "tree-shaped induction; tests only see single trees", "anchors": ["proptest/Shrinkable.cpp: ShrinkableAny::flatMap, ShrinkableAny::mapShrinkable"]}
{"id": "C07", "title": "Shrinkable.filter: only accepted values, throws exactly when the root is rejected", "statement": "shr.filter(c) throws invalid_argument iff c rejects the value of shr; otherwise it keeps the value, every value reachable by shrinking satisfies c, and exactly those positions of the original tree remain all of whose ancestors (and itself) satisfy c.", "quantifier": "all shrink trees, all predicates", "why_tests_cant": "must hold for all positions of all trees", "anchors": ["proptest/Shrinkable.cpp: ShrinkableAny::filter(criteria)"]}
{"id": "C08", "title": "Shrinkable.filter with tolerance: sound, and descends through rejected values", "statement": "shr.filter(c, n) throws iff the root is rejected; every value reachable afterwards satisfies c and was reachable in the original tree; a rejected candidate is replaced in place by (at most) its first n shrinks, recursively; everything plain filter(c) can reach stays reachable.", "quantifier": "all shrink trees, all predicates, all tolerances", "why_tests_cant": "must hold for all positions of all trees and tolerances", "anchors": ["proptest/Shrinkable.cpp: ShrinkableAny::filter(criteria, tolerance)"]}
{"id": "C09", "title": "Shrinkable.concat appends further shrinks at every position", "statement": "shr.concat(then) keeps all original positions and values; at each position the shrinks offered are first the original ones and afterwards then(that position), and nothing else.", "quantifier": "all shrink trees, all continuations", "why_tests_cant": "must hold at every position of every tree", "anchors": ["proptest/Shrinkable.cpp: ShrinkableAny::concat, concatStatic"]}
{"id": "C10", "title": "Shrinkable.andThen continues only at dead ends", "statement": "shr.andThen(then) offers then(position) exactly at positions of shr that have no shrinks and leaves the shrinks of all other positions unchanged.", "quantifier": "all shrink trees, all continuations", "why_tests_cant": "must hold at every position of every tree", "anchors": ["proptest/Shrinkable.cpp: ShrinkableAny::andThen, andThenStatic"]}
{"id": "C11", "title": "Shrinkable.take bounds the branching everywhere", "statement": "After shr.take(n) with n >= 0 every position has at most n shrinks, namely the first n original ones (themselves pruned).", "quantifier": "all shrink trees, all n >= 0", "why_tests_cant": "must hold at every position of every tree", "anchors": ["proptest/Shrinkable.cpp: ShrinkableAny::take"]}
{"id": "C12", "title": "Integer shrinking never leaves the interval between zero and the value", "statement": "Every value reachable by shrinking the integer v lies between 0 and v (inclusive), and every step strictly decreases the distance to zero.", "quantifier": "all 64-bit signed and unsigned values, all shrink paths", "why_tests_cant": "2^64 values and exponentially many shrink paths", "anchors": ["proptest/generator/util.cpp: binarySearchShrinkable, binarySearchShrinkableU"]}
{"id": "C13", "title": "Integer shrinking is complete and non-redundant", "statement": "Every integer between 0 and v occurs in the shrink tree of v, and it occurs exactly once.", "quantifier": "all 64-bit signed and unsigned values", "why_tests_cant": "2^64 trees with up to 2^64 nodes each", "anchors": ["proptest/generator/util.cpp: binarySearchShrinkable, binarySearchShrinkableU"]}
{"id": "C14", "title": "Integer shrinking is logarithmic", "statement": "For every 64-bit value, a shrink path has at most 65 steps and every candidate list has at most 65 entries, and greedy shrinking of an integer v other than 0 evaluates the property at most 1 + ceil(log2 |v|) times, so at most 65 times.", "quantifier": "all 64-bit values, all shrink paths, all properties", "why_tests_cant": "worst case over 2^64 values", "anchors": ["proptest/generator/util.cpp: binarySearchShrinkable, binarySearchShrinkableU", "proptest/Property.hpp: shrinkN"]}
{"id": "C15", "title": "Shrinking a threshold property finds the exact threshold", "statement": "If a property fails for exactly the integers >= k with k >= 0 (or exactly those <= k with k <= 0) then greedy shrinking from any failing value on that side of zero ends at k.", "quantifier": "all thresholds k, all failing 64-bit start values", "why_tests_cant": "all pairs of threshold and start value", "anchors": ["proptest/generator/util.cpp: binarySearchShrinkable", "proptest/Property.hpp: shrinkN"]}
{"id": "C16", "title": "Integer shrinking performs no overflowing arithmetic", "statement": "Building and exploring the shrink tree of any 64-bit value, including the minimum and maximum, never executes signed arithmetic that overflows (undefined behaviour), and the unsigned variant never wraps around.", "quantifier": "all 64-bit signed and unsigned values, all explored positions", "why_tests_cant": "overflow would occur only for particular extreme values deep inside the tree", "anchors": ["proptest/generator/util.cpp: genpos, genneg"]}
{"id": "C17", "title": "interval(min,max): value and all shrinks lie in [min,max]", "statement": "For every integer type and min <= max within that type, interval<T>(min,max) produces, for any random engine state, a value in [min,max], every value reachable by shrinking is in [min,max], every step moves strictly closer to the point of [min,max] nearest to zero, and that point is reachable.", "quantifier": "all integer types (8 to 64 bits, signed/unsigned), all bounds, all random draws, all shrink paths", "why_tests_cant": "all bounds x draws x shrink paths", "anchors": ["proptest/generator/integral.hpp: generateInteger, interval"]}
{"id": "C18", "title": "inRange, integers, natural, nonNegative stay in their documented ranges", "statement": "inRange(from,to) generates and shrinks only within [from,to-1], integers(start,count) within [start,start+count-1], natural(max) within [1,max], nonNegative(max) within [0,max], whenever the documented range is non-empty and to, respectively start+count, is representable.", "quantifier": "all types, bounds, draws and shrink paths", "why_tests_cant": "boundary arithmetic must be right for all bounds including extremes", "anchors": ["proptest/generator/integral.hpp: natural, nonNegative, inRange, integers"]}
{"id": "C19", "title": "Empty integer ranges are never silently turned into values", "statement": "If the requested range is empty (min > max) generation never returns an out-of-range value: the distribution precondition is violated before (undefined behaviour) or 'invalid range' is thrown. The library performs no check of its own before drawing.", "quantifier": "all types and all bounds with min > max", "why_tests_cant": "quantifies over every invalid configuration", "anchors": ["proptest/generator/integral.hpp: generateInteger", "proptest/Random.cpp: getRandomInt8..getRandomUInt64"]}
{"id": "C20", "title": "Arbitrary integers: boundary table values belong to the type and shrink towards zero", "statement": "Arbi<T> for the eight fixed width integer types may return any table value; the table has the limits of the type and of all narrower types with their neighbours; every value of it is representable, every value reachable by shrinking is representable, and zero is reachable from every generated value.", "quantifier": "all eight types, all table indices, all draws", "why_tests_cant": "each table entry and each draw has its own tree of up to 2^64 nodes", "anchors": ["proptest/generator/integral.hpp: boundaryValues, Arbi<intN_t>", "proptest/generator/integral.cpp"]}
{"id": "C21", "title": "Arbi<char> draws from a valid range", "statement": "Arbitrary char generation draws from a non-empty range and yields a char. (Violated: with signed char the bounds -128..127 are converted to 128..127 as unsigned before drawing.)", "quantifier": "all random engine states", "why_tests_cant": "the failing path is undefined behaviour inside the standard library distribution", "anchors": ["proptest/Random.cpp: getRandom<char>", "proptest/generator/integral.cpp: Arbi<char>"]}
{"id": "C22", "title": "bool shrinks only from true to false", "statement": "A generated true shrinks to false and to nothing else; false does not shrink.", "quantifier": "all draws", "why_tests_cant": "trivial but part of the product and list theorems", "anchors": ["proptest/shrinker/bool.cpp: shrinkBool"]}
{"id": "C23", "title": "pair/tuple shrinking explores exactly the product", "statement": "A tuple value is reachable by shrinking tupleOf/pairOf values iff each component is reachable in its own component's shrink tree; the components that are not being shrunk keep their value.", "quantifier": "all arities, all component trees", "why_tests_cant": "all arities and trees", "anchors": ["proptest/shrinker/pair.hpp: PairShrinker", "proptest/shrinker/tuple.hpp: TupleShrinker"]}
{"id": "C24", "title": "List membership shrinking is sound", "statement": "Every list reachable by length shrinking is obtained from the generated list by deleting elements (order preserved), has at least minSize elements, and every step deletes at least one element.", "quantifier": "all lists, all minSize <= size, all shrink paths", "why_tests_cant": "all lists and exponentially many shrink paths", "anchors": ["proptest/shrinker/listlike.cpp: shrinkFrontAndThenMid, shrinkMembershipwise"]}
{"id": "C25", "title": "List membership shrinking is complete", "statement": "Every sub-list (deleting any set of elements) having at least minSize elements is reachable by shrinking.", "quantifier": "all lists and all minSize", "why_tests_cant": "2^n sublists for every n", "anchors": ["proptest/shrinker/listlike.cpp: shrinkFrontAndThenMid"]}
{"id": "C26", "title": "List element shrinking preserves length and shrinks each element within its own tree", "statement": "Element-wise shrinking never changes the number of elements and every element of a reachable list is reachable from the corresponding original element.", "quantifier": "all lists, all element trees, all shrink paths", "why_tests_cant": "all lists of all trees", "anchors": ["proptest/shrinker/listlike.cpp: shrinkBulk, shrinkElementwise"]}
{"id": "C27", "title": "vector/list generators respect the size bounds under generation and shrinking", "statement": "For minSize <= maxSize (< 2^32 - 1) the generated list has minSize..maxSize elements, every reachable list has minSize..(generated size) elements, and every element is reachable from an element drawn from the element generator.", "quantifier": "all element generators, size bounds, draws, shrink paths", "why_tests_cant": "all generators and paths", "anchors": ["proptest/generator/vector.hpp", "proptest/generator/list.hpp", "proptest/shrinker/listlike.hpp: shrinkListLike"]}
{"id": "C28", "title": "Shrinking of finite element trees terminates", "statement": "If the element trees are finite then the shrink tree of the list, string, set, map, pair and tuple built from them is finite: every chain of shrink steps ends.", "quantifier": "all lists, all finite element trees", "why_tests_cant": "non-termination cannot be observed by a test", "anchors": ["proptest/shrinker/listlike.cpp", "proptest/shrinker/string.cpp", "proptest/shrinker/map.hpp"]}
{"id": "C29", "title": "set shrinking yields subsets of at least minSize elements", "statement": "Every set reachable by shrinking is a subset of the generated set with at least minSize elements, and every such subset is reachable.", "quantifier": "all sets, minSize, shrink paths", "why_tests_cant": "2^n subsets for every n", "anchors": ["proptest/shrinker/listlike.hpp: shrinkContainer", "proptest/generator/set.hpp"]}
{"id": "C30", "title": "map shrinking yields sub-maps of at least minSize entries", "statement": "Every map reachable by shrinking consists of the first k entries (in key order) of the generated map with minSize <= k <= size, with unchanged values; every such k is reachable.", "quantifier": "all maps, minSize, shrink paths", "why_tests_cant": "all maps and paths", "anchors": ["proptest/shrinker/map.hpp: shrinkMap", "proptest/generator/map.hpp"]}
{"id": "C31", "title": "string shrinking keeps the length bound", "statement": "Every string reachable by shrinking is a substring of the generated string with at least minSize characters and strictly shorter than its parent. (Violated: removing from the front yields strings shorter than minSize, and with minSize = 0 a candidate equal to its parent.)", "quantifier": "all strings, minSize, shrink paths", "why_tests_cant": "all strings and paths", "anchors": ["proptest/shrinker/string.cpp: shrinkString"]}
{"id": "C32", "title": "UTF-8/UTF-16/CESU-8 string shrinking cuts only at character boundaries", "statement": "Every string reachable by shrinking a generated encoded string decodes to a contiguous substring of the generated characters: no multi-byte character is ever cut.", "quantifier": "all character sequences, minSize, shrink paths", "why_tests_cant": "all strings of all characters", "anchors": ["proptest/shrinker/stringlike.hpp: shrinkStringLike", "proptest/generator/utf8string.cpp"]}
{"id": "C33", "title": "oneOf/elementOf/unionOf only produce values of the given alternatives", "statement": "Whenever oneOf returns, the result (with all its shrinks) is a result of one of the given generators, one whose weight is not zero-probability; for elementOf the value is one of the given values.", "quantifier": "all generator lists, weights, draw sequences", "why_tests_cant": "all draw sequences including unboundedly many rejected dice", "anchors": ["proptest/combinator/oneof.hpp: oneOfHelper", "proptest/combinator/elementof.hpp"]}
{"id": "C34", "title": "oneOf validates weights", "statement": "oneOf throws iff some weight is outside [0,1] or the weights sum to more than 1; otherwise unweighted generators share the remaining probability equally and all resulting weights are in [0,1] and (if any was unweighted) sum to 1.", "quantifier": "all weight lists (modelled over the rationals)", "why_tests_cant": "all weight lists", "anchors": ["proptest/combinator/oneof.hpp: oneOfHelper"]}
{"id": "C35", "title": "intervals/uintervals generate and shrink only inside the union", "statement": "intervals({I1..In}) produces a value in some Ij and every value reachable by shrinking is in the same Ij; an interval with max = min - 1 is rejected by an exception; sizes do not overflow for bounds whose difference is below 2^63 - 1.", "quantifier": "all interval lists, draws, shrink paths", "why_tests_cant": "all bounds and paths", "anchors": ["proptest/combinator/intervals.hpp", "proptest/combinator/intervals.cpp"]}
{"id": "C36", "title": "Generator filter/suchThat only produces accepted values", "statement": "gen.filter(c): every value generated and every value reachable by shrinking satisfies c and was generated by/reachable in gen's tree.", "quantifier": "all generators, predicates, draw sequences, shrink paths", "why_tests_cant": "all predicates and unboundedly many retries", "anchors": ["proptest/combinator/filter.hpp: FilterFunctor"]}
{"id": "C37", "title": "Generator map/transform only produces images", "statement": "gen.map(f): every value generated or reachable by shrinking is f of a value generated/reachable in gen, positions correspond one to one.", "quantifier": "all generators, functions, draws", "why_tests_cant": "all generators and functions", "anchors": ["proptest/combinator/transform.hpp"]}
{"id": "C38", "title": "dependency/pairWith keeps the dependency under shrinking", "statement": "Every pair (t,u) generated by, or reachable by shrinking from, dependency(genT, f) has t reachable in a genT tree and u reachable in a tree produced by f(t), whatever random states are seen when shrinks are lazily evaluated.", "quantifier": "all generators, factories, random states, evaluation schedules of the lazy shrinks, shrink paths", "why_tests_cant": "lazy shrinks draw from a shared engine whose state depends on the exploration order", "anchors": ["proptest/combinator/dependency.hpp"]}
{"id": "C39", "title": "chain/tupleWith keeps the dependency under shrinking", "statement": "Every tuple generated by or reachable from chain(gen, f) consists of a tuple reachable in gen's tree extended by a component reachable in a tree of f(tuple).", "quantifier": "all generators, factories, schedules, shrink paths", "why_tests_cant": "as for dependency", "anchors": ["proptest/combinator/chain.hpp"]}
{"id": "C40", "title": "derive/flatMap keeps the dependency under shrinking", "statement": "Every value generated by or reachable from derive(genT, f) is reachable in a tree produced by f(t) for some t reachable in a genT tree.", "quantifier": "all generators, factories, schedules, shrink paths", "why_tests_cant": "as for dependency", "anchors": ["proptest/combinator/derive.hpp"]}
{"id": "C41", "title": "aggregate/accumulate keep the step relation between consecutive elements", "statement": "Every list generated by or reachable from accumulate(gen1, gen2gen, min, max) has min..max elements, its first element is reachable in a gen1 tree and every other element is reachable in a tree produced by gen2gen(previous element).", "quantifier": "all generators, sizes, schedules, shrink paths", "why_tests_cant": "all histories of the accumulation", "anchors": ["proptest/combinator/accumulate.hpp", "proptest/combinator/aggregate.hpp"]}
{"id": "C42", "title": "nullable/shared_ptr arbitraries use the configured element generator", "statement": "Values generated by Arbi<Nullable<T>>(elemGen) and Arbi<shared_ptr<T>>(elemGen) come from elemGen. (Violated: elemGen is ignored and Arbi<T> is always used.)", "quantifier": "all element generators and draws", "why_tests_cant": "configuration that is silently ignored", "anchors": ["proptest/generator/nullable.hpp", "proptest/generator/shared_ptr.hpp"]}
{"id": "C43", "title": "forAll true means every run passed", "statement": "If forAll returns true without hitting the time limit then the property function was evaluated successfully on numRuns generated argument tuples that were not discarded. (Only with a proviso: failed PROP_EXPECTs of a run that ends with PROP_SUCCESS are not examined in that run.)", "quantifier": "all property functions, generators, seeds, run counts", "why_tests_cant": "all property functions and histories of runs", "anchors": ["proptest/Property.hpp: runForAll"]}
{"id": "C44", "title": "forAll false means a run failed", "statement": "If forAll returns false then some generated argument tuple made the property function return false, throw a std::exception other than Discard/Success, or record a failed expectation (in that or an earlier run).", "quantifier": "all property functions, generators, seeds, run counts", "why_tests_cant": "all property functions and histories", "anchors": ["proptest/Property.hpp: runForAll"]}
{"id": "C45", "title": "forAll stops at the first failure and discards do not count", "statement": "Runs happen in order, the first failing run ends the loop, a discarded run is repeated with fresh arguments and does not count towards numRuns.", "quantifier": "all histories of runs", "why_tests_cant": "all histories, including unboundedly many discards", "anchors": ["proptest/Property.hpp: runForAll"]}
{"id": "C46", "title": "Same seed, same runs", "statement": "Two forAll calls with the same seed, generators, pure property function and settings evaluate the property on the same sequence of argument tuples and return the same verdict and the same shrunk arguments.", "quantifier": "all seeds, generators and properties", "why_tests_cant": "all seeds", "anchors": ["proptest/Property.hpp: setSeed, runForAll", "proptest/Random.cpp: Random copy"]}
{"id": "C47", "title": "Shrinking restarts from exactly the failing arguments", "statement": "The arguments from which shrinking starts equal the arguments of the failing run (regenerated from the saved engine state), provided both tuple evaluations use the same argument evaluation order.", "quantifier": "all generators, engine states, arities", "why_tests_cant": "all generators and histories of runs", "anchors": ["proptest/Property.hpp: runForAll, shrink", "proptest/util/invokeWithGenTuple.hpp"]}
{"id": "C48", "title": "The shrunk arguments still fail and are reachable", "statement": "The argument tuple reported by shrinking fails the property (returns false, throws or records a failed expectation) and each component is reachable by shrinking from the originally generated component.", "quantifier": "all properties, generators, shrink trees, orders of argument evaluation", "why_tests_cant": "all trees and properties", "anchors": ["proptest/Property.hpp: shrink, shrinkN, shrinkEach, test"]}
{"id": "C49", "title": "The shrunk arguments are locally minimal", "statement": "When shrinking of an argument stops, no candidate offered for that argument fails with the other arguments as they were at that time; in particular for one argument no offered shrink of the reported value fails.", "quantifier": "all properties, trees", "why_tests_cant": "all trees and properties", "anchors": ["proptest/Property.hpp: shrinkN"]}
{"id": "C50", "title": "Shrinking terminates", "statement": "For finite shrink trees the shrink phase ends for every property function, and evaluates the property at most once per node of each argument's tree.", "quantifier": "all finite shrink trees, all property functions", "why_tests_cant": "non-termination cannot be observed by tests", "anchors": ["proptest/Property.hpp: shrinkN"]}
{"id": "C51", "title": "Discarded candidates are not counterexamples", "statement": "A candidate on which the property discards (PROP_DISCARD) or succeeds early (PROP_SUCCESS) is never adopted during shrinking. (Violated: the evaluation used in shrinking treats every std::exception, including Discard and Success, as failure.)", "quantifier": "all properties, trees", "why_tests_cant": "needs a property that discards only on shrunk candidates", "anchors": ["proptest/Property.hpp: test", "proptest/assert.hpp: Discard, Success"]}
{"id": "C52", "title": "Startup and cleanup hooks are paired", "statement": "Every invocation of the property is preceded by the startup hook and followed by the cleanup hook. (Violated when the invocation throws, discards or succeeds early: cleanup is skipped.)", "quantifier": "all histories of runs", "why_tests_cant": "all histories of runs incl. exceptional ones", "anchors": ["proptest/Property.hpp: runForAll, test"]}
{"id": "C53", "title": "A failed PROP_EXPECT makes forAll return false", "statement": "If any PROP_EXPECT fails in any run then forAll returns false. (Violated when that run ends by PROP_SUCCESS and no later normal run follows; such a failure is blamed on the next normal run.)", "quantifier": "all histories of runs", "why_tests_cant": "history dependent", "anchors": ["proptest/Property.hpp: runForAll", "proptest/PropertyContext.cpp: flushFailures"]}
{"id": "C54", "title": "A generator exception makes forAll return false", "statement": "If a generator throws a std::exception during a run, forAll returns false. (Violated: shrinking regenerates the arguments, the same exception is thrown again and escapes from forAll.)", "quantifier": "all generators, engine states", "why_tests_cant": "exception inside an exception handler path", "anchors": ["proptest/Property.hpp: runForAll, shrink"]}
{"id": "C55", "title": "example() reports the verdict for the given arguments", "statement": "example(args) returns true iff the property holds for args: it returned true or succeeded early, with no failed expectation. (Violated: failed PROP_EXPECTs are ignored.)", "quantifier": "all properties and arguments", "why_tests_cant": "all property functions", "anchors": ["proptest/Property.hpp: example"]}
{"id": "C56", "title": "matrix() covers exactly the Cartesian product, in lexicographic order", "statement": "matrix(lists...) evaluates the property on every combination of the given lists exactly once, last argument varying fastest; with an empty list it is undefined behaviour rather than vacuous.", "quantifier": "all arities, all list lengths", "why_tests_cant": "all list sizes and arities", "anchors": ["proptest/Property.hpp: matrix, Matrix"]}
{"id": "C57", "title": "matrix() returns false if some combination fails", "statement": "matrix(lists...) returns false if the property fails for some combination, as documented. (Violated: the results are ignored and true is always returned.)", "quantifier": "all properties, lists", "why_tests_cant": "all properties", "anchors": ["proptest/Property.hpp: matrix"]}
{"id": "C58", "title": "Property contexts nest", "statement": "Creating and destroying property contexts in LIFO order (nested forAll, example, shrinking) restores the enclosing context, so expectations are always recorded in the innermost live context and never leak into another.", "quantifier": "all properly nested histories", "why_tests_cant": "all nesting histories", "anchors": ["proptest/PropertyContext.cpp: PropertyContext::PropertyContext, ~PropertyContext", "proptest/Property.cpp: setContext"]}
{"id": "C59", "title": "Tag statistics count exactly", "statement": "After any sequence of tag(key,value) calls, the recorded count for (key,value) is the number of such calls and the percentages printed are relative to the sum for the key.", "quantifier": "all call histories", "why_tests_cant": "all histories", "anchors": ["proptest/PropertyContext.cpp: tag, printSummary"]}
{"id": "C60", "title": "UTF-8 encode/decode round trip", "statement": "For every Unicode scalar value c the UTF-8 encoder returns 1-4 bytes accepted by the validator as one character and decoding to c with that many bytes consumed; for every other 32-bit number it throws.", "quantifier": "all 2^32 codes, any following bytes", "why_tests_cant": "2^32 codes times any continuation", "anchors": ["proptest/util/utf8string.cpp: encodeUTF8, decodeUTF8, isValidUTF8, UTF8CharSize"]}
{"id": "C61", "title": "UTF-8 decoding is canonical", "statement": "If the validator accepts a byte string then it is exactly the encoding of the sequence of code points it decodes to (no overlong forms, no surrogates), and the reported character count is the length of that sequence.", "quantifier": "all byte strings", "why_tests_cant": "all byte strings", "anchors": ["proptest/util/utf8string.cpp: isValidUTF8, decodeUTF8, UTF8String::charsize"]}
{"id": "C62", "title": "UTF-16 (BE/LE) encode/decode round trip", "statement": "For every Unicode scalar value the UTF-16 encoder's output is valid, one character, and decodes to the value; other codes are rejected. (The rejection part is violated: some codes above 0x10FFFF wrap around and are encoded as another character.)", "quantifier": "all 2^32 codes, both byte orders", "why_tests_cant": "2^32 codes", "anchors": ["proptest/util/utf16string.cpp: encodeUTF16BE/LE, decodeUTF16BE/LE, isValidUTF16BE/LE"]}
{"id": "C63", "title": "UTF-16 validity is canonical", "statement": "A byte string accepted by the UTF-16 validator is exactly the encoding of the code points it decodes to, with the reported character count.", "quantifier": "all byte strings, both byte orders", "why_tests_cant": "all byte strings", "anchors": ["proptest/util/utf16string.cpp"]}
{"id": "C64", "title": "CESU-8 encode/decode round trip and canonicity", "statement": "As for UTF-8, with supplementary characters encoded as surrogate pairs of three bytes each.", "quantifier": "all 2^32 codes, all byte strings", "why_tests_cant": "2^32 codes and all byte strings", "anchors": ["proptest/util/cesu8string.cpp"]}
{"id": "C65", "title": "Printing malformed UTF-16 does not read out of bounds", "statement": "Displaying any byte string as UTF-16 reads only bytes of the string. (Violated for odd lengths and truncated surrogate pairs.)", "quantifier": "all byte strings", "why_tests_cant": "undefined behaviour is not observable reliably", "anchors": ["proptest/util/utf16string.cpp: decodeUTF16BE(ostream), decodeUTF16LE(ostream)"]}
{"id": "C66", "title": "Bitmap slots are exclusively owned", "statement": "Under every interleaving of any number of threads calling acquire/tryAcquire and releasing only what they hold, no two threads hold the same slot number at the same time, slot numbers are within range and no 'invalid state' exception is thrown.", "quantifier": "all interleavings, any number of threads and operations", "why_tests_cant": "all interleavings of atomics", "anchors": ["proptest/util/bitmap.cpp: acquire, tryAcquire, unacquire"]}
{"id": "C67", "title": "Bitmap single-threaded behaviour is an allocator", "statement": "Used from one thread, tryAcquire returns the smallest free slot, or -1 iff all slots are taken; unacquire(n) frees a held slot and throws for a slot that is not held, and no sequence of operations leaves a slot in an intermediate state.", "quantifier": "all operation sequences", "why_tests_cant": "all sequences", "anchors": ["proptest/util/bitmap.cpp"]}
{"id": "C68", "title": "Stateful testing runs the action list in order and shrinks to sub-lists", "statement": "A stateful property applies the generated actions in list order to the initial object/model (skipping those whose precondition is false in the class style), then the post check; when a failure is shrunk the reported action list is obtained from the generated one by deleting (and, where actions shrink, shrinking) actions, and still fails.", "quantifier": "all action lists, initial states, shrink paths", "why_tests_cant": "all histories of actions", "anchors": ["proptest/stateful/stateful_function.hpp: StatefulProperty::go", "proptest/stateful/stateful_class.hpp"]}
{"id": "C69", "title": "Stateful cleanup hook runs as cleanup", "statement": "A hook set by setOnCleanup on a stateful property runs after each run, and setOnStartup before each run. (Violated: the cleanup hook is installed as startup hook and replaces it.)", "quantifier": "all configurations", "why_tests_cant": "configuration combination", "anchors": ["proptest/stateful/stateful_function.hpp: StatefulProperty::go"]}
{"id": "C70", "title": "Concurrent runs: the action log never overflows and replays per-thread order", "statement": "In every interleaving of the rear threads the shared log is written at distinct positions within its size, each thread appears exactly twice per action, and reconstructing the schedule never runs past the end of an action list.", "quantifier": "all interleavings, thread counts, action list lengths", "why_tests_cant": "all interleavings", "anchors": ["proptest/stateful/concurrency_function.hpp: Concurrency::invoke, RearRunner"]}
{"id": "C71", "title": "Class style concurrent runs: the action log does not overflow", "statement": "The log of the class style concurrency runner is large enough for the executed actions. (Violated: the size is fixed at 5000 while one entry is written for each executed rear action and the number of these is not bounded.)", "quantifier": "all action list lengths", "why_tests_cant": "depends on list lengths beyond default sizes", "anchors": ["proptest/stateful/concurrency_class.hpp"]}
{"id": "C72", "title": "Concurrent post check sees the model updated by rear actions", "statement": "After a concurrent run the post check sees the model updated by front and rear actions. (Violated in the function style: each rear thread works on its own copy of the model.)", "quantifier": "all action lists, interleavings", "why_tests_cant": "all interleavings", "anchors": ["proptest/stateful/concurrency_function.hpp: RearRunner"]}
{"id": "C73", "title": "Fork error messages are read within bounds", "statement": "safeCall/forkCall reports an exception message from the child without memory errors. (Violated for messages longer than 100 bytes.)", "quantifier": "all message lengths", "why_tests_cant": "undefined behaviour depending on message length", "anchors": ["proptest/util/fork.hpp: Pipe::read"]}
{"id": "C74", "title": "intervals accepts every list of non-empty intervals", "statement": "intervals({I1..In}) with non-empty intervals never throws. (Violated: the weights size/total are summed in double precision and can exceed 1.0 by rounding, e.g. for sizes 1,6,3,3.)", "quantifier": "all interval lists", "why_tests_cant": "rounding depends on the exact list of sizes", "anchors": ["proptest/combinator/intervals.cpp: intervals", "proptest/combinator/oneof.hpp: oneOfHelper"]}
{"id": "C75", "title": "inRange and integers never yield a value for an empty range", "statement": "inRange(from,to) with from >= to and integers(start,count) with count <= 0 never return a value. (Violated: the inclusive end to-1 or start+count-1 wraps around for small and for unsigned types, e.g. inRange<uint8_t>(0,0) yields every uint8_t.)", "quantifier": "all integer types, all bounds", "why_tests_cant": "only the extreme bounds of each type behave differently", "anchors": ["proptest/generator/integral.hpp: InRangeFunctor", "proptest/generator/integral.hpp: IntegersFunctor"]}
{"id": "C76", "title": "integers(start,count) is defined whenever all its values are representable", "statement": "integers<T>(start,count) with count >= 1 and start+count-1 representable in T generates only values of [start,start+count-1]. (Violated: for int32_t and int64_t the intermediate start+count overflows when start+count-1 is the maximum of the type.)", "quantifier": "all integer types, all start and count", "why_tests_cant": "undefined behaviour only for one extreme end point", "anchors": ["proptest/generator/integral.hpp: IntegersFunctor"]}
{"id": "C77", "title": "A bool generator with probability p = 1 always and with p = 0 never yields true", "statement": "gen::boolean / Arbi<bool>(p): p = 1 yields only true, p = 0 yields only false. (Violated for p = 0: the comparison is <=, so a drawn 0 yields true.)", "quantifier": "all random engine states", "why_tests_cant": "the violating draw has probability 2^-64", "anchors": ["proptest/Random.cpp: getRandomBool", "proptest/generator/bool.cpp: Arbi<bool>"]}
{"id": "C78", "title": "Shrinking a vector also minimises its elements", "statement": "When greedy shrinking of a failing vector or list stops, no element can be replaced by one of its own shrinks such that the property still fails. (Violated: elements are only shrunk where the length can shrink no further, so a vector with more than minSize elements whose length cannot be reduced keeps its elements as generated.)", "quantifier": "all element shrink trees, all list lengths, all properties", "why_tests_cant": "the interaction of length and element shrinking depends on the failing property", "anchors": ["proptest/shrinker/listlike.hpp: shrinkListLike", "proptest/shrinker/listlike.cpp: shrinkElementwise"]}
{"id": "C79", "title": "Length shrinking finds minimal containers", "statement": "For a property whose failure persists when elements are added, greedy length shrinking of a failing container ends at a failing container from which no further elements can be deleted (down to minSize) without the property passing.", "quantifier": "all containers, all minimum sizes, all upward-closed properties", "why_tests_cant": "quantifies over all properties and all containers", "anchors": ["proptest/shrinker/listlike.cpp: shrinkFrontAndThenMid"]}
{"id": "C80", "title": "Generating a set or map terminates", "statement": "Arbi<set<T>> and Arbi<map<K,V>> return for every size they may choose. (Violated: the loop draws until the set has the chosen size, so it never ends for element types with fewer values, e.g. set<bool> with the default maximum size 200 and any chosen size of 3 or more.)", "quantifier": "all element generators, sizes and random states", "why_tests_cant": "non-termination cannot be observed by a terminating test", "anchors": ["proptest/generator/set.hpp: Arbi<set<T>>::operator()", "proptest/generator/map.hpp: Arbi<map<K,V>>::operator()"]}
{"id": "C81", "title": "String shrinking removes irrelevant leading characters", "statement": "Greedy shrinking of a failing string removes leading and trailing characters that are not needed for the failure. (Violated for the default minSize = 0: the first candidate for removing leading characters removes none, is accepted and has no shrinks, so the result is always a prefix of the generated string.)", "quantifier": "all strings, all properties", "why_tests_cant": "quantifies over all properties", "anchors": ["proptest/shrinker/string.cpp: shrinkString"]}
{"id": "C82", "title": "Displaying UTF-8/CESU-8 strings reads only the string and shows every byte", "statement": "Displaying any byte string, valid or not, as UTF-8 or CESU-8 reads no byte outside the string and prints items (characters or single bytes) whose bytes, put together, are the string; a valid string is shown as its characters.", "quantifier": "all byte strings", "why_tests_cant": "memory safety of the display for arbitrary malformed and truncated input", "anchors": ["proptest/util/utf8string.cpp: decodeUTF8(ostream)", "proptest/util/cesu8string.cpp: decodeCESU8(ostream)", "proptest/util/unicode.cpp"]}
{"id": "C83", "title": "The displayed text of a string identifies it", "statement": "Two byte strings with the same displayed text as UTF-8 (or both as CESU-8) are equal; two valid UTF-16 strings of the same byte order with the same displayed text are equal.", "quantifier": "all pairs of byte strings", "why_tests_cant": "injectivity over all pairs of strings", "anchors": ["proptest/util/unicode.cpp: codepage, charAsHex, validChar, validChar2", "proptest/util/utf8string.cpp", "proptest/util/cesu8string.cpp", "proptest/util/utf16string.cpp"]}
{"id": "C84", "title": "unicode() generates Unicode scalar values only", "statement": "Every value generated by unicode(), and every value reachable from it by shrinking, is in 1..0x10FFFF and no surrogate; each such value can be generated; the generator throws no exception (the two weights do not add up to more than 1 in double arithmetic).", "quantifier": "all random states, all shrink paths", "why_tests_cant": "all draws and shrink paths; rounding of the weights", "anchors": ["proptest/generator/unicode.cpp: UnicodeGen::operator()"]}
{"id": "C85", "title": "Both components of a dependent pair are shrunk", "statement": "Greedy shrinking of a pair generated by dependency (pairWith) ends at a pair whose second component cannot be shrunk without the property passing. (Violated: the second component is only shrunk at pairs whose first component has no shrinks left.)", "quantifier": "all pairs of generators, all properties", "why_tests_cant": "quantifies over all properties", "anchors": ["proptest/combinator/dependency.hpp"]}
{"id": "C86", "title": "The shrinks of a generated dependent value are stable", "statement": "Asking for the shrinks of a value generated by dependency, chain or derive gives the same shrinks whenever it is done. (Violated: the shrinks draw from the random engine when they are evaluated, so they depend on what was drawn in between; only second generators that do not draw are stable.)", "quantifier": "all generators, all times of evaluation", "why_tests_cant": "depends on the interleaving of evaluation and drawing", "anchors": ["proptest/combinator/dependency.hpp", "proptest/combinator/chain.hpp", "proptest/combinator/derive.hpp"]}
{"id": "C87", "title": "construct passes one generated value per constructor argument", "statement": "An object generated by construct<C, Args...>(gens...) is the result of calling the constructor with values of which the i-th was generated by the i-th generator, whatever the order the generators are called in; it has no shrinks.", "quantifier": "all constructors, generators and evaluation orders", "why_tests_cant": "evaluation order is unspecified in C++", "anchors": ["proptest/combinator/construct.hpp: Construct::operator()"]}
{"id": "C88", "title": "The reported counterexample is minimal in each argument", "statement": "For a property of several arguments, no shrink offered for any one argument of the reported counterexample fails together with the other reported arguments. (Violated: each argument is shrunk once, with the later arguments as generated, and not revisited.)", "quantifier": "all properties, arities, shrink trees", "why_tests_cant": "quantifies over all properties and trees", "anchors": ["proptest/Property.hpp: shrinkEach, shrinkN"]}
{"id": "C89", "title": "Expectation macros check what their names say", "statement": "Each PROP_EXPECT macro (plain, TRUE, FALSE, EQ, NE, LT, GT, LE, GE) records exactly one failure in the current context if the relation named does not hold for its arguments, and none if it holds. (Violated: PROP_EXPECT_FALSE records a failure exactly when its condition is false.)", "quantifier": "all macros, all argument values, all states of the context", "why_tests_cant": "the macro is not used by any test; all values and context states", "anchors": ["proptest/PropertyBase.hpp: PROP_EXPECT_*"]}
{"id": "C90", "title": "PROP_ASSERT_FALSE throws exactly when its condition is true", "statement": "PROP_ASSERT_FALSE(condition) throws AssertFailed iff the condition, as written by the user, is true. (Violated: the macro negates without parentheses, so that only the first operand of a comparison is negated.)", "quantifier": "all conditions", "why_tests_cant": "depends on operator precedence in the expansion; the macro is not used by any test", "anchors": ["proptest/assert.hpp: PROP_ASSERT_FALSE, PROP_ASSERT_VARGS"]}
{"id": "C91", "title": "STREQ2 compares whole strings", "statement": "PROP_EXPECT_STREQ2(a, b, n1, n2) and PROP_ASSERT_STREQ2 hold iff the two byte strings of lengths n1 and n2 are equal, STRNE2 iff they differ. (Violated: only the common length is compared, a prefix counts as equal.)", "quantifier": "all byte strings", "why_tests_cant": "all pairs of strings", "anchors": ["proptest/PropertyBase.hpp: PROP_EXPECT_STREQ2, PROP_EXPECT_STRNE2", "proptest/assert.hpp"]}
{"id": "C92", "title": "Text streamed into a failed expectation is added to its description", "statement": "PROP_EXPECT_xx(a, b) << text shows both the comparison text and the streamed text if the expectation fails, and shows nothing if it holds. (Violated: the stream of a Failure is opened at position 0, the streamed text overwrites the comparison text.)", "quantifier": "all expectations, texts and context states", "why_tests_cant": "all texts and histories", "anchors": ["proptest/PropertyContext.hpp: Failure", "proptest/PropertyContext.cpp: getLastStream, fail, succeed", "proptest/PropertyBase.hpp: PROP_EXPECT_STREAM"]}
{"id": "C93", "title": "go() of a stateful property can be called again", "statement": "Calling go() again on a function style stateful property runs the property again, as it does for the class style and for Property::forAll. (Violated: go() moves the initial generator and the model factory out of the property, the second call throws on the first draw.)", "quantifier": "all stateful properties", "why_tests_cant": "depends on the state the first call leaves behind", "anchors": ["proptest/stateful/stateful_function.hpp: StatefulProperty::go", "proptest/stateful/stateful_class.hpp: go"]}
{"id": "C94", "title": "The settings of a stateful property are in force", "statement": "The seed, the number of runs and the time limit set on a stateful property are those go() uses. (Violated for the largest values of the types, which stand for 'not set'.)", "quantifier": "all values of the settings", "why_tests_cant": "all values of 32 and 64 bit settings", "anchors": ["proptest/stateful/stateful_function.hpp: setSeed, setNumRuns, setMaxDurationMs, go"]}
{"id": "C95", "title": "A failing action of a rear thread makes a concurrent test fail", "statement": "If an action executed by a rear thread of a concurrent test throws (or returns false in the class style), go() reports the failure and returns false, as it does for front actions. (Violated: the exception leaves the thread function, so std::terminate ends the program without a verdict.)", "quantifier": "all action lists, thread counts and interleavings, both styles", "why_tests_cant": "a failing rear action ends the test program itself", "anchors": ["proptest/stateful/concurrency_function.hpp: RearRunner, invoke, go", "proptest/stateful/concurrency_class.hpp: RearRunner"]}
{"id": "C96", "title": "Every generated rear action of a concurrent test is executed", "statement": "For every concurrency set by setMaxConcurrency, a run that passes has executed all actions of all generated rear lists exactly once, in an order that keeps the order of each list. (Violated for a concurrency of 1 and 0: the rear actions are generated and not executed.)", "quantifier": "all thread counts, action lists and interleavings", "why_tests_cant": "all interleavings", "anchors": ["proptest/stateful/concurrency_function.hpp: invoke"]}
{"id": "C97", "title": "go() of a concurrent test returns false if an expectation failed", "statement": "A failed PROP_EXPECT in an action, in the post check or in a hook of a concurrent test makes go() return false. (Violated: the context is never looked at; only exceptions count.)", "quantifier": "all runs", "why_tests_cant": "all sequences of runs", "anchors": ["proptest/stateful/concurrency_function.hpp: go", "proptest/stateful/concurrency_class.hpp: go"]}
{"id": "C98", "title": "A concurrent test does the number of runs asked for", "statement": "After setNumRuns(n), a positive verdict of go() that is not due to the time limit means that n runs were done. (Violated for n >= 2^31 in the function style: n is stored in an int, no run is done and the verdict is positive.)", "quantifier": "all 32 bit values of n, all properties", "why_tests_cant": "no test can do 2^31 runs", "anchors": ["proptest/stateful/concurrency_function.hpp: setNumRuns, go"]}
{"id": "C99", "title": "safeCall comes back", "statement": "safeCall(func) returns or throws for every func that ends. (Violated: it waits for ever if the result does not fit into the pipe, because the pipe is read only after the child has ended, and if func calls exit, because the parent keeps the write end of the pipe open.)", "quantifier": "all functions, result sizes, pipe capacities", "why_tests_cant": "a test of it would hang; depends on the capacity of the pipe", "anchors": ["proptest/util/fork.hpp: safeCall", "proptest/util/fork.cpp: Pipe"]}
{"id": "C100", "title": "The code after safeCall is executed by the caller only", "statement": "The child process made by safeCall ends inside of safeCall, whatever func does. (Violated: an exception that is no std::exception leaves safeCall in the child, which goes on executing the caller's code as a second process.)", "quantifier": "all functions", "why_tests_cant": "all kinds of exceptions; effects in a second process", "anchors": ["proptest/util/fork.hpp: safeCall"]}
{"id": "C101", "title": "Looking at the shrinks of a float or double is defined", "statement": "For every generated float or double, all its shrinks (and the shrinks of these, and so on) can be enumerated without undefined behaviour. (Violated for every number of magnitude at least 2^32 and for the infinities: the step that looks for an integer casts a too large number to int.)", "quantifier": "all values of float and double", "why_tests_cant": "the undefined behaviour need not show; 2^64 values", "anchors": ["proptest/shrinker/floating.hpp: shrinkFloat"]}
{"id": "C102", "title": "Which numbers shrinking a float arrives at", "statement": "Below 2^32 in magnitude, every number below the shrinks of a finite float or double is 0, or has the same sign, an exponent between that of the number and 0, and the same fraction or the fraction 1/2; 0 is offered first and each such exponent can be arrived at with the same fraction. Every result is exact (no rounding, no overflow, no NaN).", "quantifier": "all finite values of float and double, subnormal numbers included, all positions of the shrink tree", "why_tests_cant": "2^64 values, all paths", "anchors": ["proptest/shrinker/floating.hpp: shrinkFloat", "proptest/shrinker/floating.cpp: composeFloat, decomposeFloat"]}
{"id": "C103", "title": "NaN shrinks to zero only, zero does not shrink", "statement": "NaN has exactly the shrink 0, which has none; positive and negative zero have no shrinks; neither NaN nor an infinity is ever a shrink.", "quantifier": "all values of float and double", "why_tests_cant": "2^64 values", "anchors": ["proptest/shrinker/floating.hpp: shrinkFloat"]}
{"id": "C104", "title": "A float shrinks to its integer part", "statement": "A number that is no integer, with an integer part other than 0, can be shrunk to its integer part (the step called integerfy). (Violated: unless the integer part is a power of two, no number of that magnitude is ever arrived at.)", "quantifier": "all values of float and double", "why_tests_cant": "2^64 values, all paths", "anchors": ["proptest/shrinker/floating.hpp: shrinkFloat, integerfy"]}
{"id": "C105", "title": "No shrink of a float equals what it shrinks", "statement": "At every position of the shrink tree of a float or double, the shrinks differ from the value. (Violated for every power of two other than 1/2: 1.0 shrinks to 0.5, which shrinks to 0.5.)", "quantifier": "all values, all positions of the tree", "why_tests_cant": "2^64 values, all paths", "anchors": ["proptest/shrinker/floating.hpp: shrinkFloat"]}
{"id": "C106", "title": "Every float and double can be generated, and only these", "statement": "The generators of float and double yield a number of the type for every draw; each number, including subnormal numbers, zeros of both signs, infinities and NaN, is generated for some draw. The shrinkable carries the value drawn and its shrinks.", "quantifier": "all engines, all values", "why_tests_cant": "2^64 values", "anchors": ["proptest/generator/floating.cpp: Arbi<float>, Arbi<double>"]}
{"id": "C107", "title": "Shrinking a float does not increase its magnitude", "statement": "No number below the shrinks of a float or double is larger in magnitude. (Violated for all numbers of magnitude less than 1/2 other than 0. From 1/2 on, each shrink has at most half the magnitude and never changes sign.)", "quantifier": "all finite values of float and double, all positions of the tree", "why_tests_cant": "2^64 values, all paths", "anchors": ["proptest/shrinker/floating.hpp: shrinkFloat"]}
{"id": "C108", "title": "Shrinking is greedy, argument by argument, first candidate first", "statement": "When a property is falsified, the shrink phase takes the arguments one after the other; for each it tries the offered shrinks from first to last, moves to the first for which the property fails, and stops when none fails. The reported arguments and the sequence of calls made are exactly those of this process.", "quantifier": "all properties behaving as functions of their arguments, generators, seeds, shrink trees", "why_tests_cant": "the set of trees is infinite", "anchors": ["proptest/Property.hpp: shrink, shrinkN"]}
{"id": "C109", "title": "An integer threshold is reported exactly", "statement": "A property of one integer drawn from interval<T>(min, max) that fails exactly for the numbers at least hi and at most lo (with the number nearest to zero in between) is reported with exactly hi or lo, after at most 1 + ceil(log2 d) calls of the property while shrinking (at most 65), d being the distance of the drawn number from the one nearest to zero. If it fails for the number nearest to zero, that number is reported.", "quantifier": "all types, ranges, thresholds, random engines, seeds", "why_tests_cant": "2^64 ranges, thresholds and draws", "anchors": ["proptest/Property.hpp: forAll, shrink", "proptest/generator/integral.hpp: interval, generateInteger", "proptest/generator/util.cpp: binarySearchShrinkable, binarySearchShrinkableU"]}
{"id": "C110", "title": "A vector is reported with a minimal selection of its elements", "statement": "A property of one vector whose failure persists when elements are added is reported with a failing vector made of a minimal failing selection of the elements drawn, each moved within its own shrink tree. If the property fails exactly for the vectors with at least k elements, max(k, minSize) elements are reported.", "quantifier": "all element generators, sizes, properties, seeds", "why_tests_cant": "exponentially many selections of elements", "anchors": ["proptest/Property.hpp: forAll, shrink", "proptest/generator/vector.hpp: Arbi<vector>", "proptest/shrinker/listlike.hpp: shrinkListLike, shrinkMembershipwise, shrinkElementwise"]}
{"id": "C111", "title": "How forAll ends is determined by the draws", "statement": "For a property that behaves as a function of its arguments, without time limit, forAll draws until numRuns draws have not been discarded. It returns true if none of these draws makes the property fail, false if one does (with the first such draw reported); if fewer than numRuns draws of the whole sequence are kept and none fails, it never returns.", "quantifier": "all properties, generators, seeds, numbers of runs, hooks that do nothing", "why_tests_cant": "infinite sequences of draws; non-termination cannot be observed", "anchors": ["proptest/Property.hpp: runForAll, forAll"]}
{"id": "C112", "title": "Explicit generators take precedence position by position", "statement": "Parameter i of a property is drawn with the i-th generator given to forAll if there is one, otherwise with the i-th generator given to property, otherwise with the default generator of its type. This does not depend on the generators given to earlier calls of forAll nor on the order in which the compiler makes the assignments.", "quantifier": "all numbers of parameters and of explicit generators, all sequences of calls, all orders of evaluation", "why_tests_cant": "template instantiations of any arity; a compiler fixes one order of evaluation", "anchors": ["proptest/util/createGenTuple.hpp: createGenTuple", "proptest/util/invokeWithGenTuple.hpp: overrideTuple", "proptest/Property.hpp: property, forAll"]}
{"id": "C113", "title": "A property can be used after the callable it was made from is gone", "statement": "property(callable) may be stored and run later: forAll behaves the same whether the callable given still exists or not. (Violated for callables returning void: the property holds a reference, and using it is undefined behaviour. Callables returning bool are copied.)", "quantifier": "all callables, generators, seeds, numbers of runs", "why_tests_cant": "undefined behaviour often goes unnoticed", "anchors": ["proptest/Property.hpp: property, functionWithBoolResult, BoolResultFunctor"]}
{"id": "C114", "title": "A function given to map may use its argument as it likes", "statement": "Arbi<string>().map<U>(f), with f of type U(string&), yields f of the values and shrinks of the string generator. (Violated if f modifies its argument: the stored value changes, and shrinks are lost or asking for them throws out_of_range.)", "quantifier": "all functions, strings, minimal sizes", "why_tests_cant": "all functions, all strings", "anchors": ["proptest/combinator/transform.hpp: transform, TransformFunctor1", "proptest/shrinker/string.cpp: shrinkString", "proptest/Shrinkable.cpp: concat, map"]}
{"id": "C115", "title": "The UTF-16 decoders reject malformed input", "statement": "decodeUTF16BE and decodeUTF16LE throw for every byte string that does not begin with the encoding of a Unicode scalar value, and never read beyond its end. (Violated: an unpaired surrogate that is followed by two more bytes is decoded to a number.)", "quantifier": "all byte strings", "why_tests_cant": "2^32 four-byte prefixes for each decoder", "anchors": ["proptest/util/utf16string.cpp: decodeUTF16BE, decodeUTF16LE"]}
{"id": "C116", "title": "A rear action of the class style is executed only where its precondition holds", "statement": "In concurrent tests made with actions as classes, run of an action is called in a state in which its precondition holds. (Violated: the check and the execution are not one step, the other thread can act in between.)", "quantifier": "all actions, all states, all schedules of the two threads", "why_tests_cant": "the schedules are out of the control of a test", "anchors": ["proptest/stateful/concurrency_class.hpp: RearRunner::operator()"]}
{"id": "C117", "title": "Calls of the slot allocator end", "statement": "tryAcquire and unacquire of Bitmap end within size + 3 atomic steps of the calling thread, whatever the other threads do. acquire, wherever it is in its search, gets a free slot within 2 * size + 3 steps if a slot is free and the other threads pause.", "quantifier": "all schedules of any number of threads, all states", "why_tests_cant": "the schedules are out of the control of a test", "anchors": ["proptest/util/bitmap.cpp: Bitmap::acquire, Bitmap::tryAcquire, Bitmap::unacquire"]}
{"id": "C118", "title": "Container generators respect their size bounds", "statement": "Generated vectors, lists, sets, maps and strings have at least minSize and at most maxSize elements, for all minSize <= maxSize that a size_t can hold. (Violated from 2^32 on: the bounds are reduced modulo 2^32, so that for instance a maximal size of 2^32 only gives empty containers.)", "quantifier": "all bounds, random engines, element generators", "why_tests_cant": "2^64 bounds; containers of 2^32 elements do not fit into a test", "anchors": ["proptest/Random.cpp: getRandomSize", "proptest/generator/vector.hpp: operator()", "proptest/generator/string.cpp: operator()", "proptest/generator/set.hpp: operator()", "proptest/generator/map.hpp: operator()"]}
{"id": "C119", "title": "Printed arguments identify the arguments", "statement": "Two different arguments of a property are never shown as the same text in the report of a failure, whatever the strings in them contain, for arguments composed of bool, integers, strings, vectors, lists, pairs, tuples, maps, sets, shared_ptr and Nullable. (Violated for Nullable of Nullable and for sets of strings.)", "quantifier": "all types composed of these, all pairs of values", "why_tests_cant": "all pairs of values of all types", "anchors": ["proptest/util/printing.hpp: show", "proptest/util/printing.cpp: show", "proptest/util/unicode.cpp: charAsHex"]}
{"id": "C120", "title": "Printed floating point numbers identify the numbers", "statement": "The text shown for a float or double can be given back to reproduce a failure: it determines the number. (Violated: six digits are shown, all doubles in [1, 1 + 2^-18] are shown as 1; the text is accurate to half a unit of the sixth digit.)", "quantifier": "all floats and doubles", "why_tests_cant": "2^64 numbers", "anchors": ["proptest/util/printing.cpp: show(ostream&, const float&), show(ostream&, const double&)"]}
{"id": "C121", "title": "A reported seed can be given back", "statement": "Setting PROPTEST_SEED to the number reported after 'random seed:' gives the next run the same seed. (Violated for seeds of 2^63 and more, which occur for negative PROPTEST_SEED and with setSeed: atoll is undefined for them.)", "quantifier": "all seeds, all times, all texts around the number", "why_tests_cant": "2^64 seeds", "anchors": ["proptest/Property.cpp: getGlobalSeed", "proptest/Property.hpp: runForAll"]}
{"id": "C122", "title": "A false verdict means that something failed, whatever the hooks do", "statement": "If forAll returns false then, in a run and not only during shrinking, the property function returned false, or the property function, a startup or cleanup hook or a generator threw a std::exception other than Discard and Success or recorded a failed expectation; whatever these functions do otherwise.", "quantifier": "all property functions, hooks and generators (also with memory), seeds, numbers of runs", "why_tests_cant": "all functions a user may install", "anchors": ["proptest/Property.hpp: runForAll, test, shrinkN, setOnStartup, setOnCleanup", "proptest/PropertyContext.cpp: flushFailures"]}
{"id": "C123", "title": "A true verdict means that nothing failed, whatever the hooks do", "statement": "If forAll returns true then in each run the startup hook returned, the property function returned true and the cleanup hook returned, without a failed expectation. (Violated when Discard or Success is thrown: a cleanup hook that uses PROP_SUCCESS makes forAll return true although every call returned false.)", "quantifier": "all property functions, hooks and generators (also with memory), seeds, numbers of runs", "why_tests_cant": "all functions a user may install", "anchors": ["proptest/Property.hpp: runForAll, setOnStartup, setOnCleanup", "proptest/PropertyContext.cpp: flushFailures"]}
{"id": "C124", "title": "Rear threads start together and are joined before the post check", "statement": "No rear thread of a concurrent test executes an action or touches the log before all of them exist and are ready; when the spawner has joined them all have worked off their lists and do nothing any more; with actions that return, every fair scheduler gets there (no deadlock); and every interleaving of the actions is possible, so results of the theorems about interleavings apply. Both styles (class style: up to 5000 rear actions).", "quantifier": "all numbers of threads, lists of actions, schedules of the spawner and the threads", "why_tests_cant": "all schedules, infinite ones for the absence of deadlock", "anchors": ["proptest/stateful/concurrency_function.hpp: RearRunner::operator(), invoke", "proptest/stateful/concurrency_class.hpp: RearRunner::operator(), invoke"]}
{"id": "C125", "title": "Expectation macros may be used in rear actions", "statement": "The documented PROP_EXPECT family may be used in the actions of concurrent tests: accesses to the property context by rear threads are never data races. (Violated: the context is one unsynchronised object; two rear actions that overlap and contain expectations, even ones that hold, race, and in the class style they race in every complete execution.)", "quantifier": "all numbers of threads, lists of actions, schedules", "why_tests_cant": "a race depends on the schedule and usually has no visible effect", "anchors": ["proptest/PropertyContext.cpp: succeed, fail, tag", "proptest/Property.cpp: PropertyBase::context", "proptest/stateful/concurrency_function.hpp: RearRunner::operator()", "proptest/stateful/concurrency_class.hpp: RearRunner::operator()"]}
{"id": "C126", "title": "A recursive generator produces exactly the values its bounds allow", "statement": "A generator that refers to itself with reference(), like the documented boxGen, produces values that keep the size bounds at every level; every such value of any depth can be produced; with map in place of construct the same values are produced, and every shrink keeps the bounds at every level and is the value with parts left out.", "quantifier": "all bounds, engines, depths", "why_tests_cant": "values of unbounded depth", "anchors": ["proptest/combinator/reference.hpp: reference", "proptest/combinator/construct.hpp: Construct", "proptest/generator/vector.hpp: Arbi<vector<T>>::operator()"]}
{"id": "C127", "title": "A recursive generator returns", "statement": "A call of a generator that refers to itself with reference() returns. (Violated: never with a lower size bound of 1 or more; with probability at most one half for upper bounds of 3 and more; with probability one for the documented bounds 0 and 2, although some draws never end.)", "quantifier": "all bounds and engines; all sequences of draws of any length", "why_tests_cant": "a test sees a few draws; the call that does not return exhausts the stack", "anchors": ["proptest/combinator/reference.hpp: reference", "proptest/generator/vector.hpp: Arbi<vector<T>>::operator()"]}
{"id": "C128", "title": "Setters of a container generator configure the generator they are called on", "statement": "Calls of setMinSize, setMaxSize, setSize, setElemGen and setKeyGen may be chained in any order and configure the generator they are called on. (Violated: setElemGen and setKeyGen give a copy back; in x.setElemGen(e).setSize(10); the size is lost and x generates vectors of the old sizes; reference(x.setElemGen(e)) dangles. The value of the whole expression has all settings.)", "quantifier": "all chains of setters, all states, engines and element generators", "why_tests_cant": "all chains of calls in all contexts", "anchors": ["proptest/Arbitrary.hpp: ArbiContainer::setMinSize, setMaxSize, setSize", "proptest/generator/vector.hpp: Arbi<vector<T>>::setElemGen", "proptest/generator/map.hpp: Arbi<map<Key, T>>::setKeyGen, setElemGen"]}
{"id": "C129", "title": "Generators made from others keep their settings", "statement": "A generator made from another one with map, filter, flatMap, pairWith, tupleWith, or by passing it to a combinator or copying it, keeps the settings it was made with, whatever is done to the original or to other copies afterwards. A generator made with reference() from a variable always has the settings the variable has when it is used.", "quantifier": "all sequences of declarations, copies, setter calls and uses", "why_tests_cant": "all programs that use generators", "anchors": ["proptest/Arbitrary.hpp: ArbiBase::clone, map, filter, pairWith, tupleWith, flatMap", "proptest/combinator/reference.hpp: reference"]}
{"id": "C130", "title": "Same seed, same concurrent tests", "statement": "With the same seed a concurrent test generates the same initial objects and action lists in the same order, however the threads are scheduled, whatever hooks, post checks, discards and failures do; a test that goes on longer generates more of them. (Violated when the initial object is given with just(value) for a type that is not trivial: the object of the second run depends on the schedule of the first.)", "quantifier": "all generators, numbers of threads, schedules, hooks, seeds, numbers of runs", "why_tests_cant": "all pairs of schedules", "anchors": ["proptest/stateful/concurrency_function.hpp: Concurrency::go, invoke", "proptest/stateful/concurrency_class.hpp: Concurrency::go, invoke", "proptest/combinator/just.hpp: just"]}
{"id": "C131", "title": "Every startup of a concurrent test is followed by a cleanup", "statement": "In a concurrent test the startup hook is called before each attempt and the cleanup hook after it, exactly once each and in this order around generation, actions and post check. (Violated when actions or post check end with an exception, also PROP_DISCARD and PROP_SUCCESS: the cleanup hook is not called; it is called exactly as often as actions and post check return.)", "quantifier": "all hooks, actions, post checks, schedules, seeds, numbers of runs", "why_tests_cant": "all functions a user may install, all schedules", "anchors": ["proptest/stateful/concurrency_function.hpp: Concurrency::go", "proptest/stateful/concurrency_class.hpp: Concurrency::go"]}
{"id": "C132", "title": "Every run of a concurrent test starts from a newly generated object", "statement": "Each run of a concurrent test works on an object of its own as the given generator makes it. (Violated for just(value) with a type that is not trivial, as in the project's own tests: every run goes on with the object as the run before left it.)", "quantifier": "all generators, actions, schedules, seeds, numbers of runs", "why_tests_cant": "all sequences of runs", "anchors": ["proptest/stateful/concurrency_function.hpp: Concurrency::invoke", "proptest/combinator/just.hpp: just"]}
{"id": "C133", "title": "The arguments of expectation macros may be any expressions", "statement": "PROP_EXPECT_EQ(a, b) and the other comparison macros compare the values of the two expressions as the user wrote them, whatever operators are in them. (Violated: the macros put the arguments next to the comparison without parentheses; PROP_EXPECT_EQ(c ? p : q, r) passes whenever c and p are not zero, PROP_EXPECT_EQ(x & 1, 0) always fails. Exactly the arguments whose outermost operator binds stronger than the comparison are compared.)", "quantifier": "all macros, all pairs of expressions of any size", "why_tests_cant": "all expressions a user may write", "anchors": ["proptest/PropertyBase.hpp: PROP_EXPECT_STREAM, PROP_EXPECT_EQ, PROP_EXPECT_NE, PROP_EXPECT_LT, PROP_EXPECT_GT, PROP_EXPECT_LE, PROP_EXPECT_GE"]}
{"id": "C134", "title": "Expectation macros evaluate their arguments once and report the values they compared", "statement": "An expectation evaluates each argument exactly once, and the values in the report of a failure are the values that were compared. (Violated: on failure the arguments are evaluated again and the values of the second evaluation are reported, so PROP_EXPECT_EQ(next(), 6) may fail with '6 != 6'.)", "quantifier": "all comparisons, all arguments with side effects, all states", "why_tests_cant": "all functions and states", "anchors": ["proptest/PropertyBase.hpp: PROP_EXPECT_STREAM"]}
{"id": "C135", "title": "The reported arguments failed, also for generators that keep a state", "statement": "The arguments printed after a failure, and those printed as simplest, are arguments for which the property failed, also if a generator keeps a state of its own (a counter captured by a generator function or by lazy). (Violated: only the random engine is restored before the arguments are generated again; with a counting generator and the property x != k the reported argument is k + 1, for which the property holds.)", "quantifier": "all generators with states, properties, seeds, numbers of runs", "why_tests_cant": "all generators a user may write", "anchors": ["proptest/Property.hpp: runForAll, shrink", "proptest/combinator/lazy.hpp: lazy"]}
{"id": "C136", "title": "Arguments without a role in a failure are reported in their simplest form", "statement": "If an argument plays no role in a failure, that is, whether the property fails does not depend on it, the reported simplest arguments contain this argument in its simplest form: 0 for integers (for an interval the value nearest to 0), false for booleans, zero for floating point numbers of magnitude below 2^32, the shortest vector, string, set or map of the permitted sizes (a vector with simplest elements), pairs and tuples of simplest components, the image of the simplest value for transform. So (-13680124, 7524.68e-14, true) is reported as (0, 0, true) if only the flag matters, as docs/Shrinking.md says.", "quantifier": "all generators of these kinds, properties, tuples of arguments, seeds, orders of shrinking", "why_tests_cant": "all properties that ignore an argument, all drawn values", "anchors": ["docs/Shrinking.md:24", "proptest/Property.hpp: shrink, shrinkN, test", "proptest/shrinker/*.hpp", "proptest/generator/*.hpp"]}
{"id": "C137", "title": "The time limit ends a test", "statement": "Once the duration given with setMaxDurationMs has passed, the test ends with the call of the property that is under way, and 'Timed out' is only reported when it has passed. (Violated: the time is looked at only before a run begins. A property that discards everything is called forever, and shrinking a failure goes on for as long as there are candidates that fail. At most one further call that is not discarded is made outside of shrinking.)", "quantifier": "all properties, clocks, limits, seeds, numbers of runs", "why_tests_cant": "all clocks, all places where the limit may pass", "anchors": ["proptest/Property.hpp: runForAll, shrink", "docs/Property.md: Configuring Time-out"]}
{"id": "C138", "title": "All numbers of a range are equally likely", "statement": "With a random source whose draws are independent and uniform, interval(a, b), inRange, integers, natural and nonNegative yield each number of their range with the same probability, 1/n for n numbers. For a whole type (Arbi<int> and so on, and ranges that cover the type) every number can come, the special values (extremes, powers of two, 0, 1 and such) have half of the probability together and the rest is uniform.", "quantifier": "all integral types, ranges, numbers, sets of numbers", "why_tests_cant": "probabilities are not visible in samples", "anchors": ["proptest/generator/integral.hpp:36-138", "proptest/Random.cpp: getRandom*", "proptest/generator/int*.cpp, uint*.cpp"]}
{"id": "C139", "title": "Booleans have the probability that was asked for", "statement": "With a random source whose draws are independent and uniform, Arbi<bool> yields true with probability 1/2 and with the probability p given to it else. (Violated, by at most 2^-64: for 0 <= p < 1 the probability is more than p and at most p + 2^-64; it is not 0 for p = 0.)", "quantifier": "all probabilities from 0 to 1", "why_tests_cant": "probabilities are not visible in samples", "anchors": ["proptest/generator/bool.hpp:15", "proptest/Random.cpp: getRandomBool"]}
{"id": "C140", "title": "Alternatives are taken with the probabilities given by their weights", "statement": "With a random source whose draws are independent and uniform, oneOf, elementOf and actionListGenOf take alternatives without weights with the same probability and those with weights with their weight as probability, what remains being distributed evenly among those without weight (docs/Combinators.md). If the alternatives are themselves generators with loops (a oneOf, a filter, a set), their probabilities are multiplied with these. An alternative that discards is tried again and keeps its share, its values having their conditional probabilities. (Proved up to an error of (n + 2)/2^51 for n alternatives, of which the rounding of the remaining weight is a part. Violated if all have weights with a sum below 1: the probabilities are the weights divided by their sum. Violated also if weights with sum 1 leave nothing for an alternative without weight: it is taken with probability about 2^-64.)", "quantifier": "all numbers of alternatives, weights, generators, events", "why_tests_cant": "probabilities are not visible in samples", "anchors": ["docs/Combinators.md:45", "docs/Combinators.md:103", "docs/StatefulTesting.md:83", "proptest/combinator/oneof.hpp:75-160", "proptest/combinator/elementof.hpp:40-90"]}
{"id": "C141", "title": "Sizes of containers are equally likely, components are independent", "statement": "With a random source whose draws are independent and uniform, all permitted sizes of vectors, lists and strings are equally likely, elements are independent of the size and of each other, and so are the components of pairs and tuples, in whichever order the compiler draws them. The same holds for elements from a oneOf, a set or a filtered generator.", "quantifier": "all element generators, sizes, events for each element or component, orders of evaluation", "why_tests_cant": "probabilities are not visible in samples; the order of evaluation is the compiler's", "anchors": ["proptest/generator/vector.hpp:46-56", "proptest/generator/list.hpp:44-53", "proptest/generator/string.cpp:30-38", "proptest/generator/pair.hpp:21-30", "proptest/generator/tuple.hpp:23-35"]}
{"id": "C142", "title": "Filtering does not favour values", "statement": "With a random source whose draws are independent and uniform, a filtered generator yields the values that satisfy the condition with their conditional probabilities, if some satisfy it with positive probability; transform and map carry probabilities over to the images. This holds also if the generator is a oneOf, a set or a filtered generator itself.", "quantifier": "all generators, conditions, functions, events", "why_tests_cant": "probabilities are not visible in samples", "anchors": ["proptest/combinator/filter.hpp:38-46", "proptest/combinator/transform.hpp", "proptest/Generator.hpp: filter, map"]}
{"id": "C143", "title": "All numbers of several intervals are equally likely", "statement": "With a random source whose draws are independent and uniform, intervals and uintervals yield all numbers of the given intervals with the same probability, whatever the lengths of the intervals, and the Unicode generator all code points other than 0 and surrogates. (Violated by rounding: proved up to a relative error of 2^-49 and an absolute one of (number of intervals)/2^63 for each number; numbers that are in several intervals count several times. Lists that are rejected, C74, are excluded.)", "quantifier": "all lists of intervals, sets of numbers, code points", "why_tests_cant": "probabilities are not visible in samples", "anchors": ["proptest/combinator/intervals.cpp:5-50", "proptest/generator/unicode.cpp:8-17", "proptest/combinator/oneof.hpp:59-100"]}
{"id": "C144", "title": "Reports show the arguments as the property got them", "statement": "A property function may change the objects that its pointer arguments (shared_ptr, Nullable) point to: every call gets objects with the contents that were generated, and the arguments reported, with what is printed of the objects, are those for which the property failed. (Holds for the arguments printed as 'with args', which are generated again. Violated for those reported as the simplest: candidates share their objects with what is printed and with the calls made while other arguments are shrunk, and elementOf hands out the same object in every run.)", "quantifier": "all property functions, contents of objects, generators, seeds", "why_tests_cant": "all changes a function may make, all histories of calls", "anchors": ["proptest/Property.hpp: test, shrinkN, shrink", "proptest/generator/shared_ptr.hpp:29-34", "proptest/generator/nullable.hpp:28-41", "proptest/Shrinkable.hpp:186", "proptest/util/printing.hpp: show(shared_ptr), show(Nullable)"]}
{"id": "C145", "title": "All sets of a size are equally likely", "statement": "With a random source whose draws are independent and uniform, all permitted sizes of generated sets and maps are equally likely, provided the element (key) generator can yield that many different values; and if it yields n values with equal probabilities, all sets of the same size of these values are equally likely (1 of n choose k), as are the sets of keys of maps, whose values are independent of the keys and of each other. If the values have different probabilities, a set has the probability that its elements are the first different values drawn, in any order: repetitions of values drawn before do not count. This holds also if the generators of the elements, keys and values loop themselves, such as filters and oneOf.", "quantifier": "all element generators, sizes, sets, events for the values", "why_tests_cant": "probabilities are not visible in samples; the loop that fills the set has no bound", "anchors": ["proptest/generator/set.hpp:53-64", "proptest/generator/map.hpp:31-51"]}
{"id": "C146", "title": "All floating point numbers are equally likely", "statement": "With a random source whose draws are independent and uniform, Arbi<float> and Arbi<double> yield every number of the type, including infinities, both zeros and subnormal numbers, with the same probability, 1/2^32 or 1/2^64, and NaN with the remaining 1/256 or 1/2048 (slightly less). In particular, what cannot be shrunk without undefined behaviour (C101) is generated with probability more than 3/8 for float and 31/64 for double.", "quantifier": "both types, all numbers", "why_tests_cant": "there are 2^64 numbers; probabilities are not visible in samples", "anchors": ["proptest/generator/floating.cpp:11-25", "proptest/shrinker/floating.hpp:29-88"]}
{"id": "C147", "title": "Generators that depend on values have the conditional probabilities", "statement": "With a random source whose draws are independent and uniform, dependency, pairWith, chain and tupleWith yield a first value with the probability given by the first generator and a second one with the probability given by the generator for this first value; derive and flatMap follow the law of total probability; in accumulate all sizes are equally likely and each element has the probability given by the generator for the element before it. All this also holds for generators that loop, such as filters and oneOf, if the values on which others depend are finitely many.", "quantifier": "all generators, functions from values to generators, events, sizes", "why_tests_cant": "probabilities are not visible in samples", "anchors": ["proptest/combinator/dependency.hpp:47-84", "proptest/combinator/chain.hpp:53-149", "proptest/combinator/derive.hpp:47-82", "proptest/combinator/accumulate.hpp:21-65", "proptest/Generator.hpp:106-163"]}
{"id": "C148", "title": "How likely a test finds a failure", "statement": "With a random source whose draws are independent and uniform, the arguments of a property are drawn independently of each other, and forAll with N runs returns false with probability 1-(1-p)^N, where p is the probability that drawn arguments fail; run k+1 is the one reported with probability (1-p)^k p, and the reported arguments (before shrinking) have the probabilities of failing arguments. If arguments are discarded with probability d < 1, the same holds with p/(1-d) for p, and forAll returns with probability 1.", "quantifier": "all property functions without memory, generators, numbers of arguments and of runs, probabilities", "why_tests_cant": "probabilities are not visible in samples; the number of discards has no bound", "anchors": ["proptest/Property.hpp:193-266", "proptest/util/invokeWithGenTuple.hpp:9-31"]}
{"id": "C149", "title": "Showing values and the format settings of a stream are independent", "statement": "What is written when a value is shown (the text of C119) does not depend on the format settings that a user has made on the stream (base of integers, fill character, field width), and the settings are the same after as before. (Holds for streams in base 10 without field width, and showing keeps the base. Violated: IosFlagSaver does not save the fill character, so showing any nonempty string leaves it at '0'; integers are shown in the base of the stream; a field width that is set applies to the first piece of the text.)", "quantifier": "all values of all types of C119, all streams", "why_tests_cant": "settings and values without bound; an effect on what others write later", "anchors": ["proptest/util/misc.hpp:7-19", "proptest/util/unicode.cpp:8-37, 78-115", "proptest/util/cesu8string.cpp:19-30, 55-60", "proptest/util/utf8string.cpp:19-23", "proptest/util/printing.cpp: show", "proptest/util/printing.hpp: show"]}
{"id": "C150", "title": "Exceptions of functions given to generators do not hide a failure", "statement": "When the property function fails, forAll returns false and reports the failing arguments, also if a function given to a generator (with map) throws while shrinks are explored. (Holds if nothing is thrown: evaluating shrinks on demand makes no difference then; and the verdict is right if neither Discard nor Success is thrown and forAll returns. Violated: shrinking is done inside the try block that handles Discard and Success, so a failure followed by a discarded shrink is forgotten and a new run made, a property that never holds passes after Success; any other exception leaves forAll, or makes it report other arguments the property function was never called with; a shrink before one that throws is not tried.)", "quantifier": "all generators, functions, property functions, numbers of arguments and of runs, all evaluation orders", "why_tests_cant": "depends on what functions do for values that are not generated but only explored", "anchors": ["proptest/Property.hpp:193-266, 371-428", "proptest/Stream.hpp:54-65, 120-128", "proptest/Shrinkable.cpp:61-85", "proptest/util/tuple.hpp:35-47", "proptest/combinator/transform.hpp:38-41"]}
{"id": "C151", "title": "The report of a failure gives its reasons", "statement": "When forAll returns false, the text after 'Falsifiable, after k tests' names exactly the expectations that failed in the call that is reported (the one with the arguments shown), in order, or the exception that ended it. (Holds if no call that was discarded or succeeded early recorded a failed expectation and the reported call did not both record one and throw. Violated: expectations that failed in earlier calls that were discarded or succeeded early are named as reasons of a later failure; expectations that failed before an exception are not named.)", "quantifier": "all property functions, generators, numbers of arguments and of runs, all histories", "why_tests_cant": "depends on what earlier calls left behind; histories have no bound", "anchors": ["proptest/Property.hpp:193-266", "proptest/PropertyContext.cpp:22-63"]}
{"id": "C152", "title": "Tag statistics are about the runs that count", "statement": "Tag statistics are printed exactly when forAll returns true, after everything else; the numbers shown are those of the tags recorded by the runs that count, and there are as many of these as the number of runs printed. (Holds if discarded calls record no tags; in general the numbers are those of all calls, including discarded ones. Violated: a tag recorded before PROP_DISCARD is counted.)", "quantifier": "all property functions, tags, generators, numbers of arguments and of runs", "why_tests_cant": "numbers of runs and discards without bound", "anchors": ["proptest/Property.hpp:193-266", "proptest/PropertyContext.cpp:66-87", "proptest/PropertyContext.hpp:23-66"]}
{"id": "C153", "title": "Shrinking steps are printed faithfully", "statement": "The output of a failing test shows the arguments drawn, then, in order, the arguments of exactly those calls made while shrinking that failed, each with the expectations that failed in that call (no line if there are none); each step replaces one argument by a shrink offered for it; the last line shows the arguments of the last such step, or those drawn if there is none.", "quantifier": "all property functions, shrink trees, numbers of arguments, all evaluation orders", "why_tests_cant": "shrink trees of any size and property functions with memory", "anchors": ["proptest/Property.hpp:338-428"]}
{"id": "C154", "title": "Shrinking takes few calls", "statement": "While shrinking, the property function is called at most as often as the longest searches in the shrinkables of the arguments, taken together, try candidates, whatever it does (also if it behaves differently in every call), and there are functions for which it is called that often. A search tries at most: for an integer at distance d > 0 from the number of its range nearest to zero 1 + ceil(log2 d) candidates (at most 65), for a bool 1, for a floating point number 14, for a pair or tuple the sum for the components, for a string of n characters with minimum m 2(1 + ceil(log2(n-m))), for a map 1 + ceil(log2(n-m)), for a set n(1 + ceil(log2(n-m))), for a vector or list n(1 + ceil(log2(n-m)) + b) if b suffice for an element; map and filter add nothing, oneOf is as good as its worst alternative, dependency, chain and derive need the sum for both generators, accumulate 2(1 + ceil(log2(n-m))) + b.", "quantifier": "all property functions with or without memory, generators, sizes, numbers of arguments, seeds", "why_tests_cant": "worst case over all values, trees and behaviours of the property", "anchors": ["proptest/Property.hpp: shrinkN, shrinkEach, shrink", "proptest/generator/util.cpp: binarySearchShrinkable", "proptest/shrinker/listlike.hpp", "proptest/shrinker/string.cpp", "proptest/shrinker/pair.hpp", "proptest/shrinker/tuple.hpp", "proptest/Shrinkable.cpp: filter, concat, andThen"]}
{"id": "C155", "title": "Action objects are deleted once", "statement": "The action objects that generators hand to class-style stateful and concurrent tests as raw pointers are each deleted exactly once, and not used after that, however the lists of actions are copied, shrunk, run and destroyed. (Violated: every raw pointer becomes a shared_ptr with a control block of its own, so a generator that produces the same pointer twice, like just<A*>(p) or elementOf<A*>(p, q), leads to a double deletion or a use after deletion in every test that produces it twice; holds if every pointer produced is to a new object, or if the generators produce shared_ptrs.)", "quantifier": "all generators of action pointers, all orders of copying, calling and destroying actions, any number of actions and runs", "why_tests_cant": "undefined behaviour that depends on the order of destruction need not show in a test", "anchors": ["proptest/stateful/stateful_class.hpp:20-36", "proptest/stateful/stateful_class.hpp:109-150", "proptest/combinator/just.hpp:21-26"]}
{"id": "C156", "title": "Conditions given to filter may change or refuse their argument", "statement": "filter takes a condition of type bool(T&): whatever it does with its argument, the filtered generator yields the values of the generator that satisfy it, and tries another one if a value does not. (Violated: the condition is called on the stored value, and twice for every value that is offered. The property gets what two calls have left of the value; if the condition accepts a value but not what it leaves of it, generation, or the evaluation of shrinks, throws invalid_argument. Holds for conditions that leave their argument alone; conditions that bring it into a normal form yield the normal forms. An exception that a condition throws for a shrink comes out of shrinks(), see C150.)", "quantifier": "all conditions, generators, shrink trees, states", "why_tests_cant": "all functions with side effects, trees of any size", "anchors": ["proptest/combinator/filter.hpp:20-46", "proptest/Shrinkable.cpp:193-232", "proptest/util/any.hpp:17-20"]}
{"id": "C157", "title": "A concurrent test reports threads that cannot be created", "statement": "If a thread of a concurrent test cannot be created (std::thread throws std::system_error), go() reports a failure by returning false. (Holds for the thread of the spawner; the cleanup hook is not called then. Violated for rear threads, in both styles: the exception leaves the function run by the spawner thread, so the program ends by std::terminate without a verdict, whatever the actions and the threads created before do. If all threads are created, the test ends in just the ways stated in C72, C95 and C96.)", "quantifier": "all numbers of threads, actions, schedules and threads refused", "why_tests_cant": "system resources run out only under load; all schedules", "anchors": ["proptest/stateful/concurrency_function.hpp:264-295", "proptest/stateful/concurrency_class.hpp:243-259"]}
{"id": "C158", "title": "setMaxConcurrency(n) means n threads", "statement": "After setMaxConcurrency(n) every run draws a front list and n rear lists, and n threads each work off one of them on the object that the front list has left. (Holds for 2 <= n < 2^31. Violated: from 2^31 on, which the parameter type uint32_t admits, the number becomes negative and no thread is created at all, no rear list is drawn, and the test may pass although every rear action would fail; for n = 1 see C96.)", "quantifier": "all n, generators, actions, schedules", "why_tests_cant": "no test creates 2^31 threads; all numbers of threads", "anchors": ["proptest/stateful/concurrency_function.hpp:104-108", "proptest/stateful/concurrency_function.hpp:125", "proptest/stateful/concurrency_function.hpp:236-295"]}
{"id": "C159", "title": "The statistics of tags tell the proportions", "statement": "The statistics printed for tags show, for every key and value recorded, how often the value was recorded for the key, how often any was, and the percentage; the percentage is off by at most one part in 199999 of itself, is 100 if all values recorded for the key are the same and never more, and if it is shown as 100% all the values are the same. (The last part holds for fewer than two million values for a key; violated beyond: 100% is shown for a value if at most one in 2000001 is another one.)", "quantifier": "all sequences of tags, keys and values, counts of any size", "why_tests_cant": "all counts; six digits are shown, and tests record few tags", "anchors": ["proptest/PropertyContext.cpp:91-110", "proptest/PropertyContext.cpp:30-50"]}
{"id": "C160", "title": "Arbi<bool> takes a probability", "statement": "Arbi<bool>(p) works for every number p that its parameter type double admits, with 0 for numbers below 0 and 1 for numbers above, or refuses those that are no probabilities. (Violated: for NaN, the infinities, numbers greater than 1 and numbers of at most -2^-64 every call is undefined behaviour, a cast of a number out of range; exactly for these. Holds for the numbers from 0 to 1, and the negative ones above -2^-64 act as 0.)", "quantifier": "all doubles, engines and states", "why_tests_cant": "undefined behaviour need not show; all doubles", "anchors": ["proptest/generator/bool.cpp:5-11", "proptest/Random.cpp:24-29"]}
{"id": "C161", "title": "Factories given to dependency, chain and derive may change their argument", "statement": "The factory given to dependency (pairWith), chain (tupleWith) and derive (flatMap) takes its argument by reference; the first component of what is generated is the value of the first generator, and the second is what the generator made for it yields, whatever the factory does with its argument. (Violated for dependency and chain: the factory is called on the stored value and the first component, at the root and at every shrink, is what the factory has left of it, so that it need not be a value of the first generator and the second need not be one of the generator made for it; exactly if the factory changes the value. Holds for derive, and for factories that leave their argument alone; everything else about the pairs and their shrinks is as without the change.)", "quantifier": "all factories, generators, shrink trees, states of the engine at every evaluation", "why_tests_cant": "all functions with side effects, trees of any size", "anchors": ["proptest/combinator/dependency.hpp:22-45", "proptest/combinator/chain.hpp:28-50", "proptest/combinator/derive.hpp:22-45", "proptest/util/any.hpp:17-20"]}
{"id": "C162", "title": "Ranges of characters", "statement": "interval<char>(min, max), inRange<char>, integers<char>, natural<char> and nonNegative<char> generate the characters of the range, each of which is possible, and shrink within it towards the one nearest to zero, as the generators of the other integer types do. (Holds if both bounds are negative or neither is, and for all ranges where char is unsigned; ranges of ASCII characters, like the default of strings, behave as for int8_t. Violated where char is signed: a range with a negative lower bound and an upper bound that is not negative, like interval<char>(-10, 10), is drawn from 246..10 and is undefined behaviour in every call; the empty interval<char>(3, -5), undefined for other types, throws runtime_error.)", "quantifier": "all bounds, engines and states", "why_tests_cant": "undefined behaviour inside the standard library; all ranges", "anchors": ["proptest/Random.cpp:117-121", "proptest/Random.cpp:147-151", "proptest/generator/integral.hpp:36-64", "proptest/generator/integral.hpp:307-395", "proptest/generator/string.cpp:13-16"]}
{"id": "C163", "title": "Sets and maps of floating point numbers", "statement": "The generators of set<float>, set<double> and of maps with such keys return, with a size in the given range, elements in increasing order and without duplicates, and shrink to the selections of the elements of at least the minimal size. (Violated: NaN is among the generated numbers and compares neither less nor greater than any number, so if the size is two or more and the first number drawn is NaN, the set takes no other number and the generator never returns; this happens in about one of 256 calls for float and one of 2048 for double. Holds for the calls that return; exactly those return that draw a size below two, or draw a first number that is not NaN and enough different numbers, where 0 and -0 count as the same. A set of size one may be NaN.)", "quantifier": "all element generators, sizes, engines and states, all implementations of balanced search trees", "why_tests_cant": "a test that hangs once in 256 calls for sets of floats is not noticed or not understood; all draws", "anchors": ["proptest/generator/set.hpp:53-64", "proptest/generator/map.hpp:31-51", "proptest/generator/floating.cpp:11-25", "proptest/shrinker/set.hpp:8-11", "proptest/shrinker/map.hpp:9-44"]}
{"id": "C164", "title": "Slots that are given back by mistake", "statement": "util::Bitmap::unacquire(n), called by a thread that does not hold slot n, throws \"invalid state\" and does no harm: no two threads hold the same slot, and threads that make no mistake get no exception. (Holds if the slot is free and no other thread takes a step in the meantime; and slots that are never given back by mistake stay exclusive and cause no exceptions, whatever is done to the others, in every execution. Violated otherwise: giving back a slot that another thread holds is not noticed, and the slot can be given out a second time; and if another thread is about to take the slot, that thread gets the exception instead of the one that made the mistake.)", "quantifier": "all executions of any number of threads, all slots, all mistakes", "why_tests_cant": "all interleavings; misuse that is not noticed does not show in tests", "anchors": ["proptest/util/bitmap.cpp:23-43", "proptest/util/bitmap.cpp:54-59", "proptest/util/bitmap.cpp:68-104"]}
{"id": "C165", "title": "Copies of the slot allocator", "statement": "A copy of a util::Bitmap has the same free and taken slots as the original, which is not changed, and every slot that is free in the end can be got from the copy; after reset all slots are free. (Holds if no thread is in a call on the original while it is copied; in general every element of the copy is what the original had when it was read. Violated otherwise: a slot that a thread is taking or giving back during the copying can be lost in the copy for good. reset forgets the slots in use, which are then given out a second time.)", "quantifier": "all executions before, during and after the copying, all slots", "why_tests_cant": "all interleavings; a lost slot shows only when all slots are used up", "anchors": ["proptest/util/bitmap.cpp:16-21", "proptest/util/bitmap.cpp:83-88", "proptest/util/bitmap.cpp:23-43"]}
{"id": "C166", "title": "Generators that draw again need few draws", "statement": "A generator filtered by a condition that holds with probability p calls the generator it filters 1/p times on average, more than m times with probability (1-p)^m. A set or the keys of a map with k elements out of n equally likely values take the sum of n/(n-j) draws for j from 0 to k-1 on average, and all sizes of the range are equally likely. oneOf (and so elementOf, intervals) with n alternatives picks an alternative n divided by the sum of the weights times on average, up to the precision of its comparison, that is n times if the weights sum up to 1.", "quantifier": "all generators with the stated probabilities, conditions, ranges of sizes, numbers of alternatives and weights", "why_tests_cant": "averages over all sequences of draws", "anchors": ["proptest/combinator/filter.hpp:38-46", "proptest/generator/set.hpp:53-64", "proptest/generator/map.hpp:31-51", "proptest/combinator/oneof.hpp:59-100"]}
{"id": "C167", "title": "Recursive generators with alternatives return", "statement": "A generator of trees that calls itself through one of two alternatives of oneOf, like the one of the test (branchNGen: nodes with lo to hi subtrees, each from branch1Gen or from branchNGen itself), returns with probability one. (Holds exactly if on average at most one subtree of a node comes from the generator itself: the probability of that alternative times (lo + hi)/2 is at most 1, without weights lo + hi <= 4; the test has 1 and 2. Violated otherwise: if the average is 1 + d, calls recurse without end, until the stack overflows, with probability at least d/hi^2, as with the default sizes of vectors, 0 to 200.)", "quantifier": "all weights, sizes, base generators that return with probability one", "why_tests_cant": "infinite recursion with some probability; all sequences of draws", "anchors": ["proptest/test/test_combinator2.cpp:456-469", "proptest/combinator/oneof.hpp:59-100", "proptest/combinator/construct.hpp:113-136", "proptest/generator/vector.hpp:33-52"]}
{"id": "C168", "title": "The list of actions reported by a failing stateful test is minimal", "statement": "Leaving out any of the actions a failing stateful test reports makes the test pass, and the last reported action is the one at which it fails. (Violated in general: an action left out may change how the ones after it fail; a list whose beginning already fails can be reported. What holds: if failures persist when actions are added, the reported list has the actions of a minimal failing selection of the drawn ones, each shrunk further; for any actions, without a post check, the reported list is empty or ends with the action at which the drawn list failed first, shrunk further, after some of the actions drawn before it; what was drawn after it is never reported.)", "quantifier": "all objects, models, actions (function style and class style), generators of them, sequences of draws, orders in which object and actions are shrunk", "why_tests_cant": "all lists of actions and all failing behaviours; a test sees the shrinking of particular failures", "anchors": ["proptest/stateful/stateful_function.hpp:91-122", "proptest/stateful/stateful_class.hpp:117-152", "proptest/shrinker/listlike.hpp:79-123", "proptest/Property.hpp:338-411"]}
{"id": "C169", "title": "Strings of Unicode characters of the same length are equally likely", "statement": "With a random source whose draws are independent and uniform, the generators of UTF-8, CESU-8 and UTF-16 strings yield all permitted numbers of characters equally likely, and the characters are independent of their number and of each other, with the probabilities of the generator of characters. With the default generator all strings of n characters other than 0 have the same probability 1/(1112063^n (maxSize-minSize+1)), up to 2^-61 for each character.", "quantifier": "all generators of scalar values, sizes, conditions on each character, strings, and the four encodings", "why_tests_cant": "probabilities are not visible in samples", "anchors": ["proptest/generator/utf8string.cpp:43-93", "proptest/generator/cesu8string.cpp:42-92", "proptest/generator/utf16string.cpp:38-78", "proptest/generator/utf16string.cpp:106-156", "proptest/generator/unicode.cpp:8-17"]}
{"id": "C170", "title": "Calls in a forked process leave nothing behind", "statement": "When util::safeCall comes back, by returning or by an exception, the calling process has the open descriptors and the children it had before, however often it is called, and what the function has printed appears once. (Holds for descriptors, also if pipe() or fork() fails. Violated for children if a signal interrupts waitpid: the call returns the value as if nothing had happened and the child is never waited for. Violated for output: text printed but not flushed before the call appears twice.)", "quantifier": "all functions, results, sequences of calls, failures of pipe, fork and waitpid, sizes of pipes", "why_tests_cant": "depends on the system and on signals; leaks show only after many calls", "anchors": ["proptest/util/fork.hpp:93-138", "proptest/util/fork.cpp:6-58"]}
{"id": "C171", "title": "Values come out as the type they were put in as", "statement": "Although values, shrinks and elements are kept as shared_ptr<void>, no operation of the library reads a value as another type than the one it was made as: map, flatMap, mapShrinkable, filter, concat, andThen and take of shrinkables, transform and filter of generators, vectors and the arguments of properties see exactly the values that were generated. (Holds for shrinkables, and for generators used as the type they generate. Violated otherwise: a generator of another type is accepted wherever a generator is, Shrinkable<U> converts to Shrinkable<T> for all U and T, and each value it generates is read as what it is not.)", "quantifier": "all types, trees, functions, conditions, generators, sequences of draws", "why_tests_cant": "undefined behaviour that often goes unnoticed; all types and trees", "anchors": ["proptest/util/any.hpp:8-24", "proptest/Shrinkable.hpp:171-189", "proptest/Shrinkable.hpp:272-353", "proptest/Shrinkable.cpp:61-316", "proptest/GenBase.hpp:34-35", "proptest/shrinker/listlike.hpp:79-101", "proptest/combinator/transform.hpp:22-63", "proptest/combinator/filter.hpp:20-76"]}
{"id": "C172", "title": "Streams of shared pointers are streams of shared pointers", "statement": "Stream::transform, filter, one and two yield streams from which the elements can be read as the type they were put in as, for all types of elements. (Violated for shared pointers: the constructor that is taken stores what the pointer points to instead of the pointer, so reading the element reads it as what it is not, and a null pointer makes the stream end there; only Stream::one works. Holds for all other types.)", "quantifier": "all types of elements, streams, transformations, conditions and numbers of elements read", "why_tests_cant": "overload resolution depends on the type of the elements; undefined behaviour", "anchors": ["proptest/Stream.hpp:17-33", "proptest/Stream.hpp:54-65", "proptest/Stream.hpp:74-89", "proptest/Stream.hpp:102-109", "proptest/Stream.cpp:23-33"]}
{"id": "C173", "title": "Shrinking ends whatever the shrinks are", "statement": "For shrinkables of user-written generators, whose shrinks are streams computed on demand, shrinking ends, and the argument it reports fails while all its shrinks pass. (Holds if the shrinks end: then it does the same as for the finite tree of the same values. If it comes back, the argument is reached by taking the first failing shrink again and again, it fails, and its shrinks end and pass. Violated in general: it never comes back exactly if taking the first failing shrink leads to shrinks without end that all pass, or never ends itself; no time limit applies; for every property that fails there are such shrinkables.)", "quantifier": "all streams of shrinks, finite or not, arguments, property functions without memory", "why_tests_cant": "not coming back cannot be tested; all streams", "anchors": ["proptest/Property.hpp:370-412", "proptest/Shrinkable.hpp:153-163", "proptest/Shrinkable.cpp:320", "proptest/Stream.hpp:113-131"]}
{"id": "C174", "title": "All combinators pass shrinking on", "statement": "Shrinking is supported for all built-in generators and combinators (docs/Shrinking.md): an argument without a role in a failure is reported as the combinator applied to values in their simplest form. (Holds for filter, oneOf, intervals, dependency, chain, derive, aggregate, shared_ptr and the value of Nullable. Violated for construct, whose objects have no shrinks; for the elements of strings, sets and maps, which stay as generated; for accumulate, where only the last element is simplified, by one step; a value of Nullable that is present never becomes null.)", "quantifier": "all generators, conditions, functions, sizes, weights, sequences of draws, times at which shrinks are evaluated", "why_tests_cant": "all shrinks of all values, through arbitrary generators", "anchors": ["docs/Shrinking.md:3", "proptest/combinator/filter.hpp:38-46", "proptest/combinator/oneof.hpp:59-146", "proptest/combinator/dependency.hpp:47-84", "proptest/combinator/chain.hpp:53-149", "proptest/combinator/derive.hpp:47-82", "proptest/combinator/aggregate.hpp:19-35", "proptest/combinator/accumulate.hpp:21-65", "proptest/combinator/construct.hpp:113-136", "proptest/generator/nullable.hpp:29-41", "proptest/generator/shared_ptr.hpp:28-33"]}
{"id": "C175", "title": "Constructors may use their arguments as they like", "statement": "A constructor called by construct<CLASS, ARGTYPES...> gets, for each parameter, an object with a newly generated value from the generator given for it or the default one; it may look at it, change it, move from it, and keep a reference to it if the parameter is one. (Holds for parameters that are values, for references to objects of generators that make new ones as far as the constructor runs, and for constructors that only look. Violated for references to what just generates: the constructor changes the constant, all later objects get what it has left, two references are one object. Violated for objects that keep a reference: what it refers to is destroyed before the generator returns.)", "quantifier": "all constructors as sequences of reads and writes, numbers of parameters, generators, sequences of calls", "why_tests_cant": "undefined behaviour; the effect shows in later calls only; all constructors", "anchors": ["proptest/combinator/construct.hpp:19-44", "proptest/combinator/construct.hpp:67", "proptest/combinator/construct.hpp:113-136", "proptest/combinator/construct.hpp:158-180", "proptest/combinator/just.hpp:31-62", "proptest/Shrinkable.hpp:186-188"]}
{"id": "C176", "title": "How often a test calls the property function", "statement": "A test of N runs whose arguments are discarded with probability d < 1 and fail with probability p calls the property function (1 + r + ... + r^(N-1)) / (1-d) times on average before shrinking, where r = 1 - p/(1-d): N/(1-d) times if it never fails, at most 1/p times if it can fail, however many runs are asked for.", "quantifier": "all generators and property functions with these probabilities, numbers of runs and arguments, orders of evaluation", "why_tests_cant": "averages over all seeds; samples only estimate them", "anchors": ["proptest/Property.hpp:191-262", "proptest/util/invokeWithGenTuple.hpp:10-14"]}
{"id": "C177", "title": "Shrinking removes the sign of numbers", "statement": "A number that makes a test fail is reported without its sign if the test fails for its absolute value as well (-34 is reported as 34), and otherwise with an absolute value that is not larger.", "quantifier": "all integer types, ranges, floats and doubles, property functions, numbers of arguments, seeds", "why_tests_cant": "documented for all numbers and all properties; a test shows single reports", "anchors": ["docs/Shrinking.md:35-37", "proptest/generator/integral.hpp:36-64", "proptest/shrinker/floating.hpp:29-88", "proptest/Property.hpp:372-435"]}
{"id": "C178", "title": "Tests that are repeated test further inputs", "statement": "Calling forAll again in the same program, or testing another property with the same generators, or a test nested in another one, tries inputs that have not been tried before. (Violated: all seeds not given by setSeed are the same in a program; of two tests with the same generators one tries what the other one tries first.)", "quantifier": "all programs, times, environments, property functions, numbers of runs and generators", "why_tests_cant": "about all tests of a program together; a single test sees nothing of it", "anchors": ["proptest/Property.cpp:10-19", "proptest/PropertyBase.hpp:76", "proptest/Property.hpp:100-104", "proptest/Property.hpp:195-196", "proptest/Random.cpp:6"]}
{"id": "C179", "title": "Generated values can be used without the engine", "statement": "A shrinkable that a generator has returned can be used on its own: exploring its shrinks needs no random engine, can be done when the engine it was generated with is gone, and does not change what the engine generates next; generating a value draws nothing for its shrinks. (Holds for dependency, chain and derive where the first value has no shrinks, and in forAll, whose engine lives as long as the shrinking: there they offer what C38, C85 and C86 say. Violated otherwise: the shrinks refer to the engine and draw from it when they are looked at, which is undefined behaviour when it is gone and shifts all later draws when it is not; one of them is generated, and dropped, with the value itself, so that values are lost whose first shrink the second generator cannot serve.)", "quantifier": "all generators, factories, engines, values, times at which shrinks are looked at", "why_tests_cant": "undefined behaviour; later draws shift silently; all generators", "anchors": ["proptest/combinator/dependency.hpp:33-45", "proptest/combinator/dependency.hpp:53-74", "proptest/combinator/chain.hpp:39-50", "proptest/combinator/chain.hpp:110-138", "proptest/combinator/derive.hpp:33-45", "proptest/Shrinkable.cpp:87-101", "proptest/Shrinkable.cpp:295-308", "proptest/Stream.hpp:54-65"]}
{"id": "C180", "title": "Dependent values and filtered values are the same values", "statement": "Values that depend on each other can be made with dependency (pairWith, chain, tupleWith) or with filter, as the documentation says: dependency(gen, v -> interval(lo(v), hi(v))) and pairOf(gen, interval(L, H)) filtered by lo(v) <= d <= hi(v) generate the same pairs, and shrinking keeps them valid. They differ in how likely the pairs are: with independent uniform draws a pair (v, d) has probability p(v)/l(v) with dependency and p(v)/m with filter, where p(v) is the probability of v, l(v) the number of values d for v and m the average of l; filter takes (H-L+1)/m attempts on average. For the dates of the documentation: with filter all 3652425 dates are equally likely, with chain days of short months are more likely.", "quantifier": "all generators, ranges, numbers of cases, integer types, evaluation orders, draws", "why_tests_cant": "probabilities over all draws; unbounded number of attempts; all generators", "anchors": ["docs/Combinators.md:205-254", "proptest/combinator/dependency.hpp:47-84", "proptest/combinator/filter.hpp:14-62", "proptest/generator/pair.hpp:21-30"]}
{"id": "C181", "title": "Containers whose size is a generated number", "statement": "A container generator that is given a generated number n as its size, as in the examples of the documentation, makes containers of at most n elements after setMaxSize(n) and of n elements after setSize(n), or refuses the number. (Holds for n from 0 on. Violated for negative numbers of type int: they are converted to size_t and then cut off, so that after setMaxSize(n) all sizes up to 2^32+n are equally likely, after setSize(n) strings have 2^32+n characters, and for vectors the behaviour is undefined.)", "quantifier": "all numbers of type int, generators, engines, draws", "why_tests_cant": "2^31 negative numbers; strings of 2^32 characters do not fit into a test; undefined behaviour", "anchors": ["docs/Combinators.md:336-340", "docs/Combinators.md:344-359", "proptest/Arbitrary.hpp:181-205", "proptest/Random.cpp:80-83", "proptest/generator/string.cpp:30-38", "proptest/generator/vector.hpp:46-56"]}
{"id": "C182", "title": "Dependent generators can be nested", "statement": "dependency, chain, derive and the methods pairWith, tupleWith and flatMap can be applied to generators that are dependent themselves, to any depth: in every value a test may try or report, whenever and with whatever state of the engine shrinks are evaluated, each component is one that the generator made for the components before it gives; if all generators return, all tuples are generated and shrinking comes back; the reported value fails if the generated one does, and the shrinks made for it at the end pass.", "quantifier": "all generators, factories, depths, engines, property functions, times and orders of evaluation", "why_tests_cant": "shrinks draw when they are looked at, at all levels; all depths and orders", "anchors": ["docs/Combinators.md:205-254", "proptest/Generator.hpp:106-163", "proptest/combinator/dependency.hpp:33-84", "proptest/combinator/chain.hpp:39-149", "proptest/combinator/derive.hpp:33-82", "proptest/Shrinkable.cpp:87-101", "proptest/Shrinkable.cpp:295-308", "proptest/Stream.hpp:54-65", "proptest/Property.hpp:370-428"]}
{"id": "C183", "title": "Generating a dependent value calls each generator once", "statement": "Generating a tuple of n+1 components with gen.tupleWith(f1)...tupleWith(fn), or n values with n nested calls of flatMap, calls a generator once for each of them. (Holds for components without shrinks; in general 2^(n+1)-1 calls are an upper bound for tuples. Violated: the shrinks are evaluated one step ahead on each level, so that a tuple of components like numbers that are not 0 takes Fibonacci(n+4)-2 calls, 6 for a date of three components, 53 for seven components, and n nested calls of flatMap take 2^n-1 calls.)", "quantifier": "all generators and factories, numbers of components, states of the engine", "why_tests_cant": "the additional values are dropped, a test only gets slower; exact number for all depths", "anchors": ["proptest/Generator.hpp:134-163", "proptest/combinator/chain.hpp:53-149", "proptest/combinator/derive.hpp:47-82", "proptest/Shrinkable.cpp:87-101", "proptest/Shrinkable.cpp:295-308", "proptest/Stream.hpp:54-65"]}
{"id": "C184", "title": "transform and derive are mapping and binding", "statement": "transform and derive (map, flatMap) obey the laws of mapping and binding the documentation refers to: map with the identity changes nothing, map twice is map with both functions, just(a).flatMap(f) is f(a), g.flatMap(just) is g, g.flatMap(just of f) is g.map(f), and g.flatMap(f).flatMap(h) is g.flatMap(a -> f(a).flatMap(h)); the same values, shrinks and use of the engine. (All hold but the last, which holds if the generators of f and h do not draw. Violated: if all values have shrinks the left side calls generators 6 times and the right side 7 times, and from the same seed they generate different values.)", "quantifier": "all generators, functions, factories, states of the engine", "why_tests_cant": "equality of generators: all values, all shrinks, all states of the engine", "anchors": ["docs/Combinators.md:146-181", "proptest/combinator/transform.hpp:24-47", "proptest/combinator/derive.hpp:47-82", "proptest/combinator/just.hpp:31-62", "proptest/Generator.hpp:59-80", "proptest/Generator.hpp:158-172", "proptest/Shrinkable.cpp:87-101", "proptest/Shrinkable.cpp:295-308"]}
{"id": "C185", "title": "Nested dependent generators have the chances of their parts", "statement": "Generators nested to any depth with pairWith, tupleWith, flatMap and map, from generators that always return, generate values with the chances one expects: the chance of a pair or tuple is the product of the chances of the components, each given those before it; the chance of a result of flatMap is the sum over the cases of the first value; both ways to nest flatMap give every value the same chance. The values that are generated in addition for the shrinks, and dropped, do not matter.", "quantifier": "all generators, depths of nesting, numbers of components, conditions", "why_tests_cant": "a statement about distributions over all draws; frequencies of samples only approximate it", "anchors": ["proptest/combinator/dependency.hpp:47-84", "proptest/combinator/chain.hpp:53-149", "proptest/combinator/derive.hpp:47-82", "proptest/combinator/transform.hpp:24-47", "proptest/Generator.hpp:59-172", "proptest/Shrinkable.cpp:87-101", "proptest/Shrinkable.cpp:295-308"]}
{"id": "C186", "title": "STREQ compares C strings", "statement": "PROP_EXPECT_STREQ(a, b, n) and PROP_ASSERT_STREQ(a, b, n) compare C strings: they pass iff the first n characters of the strings, which end at the first zero, are equal, STRNE iff they are not; a failing STREQ shows two different texts. (Holds if n does not go beyond the terminating zeros. Violated: the memory behind the zeros is compared as well, so equal strings in larger buffers are reported as different; if n goes beyond a buffer the comparison is undefined, even of a string with itself.)", "quantifier": "all strings, buffers, lengths, what is stored behind the strings", "why_tests_cant": "what is behind a string depends on the run; reading beyond a buffer may go unnoticed", "anchors": ["proptest/PropertyBase.hpp:8-19", "proptest/PropertyBase.hpp:30-39", "proptest/assert.hpp:105-152", "proptest/util/printing.cpp:10-15", "proptest/util/printing.hpp:116-127", "docs/Property.md:297-324"]}
{"id": "C187", "title": "The report of a stateful test tells the actions", "statement": "The arguments shown for a failing stateful test show the actions in the order in which they were executed, and whoever has the report can repeat the failing sequence: two runs shown as the same text have the same object and the same actions, hence the same verdict. Simple actions keep their names and act as before, leaving the model alone. (Holds for actions with names without spaces, different names for different actions, and objects that are shown distinctly. Violated: actions made without a name are all shown as Action<?>; a name with a comma looks like two actions; all actions of the class style are shown as <???>.)", "quantifier": "all objects, action lists, names, model factories, post checks", "why_tests_cant": "a report is looked at for a few failures only; that different sequences are never shown alike is a statement about all pairs", "anchors": ["proptest/util/action.hpp:13-57", "proptest/util/printing.hpp:172-182", "proptest/util/printing.hpp:199-212", "proptest/util/printing.hpp:252-260", "proptest/util/printing.hpp:275-280", "proptest/stateful/stateful_function.hpp:99-108", "proptest/stateful/stateful_function.hpp:137-146", "proptest/stateful/stateful_class.hpp:46-75"]}
{"id": "C188", "title": "The settings of a concurrent test are in force", "statement": "Whatever setters of a concurrent test are called, in any order and any number of times, go() runs the test with the argument of the last call of each setter and with the documented defaults for the others (global seed, 200 runs, two threads, no time limit, no hooks, no post check). After the time limit has passed no further attempt is begun. (Settings: holds for numbers below 2^31. Time limit: holds if attempts are not discarded; violated by discards: after the limit further attempts are made until one is not discarded, for ever if all are.)", "quantifier": "all sequences of calls of setters, clocks, schedules, hooks, generators, numbers of attempts", "why_tests_cant": "the combinations and orders of settings are unbounded; what happens after a time limit depends on the clock and on discards", "anchors": ["proptest/stateful/concurrency_function.hpp:38-126", "proptest/stateful/concurrency_function.hpp:130-185", "proptest/stateful/concurrency_function.hpp:342-372", "proptest/stateful/concurrency_class.hpp:41-119", "docs/ConcurrencyTesting.md"]}
{"id": "C189", "title": "How likely a test finds a failure, with generators that draw until they succeed", "statement": "If the generators of the arguments are ones like filter, oneOf, elementOf, sets and maps (also of each other), which draw again until they succeed, and return with probability 1: drawn arguments fail with probability p and are discarded with probability d < 1, then a test of N runs finds a failure with probability 1 - (1 - p/(1-d))^N, reports it in run k+1 with (unshrunk) arguments in a set with the probability that k runs pass and the next fails in the set, passes otherwise, and returns with probability 1. The arguments are independent of each other. For instance, a failure of exactly one set of k out of n equally likely values, with m permitted sizes, is found with probability 1 - (1 - 1/(m * (n choose k)))^N.", "quantifier": "all property functions without state, generators that return with probability 1, numbers of runs, sets of arguments, orders of evaluation", "why_tests_cant": "a statement about distributions over all draws, with no bound on the number of draws of one argument", "anchors": ["proptest/Property.hpp:171-262", "proptest/Property.hpp:340-411", "proptest/combinator/filter.hpp", "proptest/combinator/oneof.hpp", "proptest/combinator/elementof.hpp", "proptest/util/invokeWithGenTuple.hpp", "docs/Combinators.md:96-138"]}
{"id": "C190", "title": "How likely a stateful test tries a sequence of actions", "statement": "If actions are of given kinds with given probabilities, a stateful test generates a list of exactly these actions with the product of the probabilities divided by 201 (all lengths from 0 to 200 are equally likely), a list beginning with k given actions with the product times (201-k)/201, and a list without an action of a kind of probability p with probability (1 + (1-p) + ... + (1-p)^200)/201. Object and actions are independent. Hence a stateful test of N runs finds a failure that is shown by lists of probability q with probability 1-(1-q)^N, and one action that always fails is found with 1 - ((1 + (1-p) + ... + (1-p)^200)/201)^N. The same holds for class style stateful tests, if the failing action's precondition holds; an action whose precondition never holds is never found.", "quantifier": "all generators of objects and actions that return with probability 1, action types, model factories, numbers of runs, kinds of actions", "why_tests_cant": "a statement about distributions over all draws; frequencies of samples only approximate it", "anchors": ["proptest/stateful/stateful_function.hpp:91-125", "proptest/generator/list.hpp", "proptest/shrinker/listlike.hpp", "proptest/Property.hpp:171-262", "docs/StatefulTesting.md"]}
{"id": "C191", "title": "A test depends on the property function only at values that can be generated", "statement": "Two property functions that do the same for all arguments whose values the generators can produce, or arrive at by shrinking, give the same test: the same calls in the same order, the same output and report, whatever settings, hooks and generators. What a function does for other arguments does not matter; and all calls recorded in a test are of such arguments.", "quantifier": "all property functions (with state), generators, settings, hooks, seeds", "why_tests_cant": "that two functions are never distinguished is a statement about all tests of both", "anchors": ["proptest/Property.hpp:171-262", "proptest/Property.hpp:340-411", "proptest/util/invokeWithGenTuple.hpp", "proptest/util/invokeWithArgs.hpp"]}
{"id": "C192", "title": "The number of runs and the time limit only cut a test off", "statement": "From the same seed, a test with a larger number of runs and a later time limit (or none) is the same test, call by call and in its report, or the shorter test passed or ran out of time and the longer one begins with the same calls. So a reported failure is reported again, in the same run with the same arguments, with any larger number of runs and any later limit, and if the longer test returns true so does the shorter one.", "quantifier": "all numbers of runs, time limits, clocks, functions (with state), hooks, generators, seeds", "why_tests_cant": "a comparison of all pairs of tests; a sample of numbers of runs shows nothing about the others", "anchors": ["proptest/Property.hpp:193-266", "proptest/PropertyBase.hpp:70-107", "docs/Property.md"]}
{"id": "C193", "title": "Hooks that do nothing change nothing", "statement": "Startup and cleanup hooks that return normally and report no failure do not change a test: with and without them (and with any others like them) the property function is called with the same arguments in the same order, in the runs and in shrinking, and the report is the same, provided that the function and, if there is a time limit, the clock do not depend on the hooks.", "quantifier": "all functions, hooks, generators, settings, seeds", "why_tests_cant": "a comparison of all pairs of tests with and without hooks", "anchors": ["proptest/Property.hpp:193-266", "proptest/Property.hpp:338-428", "proptest/PropertyBase.hpp:70-107"]}
{"id": "C194", "title": "Mapping commutes with the other combinators", "statement": "transform may be moved through the other combinators: filtering a transformed generator is transforming the generator filtered by the composed condition; oneOf and elementOf of transformed alternatives, and lists, strings, sets, maps (for functions that keep the order), pairs, tuples, constructed objects, dependent values, pairs and chains of transformed generators are the transformed lists, ..., chains. The generators agree draw by draw: same state of the random engine afterwards, same failures, same values and the same shrinks all the way down.", "quantifier": "all functions, generators, states of the random engine", "why_tests_cant": "an equation of generators and of whole shrink trees", "anchors": ["proptest/combinator/transform.hpp:38-41", "proptest/combinator/filter.hpp:38-46", "proptest/combinator/oneof.hpp:59-100", "proptest/combinator/elementof.hpp:74-88", "proptest/generator/vector.hpp:46-56", "proptest/generator/set.hpp:53-64", "proptest/generator/map.hpp:31-51", "proptest/combinator/derive.hpp:47-82", "proptest/combinator/dependency.hpp:47-84", "proptest/combinator/chain.hpp:53-149"]}
{"id": "C195", "title": "Filtering twice is filtering by both conditions", "statement": "A generator filtered by one condition and then by another yields, from the same state, the same value as the generator filtered by the conjunction of both (as soon as both find one), and offers the same shrinks; filtering again by the same or an implied condition changes nothing.", "quantifier": "all conditions, generators, states, numbers of attempts", "why_tests_cant": "an equation of generators and of whole shrink trees", "anchors": ["proptest/combinator/filter.hpp:38-46", "proptest/Shrinkable.cpp:146-232"]}
{"id": "C196", "title": "Mapping in the generators or in the property function is the same test", "statement": "A test of a function with transformed generators and a test with the generators themselves of the function applied to the transformed arguments are the same test from the same seed: they call the function with the same (transformed) arguments in the same order, in the runs and in shrinking, and their reports agree after transforming.", "quantifier": "all functions (with state), transformations, hooks, generators, settings, seeds", "why_tests_cant": "a comparison of all pairs of tests", "anchors": ["proptest/Property.hpp:193-266", "proptest/Property.hpp:338-428", "proptest/combinator/transform.hpp:38-41"]}
{"id": "C197", "title": "Discarding is filtering", "statement": "A test that discards the arguments that do not satisfy a condition (PROP_DISCARD) and a test with the generator filtered by the condition are, from the same seed, the same test: both pass or both report a failure after the same number of tests with the same argument, the arguments that satisfy the condition are the same in the same order, and what is reported satisfies the condition, also after shrinking.", "quantifier": "all conditions, functions, generators (for which the filter does not give up), seeds, numbers of runs", "why_tests_cant": "a comparison of all pairs of tests", "anchors": ["proptest/Property.hpp:193-266", "proptest/Property.hpp:338-428", "proptest/combinator/filter.hpp:38-46"]}
{"id": "C198", "title": "A property of several arguments and a property of a tuple are the same test", "statement": "A test of a function of several arguments and the test of the function of a tuple of them (drawn by the tuple generator from the same generators) are the same test from the same seed: the function is called with the same arguments in the same order, in the runs and in shrinking, the hooks at the same places, and the reports show the same arguments before and after shrinking. Pairs shrink as tuples of two.", "quantifier": "all functions (with state), hooks, generators, numbers of arguments, settings, seeds", "why_tests_cant": "a comparison of all pairs of tests", "anchors": ["proptest/Property.hpp:193-266", "proptest/Property.hpp:338-428", "proptest/shrinker/tuple.hpp:21-79", "proptest/shrinker/pair.hpp:17-50", "proptest/generator/tuple.hpp:23-35"]}
{"id": "C199", "title": "Checks made together or in separate tests", "statement": "A test of a function that makes two checks one after the other finds what the two tests of one check each, from the same seed, find: the first failing run of the two, with its number and arguments; it passes iff both pass. A stricter property function fails no later than a weaker one.", "quantifier": "all pairs of property functions (without PROP_SUCCESS, discarding the same arguments), generators, seeds, numbers of runs", "why_tests_cant": "a comparison of all pairs of tests", "anchors": ["proptest/Property.hpp:193-266"]}
{"id": "C200", "title": "The settings of a property object are in force", "statement": "A test of a Property object runs with what the last call of each setter for this object said (seed, number of runs, time limit, hooks), otherwise with the global seed, 1000 runs, no time limit and no hooks, and with the generators given to forAll, otherwise those given to property(). Setters of other objects, the order of setters and earlier tests do not matter; a copy takes over the settings of the original, and from then on they are independent.", "quantifier": "all programs that make, copy, set and test property objects", "why_tests_cant": "all sequences of calls on any number of objects", "anchors": ["proptest/Property.hpp:77-177", "proptest/PropertyBase.hpp:72-106", "proptest/Property.cpp:10-25"]}
{"id": "C201", "title": "Operations on streams and shrinkables can be regrouped", "statement": "map, flatMap, filter, take, concat and andThen of shrinkables, and transform, concat and take of streams, obey the usual laws: mapping twice is mapping by the composition, filtering twice is filtering by both conditions in any order, filter and take commute with map, taking twice takes the smaller number, appending or continuing twice is appending or continuing once, appending nothing changes nothing; concatenation of streams is associative with the empty stream as neutral element.", "quantifier": "all shrink trees and streams (also infinite ones), functions, conditions, numbers", "why_tests_cant": "equations of whole trees and infinite streams", "anchors": ["proptest/Shrinkable.cpp:100-316", "proptest/Shrinkable.hpp", "proptest/Stream.hpp:54-109", "proptest/Stream.cpp:35-58"]}
{"id": "C202", "title": "Tests can be nested", "statement": "The property of a test may be another test that depends on its arguments. When the outer test passes, every call of the inner property in every run of the outer test passed, with as many runs of the inner test for each run of the outer one as configured; when it fails, the arguments it reports are arguments on which the inner test fails. Further runs of the outer test make the inner test try further inputs.", "quantifier": "all outer and inner configurations, generators, property functions and seeds", "why_tests_cant": "all pairs of tests and all runs of both", "anchors": ["proptest/Property.hpp:163-266", "proptest/PropertyContext.cpp:17-25", "proptest/PropertyBase.cpp"]}
{"id": "C203", "title": "A concurrent test can meet every order of the actions, and no other", "statement": "The results a concurrent run can have, over all schedules of its threads, are exactly those of its post check after all rear actions have been executed one after the other in an order that keeps the order of each list: each such order can happen, and nothing else can. Some schedule ends the program by an exception if and only if some order leads to an action that throws. If actions of different threads commute, all schedules lead to the same result. In the class style the results are exactly those of the sequences of evaluated preconditions and executed actions that keep the order of each list, and do not depend on the schedule if the actions of the two threads commute and leave each other's preconditions alone. Where actions also ignore the model, the threads leave the object behind that the same actions make in a stateful test.", "quantifier": "all object and model types, actions, action lists, numbers of threads, post checks and schedules", "why_tests_cant": "all schedules of the threads; the operating system chooses one of them for a test", "anchors": ["proptest/stateful/concurrency_function.hpp:205-222", "proptest/stateful/concurrency_function.hpp:236-334", "proptest/stateful/concurrency_class.hpp:198-274"]}
{"id": "C204", "title": "A reported counterexample can be given to example() and matrix()", "statement": "When a test has reported arguments for which its property fails, example() of the same property with these arguments returns false, and so does matrix() with lists that contain them. When a test has passed, example() with the arguments of any of its runs that was not discarded returns true.", "quantifier": "all property functions without memory, generators, seeds and tests", "why_tests_cant": "all reported arguments of all tests; the two functions evaluate the property by code of their own", "anchors": ["proptest/Property.hpp:163-266", "proptest/Property.hpp:268-300", "proptest/Property.hpp:320-340"]}
{"id": "C205", "title": "The order of generating arguments and unused arguments do not change probabilities", "statement": "C++ does not say in which order the generators of the arguments of a property function (or of the components of a tuple) are called. Whatever the order, every event about the arguments, also about several of them together, has the same probability, and so has everything a test can report: that it finds a failure or none, in which run, and with which arguments. Arguments whose generators return and which the function does not use do not change these probabilities either.", "quantifier": "all numbers and types of arguments, all generators that draw independently, all orders, events, property functions and numbers of runs", "why_tests_cant": "a compiler uses one order; with it a test sees the results of one seed, not their probabilities", "anchors": ["proptest/util/invokeWithGenTuple.hpp:10-23", "proptest/util/tuple.hpp:56-71", "proptest/Property.hpp:193-266"]}
