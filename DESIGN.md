# Formal model of cppproptest — design

Everything under `lean/Verif` is Lean 4 (kernel checked). The C++ in `/repo` is read as text; nothing
is compiled or executed. The sections "Files" and "Properties" of this document are generated from
`properties.jsonl`, `MANIFEST.json` and the axioms Lean reports.

## Layout

* `Verif/Model/*.lean` — the model, one file per C++ area; every definition cites the C++ file and
  lines it models and names its simplifications.
* `Verif/Spec/*.lean` — small specifications that do not use the model's helpers (reachability in a
  tree, sub-lists, code point classes, observable calls, linear logs, rational value of a float, ...).
* `Verif/Lemmas/*.lean` — proof machinery.
* `Verif/Props/*.lean` — the property theorems (`C01_...` etc.), each with a concrete `example` that
  meets its hypotheses.
* `Verif/Axioms.lean` — prints the axioms of every property theorem during the build.
* `seeded/LOG.jsonl` — realistic bugs put into a scratch copy of the model, and the theorems that
  stopped proving.

## Modelling decisions

* **Outcomes.** A C++ call is `Outcome α = ok a | throws e | ub | diverges`. Undefined behaviour (signed
  overflow, out of range indexing, `uniform_int_distribution` with a > b, a float that does not fit the
  integer type it is cast to) is the separate outcome `ub`; it is never turned into a default value.
  `diverges` is a call that does not come back, or a loop whose step budget is used up.
* **Shrinkable.** A `Shrinkable<T>` is a finite rose tree `Shr α` (value, list of shrinks). The C++ object
  is a value plus a lazily evaluated stream of shrinks; evaluation of the library's streams is pure (except
  for the generators captured by dependency/chain/derive/accumulate, see below), so laziness is not
  observable. Type erasure (`ShrinkableAny`, `Any`) is dropped
  here; Model/Erasure.lean has it, and C171 shows that it makes no difference for generators used as the type they generate. The library's own tree constructors
  (integers, lists, strings) are defined by terminating recursion, so their finiteness is proved, not assumed.
  Where looking at shrinks can have undefined behaviour (floats), the model explores all of them eagerly
  and reports `ub` if one position has it.
* **Stream** itself is modelled separately (`Model/Stream.lean`), as a possibly infinite sequence, with
  theorems linking it to the list operations used for shrinks.
* **Random.** The engine is an abstract state type; a draw from `uniform_int_distribution(a,b)` is assumed to
  return a number of `[a,b]` when `a <= b` and is `ub` otherwise. No theorem assumes anything about the
  distribution; the numbers of C138-C143, C145-C148, C166, C169, C176, C185, C189 and C190 are probabilities if draws are independent and uniform (`Spec/Chance.lean`).
  Copying a `Random` copies the state.
* **Lazy generators.** Shrinks of dependency/chain/derive/accumulate call generators with a `Random&` at the
  time they are explored. The model uses an arbitrary *oracle* that gives each such call any engine state;
  theorems quantify over all oracles, hence over all exploration schedules. `Model/Drawing.lean` follows the engine through
  shrinking and shows that oracles cover it (C179). The draws for the first shrink that happen during generation are
  part of the model, except those made while a dependent value is nested in another value that looks at its first shrink.
  These are followed in `Model/Live.lean`: streams of shrinks that draw while they are evaluated, nested to any depth (C182, C183).
* **Unspecified evaluation order** of function arguments (tuples of generators) is a parameter of the model.
* **Loops that may diverge** (Discard retries, `filter`, `oneOf`, set generation) have a step budget (`fuel`)
  over which theorems quantify universally: "for every budget, if it returned ...".
* **Fixed width integers.** Where overflow or wrap-around matters the arithmetic is over `Int`/`Nat` with
  explicit range checks (`ub`) or explicit reduction modulo 2^n.
* **double** as a weight (`oneOf`, `unionOf`, `intervals`): rationals with an exact model of
  round-to-nearest-even, infinities and NaN. **float and double** as generated values: sign, fraction,
  exponent as `frexp` gives them; `ldexp` is exact, and the theorems include that nothing is ever rounded.
* **Property engine.** The property function and the hooks are arbitrary functions of the history (so they may
  have memory) that return a list of failed expectations and an outcome. The trace of calls is part of the
  state; the time limit is an oracle ("is the time up now?"). Arguments are passed by value; a property
  function that changes the objects that its arguments point to is modelled by `Model/Pointee.lean` (C144).
  Functions given to generators that throw while shrinks are explored: `Model/Throwing.lean` (C150). What is
  printed: `Model/Output.lean` (C151-C153).
  A `Property` object, its setters and copies: `Model/PropertyObject.lean` (C200); several tests in one process and the global seed:
  `Model/Process.lean` (C178); constructor parameters by reference: `Model/ConstructRefs.lean` (C175).
* **Contexts.** The stack of `PropertyContext` objects, the list of failures, tag counters; streams of text are lists of
  strings. C strings given to the comparison macros are memory up to a zero byte (`Model/CString.lean`, C186).
* **Stateful tests.** Actions are functions on (object, model) with an outcome; the object and the model are arbitrary
  types. Names of actions and what reports show of them: `Model/ActionNames.lean` (C187).
* **Concurrency.** Threads are interleaved; one step is one access of the atomic counter, one access of the log, or one whole
  user function (user functions that race with each other inside are outside the model, except for the
  expectation macros, whose accesses to the property context are followed by `Model/Race.lean`). The start/finish handshake
  by spinning is modelled separately (`Model/Handshake.lean`), with a proof that it neither excludes nor adds
  interleavings (C124). The counter does not overflow. The settings of a concurrent test are in `Model/ConcurrencySettings.lean` (C188).
* **Bitmap.** One step is one load, one compare-exchange or one store of an atomic byte; sequentially consistent.
  Negative indices are not modelled.
* **Fork.** A pipe has a capacity (a parameter), a write that does not fit blocks, `size_t` is 8 bytes in little
  endian order. A child ends by returning, throwing, `exit`, or a signal. The calls a
  forked run makes on descriptors and processes, and what they leave behind, are in `Model/ForkTrace.lean`.

## Trusted base

Lean's kernel; the axioms `propext`, `Classical.choice`, `Quot.sound` (each theorem uses the subset given
in the table below, printed by `#print axioms` in `Verif/Axioms.lean`); the faithfulness of the hand
written model to the C++ text, including the reading of the C++ standard for undefined behaviour and
of IEEE 754 for floating point. No axioms are added, no `sorry`, no `native_decide`, no `bv_decide`.

## Not modelled

Random number quality and engine internals, memory management and `shared_ptr` ownership (except for action objects given as raw pointers, `Model/Ownership.lean`, C155), the text that is
printed (except how values are shown, and which lines `forAll` prints with which contents, C151-C153), GoogleMock support, real time,
template selection and overload resolution, data races inside user functions, memory orders weaker than
sequential consistency.

## Violated properties

Properties marked "(Violated: ...)" in `properties.jsonl` are false of the code as it is. For these the model
follows the code, a theorem `..._violated` proves the negation (for a concrete witness or for a whole class of
inputs) and, where something weaker holds, a `..._partial` theorem proves what does hold. Their status in
`MANIFEST.json` is "partial".

## Files

Files of `/repo/proptest` and the model files that cite them. A header without a row of its own declares what the
file of the same name defines.

| file | modelled in |
|---|---|
| `Arbitrary.hpp` | `PropertyMake`, `Settings` |
| `GenBase.hpp` | `ConcurrencyGo`, `Drawing`, `Erasure`, `Gen`, `Live` |
| `Generator.hpp` | `Combinator`, `Gen`, `Live`, `Recursive` |
| `Property.cpp` | `ConcurrencySettings`, `Context`, `Output`, `Process`, `PropertyObject`, `Race`, `Seed`, `Stateful` |
| `Property.hpp` | `ConstructRefs`, `Context`, `Drawing`, `LazyShrink`, `Live`, `Output`, `Pointee`, `Process`, `Property`, `PropertyMake`, `PropertyObject`, `PropertyState`, `Seed`, `Throwing` |
| `PropertyBase.hpp` | `CString`, `Context`, `Macro`, `Output`, `Process`, `Property`, `PropertyMake`, `PropertyObject`, `Race`, `Stateful` |
| `PropertyContext.cpp` | `Context`, `Output`, `Percent`, `Property`, `Race` |
| `PropertyContext.hpp` | `Context`, `Race` |
| `Random.cpp` | `BoolRange`, `Char`, `Combinator`, `Integral`, `Process`, `PropertyObject`, `Random` |
| `Random.hpp` | `Random` |
| `Shrinkable.cpp` | `Combinator`, `Conditions`, `Drawing`, `Erasure`, `Floating`, `LazyShrink`, `Live`, `PropertyMake`, `Shrinkable`, `Throwing`, `Unicode` |
| `Shrinkable.hpp` | `ConstructRefs`, `Erasure`, `LazyShrink`, `Live`, `Ownership`, `Pointee`, `Shrinkable`, `Throwing` |
| `Stream.cpp` | `Conditions`, `Live`, `Shrinkable`, `Stream`, `StreamPointers`, `Throwing` |
| `Stream.hpp` | `Combinator`, `Conditions`, `Drawing`, `Erasure`, `LazyShrink`, `Live`, `Stream`, `StreamPointers`, `Throwing` |
| `api.hpp` | macros only |
| `assert.cpp` | exception classes: `Outcome` |
| `assert.hpp` | `CString`, `Context`, `Macro`, `Outcome` |
| `combinator/accumulate.hpp` | `Combinator` |
| `combinator/aggregate.hpp` | `Combinator` |
| `combinator/chain.hpp` | `Combinator`, `Factories`, `Live` |
| `combinator/construct.hpp` | `Branch`, `Combinator`, `ConstructRefs` |
| `combinator/dependency.hpp` | `Combinator`, `Drawing`, `Factories`, `Live` |
| `combinator/derive.hpp` | `Combinator`, `Factories`, `Live` |
| `combinator/elementof.hpp` | `Combinator`, `Pointee` |
| `combinator/filter.hpp` | `Combinator`, `Conditions`, `Erasure` |
| `combinator/intervals.cpp` | `Combinator`, `Double` |
| `combinator/intervals.hpp` | `Combinator` |
| `combinator/just.hpp` | `Combinator`, `ConcurrencyGo`, `ConstructRefs`, `Pointee` |
| `combinator/lazy.hpp` | `Combinator`, `PropertyState` |
| `combinator/oneof.hpp` | `Combinator`, `Double` |
| `combinator/reference.hpp` | `Recursive`, `Settings` |
| `combinator/transform.hpp` | `Combinator`, `Erasure`, `Live`, `PropertyMake`, `Throwing` |
| `concurrencytest.hpp` | includes only |
| `gen.hpp` | includes only |
| `generator/bool.cpp` | `BoolRange`, `Integral` |
| `generator/cesu8string.cpp` | `Unicode` |
| `generator/floating.cpp` | `FloatSet`, `Floating` |
| `generator/integral.cpp` | `Integral`, `Random` |
| `generator/integral.hpp` | `Char`, `Integral`, `Random` |
| `generator/list.hpp` | `ListLike`, `Stateful` |
| `generator/map.hpp` | `Containers`, `FloatSet`, `Settings` |
| `generator/nullable.hpp` | `Combinator`, `Pointee` |
| `generator/pair.hpp` | `PairTuple` |
| `generator/set.hpp` | `Containers`, `FloatSet` |
| `generator/shared_ptr.hpp` | `Combinator`, `Pointee` |
| `generator/string.cpp` | `Containers`, `PropertyMake` |
| `generator/tuple.hpp` | `PairTuple` |
| `generator/unicode.cpp` | `Combinator`, `Double` |
| `generator/utf16string.cpp` | `Unicode` |
| `generator/utf8string.cpp` | `Unicode` |
| `generator/util.cpp` | `BinSearch` |
| `generator/util.hpp` | `Pointee`, `Property`, `Throwing` |
| `generator/vector.hpp` | `Erasure`, `ListLike`, `Settings` |
| `generators.hpp` | includes only |
| `proptest.hpp` | includes only |
| `shrinker/bool.cpp` | `Integral` |
| `shrinker/floating.cpp` | `Floating` |
| `shrinker/floating.hpp` | `Floating` |
| `shrinker/listlike.cpp` | `ListLike` |
| `shrinker/listlike.hpp` | `Containers`, `Erasure`, `FloatSet`, `ListLike` |
| `shrinker/map.hpp` | `Containers`, `FloatSet` |
| `shrinker/pair.hpp` | `PairTuple` |
| `shrinker/set.hpp` | `Containers`, `FloatSet` |
| `shrinker/string.cpp` | `Containers`, `PropertyMake` |
| `shrinker/stringlike.hpp` | `Unicode` |
| `shrinker/tuple.hpp` | `PairTuple` |
| `stateful/concurrency_class.hpp` | `Concurrency`, `ConcurrencyGo`, `ConcurrencySettings`, `Handshake`, `Race`, `Seed`, `Spawn` |
| `stateful/concurrency_function.hpp` | `Concurrency`, `ConcurrencyGo`, `ConcurrencySettings`, `Handshake`, `Race`, `Seed`, `Spawn` |
| `stateful/stateful_class.hpp` | `ActionNames`, `Ownership`, `Stateful` |
| `stateful/stateful_function.hpp` | `ActionNames`, `Stateful` |
| `statefultest.hpp` | includes only |
| `util/action.hpp` | `ActionNames`, `Stateful` |
| `util/any.hpp` | `Conditions`, `Erasure` |
| `util/bitmap.cpp` | `Bitmap`, `BitmapMisuse` |
| `util/bitmap.hpp` | `Bitmap` |
| `util/cesu8string.cpp` | `Format`, `Unicode` |
| `util/createGenTuple.hpp` | `PropertyMake` |
| `util/fork.cpp` | `Fork`, `ForkTrace` |
| `util/fork.hpp` | `Fork`, `ForkTrace` |
| `util/function_traits.hpp` | template plumbing, dropped |
| `util/invokeWithArgs.hpp` | `Output`, `Property` |
| `util/invokeWithGenTuple.hpp` | `Erasure`, `Gen`, `Output`, `Ownership`, `Pointee`, `Property`, `PropertyMake` |
| `util/misc.hpp` | `Format` |
| `util/nullable.hpp` | a struct with a flag; `Option` in `Combinator` |
| `util/printing.cpp` | `Format`, `Printing` |
| `util/printing.hpp` | `ActionNames`, `Format`, `Printing` |
| `util/std.hpp` | using declarations |
| `util/tuple.hpp` | `Gen`, `Property`, `Throwing` |
| `util/typelist.hpp` | template plumbing, dropped |
| `util/unicode.cpp` | `Format`, `Printing`, `Unicode` |
| `util/utf16string.cpp` | `Unicode` |
| `util/utf8string.cpp` | `Format`, `Unicode` |

## Properties

For every property: status, what is modelled and how it is proved, the theorems, and in brackets the axioms each theorem
depends on (p = `propext`, c = `Classical.choice`, q = `Quot.sound`, - = none).

### C01 Stream.transform maps every element in order (proved)

Streams as prefix-closed sequences `Nat → Option`; each method follows the C++ recursion. Proved pointwise for all indices, infinite streams included.

* `Verif.C01_transform_get` [p q]
* `Verif.C01_transform_iterate` [p q]
* `Verif.C01_iterate_get` [p c q]
* `Verif.C01_iterate_end` [p q]
* `Verif.C01_two_tail` [p q]
* `Verif.C01_C04_finite_lists` [p q]

### C02 Stream.filter keeps exactly the matching elements in order (proved)

Streams as prefix-closed sequences `Nat → Option`; each method follows the C++ recursion. Proved pointwise for all indices, infinite streams included.

* `Verif.C02_filter_found` [p q]
* `Verif.C02_filter_end` [p q]
* `Verif.C02_filter_diverges_iff` [p q]
* `Verif.C02_filter_fuel_mono` [p q]
* `Verif.C02_filter_iterate` [p c q]
* `Verif.C02_finite_lists` [p c q]

### C03 Stream.concat is sequential composition (proved)

Streams as prefix-closed sequences `Nat → Option`; each method follows the C++ recursion. Proved pointwise for all indices, infinite streams included.

* `Verif.C03_concat_finite` [p q]
* `Verif.C03_concat_infinite` [p q]
* `Verif.C03_concat_monoid` [p q]

### C04 Stream.take(n) delivers the first n elements (proved)

Streams as prefix-closed sequences `Nat → Option`; each method follows the C++ recursion. Proved pointwise for all indices, infinite streams included.

* `Verif.C04_take_get` [p q]
* `Verif.C04_take_negative` [p q]
* `Verif.C01_C04_finite_lists` [p q]

### C05 Shrinkable.map maps every value of the shrink tree and preserves its shape (proved)

Tree operations by structural recursion. Proved by tree induction; specification by positions (paths) and reachability.

* `Verif.C05_map_positions` [p]
* `Verif.C05_map_id` [p q]
* `Verif.C05_map_comp` [p q]

### C06 Shrinkable.flatMap uses only the root of each produced shrinkable (proved)

Tree operations by structural recursion. Proved by tree induction; specification by positions (paths) and reachability.

* `Verif.C06_flatMap_positions` [p q]
* `Verif.C06_mapShrinkable_positions` [p]

### C07 Shrinkable.filter: only accepted values, throws exactly when the root is rejected (proved)

Tree operations by structural recursion. Proved by tree induction; specification by positions (paths) and reachability.

* `Verif.C07_filter_throws_iff` [p q]
* `Verif.C07_filter_histories` [p c q]
* `Verif.C07_filter_sound` [p q]

### C08 Shrinkable.filter with tolerance: sound, and descends through rejected values (proved)

Tree operations by structural recursion. Proved by tree induction; specification by positions (paths) and reachability.

* `Verif.C08_filterTol_throws_iff` [p q]
* `Verif.C08_filterTol_sound` [p q]
* `Verif.C08_filterTol_shrinks` [p q]
* `Verif.C08_filterTol_complete` [p q]

### C09 Shrinkable.concat appends further shrinks at every position (proved)

Tree operations by structural recursion. Proved by tree induction; specification by positions (paths) and reachability.

* `Verif.C09_concat_positions` [p q]
* `Verif.C09_concat_reach` [p q]
* `Verif.C09_concatStatic_positions` [p q]

### C10 Shrinkable.andThen continues only at dead ends (proved)

Tree operations by structural recursion. Proved by tree induction; specification by positions (paths) and reachability.

* `Verif.C10_andThen_positions` [p q]
* `Verif.C10_andThen_reach` [p q]
* `Verif.C10_andThenStatic_positions` [p q]

### C11 Shrinkable.take bounds the branching everywhere (proved)

Tree operations by structural recursion. Proved by tree induction; specification by positions (paths) and reachability.

* `Verif.C11_take_positions` [p q]
* `Verif.C11_take_bound` [p q]

### C12 Integer shrinking never leaves the interval between zero and the value (proved)

`genpos`/`genneg` with truncating division, parity correction and stop tests on checked 64-bit arithmetic. Proved by strong induction on the interval width.

* `Verif.C12_range` [p c q]
* `Verif.C12_strict` [p c q]

### C13 Integer shrinking is complete and non-redundant (proved)

`genpos`/`genneg` with truncating division, parity correction and stop tests on checked 64-bit arithmetic. Proved by strong induction on the interval width.

* `Verif.C13_exactly_once` [p c q]
* `Verif.C13_complete` [p c q]

### C14 Integer shrinking is logarithmic (proved)

`genpos`/`genneg` with truncating division, parity correction and stop tests on checked 64-bit arithmetic. Proved by strong induction on the interval width.

* `Verif.C14_logarithmic` [p c q]
* `Verif.C14_evals` [p c q]

### C15 Shrinking a threshold property finds the exact threshold (proved)

`genpos`/`genneg` with truncating division, parity correction and stop tests on checked 64-bit arithmetic. Proved by strong induction on the interval width.

* `Verif.C15_threshold_nonneg` [p c q]
* `Verif.C15_threshold_nonpos` [p c q]

### C16 Integer shrinking performs no overflowing arithmetic (proved)

`genpos`/`genneg` with truncating division, parity correction and stop tests on checked 64-bit arithmetic. Proved by strong induction on the interval width.

* `Verif.C16_signed_no_overflow` [p c q]
* `Verif.C16_unsigned_no_wrap` [p c q]

### C17 interval(min,max): value and all shrinks lie in [min,max] (proved)

`generateInteger` and its callers for a type descriptor (signedness, bits). Arithmetic on top of C12/C13, for all engines.

* `Verif.C17_interval` [p c q]
* `Verif.C17_every_value_possible` [p c q]

### C18 inRange, integers, natural, nonNegative stay in their documented ranges (proved)

`generateInteger` and its callers for a type descriptor (signedness, bits). Arithmetic on top of C12/C13, for all engines.

* `Verif.C18_inRange` [p c q]
* `Verif.C18_integers` [p c q]
* `Verif.C18_natural` [p c q]
* `Verif.C18_nonNegative` [p c q]
* `Verif.C18_every_value_possible` [p c q]

### C19 Empty integer ranges are never silently turned into values (proved)

`generateInteger` and its callers for a type descriptor (signedness, bits). Arithmetic on top of C12/C13, for all engines.

* `Verif.C19_empty_interval` [p q]
* `Verif.C19_empty_natural` [p c q]
* `Verif.C19_out_of_range_throws` [-]

### C20 Arbitrary integers: boundary table values belong to the type and shrink towards zero (proved)

`generateInteger` and its callers for a type descriptor (signedness, bits). Arithmetic on top of C12/C13, for all engines.

* `Verif.C20_arbi` [p c q]
* `Verif.C20_table` [p c q]
* `Verif.C20_limits` [p q]
* `Verif.C20_every_value_possible` [p c q]

### C21 Arbi<char> draws from a valid range (partial)

`generateInteger` and its callers for a type descriptor (signedness, bits). Arithmetic on top of C12/C13, for all engines.
The claim is false of the code on platforms with signed char; C21_char_violated shows undefined behaviour, C21_char_partial proves the remaining cases.

* `Verif.C21_char_violated` [p]
* `Verif.C21_char_partial` [p c q]

### C22 bool shrinks only from true to false (proved)

Component trees combined with `concat`. Reachability is shown to be the product.

* `Verif.C22_bool` [p]
* `Verif.C22_bool_both` [p c q]

### C23 pair/tuple shrinking explores exactly the product (proved)

Component trees combined with `concat`. Reachability is shown to be the product.

* `Verif.C23_pair_product` [p q]
* `Verif.C23_pair_value` [p]
* `Verif.C23_pair_step` [p q]
* `Verif.C23_pairOf` [p q]
* `Verif.C23_tuple_product` [p c q]
* `Verif.C23_tuple_value` [p q]
* `Verif.C23_tuple_step` [p c q]
* `Verif.C23_tuple_candidates` [p q]
* `Verif.C23_tupleOf` [p c q]
* `Verif.C23_tupleOf_total` [p q]

### C24 List membership shrinking is sound (proved)

`shrinkFrontAndThenMid`, `shrinkMid`, `shrinkBulk`, `shrinkListLike`. Well-founded induction; specification by sub-lists.

* `Verif.C24_defined` [p q]
* `Verif.C24_sound` [p c q]
* `Verif.C24_step` [p c q]

### C25 List membership shrinking is complete (proved)

`shrinkFrontAndThenMid`, `shrinkMid`, `shrinkBulk`, `shrinkListLike`. Well-founded induction; specification by sub-lists.

* `Verif.C25_exactly_once` [p c q]
* `Verif.C25_complete` [p c q]

### C26 List element shrinking preserves length and shrinks each element within its own tree (proved)

`shrinkFrontAndThenMid`, `shrinkMid`, `shrinkBulk`, `shrinkListLike`. Well-founded induction; specification by sub-lists.

* `Verif.C26_elements` [p c q]
* `Verif.C26_step` [p c q]
* `Verif.C26_candidates` [p c q]

### C27 vector/list generators respect the size bounds under generation and shrinking (proved)

`shrinkFrontAndThenMid`, `shrinkMid`, `shrinkBulk`, `shrinkListLike`. Well-founded induction; specification by sub-lists.

* `Verif.C27_vector` [p c q]
* `Verif.C27_vector_total` [p c q]
* `Verif.C27_elements` [p c q]

### C28 Shrinking of finite element trees terminates (proved)

`shrinkFrontAndThenMid`, `shrinkMid`, `shrinkBulk`, `shrinkListLike`. Well-founded induction; specification by sub-lists.

* `Verif.C28_set` [p c q]
* `Verif.C28_map` [p c q]
* `Verif.C28_string` [p c q]
* `Verif.C28_list` [p c q]
* `Verif.C28_pair` [p q]
* `Verif.C28_tuple` [p c q]

### C29 set shrinking yields subsets of at least minSize elements (proved)

Set, map, string and encoded string shrinkers. Specification by sub-lists/sub-maps/sub-strings.

* `Verif.C29_set` [p c q]
* `Verif.C29_set_once` [p c q]
* `Verif.C29_generated` [p c q]

### C30 map shrinking yields sub-maps of at least minSize entries (proved)

Set, map, string and encoded string shrinkers. Specification by sub-lists/sub-maps/sub-strings.

* `Verif.C30_map` [p c q]
* `Verif.C30_map_step` [p c q]
* `Verif.C30_generated` [p c q]

### C31 string shrinking keeps the length bound (partial)

Set, map, string and encoded string shrinkers. Specification by sub-lists/sub-maps/sub-strings.
The claim is false of the code (three ways, C31_violated_*); the exact set of reachable strings is proved.

* `Verif.C31_reachable` [p c q]
* `Verif.C31_substring_partial` [p c q]
* `Verif.C31_minSize_partial` [p c q]
* `Verif.C31_violated_minSize` [p c q]
* `Verif.C31_violated_same` [p q]
* `Verif.C31_violated_longer` [p q]
* `Verif.C31_generated` [p q]
* `Verif.C31_front_longer_violated` [p c q]

### C32 UTF-8/UTF-16/CESU-8 string shrinking cuts only at character boundaries (proved)

Set, map, string and encoded string shrinkers. Specification by sub-lists/sub-maps/sub-strings.

* `Verif.Unicode.C32_utf8` [p c q]
* `Verif.Unicode.C32_cesu8` [p c q]
* `Verif.Unicode.C32_utf16be` [p c q]
* `Verif.Unicode.C32_utf16le` [p c q]
* `Verif.Unicode.C32_substring` [p]
* `Verif.Unicode.C32_total` [p c q]

### C33 oneOf/elementOf/unionOf only produce values of the given alternatives (partial)

Weighted choice, filter and map generators with step budgets; weights as exact doubles. Induction on the budget.
The zero weight part is false of the code: C33_zero_weight_violated; an empty list of alternatives is read out of bounds: C33_empty_violated. The rest is proved.

* `Verif.C33_oneOf_partial` [p c q]
* `Verif.C33_no_other_outcome` [p c q]
* `Verif.C33_every_alternative_possible` [p c q]
* `Verif.C33_discarded_again` [p c q]
* `Verif.C33_zero_weight_violated` [p c q]
* `Verif.C33_empty_violated` [p c q]
* `Verif.C33_elementOf` [p c q]

### C34 oneOf validates weights (partial)

Weighted choice, filter and map generators with step budgets; weights as exact doubles. Induction on the budget.
Exact for weights that are multiples of 2^-52 (C34_exact), with the rounding error of the additions in general; NaN is accepted: C34_nan_violated.

* `Verif.C34_any_nan_violated` [p c q]
* `Verif.C34_nan_chosen_violated` [p c q]
* `Verif.C34_invalid_weight` [p c q]
* `Verif.C34_exact` [p c q]
* `Verif.C34_general_partial` [p c q]
* `Verif.C34_result_range` [p c q]
* `Verif.C34_nan_violated` [p c q]

### C35 intervals/uintervals generate and shrink only inside the union (proved)

Weighted choice, filter and map generators with step budgets; weights as exact doubles. Induction on the budget.

* `Verif.C35_intervals` [p c q]
* `Verif.C35_uintervals` [p c q]
* `Verif.C35_size` [p c q]
* `Verif.C35_every_value_possible` [p c q]
* `Verif.C35_empty_rejected` [p c q]
* `Verif.C35_reversed_rejected` [p c q]
* `Verif.C35_uintervals_reversed_accepted` [p c q]

### C36 Generator filter/suchThat only produces accepted values (proved)

Weighted choice, filter and map generators with step budgets; weights as exact doubles. Induction on the budget.

* `Verif.C36_sound` [p q]
* `Verif.C36_first` [p q]
* `Verif.C36_complete` [p c q]
* `Verif.C36_never` [p q]

### C37 Generator map/transform only produces images (proved)

Weighted choice, filter and map generators with step budgets; weights as exact doubles. Induction on the budget.

* `Verif.C37_map` [p q]
* `Verif.C37_reach` [p q]

### C38 dependency/pairWith keeps the dependency under shrinking (proved)

Dependent generators with an oracle for the engine states seen by lazily executed generators. Tree induction, for all oracles.

* `Verif.C38_dependency` [p q]
* `Verif.C38_complete` [p q]

### C39 chain/tupleWith keeps the dependency under shrinking (proved)

Dependent generators with an oracle for the engine states seen by lazily executed generators. Tree induction, for all oracles.

* `Verif.C39_chain` [p q]
* `Verif.C39_complete` [p q]
* `Verif.C39_chain_twice` [p q]

### C40 derive/flatMap keeps the dependency under shrinking (proved)

Dependent generators with an oracle for the engine states seen by lazily executed generators. Tree induction, for all oracles.

* `Verif.C40_derive` [p q]
* `Verif.C40_complete` [p q]

### C41 aggregate/accumulate keep the step relation between consecutive elements (proved)

Dependent generators with an oracle for the engine states seen by lazily executed generators. Tree induction, for all oracles.

* `Verif.C41_aggregate` [p c q]
* `Verif.C41_accumulate` [p c q]
* `Verif.C41_aggregate_value` [p q]
* `Verif.C41_accumulate_value` [p c q]
* `Verif.C41_aggregate_complete` [p c q]
* `Verif.C41_accumulate_complete` [p c q]

### C42 nullable/shared_ptr arbitraries use the configured element generator (partial)

Generators of nullable and shared pointers as written. Counterexample for every configured generator.
The claim is false of the code: the element generator is ignored.

* `Verif.C42_violated` [p c q]
* `Verif.C42_partial` [p q]
* `Verif.C42_not_from_elemGen_violated` [p q]

### C43 forAll true means every run passed (proved)

The run loop and the shrink loop as a state machine over arbitrary property functions and hooks with memory. Induction on runs and trees.

* `Verif.Engine.C43_true_means_every_run_passed` [p c q]
* `Verif.Engine.C43_time_limit` [p c q]

### C44 forAll false means a run failed (proved)

The run loop and the shrink loop as a state machine over arbitrary property functions and hooks with memory. Induction on runs and trees.

* `Verif.Engine.C44_false_means_some_run_failed` [p c q]

### C45 forAll stops at the first failure and discards do not count (proved)

The run loop and the shrink loop as a state machine over arbitrary property functions and hooks with memory. Induction on runs and trees.

* `Verif.Engine.C45_stops_at_first_failure` [p c q]
* `Verif.Engine.C45_fresh_arguments` [p q]

### C46 Same seed, same runs (proved)

The run loop and the shrink loop as a state machine over arbitrary property functions and hooks with memory. Induction on runs and trees.

* `Verif.Engine.C46_same_seed_same_runs` [p q]

### C47 Shrinking restarts from exactly the failing arguments (proved)

The run loop and the shrink loop as a state machine over arbitrary property functions and hooks with memory. Induction on runs and trees.

* `Verif.Engine.C47_shrinking_starts_from_the_failing_arguments` [p c q]

### C48 The shrunk arguments still fail and are reachable (partial)

The run loop and the shrink loop as a state machine over arbitrary property functions and hooks with memory. Induction on runs and trees.
False of the code in one corner: C48_leftover_failure_violated (a failed expectation left over from a run that ended with PROP_SUCCESS is blamed on the next run); proved for properties without memory whose discarded or early succeeding calls record no failed expectation.

* `Verif.Engine.C48_passing_reported_violated` [p q]
* `Verif.Engine.C48_shrunk_arguments_fail_partial` [p c q]
* `Verif.Engine.C48_observed` [p c q]
* `Verif.Engine.C48_leftover_failure_violated` [p]

### C49 The shrunk arguments are locally minimal (proved)

The run loop and the shrink loop as a state machine over arbitrary property functions and hooks with memory. Induction on runs and trees.

* `Verif.Engine.C49_locally_minimal` [p c q]
* `Verif.Engine.C49_single_argument` [p c q]

### C50 Shrinking terminates (proved)

The run loop and the shrink loop as a state machine over arbitrary property functions and hooks with memory. Induction on runs and trees.

* `Verif.Engine.C50_shrinking_terminates` [p]
* `Verif.Engine.C50_evaluations_bounded` [p c q]

### C51 Discarded candidates are not counterexamples (partial)

The run loop and the shrink loop as a state machine over arbitrary property functions and hooks with memory. Induction on runs and trees.
The claim is false of the code: C51_discarded_candidate_adopted_violated; proved for properties that do not discard during shrinking.

* `Verif.Engine.C51_adopted_violated` [p c q]
* `Verif.Engine.C51_reported_violated` [p c q]
* `Verif.Engine.C51_counterexample_without_discard_partial` [p c q]
* `Verif.Engine.C51_discarded_candidate_adopted_violated` [p]

### C52 Startup and cleanup hooks are paired (partial)

The run loop and the shrink loop as a state machine over arbitrary property functions and hooks with memory. Induction on runs and trees.
The claim is false of the code: C52_cleanup_skipped_violated; the exact pairing is proved for every execution (startup before every call, cleanup after every call that returned).

* `Verif.Engine.C52_missing_cleanups_violated` [p c q]
* `Verif.Engine.C52_hooks_paired_partial` [p q]
* `Verif.Engine.C52_cleanup_skipped_violated` [p]

### C53 A failed PROP_EXPECT makes forAll return false (partial)

The run loop and the shrink loop as a state machine over arbitrary property functions and hooks with memory. Induction on runs and trees.
The claim is false of the code: C53_failed_expect_ignored_violated; proved for runs not ended by Discard or Success.

* `Verif.Engine.C53_success_hides_violated` [p q]
* `Verif.Engine.C53_failed_expect_partial` [p c q]
* `Verif.Engine.C53_failed_expect_ignored_violated` [p]

### C54 A generator exception makes forAll return false (partial)

The run loop and the shrink loop as a state machine over arbitrary property functions and hooks with memory. Induction on runs and trees.
The claim is false of the code for every property: C54_generator_exception_escapes_violated; proved for exceptions of the property function.

* `Verif.Engine.C54_any_run_violated` [p q]
* `Verif.Engine.C54_property_exception_partial` [p c q]
* `Verif.Engine.C54_generator_exception_escapes_violated` [p q]

### C55 example() reports the verdict for the given arguments (partial)

The run loop and the shrink loop as a state machine over arbitrary property functions and hooks with memory. Induction on runs and trees.
The claim is false of the code: C55_failed_expectation_ignored_violated; the exact verdict is proved.

* `Verif.Engine.C55_expectations_ignored_violated` [p q]
* `Verif.Engine.C55_example_verdict_partial` [p q]
* `Verif.Engine.C55_failed_expectation_ignored_violated` [p]

### C56 matrix() covers exactly the Cartesian product, in lexicographic order (proved)

The index odometer of `matrix`. Equality with the Cartesian product in lexicographic order.

* `Verif.Engine.C56_matrix_covers_product` [p c q]
* `Verif.Engine.C56_empty_list_undefined` [p]

### C57 matrix() returns false if some combination fails (partial)

The index odometer of `matrix`. Equality with the Cartesian product in lexicographic order.
The claim is false of the code for every property: C57_matrix_always_true_violated; the other direction (true if nothing fails) and C56 hold.

* `Verif.Engine.C57_matrix_always_true_violated` [p]
* `Verif.Engine.C57_passing_partial` [p c q]

### C58 Property contexts nest (proved)

The context stack and tag counters. Induction over histories of operations.

* `Verif.Context.C58_contexts_nest` [p q]
* `Verif.Context.C58_block_restores` [p q]
* `Verif.Context.C58_no_context` [-]

### C59 Tag statistics count exactly (proved)

The context stack and tag counters. Induction over histories of operations.

* `Verif.Context.C59_tag_counts` [p c q]

### C60 UTF-8 encode/decode round trip (proved)

Byte level encoders, decoders and validators. Arithmetic by cases, induction on byte lists.

* `Verif.Unicode.C60_scalar` [p c q]
* `Verif.Unicode.C60_reject` [p c q]
* `Verif.Unicode.C60_standard` [p c q]
* `Verif.Unicode.C60_decode` [p c q]

### C61 UTF-8 decoding is canonical (proved)

Byte level encoders, decoders and validators. Arithmetic by cases, induction on byte lists.

* `Verif.Unicode.C61_valid` [p c q]
* `Verif.Unicode.C61_total` [p c q]
* `Verif.Unicode.C61_unique` [p c q]
* `Verif.Unicode.C61_string` [p c q]

### C62 UTF-16 (BE/LE) encode/decode round trip (partial)

Byte level encoders, decoders and validators. Arithmetic by cases, induction on byte lists.
The rejection part is false of the code: C62_violated (0x401F600 is encoded as another character); C62_reject_partial says exactly which codes are rejected.

* `Verif.C62_aliases_violated` [p c q]
* `Verif.Unicode.C62_be` [p c q]
* `Verif.Unicode.C62_le` [p c q]
* `Verif.Unicode.C62_reject_partial` [p c q]
* `Verif.Unicode.C62_violated` [-]

### C63 UTF-16 validity is canonical (proved)

Byte level encoders, decoders and validators. Arithmetic by cases, induction on byte lists.

* `Verif.Unicode.C63_be` [p c q]
* `Verif.Unicode.C63_le` [p c q]
* `Verif.Unicode.C63_total` [p c q]
* `Verif.Unicode.C63_unique` [p c q]

### C64 CESU-8 encode/decode round trip and canonicity (proved)

Byte level encoders, decoders and validators. Arithmetic by cases, induction on byte lists.

* `Verif.Unicode.C64_scalar` [p c q]
* `Verif.Unicode.C64_reject` [p c q]
* `Verif.Unicode.C64_decode` [p c q]
* `Verif.Unicode.C64_valid` [p c q]
* `Verif.Unicode.C64_total` [p c q]
* `Verif.Unicode.C64_unique` [p c q]

### C65 Printing malformed UTF-16 does not read out of bounds (partial)

Byte level encoders, decoders and validators. Arithmetic by cases, induction on byte lists.
The claim is false of the code: every odd length string and strings ending in a high surrogate unit read past the end; proved for valid strings.

* `Verif.C65_lone_surrogate_violated` [p c q]
* `Verif.Unicode.C65_violated_odd` [p q]
* `Verif.Unicode.C65_violated_surrogate` [p]
* `Verif.Unicode.C65_valid_partial` [p c q]

### C66 Bitmap slots are exclusively owned (proved)

Atomic steps of all threads interleaved. Inductive invariant over all schedules.
Negative arguments of unacquire are not modelled.

* `Verif.Bitmap.C66_slots_exclusive` [p c q]
* `Verif.Bitmap.C66_no_slot_lost` [p c q]

### C67 Bitmap single-threaded behaviour is an allocator (proved)

Atomic steps of all threads interleaved. Inductive invariant over all schedules.

* `Verif.Bitmap.C67_tryAcquire` [p q]
* `Verif.Bitmap.C67_unacquire` [p q]
* `Verif.Bitmap.C67_settled` [p q]

### C68 Stateful testing runs the action list in order and shrinks to sub-lists (proved)

The action runner on an action list. Induction on lists.

* `Verif.Stateful.C68_holds_iff` [p q]
* `Verif.Stateful.C68_throws_iff` [p q]
* `Verif.Stateful.C68_class_style` [p q]
* `Verif.Stateful.C68_without_precondition` [p c q]
* `Verif.Stateful.C68_without_run` [p]
* `Verif.Stateful.C68_shrinks_to_sublist` [p c q]
* `Verif.Stateful.C68_class_shrinks_to_sublist` [p c q]
* `Verif.Stateful.C68_post_check_in_force` [p c q]

### C69 Stateful cleanup hook runs as cleanup (partial)

The action runner on an action list. Induction on lists.
The claim is false of the code: C69_cleanup_runs_as_startup_violated; the startup part holds when no cleanup hook is set.

* `Verif.Stateful.C69_cleanup_runs_as_startup_violated` [p c q]
* `Verif.Stateful.C69_startup_partial` [p c q]

### C70 Concurrent runs: the action log never overflows and replays per-thread order (proved)

Interleaved rear threads with log and counter. Inductive invariant over all schedules.

* `Verif.Concurrency.C70_no_overflow` [p c q]
* `Verif.Concurrency.C70_distinct_positions` [p c q]
* `Verif.Concurrency.C70_log_complete` [p c q]
* `Verif.Concurrency.C70_replay` [p c q]
* `Verif.Concurrency.C70_finishes` [p c q]
* `Verif.Concurrency.C70_invoke_defined` [p c q]

### C71 Class style concurrent runs: the action log does not overflow (partial)

Interleaved rear threads with log and counter. Inductive invariant over all schedules.
The claim is false of the code: C71_log_overflow_violated; proved for at most 5000 rear actions.

* `Verif.Concurrency.C71_log_overflow_violated` [p c q]
* `Verif.Concurrency.C71_no_overflow_partial` [p c q]

### C72 Concurrent post check sees the model updated by rear actions (partial)

Interleaved rear threads with log and counter. Inductive invariant over all schedules.
The claim is false of the code in the function style, in every execution: C72_model_updates_lost_violated; proved for the class style.

* `Verif.Concurrency.C72_model_updates_lost_violated` [p c q]
* `Verif.Concurrency.C72_class_style_partial` [p q]
* `Verif.Concurrency.C72_class_post_check_partial` [p c q]

### C73 Fork error messages are read within bounds (partial)

The pipe protocol with explicit buffer length. Outcome `ub` characterised exactly.
The claim is false of the code: C73_long_message_violated; proved for messages of at most 100 bytes.

* `Verif.Fork.C73_long_message_violated` [p c q]
* `Verif.Fork.C73_message_partial` [p c q]
* `Verif.Fork.C73_value_returned` [p c q]

### C74 intervals accepts every list of non-empty intervals (partial)

Exact double rounding of the weights of `intervals`. Arithmetic on rationals.
The claim is false of the code: C74_violated; proved for one interval, for two, and for totals that are powers of two.

* `Verif.C74_ratio_partial` [p c q]
* `Verif.C74_multiples_violated` [p c q]
* `Verif.C74_violated` [p c q]
* `Verif.C74_one_partial` [p c q]
* `Verif.C74_two_partial` [p c q]
* `Verif.C74_power_partial` [p c q]

### C75 inRange and integers never yield a value for an empty range (partial)

As C17-C21, the corner cases of the same functions.
The claim is false of the code: the inclusive end wraps around; proved for representable inclusive ends.

* `Verif.C75_inRange_always_violated` [p c q]
* `Verif.C75_integers_always_violated` [p c q]
* `Verif.C75_inRange_violated` [p c q]
* `Verif.C75_integers_violated` [p c q]
* `Verif.C75_empty_partial` [p q]

### C76 integers(start,count) is defined whenever all its values are representable (partial)

As C17-C21, the corner cases of the same functions.
The claim is false of the code for int32_t/int64_t at the upper end; proved for the other six types (and C18_integers for the rest).

* `Verif.C76_up_to_max_violated` [p q]
* `Verif.C76_integers_violated` [p]
* `Verif.C76_integers_partial` [p c q]

### C77 A bool generator with probability p = 1 always and with p = 0 never yields true (partial)

As C17-C21, the corner cases of the same functions.
The claim is false of the code for p = 0 (draw 0 yields true); proved for p = 1 and for all other draws.

* `Verif.C77_bool_iff_violated` [p q]
* `Verif.C77_bool_violated` [p c q]
* `Verif.C77_bool_partial` [p q]

### C78 Shrinking a vector also minimises its elements (partial)

As C24-C28; greedy shrinking as an inductive relation (`Spec/Greedy`).
The claim is false of the code: C78_elements_stuck and C78_violated; proved for lists of exactly minSize elements and simultaneous replacement.

* `Verif.C78_elements_stuck` [p c q]
* `Verif.C78_violated` [p c q]
* `Verif.C78_elements_partial` [p c q]

### C79 Length shrinking finds minimal containers (proved)

As C24-C28; greedy shrinking as an inductive relation (`Spec/Greedy`).

* `Verif.C79_minimal` [p c q]

### C80 Generating a set or map terminates (partial)

As C29-C31.
The claim is false of the code; termination is proved for generators that keep offering new values.

* `Verif.C80_set_diverges` [p q]
* `Verif.C80_violated` [p c q]
* `Verif.C80_set_terminates_partial` [p q]

### C81 String shrinking removes irrelevant leading characters (partial)

As C29-C31.
The claim is false of the code: C81_string_prefix; trailing characters are removed.

* `Verif.C81_string_prefix` [p q]
* `Verif.C81_violated` [p c q]
* `Verif.C81_trailing_partial` [p c q]

### C82 Displaying UTF-8/CESU-8 strings reads only the string and shows every byte (proved)

The display functions byte by byte with explicit positions. Induction on the string; injectivity by a left inverse.

* `Verif.Unicode.C82_utf8` [p c q]
* `Verif.Unicode.C82_cesu8` [p c q]
* `Verif.Unicode.C82_valid` [p c q]

### C83 The displayed text of a string identifies it (proved)

The display functions byte by byte with explicit positions. Induction on the string; injectivity by a left inverse.

* `Verif.Unicode.C83_utf8` [p c q]
* `Verif.Unicode.C83_cesu8` [p c q]
* `Verif.Unicode.C83_utf16` [p c q]

### C84 unicode() generates Unicode scalar values only (proved)

As C33/C35, the weights of the three blocks evaluated in exact double arithmetic.

* `Verif.C84_unicode` [p c q]
* `Verif.C84_every_value_possible` [p c q]

### C85 Both components of a dependent pair are shrunk (partial)

As C38-C41.
The claim is false of the code: C85_violated; proved for first generators without shrinks.

* `Verif.C85_violated` [p c q]
* `Verif.C85_second_partial` [p q]
* `Verif.C85_second_stuck_violated` [p q]

### C86 The shrinks of a generated dependent value are stable (partial)

As C38-C41.
The claim is false of the code: C86_violated; proved for second generators that do not draw.

* `Verif.C86_violated` [p c q]
* `Verif.C86_stable_partial` [p]
* `Verif.C86_every_time_violated` [p q]

### C87 construct passes one generated value per constructor argument (proved)

As C38-C41.

* `Verif.C87_construct` [p q]
* `Verif.C87_ctor` [p q]

### C88 The reported counterexample is minimal in each argument (partial)

As C49.
The claim is false of the code: C88_minimal_in_each_argument_violated; what does hold is C49.

* `Verif.Engine.C88_not_tried_again_violated` [p c q]
* `Verif.Engine.C88_minimal_in_each_argument_violated` [p q]
* `Verif.Engine.C88_last_argument_partial` [p c q]

### C89 Expectation macros check what their names say (partial)

The macros as the expressions they expand to. Case analysis.
False of the code for PROP_EXPECT_FALSE (C89_expect_false_violated); proved for the other macros.

* `Verif.Context.C89_expect_macros_partial` [p q]
* `Verif.Context.C89_expect_false_violated` [p q]

### C90 PROP_ASSERT_FALSE throws exactly when its condition is true (partial)

The macros as the expressions they expand to. Case analysis.
The claim is false of the code: C90_assert_false_violated; proved for single operands.

* `Verif.Context.C90_assert_false_partial` [p c q]
* `Verif.Context.C90_assert_false_operator_partial` [p c q]
* `Verif.Context.C90_assert_false_violated` [-]
* `Verif.Macros.C90_single_partial` [p c q]
* `Verif.Macros.C90_equal_violated` [p c q]
* `Verif.Macros.C90_less_violated` [p c q]

### C91 STREQ2 compares whole strings (partial)

The macros as the expressions they expand to. Case analysis.
The claim is false of the code: C91_prefix_violated; the exact meaning is proved.

* `Verif.Context.C91_streq2_partial` [p c q]
* `Verif.Context.C91_prefix_violated` [-]
* `Verif.C91_every_prefix_violated` [p c q]

### C92 Text streamed into a failed expectation is added to its description (partial)

The macros as the expressions they expand to. Case analysis.
The claim is false of the code: C92_message_overwrites_violated; what is shown is proved exactly.

* `Verif.Context.C92_streamed_text_partial` [p q]
* `Verif.Context.C92_passing_expectation_silent` [p c q]
* `Verif.Context.C92_message_overwrites_violated` [p c q]
* `Verif.C92_always_overwrites_violated` [p q]

### C93 go() of a stateful property can be called again (partial)

`go()` of the stateful properties as written, including `setX` and moved-from members.
The claim is false of the code: C93_second_go_throws_violated; the class style can be run again: C93_class_style_partial.

* `Verif.Stateful.C93_every_second_go_violated` [p c q]
* `Verif.Stateful.C93_second_go_throws_violated` [p c q]
* `Verif.Stateful.C93_class_style_partial` [p c q]

### C94 The settings of a stateful property are in force (partial)

`go()` of the stateful properties as written, including `setX` and moved-from members.
False of the code for the largest values: C94_largest_values_ignored_violated; proved for all other values, and for all sequences of calls of setters (C94_all_settings_partial; setOnCleanup is C69).

* `Verif.Stateful.C94_largest_values_default_violated` [p c q]
* `Verif.Stateful.C94_settings_partial` [p c q]
* `Verif.Stateful.C94_defaults` [p c q]
* `Verif.Stateful.C94_largest_values_ignored_violated` [p c q]
* `Verif.Stateful.C94_all_settings_partial` [p c q]

### C95 A failing action of a rear thread makes a concurrent test fail (partial)

As C70-C72.
The claim is false of the code: C95_rear_failure_gives_no_verdict_violated and C95_class_rear_failure_violated; proved for front actions.

* `Verif.Concurrency.C95_rear_failure_gives_no_verdict_violated` [p c q]
* `Verif.Concurrency.C95_class_rear_failure_violated` [p q]
* `Verif.Concurrency.C95_front_failure_partial` [p q]
* `Verif.Concurrency.C95_front_end_partial` [p q]

### C96 Every generated rear action of a concurrent test is executed (partial)

As C70-C72.
The claim is false of the code for a concurrency of 0 and 1: C96_single_thread_skips_rear_violated; proved for two and more threads.

* `Verif.Concurrency.C96_single_thread_skips_rear_violated` [p q]
* `Verif.Concurrency.C96_all_rear_actions_partial` [p c q]
* `Verif.Concurrency.C96_post_check_partial` [p c q]

### C97 go() of a concurrent test returns false if an expectation failed (partial)

As C70-C72.
The claim is false of the code: C97_failed_expectations_ignored_violated; the exact verdict in terms of exceptions is proved.

* `Verif.Concurrency.C97_failed_expectations_ignored_violated` [p q]
* `Verif.Concurrency.C97_verdict_partial` [p q]
* `Verif.Concurrency.C97_time_limit_partial` [p]
* `Verif.Concurrency.C97_test_partial` [p q]
* `Verif.Concurrency.C97_test_time_limit_partial` [p]
* `Verif.Concurrency.C97_lists_partial` [p q]
* `Verif.Concurrency.C97_class_lists_partial` [p q]

### C98 A concurrent test does the number of runs asked for (partial)

As C70-C72.
The claim is false of the code: C98_many_runs_means_none_violated; proved for less than 2^31 runs.

* `Verif.Concurrency.C98_many_runs_means_none_violated` [p q]
* `Verif.Concurrency.C98_number_of_runs_partial` [p q]

### C99 safeCall comes back (partial)

As C73, with parent and child as two processes.
The claim is false of the code: C99_large_result_hangs_violated, C99_exit_hangs_violated; proved for results that fit.

* `Verif.Fork.C99_large_result_hangs_violated` [p q]
* `Verif.Fork.C99_exit_hangs_violated` [p]
* `Verif.Fork.C99_comes_back_partial` [p c q]

### C100 The code after safeCall is executed by the caller only (partial)

As C73, with parent and child as two processes.
The claim is false of the code: C100_child_escapes_violated; proved for all other endings.

* `Verif.Fork.C100_child_escapes_violated` [p]
* `Verif.Fork.C100_child_ends_partial` [p]

### C101 Looking at the shrinks of a float or double is defined (partial)

`shrinkFloat` on (sign, fraction, exponent); every position explored. Tree induction on top of C12/C13; sizes as rational numbers.
The claim is false of the code: C101_huge_violated (all numbers from 2^32 on); proved for all others.

* `Verif.C101_huge_violated` [p c q]
* `Verif.C101_defined_partial` [p c q]

### C102 Which numbers shrinking a float arrives at (proved)

`shrinkFloat` on (sign, fraction, exponent); every position explored. Tree induction on top of C12/C13; sizes as rational numbers.

* `Verif.C102_values` [p c q]
* `Verif.C102_complete` [p c q]

### C103 NaN shrinks to zero only, zero does not shrink (proved)

`shrinkFloat` on (sign, fraction, exponent); every position explored. Tree induction on top of C12/C13; sizes as rational numbers.

* `Verif.C103_special` [p c q]

### C104 A float shrinks to its integer part (partial)

`shrinkFloat` on (sign, fraction, exponent); every position explored. Tree induction on top of C12/C13; sizes as rational numbers.
The claim is false of the code: C104_integer_part_violated; what is arrived at is C102.

* `Verif.C104_integer_part_violated` [p c q]

### C105 No shrink of a float equals what it shrinks (partial)

`shrinkFloat` on (sign, fraction, exponent); every position explored. Tree induction on top of C12/C13; sizes as rational numbers.
The claim is false of the code for powers of two: C105_repeat_violated; proved for all other numbers.

* `Verif.C105_repeat_violated` [p c q]
* `Verif.C105_distinct_partial` [p c q]

### C106 Every float and double can be generated, and only these (proved)

Bit patterns decoded to (sign, fraction, exponent). Arithmetic; surjectivity by explicit encoding.

* `Verif.C106_generated` [p c q]
* `Verif.C106_shrinkable` [p]

### C107 Shrinking a float does not increase its magnitude (partial)

As C101-C105.
The claim is false of the code below 1/2: C107_larger_violated; proved from 1/2 on, with a factor of 1/2.

* `Verif.C107_larger_violated` [p c q]
* `Verif.C107_halved_partial` [p c q]

### C108 Shrinking is greedy, argument by argument, first candidate first (proved)

Props/EndToEnd.lean with Lemmas/PropertyGreedy.lean: the shrink phase of the modelled engine is shown equal to `greedyEach`, greedy shrinking as defined in Spec/Greedy.lean (calls included), by induction on the tree; with the characterisation of the integer and list trees (C15, C79) this determines what whole runs of `forAll` report.

* `Verif.Engine.C108_greedy` [p c q]
* `Verif.Engine.C108_single_argument` [p c q]

### C109 An integer threshold is reported exactly (proved)

Props/EndToEnd.lean with Lemmas/PropertyGreedy.lean: the shrink phase of the modelled engine is shown equal to `greedyEach`, greedy shrinking as defined in Spec/Greedy.lean (calls included), by induction on the tree; with the characterisation of the integer and list trees (C15, C79) this determines what whole runs of `forAll` report.

* `Verif.Engine.C109_interval_threshold` [p c q]
* `Verif.Engine.C109_nearest` [p c q]

### C110 A vector is reported with a minimal selection of its elements (proved)

Props/EndToEnd.lean with Lemmas/PropertyGreedy.lean: the shrink phase of the modelled engine is shown equal to `greedyEach`, greedy shrinking as defined in Spec/Greedy.lean (calls included), by induction on the tree; with the characterisation of the integer and list trees (C15, C79) this determines what whole runs of `forAll` report.

* `Verif.Engine.C110_vector_minimal` [p c q]
* `Verif.Engine.C110_vector_length` [p c q]

### C111 How forAll ends is determined by the draws (proved)

Props/Verdict.lean with Lemmas/PropertyVerdict.lean: the for and do-while loops of `runForAll` are followed over the sequence of draws, by induction on the number of draws.

* `Verif.Engine.C111_passes` [p c q]
* `Verif.Engine.C111_falsifies` [p c q]
* `Verif.Engine.C111_runs_forever` [p c q]
* `Verif.Engine.C111_returns` [p c q]

### C112 Explicit generators take precedence position by position (proved)

Props/PropertyMake.lean over Model/PropertyMake.lean: `createGenTuple` and `overrideTuple` over lists of generators, the latter with an arbitrary permutation as order of the assignments.

* `Verif.Make.C112_explicit_generators` [p q]
* `Verif.Make.C112_number_of_generators` [p q]

### C113 A property can be used after the callable it was made from is gone (partial)

Props/PropertyMake.lean: what `functionWithBoolResult` stores is a copy or a reference; calling through a reference to a callable that is gone is `ub`, which the modelled engine passes on.
The claim is false of the code for callables returning void: C113_void_callable_gone_violated; proved for callables returning bool, and for void while the callable exists.

* `Verif.Engine.C113_void_callable_gone_violated` [p q]
* `Verif.Engine.C113_bool_callable_partial` [p c q]
* `Verif.Engine.C113_void_callable_partial` [p c q]

### C114 A function given to map may use its argument as it likes (partial)

Props/PropertyMake.lean: `mapStr` maps a string tree with a function that returns what it leaves in its argument; `concat` reads the stored value afterwards.
The claim is false of the code for functions that modify their argument: C114_moving_function_violated, C114_shrinks_lost_violated; proved for functions that leave it as it is.

* `Verif.Containers.C114_moving_function_violated` [p q]
* `Verif.Containers.C114_shrinks_lost_violated` [p q]
* `Verif.Containers.C114_front_lost_violated` [p c q]
* `Verif.Containers.C114_map_partial` [p c q]

### C115 The UTF-16 decoders reject malformed input (partial)

Props/Unicode.lean: a byte string is malformed if it does not begin with the encoding of a scalar value; case analysis of the decoders.
The claim is false of the code for unpaired surrogates followed by two more bytes: C115_utf16be_violated, C115_utf16le_violated; proved for all other malformed strings.

* `Verif.Unicode.C115_utf16be_violated` [p c q]
* `Verif.Unicode.C115_utf16le_violated` [p c q]
* `Verif.Unicode.C115_reject_partial` [p c q]

### C116 A rear action of the class style is executed only where its precondition holds (partial)

Props/Concurrency.lean: a schedule in which a thread checks the precondition of its action, the other thread acts, and the first goes on; invariant of `classStep` for actions that do not interfere.
The claim is false of the code for actions that interfere: C116_precondition_overtaken_violated; proved for actions that do not make each other's preconditions false.

* `Verif.Concurrency.C116_precondition_overtaken_violated` [p c q]
* `Verif.Concurrency.C116_precondition_partial` [p]

### C117 Calls of the slot allocator end (proved)

Props/Bitmap.lean: a measure that every step of a thread within `tryAcquire` or `unacquire` decreases and no step of another thread changes; for `acquire`, the steps of one thread that runs alone are followed from any state.

* `Verif.Bitmap.C117_wait_free` [p c q]
* `Verif.Bitmap.C117_acquire_alone` [p c q]

### C118 Container generators respect their size bounds (partial)

Props/Sizes.lean: `getRandomSize` with both bounds reduced modulo 2^32, for all bounds below 2^64, inserted in the generators of Model/ListLike.lean and Model/Containers.lean.
The claim is false of the code for bounds of 2^32 and more: C118_string_violated, C118_always_empty_violated, C118_undefined_violated; proved for maximal sizes below 2^32.

* `Verif.C118_sizes_partial` [p c q]
* `Verif.C118_string_violated` [p c q]
* `Verif.C118_always_empty_violated` [p c q]
* `Verif.C118_undefined_violated` [p c q]

### C119 Printed arguments identify the arguments (partial)

Props/Printing.lean over Model/Printing.lean, Spec/Printing.lean (a universe of argument types) and Lemmas/Printing.lean: the text is decoded from right to left; for every type the text of a value that ends a given text determines where it begins (`Exact`), by induction on the type.
The claim is false of the code for Nullable of Nullable and for sets of strings: C119_nested_null_violated, C119_set_violated; proved for all other types of the universe Ty.

* `Verif.C119_arguments_identified_partial` [p c q]
* `Verif.C119_end_of_line_partial` [p c q]
* `Verif.C119_chars_partial` [p c q]
* `Verif.C119_chars_text_partial` [p q]
* `Verif.C119_cstr_partial` [p q]
* `Verif.C119_cstr_needs_end` [p q]
* `Verif.C119_nested_null_violated` [p q]
* `Verif.C119_set_violated` [p q]
* `Verif.C119_empty_set_violated` [-]
* `Verif.C119_default_violated` [p c q]

### C120 Printed floating point numbers identify the numbers (partial)

Props/Printing.lean with Lemmas/PrintingFloat.lean: `%g` with six digits over exact rational arithmetic, and a reader of decimal notation; the reader gives the rounded number back, the rounding error is bounded.
The claim is false of the code: C120_identified_violated, C120_float_violated; proved: the text is accurate to half a unit of the sixth digit.

* `Verif.C120_accurate_partial` [p c q]
* `Verif.C120_close_partial` [p c q]
* `Verif.C120_sign_partial` [p c q]
* `Verif.C120_special_partial` [p c q]
* `Verif.C120_identified_violated` [p q]
* `Verif.C120_float_violated` [p q]

### C121 A reported seed can be given back (partial)

Props/Seed.lean over Model/Seed.lean: decimal notation as written by `<<`, and `atoll` with undefined behaviour outside the range of `long long`.
The claim is false of the code for seeds of 2^63 and more: C121_large_violated; proved for smaller seeds.

* `Verif.C121_reported_partial` [p c q]
* `Verif.C121_time_partial` [p c q]
* `Verif.C121_large_violated` [p c q]
* `Verif.C121_negative` [p c q]
* `Verif.C121_not_a_number` [p c q]

### C122 A false verdict means that something failed, whatever the hooks do (proved)

Props/Hooks.lean with Lemmas/Hooks.lean: Hoare triples for the statements of the engine (with a postcondition for exceptions), carried through the loops of `runForAll`, without any assumption on the user's functions.

* `Verif.Engine.C122_false_means_something_failed` [p q]
* `Verif.Engine.C122_property_function_failed` [p q]

### C123 A true verdict means that nothing failed, whatever the hooks do (partial)

Props/Hooks.lean with Lemmas/Hooks.lean: Hoare triples for the statements of the engine (with a postcondition for exceptions), carried through the loops of `runForAll`, without any assumption on the user's functions.
The claim is false of the code when Discard or Success is thrown: C123_success_in_cleanup_hides_failures_violated; proved for all other runs, with the exact sequence of events.

* `Verif.Engine.C123_true_means_nothing_failed_partial` [p q]
* `Verif.Engine.C123_success_in_cleanup_hides_failures_violated` [p q]

### C124 Rear threads start together and are joined before the post check (proved)

Props/Handshake.lean over Model/Handshake.lean and Spec/Handshake.lean: spawner and threads as one transition system over what the threads do; an invariant, a measure that decreases with every step that changes anything (a fair scheduler cannot stay where somebody can go on), and simulations in both directions with `run` and `classRun`.

* `Verif.Concurrency.C124_start_together` [p c q]
* `Verif.Concurrency.C124_start_together_class` [p c q]
* `Verif.Concurrency.C124_joined` [p c q]
* `Verif.Concurrency.C124_joined_class` [p c q]
* `Verif.Concurrency.C124_no_deadlock` [p c q]
* `Verif.Concurrency.C124_no_deadlock_class` [p c q]
* `Verif.Concurrency.C124_same_executions` [p c q]
* `Verif.Concurrency.C124_same_results` [p c q]
* `Verif.Concurrency.C124_same_executions_class` [p c q]
* `Verif.Concurrency.C124_same_results_class` [p c q]

### C125 Expectation macros may be used in rear actions (partial)

Props/Race.lean over Model/Race.lean and Spec/Race.lean: every execution gives a trace of accesses to the context and of operations on the atomic counter; happens-before is generated by the order within a thread and the order of the counter; the races are found by showing that no chain of such pairs leads from one access to the other, their absence by giving one.
The claim is false of the code: C125_overlapping_expectations_race_violated, C125_expectations_race_violated, C125_class_always_races_violated; proved when one thread only uses the macros, and for executions whose actions do not overlap.

* `Verif.Concurrency.C125_overlapping_expectations_race_violated` [p q]
* `Verif.Concurrency.C125_expectations_race_violated` [p q]
* `Verif.Concurrency.C125_class_always_races_violated` [p c q]
* `Verif.Concurrency.C125_one_thread_partial` [p c q]
* `Verif.Concurrency.C125_class_one_thread_partial` [p c q]
* `Verif.Concurrency.C125_no_overlap_partial` [p c q]

### C126 A recursive generator produces exactly the values its bounds allow (proved)

Props/Recursive.lean over Model/Recursive.lean and Spec/Recursive.lean: induction on the depth of the calls with C27_vector at every level; induction on the box for the converse.

* `Verif.Recursive.C126_sized` [p c q]
* `Verif.Recursive.C126_every_box` [p c q]
* `Verif.Recursive.C126_depth_irrelevant` [p c q]
* `Verif.Recursive.C126_map_same` [p c q]
* `Verif.Recursive.C126_map_shrinks` [p c q]

### C127 A recursive generator returns (partial)

Props/Recursive.lean with Lemmas/Recursive.lean: sums over all sequences of draws of a given length; the weight 2^-(open boxes) does not grow on average for bounds 0..3 and more, the product of the probabilities of the allowed depths is kept on average for 0..2.
The claim is false of the code: C127_lower_bound_violated, C127_unlucky_violated, C127_half_violated; proved: for bounds of 0 and at most 2 the fraction of sequences of draws with which the call returns tends to one (C127_documented_partial).

* `Verif.Recursive.C127_ok_or_runs_on` [p c q]
* `Verif.Recursive.C127_lower_bound_violated` [p c q]
* `Verif.Recursive.C127_unlucky_violated` [p c q]
* `Verif.Recursive.C127_half_violated` [p c q]
* `Verif.Recursive.C127_documented_partial` [p c q]

### C128 Setters of a container generator configure the generator they are called on (partial)

Props/Settings.lean over Model/Settings.lean, Spec/Settings.lean and Lemmas/Settings.lean: a heap of generator objects, statements that declare, copy, configure, derive from and refer to them, with temporaries that are destroyed at the end of the statement; an invariant (variables name different, existing objects) and a frame lemma for objects without a name.
The claim is false of the code when a setter is chained behind setElemGen or setKeyGen: C128_lost_violated, C128_reference_violated; proved for the value of the expression, and for the variable when they come last.

* `Verif.Settings.C128_expression_partial` [p c q]
* `Verif.Settings.C128_variable_partial` [p c q]
* `Verif.Settings.C128_vector_partial` [p c q]
* `Verif.Settings.C128_lost_violated` [p c q]
* `Verif.Settings.C128_reference_violated` [p c q]

### C129 Generators made from others keep their settings (proved)

Props/Settings.lean over Model/Settings.lean, Spec/Settings.lean and Lemmas/Settings.lean: a heap of generator objects, statements that declare, copy, configure, derive from and refer to them, with temporaries that are destroyed at the end of the statement; an invariant (variables name different, existing objects) and a frame lemma for objects without a name.

* `Verif.Settings.C129_derived` [p c q]
* `Verif.Settings.C129_reference` [p c q]
* `Verif.Settings.C129_copies` [p c q]

### C130 Same seed, same concurrent tests (partial)

Props/ConcurrencyGo.lean over Model/ConcurrencyGo.lean, Spec/ConcurrencyGo.lean and Lemmas/ConcurrencyGo.lean: the loops of `go` with the random engine, the hooks and the object held by `just`, as a trace of events; one induction principle for what holds of attempts and is kept by concatenation.
The claim is false of the code for initial objects given with just(value): C130_just_violated; proved for generators that make new objects, for both styles.

* `Verif.Concurrency.C130_generated_partial` [p q]
* `Verif.Concurrency.C130_function_partial` [p q]
* `Verif.Concurrency.C130_class_partial` [p q]
* `Verif.Concurrency.C130_just_violated` [p q]

### C131 Every startup of a concurrent test is followed by a cleanup (partial)

Props/ConcurrencyGo.lean over Model/ConcurrencyGo.lean, Spec/ConcurrencyGo.lean and Lemmas/ConcurrencyGo.lean: the loops of `go` with the random engine, the hooks and the object held by `just`, as a trace of events; one induction principle for what holds of attempts and is kept by concatenation.
The claim is false of the code when actions or post check do not return normally: C131_no_cleanup_violated; proved: order of the calls, and one cleanup for each normal return.

* `Verif.Concurrency.C131_order_partial` [p q]
* `Verif.Concurrency.C131_cleanups_partial` [p]
* `Verif.Concurrency.C131_no_cleanup_violated` [p q]

### C132 Every run of a concurrent test starts from a newly generated object (partial)

Props/ConcurrencyGo.lean over Model/ConcurrencyGo.lean, Spec/ConcurrencyGo.lean and Lemmas/ConcurrencyGo.lean: the loops of `go` with the random engine, the hooks and the object held by `just`, as a trace of events; one induction principle for what holds of attempts and is kept by concatenation.
The claim is false of the code for initial objects given with just(value): C132_just_violated (of every such test); proved for generators that make new objects.

* `Verif.Concurrency.C132_fresh_partial` [p q]
* `Verif.Concurrency.C132_just_violated` [p]
* `Verif.Concurrency.C132_front_violated` [p q]
* `Verif.Concurrency.C132_rears_violated` [p q]

### C133 The arguments of expectation macros may be any expressions (partial)

Props/Macro.lean over Model/Macro.lean, Spec/Macro.lean and Lemmas/Macro.lean: tokens after macro replacement are read by a precedence climbing parser; reading the text of an expression gives it back, and whatever is read has operators that bind as their place demands, by induction on expressions and on the steps of the parser. Also used for C90.
The claim is false of the code: C133_conditional_violated, C133_mask_violated, C133_second_violated; proved exactly for which arguments it holds (C133_exact_partial, C133_compares_partial).

* `Verif.Macros.C133_compares_partial` [p c q]
* `Verif.Macros.C133_parentheses_partial` [p c q]
* `Verif.Macros.C133_exact_partial` [p c q]
* `Verif.Macros.C133_which_first_partial` [p c q]
* `Verif.Macros.C133_which_second_partial` [p c q]
* `Verif.Macros.C133_which_order_partial` [p c q]
* `Verif.Macros.C133_conditional_violated` [p c q]
* `Verif.Macros.C133_mask_violated` [p c q]
* `Verif.Macros.C133_second_violated` [p c q]

### C134 Expectation macros evaluate their arguments once and report the values they compared (partial)

Props/Macro.lean over Model/Macro.lean, Spec/Macro.lean and Lemmas/Macro.lean: tokens after macro replacement are read by a precedence climbing parser; reading the text of an expression gives it back, and whatever is read has operators that bind as their place demands, by induction on expressions and on the steps of the parser. Also used for C90.
The claim is false of the code for failing expectations with side effects: C134_twice_violated, C134_report_violated; proved for arguments that only read, and for expectations that pass.

* `Verif.Macros.C134_reading_partial` [p]
* `Verif.Macros.C134_passing_partial` [p]
* `Verif.Macros.C134_twice_violated` [p]
* `Verif.Macros.C134_report_violated` [p c q]

### C135 The reported arguments failed, also for generators that keep a state (partial)

Props/PropertyState.lean over Model/PropertyState.lean, Spec/PropertyState.lean and Lemmas/PropertyState.lean: the engine with another way of generating the failed arguments again; a simulation, statement by statement, with the engine of Model/Property.lean.
The claim is false of the code for generators whose state matters: C135_counter_violated; proved for generators whose state influences neither values nor engine (all theorems about forAll carry over).

* `Verif.Engine.C135_unused_state_partial` [p]
* `Verif.Engine.C135_starts_from_failing_partial` [p c q]
* `Verif.Engine.C135_counter_violated` [p c q]

### C136 Arguments without a role in a failure are reported in their simplest form (proved)

Props/Simplest.lean over Spec/Simplest.lean and Lemmas/Simplest.lean: an inductive relation that follows first shrinks until there are none; greedy shrinking with a property that ignores the argument follows it (induction on the tree), and for each generator where it ends is computed from the trees its shrinker makes. Uses C108 for what forAll reports.
For floating point numbers of magnitude 2^32 and more nothing is said: making their shrinks is undefined behaviour (C101). Strings: only the length is simplest, characters are not shrunk.

* `Verif.Engine.C136_no_role` [p c q]
* `Verif.Engine.C136_reported` [p c q]
* `Verif.C136_interval` [p c q]
* `Verif.C136_integers` [p c q]
* `Verif.C136_bool` [p]
* `Verif.C136_floating` [p c q]
* `Verif.C136_vector` [p c q]
* `Verif.C136_string` [p q]
* `Verif.C136_set` [p c q]
* `Verif.C136_map` [p c q]
* `Verif.C136_pair` [p q]
* `Verif.C136_tuple` [p c q]
* `Verif.C136_transform` [p q]
* `Verif.Engine.C136_documented` [p c q]

### C137 The time limit ends a test (partial)

Props/TimeLimit.lean over Lemmas/TimeLimit.lean: every statement of runForAll only extends the history; one execution of the do-while loop makes at most one call that is kept, shrinking none; induction over the for loop, with a clock that does not go back. The clock is a parameter of the model, a function of the history.
The claim is false of the code for runs that are discarded (C137_discards_violated) and for shrinking (C137_shrinking_violated, C137_shrinking_ignores_limit); proved for all other calls.

* `Verif.Engine.C137_one_more_run_partial` [p q]
* `Verif.Engine.C137_timed_out` [p q]
* `Verif.Engine.C137_discards_violated` [p c q]
* `Verif.Engine.C137_shrinking_ignores_limit` [p c q]
* `Verif.Engine.C137_shrinking_violated` [p c q]

### C138 All numbers of a range are equally likely (proved)

Props/Chance.lean, Props/ChanceOneOf.lean, Props/ChanceComb.lean and Props/ChanceIntervals.lean over Spec/Chance.lean and Lemmas/Chance*.lean: a generator is related to an experiment, a tree of uniform draws, by agreeing with it for every random engine; the probability of a set of results is the mean over the tree, an exact rational, and does not depend on the tree chosen (chance_unique, by an engine that records its calls). Loops without bound give limits (geometric series). Trusted beyond the model: that the draws of std::uniform_int_distribution over mt19937 are independent and uniform, which is how the numbers are to be read; no theorem uses it.
Under the assumption that draws are independent and uniform (Spec/Chance.lean); probabilities are exact rationals.

* `Verif.C138_interval` [p c q]
* `Verif.C138_equally_likely` [p c q]
* `Verif.C138_whole_type` [p c q]
* `Verif.C138_every_value` [p c q]

### C139 Booleans have the probability that was asked for (partial)

Props/Chance.lean, Props/ChanceOneOf.lean, Props/ChanceComb.lean and Props/ChanceIntervals.lean over Spec/Chance.lean and Lemmas/Chance*.lean: a generator is related to an experiment, a tree of uniform draws, by agreeing with it for every random engine; the probability of a set of results is the mean over the tree, an exact rational, and does not depend on the tree chosen (chance_unique, by an engine that records its calls). Loops without bound give limits (geometric series). Trusted beyond the model: that the draws of std::uniform_int_distribution over mt19937 are independent and uniform, which is how the numbers are to be read; no theorem uses it.
Exact equality is false of the code: C139_violated; proved up to 2^-64 (Nullable: 0.95 up to 2^-53). Under the assumption that draws are independent and uniform.

* `Verif.C139_bool_partial` [p c q]
* `Verif.C139_bool_one` [p c q]
* `Verif.C139_violated` [p c q]
* `Verif.C139_nullable` [p c q]

### C140 Alternatives are taken with the probabilities given by their weights (partial)

Props/Chance.lean, Props/ChanceOneOf.lean, Props/ChanceComb.lean and Props/ChanceIntervals.lean over Spec/Chance.lean and Lemmas/Chance*.lean: a generator is related to an experiment, a tree of uniform draws, by agreeing with it for every random engine; the probability of a set of results is the mean over the tree, an exact rational, and does not depend on the tree chosen (chance_unique, by an engine that records its calls). Loops without bound give limits (geometric series). Trusted beyond the model: that the draws of std::uniform_int_distribution over mt19937 are independent and uniform, which is how the numbers are to be read; no theorem uses it.
False of the code for weights of a sum below 1 (C140_incomplete_violated) and for alternatives nothing is left for (C140_zero_violated); proved for the documented cases, exactly without weights, else up to an error bound. Alternatives may have loops themselves (C140_nested_...) or discard (C140_discarding_...; they are tried again and keep their shares). Under the assumption that draws are independent and uniform.

* `Verif.C140_discarding_even` [p c q]
* `Verif.C140_discarding_weighted` [p c q]
* `Verif.C140_discarding_rest` [p c q]
* `Verif.C140_nested_even` [p c q]
* `Verif.C140_even` [p c q]
* `Verif.C140_nested_weighted` [p c q]
* `Verif.C140_weighted` [p c q]
* `Verif.C140_nested_rest` [p c q]
* `Verif.C140_rest` [p c q]
* `Verif.C140_elementOf_weighted` [p c q]
* `Verif.C140_elementOf_rest` [p c q]
* `Verif.C140_elementOf_even` [p c q]
* `Verif.C140_incomplete_violated` [p c q]
* `Verif.C140_zero_violated` [p c q]

### C141 Sizes of containers are equally likely, components are independent (proved)

Props/Chance.lean, Props/ChanceOneOf.lean, Props/ChanceComb.lean and Props/ChanceIntervals.lean over Spec/Chance.lean and Lemmas/Chance*.lean: a generator is related to an experiment, a tree of uniform draws, by agreeing with it for every random engine; the probability of a set of results is the mean over the tree, an exact rational, and does not depend on the tree chosen (chance_unique, by an engine that records its calls). Loops without bound give limits (geometric series). Trusted beyond the model: that the draws of std::uniform_int_distribution over mt19937 are independent and uniform, which is how the numbers are to be read; no theorem uses it.
Under the assumption that draws are independent and uniform. Sets and maps: C145.

* `Verif.C141_vector` [p c q]
* `Verif.C141_string` [p c q]
* `Verif.C141_sizes` [p c q]
* `Verif.C141_pair` [p c q]
* `Verif.C141_tuple` [p c q]
* `Verif.C141_nested_containers` [p c q]
* `Verif.C141_nested_pair` [p c q]
* `Verif.C141_nested_tuple` [p c q]

### C142 Filtering does not favour values (proved)

Props/Chance.lean, Props/ChanceOneOf.lean, Props/ChanceComb.lean and Props/ChanceIntervals.lean over Spec/Chance.lean and Lemmas/Chance*.lean: a generator is related to an experiment, a tree of uniform draws, by agreeing with it for every random engine; the probability of a set of results is the mean over the tree, an exact rational, and does not depend on the tree chosen (chance_unique, by an engine that records its calls). Loops without bound give limits (geometric series). Trusted beyond the model: that the draws of std::uniform_int_distribution over mt19937 are independent and uniform, which is how the numbers are to be read; no theorem uses it.
Under the assumption that draws are independent and uniform. The probabilities are limits for more and more rounds of the loop.

* `Verif.C142_transform` [p c q]
* `Verif.C142_filter` [p c q]
* `Verif.C142_nested_filter` [p c q]
* `Verif.C142_nested_transform` [p c q]

### C143 All numbers of several intervals are equally likely (partial)

Props/Chance.lean, Props/ChanceOneOf.lean, Props/ChanceComb.lean and Props/ChanceIntervals.lean over Spec/Chance.lean and Lemmas/Chance*.lean: a generator is related to an experiment, a tree of uniform draws, by agreeing with it for every random engine; the probability of a set of results is the mean over the tree, an exact rational, and does not depend on the tree chosen (chance_unique, by an engine that records its calls). Loops without bound give limits (geometric series). Trusted beyond the model: that the draws of std::uniform_int_distribution over mt19937 are independent and uniform, which is how the numbers are to be read; no theorem uses it.
Exact equality is false of the code: C143_violated; proved up to an error bound. Under the assumption that draws are independent and uniform.

* `Verif.C143_intervals_partial` [p c q]
* `Verif.C143_uintervals_partial` [p c q]
* `Verif.C143_unicode_partial` [p c q]
* `Verif.C143_violated` [p c q]

### C144 Reports show the arguments as the property got them (partial)

Props/Pointee.lean over Model/Pointee.lean: memory as a function of the calls made so far, within the engine of Model/Property.lean (whose property functions may depend on the history); invariants of the trace, and counterexamples that are general in the check, the value stored and the generator.
False of the code if the function changes objects: C144_simplest_violated, C144_other_argument_violated, C144_same_object_violated. Proved for the arguments printed first, and for functions that change nothing. The model covers one forAll.

* `Verif.Engine.C144_with_args` [p c q]
* `Verif.Engine.C144_unchanged_partial` [p c q]
* `Verif.Engine.C144_simplest_violated` [p c q]
* `Verif.Engine.C144_other_argument_violated` [p]
* `Verif.Engine.C144_same_object_violated` [p]

### C145 All sets of a size are equally likely (proved)

Props/ChanceSet.lean, Props/ChanceFloat.lean and Props/ChanceDep.lean, in the same setting as C138. Sets: the probability of reaching a given set within m rounds satisfies a recurrence in the number of missing elements; it approaches 1/(n choose k) geometrically (reach_bound). With loops inside (Props/ChanceSetLimit.lean) the probability is bounded from both sides by the same recurrence with slightly different probabilities of the elements, whose limit is continuous in them; different probabilities of the elements likewise (Props/ChanceSetAny.lean). Floating point numbers: the bit patterns are counted; ofBits is injective except on NaN. Dependent generators: the values only, since the shrinks contain later results of the engine; with loops inside (Props/ChanceDepLimit.lean, Props/ChanceAccLimit.lean) the probability lies between two sums over the first values with the same limit.
Under the assumption that draws are independent and uniform. The theorems C145_nested_* are about generators with loops: the number of rounds of the loop that fills the set and of the loops inside grow together.

* `Verif.C145_set` [p c q]
* `Verif.C145_sizes` [p c q]
* `Verif.C145_map` [p c q]
* `Verif.C145_any_set` [p c q]
* `Verif.C145_any_map` [p c q]
* `Verif.C145_nested_set` [p c q]
* `Verif.C145_nested_sizes` [p c q]
* `Verif.C145_nested_map` [p c q]
* `Verif.Engine.C145_nested_returns` [p c q]

### C146 All floating point numbers are equally likely (proved)

Props/ChanceSet.lean, Props/ChanceFloat.lean and Props/ChanceDep.lean, in the same setting as C138. Sets: the probability of reaching a given set within m rounds satisfies a recurrence in the number of missing elements; it approaches 1/(n choose k) geometrically (reach_bound). With loops inside (Props/ChanceSetLimit.lean) the probability is bounded from both sides by the same recurrence with slightly different probabilities of the elements, whose limit is continuous in them; different probabilities of the elements likewise (Props/ChanceSetAny.lean). Floating point numbers: the bit patterns are counted; ofBits is injective except on NaN. Dependent generators: the values only, since the shrinks contain later results of the engine; with loops inside (Props/ChanceDepLimit.lean, Props/ChanceAccLimit.lean) the probability lies between two sums over the first values with the same limit.
Under the assumption that draws are independent and uniform.

* `Verif.C146_value` [p c q]
* `Verif.C146_nan` [p c q]
* `Verif.C146_undefined` [p c q]

### C147 Generators that depend on values have the conditional probabilities (proved)

Props/ChanceSet.lean, Props/ChanceFloat.lean and Props/ChanceDep.lean, in the same setting as C138. Sets: the probability of reaching a given set within m rounds satisfies a recurrence in the number of missing elements; it approaches 1/(n choose k) geometrically (reach_bound). With loops inside (Props/ChanceSetLimit.lean) the probability is bounded from both sides by the same recurrence with slightly different probabilities of the elements, whose limit is continuous in them; different probabilities of the elements likewise (Props/ChanceSetAny.lean). Floating point numbers: the bit patterns are counted; ofBits is injective except on NaN. Dependent generators: the values only, since the shrinks contain later results of the engine; with loops inside (Props/ChanceDepLimit.lean, Props/ChanceAccLimit.lean) the probability lies between two sums over the first values with the same limit.
Under the assumption that draws are independent and uniform. The theorems C147_nested_* are about generators with loops, for finitely many first values and first shrinks of them.

* `Verif.C147_nested_accumulate` [p c q]
* `Verif.C147_nested_sizes` [p c q]
* `Verif.C147_dependency` [p c q]
* `Verif.C147_chain` [p c q]
* `Verif.C147_derive` [p c q]
* `Verif.C147_accumulate` [p c q]
* `Verif.C147_sizes` [p c q]
* `Verif.C147_nested_dependency` [p c q]
* `Verif.C147_nested_chain` [p c q]
* `Verif.C147_nested_derive` [p c q]

### C148 How likely a test finds a failure (proved)

Props/ChanceTest.lean, in the same setting as C138: a call of runForAll is shown to follow an experiment (testExp) built from the experiment of one draw of the arguments, reusing the step lemmas of C111; its probabilities satisfy recurrences in the number of runs and of discards that are solved exactly, limits are geometric.
Under the assumption that draws are independent and uniform.

* `Verif.Engine.C148_arguments` [p c q]
* `Verif.Engine.C148_found` [p c q]
* `Verif.Engine.C148_reported` [p c q]
* `Verif.Engine.C148_discards` [p c q]
* `Verif.Engine.C148_discards_reported` [p c q]
* `Verif.Engine.C148_returns` [p c q]

### C149 Showing values and the format settings of a stream are independent (partial)

Props/Format.lean over Model/Format.lean, which has the printers of Model/Printing.lean once more, with the settings of the stream; a simulation between the two (agreesAt_ty) by induction on the type, with the settings after each step.
The text and the base: C149_text_partial, C149_settings_partial. Violated for the fill character, for other bases and for a field width left on the stream.

* `Verif.Printing.C149_text_partial` [p c q]
* `Verif.Printing.C149_settings_partial` [p c q]
* `Verif.Printing.C149_fill_violated` [p c q]
* `Verif.Printing.C149_hex_violated` [p q]
* `Verif.Printing.C149_width_violated` [p q]

### C150 Exceptions of functions given to generators do not hide a failure (partial)

Props/Throwing.lean over Model/Throwing.lean: shrink trees whose nodes carry how the evaluation of their stream ends, with the engine of Model/Property.lean once more on them (iterators look one element ahead). forAll_agrees is a simulation between the two engines by induction over trees, retries and runs; the violations follow from the result of one attempt (attempt_throws).
Proved when nothing is thrown, and for the verdict when neither Discard nor Success is thrown. Violated otherwise: failures are forgotten, other arguments are reported, exceptions leave forAll.

* `Verif.Throwing.C150_nothing_thrown` [p c q]
* `Verif.Throwing.C150_map` [p q]
* `Verif.Throwing.C150_other_exceptions_partial` [p c q]
* `Verif.Throwing.C150_map_first` [p]
* `Verif.Throwing.C150_map_later` [p]
* `Verif.Throwing.C150_map_integer_violated` [p]
* `Verif.Throwing.C150_never_false_violated` [p]
* `Verif.Throwing.C150_success_violated` [p c q]
* `Verif.Throwing.C150_discard_violated` [p c q]
* `Verif.Throwing.C150_escapes_violated` [p c q]
* `Verif.Throwing.C150_other_arguments_violated` [p c q]
* `Verif.Throwing.C150_neighbour_violated` [p]

### C151 The report of a failure gives its reasons (partial)

Props/Output.lean over Model/Output.lean: the engine of Model/Property.lean once more, with what is printed and the tags recorded. forAll_agrees shows that verdicts and calls are the same; forAll_out gives the whole output, with the relation Steps (Spec/Output.lean) between the calls made while shrinking and the lines printed.
Proved if nothing is left behind by earlier calls and the reported call does not both record a failed expectation and throw. Violated otherwise.

* `Verif.Output.C151_reason_partial` [p c q]
* `Verif.Output.C151_leftover_violated` [p c q]
* `Verif.Output.C151_exception_violated` [p c q]

### C152 Tag statistics are about the runs that count (partial)

Props/Output.lean over Model/Output.lean: the engine of Model/Property.lean once more, with what is printed and the tags recorded. forAll_agrees shows that verdicts and calls are the same; forAll_out gives the whole output, with the relation Steps (Spec/Output.lean) between the calls made while shrinking and the lines printed.
Exact numbers proved for all calls; those of the runs that count if discarded calls record no tags. Violated otherwise.

* `Verif.Output.C152_printed` [p c q]
* `Verif.Output.C152_all_calls` [p c q]
* `Verif.Output.C152_counted_partial` [p c q]
* `Verif.Output.C152_enclosing` [p]
* `Verif.Output.C152_discarded_violated` [p c q]

### C153 Shrinking steps are printed faithfully (proved)

Props/Output.lean over Model/Output.lean: the engine of Model/Property.lean once more, with what is printed and the tags recorded. forAll_agrees shows that verdicts and calls are the same; forAll_out gives the whole output, with the relation Steps (Spec/Output.lean) between the calls made while shrinking and the lines printed.
All property functions and shrink trees.

* `Verif.Output.C153_steps` [p c q]
* `Verif.Output.C153_lines` [p c q]

### C154 Shrinking takes few calls (proved)

Props/Cost.lean: Shr.cost (Spec/Cost.lean) is the length of the longest search in a tree; the engine's invariant (PropertyLoop) is stated with it, and a property function that answers from a script attains it. Costs of the trees of the library by recursion over their construction; exact for integers and maps.
All trees, with a function that attains the bound; floating point numbers whose shrinks are undefined (C101) are excluded.

* `Verif.Engine.C154_calls` [p c q]
* `Verif.Engine.C154_generators` [p c q]
* `Verif.Engine.C154_attained` [p c q]
* `Verif.C154_integer` [p c q]
* `Verif.C154_interval` [p c q]
* `Verif.C154_integers` [p c q]
* `Verif.C154_bool` [p]
* `Verif.C154_floating` [p c q]
* `Verif.C154_vector` [p c q]
* `Verif.C154_string` [p c q]
* `Verif.C154_set` [p c q]
* `Verif.C154_map` [p c q]
* `Verif.C154_pair` [p q]
* `Verif.C154_tuple` [p c q]
* `Verif.C154_transform` [p q]
* `Verif.C154_filter` [p q]
* `Verif.C154_constant` [p q]
* `Verif.C154_oneOf` [p c q]
* `Verif.C154_dependent` [p q]
* `Verif.C154_aggregate` [p c q]
* `Verif.C154_accumulate` [p c q]
* `Verif.C154_pointers` [p q]

### C155 Action objects are deleted once (partial)

Props/Ownership.lean over Model/Ownership.lean: control blocks with owner counts and the deleted objects; invariant (deleted objects = objects of blocks without owners, none twice) over arbitrary sequences of copies, calls and destructions.
Proved for new objects and for shared_ptrs; violated exactly if a raw pointer is produced twice.

* `Verif.Ownership.C155_new_objects_partial` [p q]
* `Verif.Ownership.C155_same_object_violated` [p q]
* `Verif.Ownership.C155_run` [p q]
* `Verif.Ownership.C155_just_violated` [p q]
* `Verif.Ownership.C155_shared` [p q]

### C156 Conditions given to filter may change or refuse their argument (partial)

Props/Conditions.lean over Model/Conditions.lean: filter on the trees of Model/Throwing.lean with a condition that returns what it leaves of its argument, or throws. The part that holds is a simulation of the plain filter by induction over the number of nodes.
Proved for conditions that leave or normalise their argument; violated by others. Shrinks are taken not to depend on the stored value (C114 treats strings).

* `Verif.Throwing.C156_normal_form_partial` [p q]
* `Verif.Throwing.C156_accepted_twice_partial` [p q]
* `Verif.Throwing.C156_changed_violated` [p q]
* `Verif.Throwing.C156_throws_violated` [p q]
* `Verif.Throwing.C156_shrink_throws` [p q]
* `Verif.Throwing.C156_lookahead_throws` [p q]
* `Verif.Throwing.C156_shrinks_violated` [p q]

### C157 A concurrent test reports threads that cannot be created (partial)

Props/Spawn.lean over Model/Spawn.lean: the start-up of Model/Handshake.lean with a creation that may fail, for every schedule; as long as a refused thread lies ahead no thread is released. C158: the drawing and execution of the lists with the number of threads that the conversion to int gives.
Proved for the thread of the spawner and if all threads are created; violated for rear threads.

* `Verif.Concurrency.C157_rear_violated` [p c q]
* `Verif.Concurrency.C157_class_rear_violated` [p c q]
* `Verif.Concurrency.C157_spawner_partial` [p q]
* `Verif.Concurrency.C157_class_spawner_partial` [p q]
* `Verif.Concurrency.C157_verdict_partial` [p q]
* `Verif.Concurrency.C157_created_partial` [p c q]
* `Verif.Concurrency.C157_class_created_partial` [p c q]

### C158 setMaxConcurrency(n) means n threads (partial)

Props/Spawn.lean over Model/Spawn.lean: the start-up of Model/Handshake.lean with a creation that may fail, for every schedule; as long as a refused thread lies ahead no thread is released. C158: the drawing and execution of the lists with the number of threads that the conversion to int gives.
Proved for 2 <= n < 2^31; violated from 2^31 on.

* `Verif.Concurrency.C158_huge_violated` [p q]
* `Verif.Concurrency.C158_threads_partial` [p c q]

### C159 The statistics of tags tell the proportions (partial)

Props/Percent.lean over Model/Percent.lean: the quotient rounded to double and printed with six digits, with the error of both roundings (Lemmas/Percent.lean, Lemmas of C120).
Proved for all counts, 100% only below two million values; violated beyond.

* `Verif.Context.C159_accurate_partial` [p c q]
* `Verif.Context.C159_all_partial` [p c q]
* `Verif.Context.C159_at_most_partial` [p c q]
* `Verif.Context.C159_only_all_partial` [p c q]
* `Verif.Context.C159_hundred_violated` [p c q]
* `Verif.Context.C159_counts_shown` [p c q]
* `Verif.Context.C159_lines` [p c q]

### C160 Arbi<bool> takes a probability (partial)

Props/BoolRange.lean over Model/BoolRange.lean: the threshold of getRandomBool with the cases in which the cast is undefined.
Undefined for exactly the numbers stated; proved for the others.

* `Verif.C160_undefined_violated` [p c q]
* `Verif.C160_probability_partial` [p c q]
* `Verif.C160_tiny_partial` [p c q]

### C161 Factories given to dependency, chain and derive may change their argument (partial)

Props/Factories.lean over Model/Factories.lean: a factory returns what it leaves of its argument; every tree made with it is the tree of Model/Combinator.lean with the change applied to the first components, by induction on the trees of the first generator.
Proved for derive and for factories that leave their argument alone; violated for the others. Shrinks are taken not to depend on the stored value (C114 treats strings).

* `Verif.Comb.C161_dependency_partial` [p q]
* `Verif.Comb.C161_chain_partial` [p q]
* `Verif.Comb.C161_derive` [p q]
* `Verif.Comb.C161_alone_partial` [p q]
* `Verif.Comb.C161_dependency_violated` [p]
* `Verif.Comb.C161_chain_violated` [p]

### C162 Ranges of characters (partial)

Props/Char.lean over Model/Char.lean: the generators of integers with getRandom<char>, whose bounds are converted to unsigned bytes; the shrinks by the theorem of C17.
Proved for bounds of the same sign and for unsigned char; violated, for signed char, for ranges that begin below zero and end at or above it.

* `Verif.C162_interval_partial` [p c q]
* `Verif.C162_ascii_partial` [p q]
* `Verif.C162_every_value_partial` [p c q]
* `Verif.C162_undefined_violated` [p q]
* `Verif.C162_empty_partial` [p c q]
* `Verif.C162_others_partial` [p c q]
* `Verif.C162_others_violated` [p q]
* `Verif.C162_unsigned` [p c q]

### C163 Sets and maps of floating point numbers (partial)

Props/FloatSet.lean and Props/ChanceFloatSet.lean over Model/FloatSet.lean: std::set as a search tree with an arbitrary rebalancing and the comparison of floating point numbers; insertion as libstdc++ does it. The loop by induction on the number of iterations, the probability as in C145.
Violated if a set or map of size two or more begins with NaN; it is proved exactly when the generators return, what they return, and with which probability they hang. Any rebalancing of the trees is allowed for.

* `Verif.C163_chance_violated` [p c q]
* `Verif.C163_set_violated` [p c q]
* `Verif.C163_map_violated` [p c q]
* `Verif.C163_returns_partial` [p c q]
* `Verif.C163_set_partial` [p c q]
* `Verif.C163_map_partial` [p c q]

### C164 Slots that are given back by mistake (partial)

Props/BitmapMisuse.lean over Model/BitmapMisuse.lean: the steps of Model/Bitmap.lean where any slot may be given back and exceptions do not end the execution; an invariant per slot, kept by every step unless the slot is given back wrongly. Copies are read element by element between steps of the other threads.
Violated for slots that another thread holds or is about to take; slots that are never given back by mistake are safe in every execution.

* `Verif.Bitmap.C164_others_partial` [p c q]
* `Verif.Bitmap.C164_detected_partial` [p q]
* `Verif.Bitmap.C164_twice_violated` [p q]
* `Verif.Bitmap.C164_victim_violated` [p q]

### C165 Copies of the slot allocator (partial)

Props/BitmapMisuse.lean over Model/BitmapMisuse.lean: the steps of Model/Bitmap.lean where any slot may be given back and exceptions do not end the execution; an invariant per slot, kept by every step unless the slot is given back wrongly. Copies are read element by element between steps of the other threads.
Violated for copies made while a thread is in a call on the original; reset forgets who holds slots.

* `Verif.Bitmap.C165_copy` [p c q]
* `Verif.Bitmap.C165_quiet_partial` [p c q]
* `Verif.Bitmap.C165_lost_violated` [p c q]
* `Verif.Bitmap.C165_reset` [p q]
* `Verif.Bitmap.C165_reset_forgets` [p q]

### C166 Generators that draw again need few draws (proved)

Props/ChanceRounds.lean over Spec/Rounds.lean: the probabilities that m rounds are not enough satisfy recursions whose sums converge geometrically (Lemmas/Rounds.lean).
The number of rounds is shown to be the number of calls of the generator; the averages are sums of the probabilities that m rounds are not enough. The draws are ideal (Spec/Chance.lean).

* `Verif.C166_filter_calls` [p c q]
* `Verif.C166_filter` [p c q]
* `Verif.C166_set_calls` [p c q]
* `Verif.C166_set` [p c q]
* `Verif.C166_map` [p c q]
* `Verif.C166_oneOf` [p c q]

### C167 Recursive generators with alternatives return (partial)

Props/Branch.lean over Model/Branch.lean: the probability of a return within depth n follows a recursion like that of a branching process (Lemmas/Branch.lean); up to and including the critical case it tends to 1 by a rational argument, a fixed distance is kept beyond it.
Exact condition for a return with probability one (the theorem is an equivalence); violated beyond it. The fuel bounds both the depth of the recursion and the rounds of each oneOf.

* `Verif.Recursive.C167_returns_partial` [p c q]
* `Verif.Recursive.C167_violated` [p c q]
* `Verif.Recursive.C167_even_partial` [p c q]

### C168 The list of actions reported by a failing stateful test is minimal (partial)

Props/StatefulMinimal.lean over Model/Stateful.lean: the list of actions is shrunk greedily (C108) with the object in force; binary search finds the shortest failing prefix, after which its last action is kept (Lemmas/StatefulMinimal.lean). Failures of prefixes persist because the actions run one after the other. The counterexample is evaluated by the kernel.
Violated in general, by a closed witness with four actions. Proved: minimality for failures that persist when actions are added, and for all actions the position of the last reported one.

* `Verif.Stateful.C168_minimal_partial` [p c q]
* `Verif.Stateful.C168_class_minimal_partial` [p c q]
* `Verif.Stateful.C168_last_action_partial` [p c q]
* `Verif.Stateful.C168_class_last_action_partial` [p c q]
* `Verif.Stateful.C168_violated` [p c q]

### C169 Strings of Unicode characters of the same length are equally likely (proved)

Props/ChanceUnicode.lean: the generators of encoded strings are shown to draw exactly what the string generator draws and to encode the result (Lemmas/ChanceUnicode.lean); encodings are injective, so chances carry over from C141, and limits of products are products of limits.
Under the assumption that draws are independent and uniform. The number of characters is what is drawn as the size; encodings are of different lengths in bytes.

* `Verif.Unicode.C169_independent` [p c q]
* `Verif.Unicode.C169_limit` [p c q]
* `Verif.Unicode.C169_default` [p c q]
* `Verif.Unicode.C169_lengths` [p c q]

### C170 Calls in a forked process leave nothing behind (partial)

Props/ForkTrace.lean over Model/ForkTrace.lean: safeCall as in Model/Fork.lean with the state of the calling process (descriptors, children, buffer and output) and system calls that may fail; by cases on how the child ends, sequences by induction.
Violated for interrupted waits and for text in the buffer, for every returned value. Descriptors: holds for all calls that come back.

* `Verif.Fork.C170_descriptors` [p c q]
* `Verif.Fork.C170_many` [p c q]
* `Verif.Fork.C170_children_partial` [p c q]
* `Verif.Fork.C170_interrupted_violated` [p c q]
* `Verif.Fork.C170_outcome` [p c q]
* `Verif.Fork.C170_output_partial` [p c q]
* `Verif.Fork.C170_output_twice_violated` [p c q]

### C171 Values come out as the type they were put in as (partial)

Props/Erasure.lean over Model/Erasure.lean, which has the operations on values with their types and a cast that is undefined for other types; shown equal to the typed ones of Model/Shrinkable.lean, ListLike.lean and Combinator.lean by tree induction and naturality (Lemmas/Erasure.lean).
Violated for generators of another type, for every generator that returns. For generators of the right type all operations are shown equal to the ones without erasure, so the other theorems carry over.

* `Verif.Erasure.C171_shrinkables` [p q]
* `Verif.Erasure.C171_exact` [p q]
* `Verif.Erasure.C171_generators_partial` [p c q]
* `Verif.Erasure.C171_other_type_violated` [p c q]

### C172 Streams of shared pointers are streams of shared pointers (partial)

Props/StreamPointers.lean over Model/StreamPointers.lean: what each constructor stores, by cases on the type; by induction on the number of elements read.
Violated for every stream of shared pointers made by transform, filter or two.

* `Verif.StreamPointers.C172_values_partial` [p q]
* `Verif.StreamPointers.C172_transform_violated` [p q]
* `Verif.StreamPointers.C172_filter_two_violated` [p q]

### C173 Shrinking ends whatever the shrinks are (partial)

Props/LazyShrink.lean over Model/LazyShrink.lean: shrinkables are objects with a value and a possibly infinite stream of shrinks; the loops are shown equal to a search on streams (Lemmas/LazyShrink.lean), which ends, moves on or goes on forever; equality with finite trees by induction on the fuel.
Violated for every property that fails, by shrinkables the library itself does not make (its own are finite); exactly characterised.

* `Verif.LazyShrink.C173_finite` [p c q]
* `Verif.LazyShrink.C173_stops_partial` [p c q]
* `Verif.LazyShrink.C173_never_exactly` [p c q]
* `Verif.LazyShrink.C173_never_violated` [p c q]

### C174 All combinators pass shrinking on (partial)

Props/SimplestComb.lean over Model/Combinator.lean and Containers.lean: following the first shrink through each combinator (filter by induction on the size of the tree, dependent generators by induction on the path, for every state of the engine at the time of evaluation).
Violated for construct, strings, sets, maps and accumulate, exactly described (the reported values are as generated); proved for all other combinators, in particular through dependent generators that are called again while shrinking.

* `Verif.C174_filter` [p c q]
* `Verif.C174_oneOf` [p c q]
* `Verif.C174_elementOf` [p c q]
* `Verif.C174_lazy` [p q]
* `Verif.C174_intervals` [p c q]
* `Verif.C174_dependency` [p q]
* `Verif.C174_chain` [p q]
* `Verif.C174_derive` [p q]
* `Verif.C174_aggregate` [p c q]
* `Verif.C174_accumulate_partial` [p c q]
* `Verif.C174_accumulate_violated` [p c q]
* `Verif.C174_sharedPtr` [p q]
* `Verif.C174_nullable` [p q]
* `Verif.C174_construct_violated` [p q]
* `Verif.C174_string_violated` [p q]
* `Verif.C174_set_violated` [p c q]
* `Verif.C174_map_violated` [p c q]

### C175 Constructors may use their arguments as they like (partial)

Props/ConstructRefs.lean over Model/ConstructRefs.lean: a constructor is a program that reads and writes objects which belong to the call or to a just generator; by induction on the program and on the sequence of calls.
Violated for references to what just generates (the constant changes) and for objects that keep references (dangling), for all constructors of these kinds; everything else proved.

* `Verif.ConstructRefs.C175_changing_partial` [p q]
* `Verif.ConstructRefs.C175_reading` [p q]
* `Verif.ConstructRefs.C175_moved_violated` [p]
* `Verif.ConstructRefs.C175_alias_violated` [p]
* `Verif.ConstructRefs.C175_copied_partial` [p q]
* `Verif.ConstructRefs.C175_kept_violated` [p q]
* `Verif.ConstructRefs.C175_generators` [p q]

### C176 How often a test calls the property function (proved)

Props/ChanceCalls.lean: the test is shown to do what an experiment with counted calls does (Lemmas/ChanceCalls.lean, over Lemmas/PropertyVerdict.lean); recursion for the average over runs, limits of the geometric sums.
For independent, equally likely draws (Spec/Chance.lean), tests without time limit and the hypotheses of C148; averages are limits over the number of discards a run may have.

* `Verif.Engine.C176_calls` [p c q]
* `Verif.Engine.C176_until_failure` [p c q]
* `Verif.Engine.C176_no_discards` [p c q]
* `Verif.Engine.C176_passing` [p c q]

### C177 Shrinking removes the sign of numbers (partial)

Props/Signs.lean: the reported argument is a descendant of the drawn one (C48), whose values are known exactly (C17, C102).
Violated: no negative number is ever reported as a positive one, for integers and floating point numbers. Holds: the absolute value of integers does not grow and their sign does not change. C107 has the magnitude of floating point numbers.

* `Verif.Engine.C177_integers_partial` [p c q]
* `Verif.Engine.C177_sign_violated` [p c q]
* `Verif.Engine.C177_float_violated` [p c q]
* `Verif.Engine.C177_float_sign_violated` [p c q]

### C178 Tests that are repeated test further inputs (partial)

Model/Process.lean: static variables of getGlobalSeed and the tests of a program. Props/Process.lean: the seeds by induction over the tests, the inputs by C45.
Violated for all tests without setSeed, whatever their functions, times and the environment are; holds for seeds that are given.

* `Verif.Process.C178_one_seed_violated` [p]
* `Verif.Process.C178_same_inputs_violated` [p c q]
* `Verif.Process.C178_nothing_new_violated` [p c q]
* `Verif.Process.C178_setSeed_partial` [p q]

### C179 Generated values can be used without the engine (partial)

Model/Drawing.lean: the shrinks of a dependent value as computations on the engine, with an engine whose lifetime may have ended, and the loop of shrinkN on them. Props/Drawing.lean: every run of that loop is greedy shrinking of a tree of Model/Combinator.lean for a suitable oracle (induction on the tree; oracles of subtrees are glued together by position). Probabilities by Spec/Chance.lean.
Violated for dependency, chain, derive and what is built from them wherever the first value has shrinks; holds without shrinks and for shrinking in forAll. All other generators of the model take the engine only when they are called.

* `Verif.Drawing.C179_forAll_partial` [p c q]
* `Verif.Drawing.C179_alive` [p]
* `Verif.Drawing.C179_single_partial` [-]
* `Verif.Drawing.C179_gone_violated` [p]
* `Verif.Drawing.C179_looking_violated` [-]
* `Verif.Drawing.C179_next_violated` [p c q]
* `Verif.Drawing.C179_generation_violated` [p]
* `Verif.Drawing.C179_returns_violated` [p c q]

### C180 Dependent values and filtered values are the same values (proved)

Props/ChainFilter.lean: from C147 (dependency), C141 (pairs), C142 and C166 (filter) with the probability of a valid pair computed case by case; the dates of the documentation as an instance.
Proved for values that fall into finitely many cases with a range each; shrinking for all ranges.

* `Verif.C180_chances` [p c q]
* `Verif.C180_shrinks` [p c q]

### C181 Containers whose size is a generated number (partial)

Model/Settings.lean (`toSizeT`); Props/NegativeSizes.lean: only the last 32 bits of a maximum size count (`getRandomSize_mod`), then C141 gives the probabilities.
Violated for negative numbers; holds for numbers from 0 on.

* `Verif.C181_partial` [p c q]
* `Verif.C181_maximum_violated` [p c q]
* `Verif.C181_size_violated` [p c q]

### C182 Dependent generators can be nested (proved)

Model/Live.lean models streams of shrinks as computations that take the state of the engine when they are evaluated and give it back changed: `Run` is what evaluating a stream up to its first element results in. flatMap, andThen, dependency, chain, derive and the loops of shrinkN are written on it as in the code, so that generators that are dependent themselves can be given to them. Induction over streams shows which values can be met (Spec/Live.lean: `Gives`); `chains` iterates tupleWith. Lemmas/LiveAgree.lean proves that for one level this model and Model/Drawing.lean do the same.
Proved on a model that follows the engine through all levels (Model/Live.lean); for one level it is proved to do the same as the model of C179. Tuples of chained components have components of one type in the model.

* `Verif.Live.C182_pairs` [p q]
* `Verif.Live.C182_derived` [p q]
* `Verif.Live.C182_tuples` [p c q]
* `Verif.Live.C182_reported` [p q]
* `Verif.Live.C182_returns` [p q]

### C183 Generating a dependent value calls each generator once (partial)

On Model/Live.lean, with states that count the calls of generators. `Path` lists the costs of evaluating the shrinks of a shrinkable, of its first shrink and so on; flatMap adds one to each, andThen adds to each the one after it, so the costs are differences of Fibonacci numbers. The upper bound uses an invariant of all evaluations (`Run.Cheap`) that doubles with each level.
Violated: exact numbers of calls for tuples (Fibonacci) and nested flatMap (2^n-1) of values with shrinks. Partial: one call each for values without shrinks; 2^(n+1)-1 as an upper bound for all generators, taken on in an example.

* `Verif.Live.C183_tuple_violated` [p c q]
* `Verif.Live.C183_flatMap_violated` [p q]
* `Verif.Live.C183_plain_partial` [p q]
* `Verif.Live.C183_bound_partial` [p q]

### C184 transform and derive are mapping and binding (partial)

On Model/Live.lean, as equalities of generators (values, lazily evaluated shrinks, states of the engine). `bindTree` (Spec/Live.lean) says independently of the code what flatMap makes of a shrinkable if the factory does not draw; it is shown to obey the laws of a monad, which gives the laws of the generators. The violation counts calls of generators as C183 does.
Proved: functor laws of map, left and right identity of flatMap, flatMap with just is map, what flatMap makes of factories that do not draw. Associativity is partial (factories that do not draw) and violated in general: 6 against 7 calls of generators, different values from the same seed.

* `Verif.Live.C184_left` [p q]
* `Verif.Live.C184_derive` [p q]
* `Verif.Live.C184_right` [p q]
* `Verif.Live.C184_map` [p q]
* `Verif.Live.C184_maps` [p q]
* `Verif.Live.C184_assoc_partial` [p q]
* `Verif.Live.C184_assoc_violated` [p q]
* `Verif.Live.C184_values_violated` [p]

### C185 Nested dependent generators have the chances of their parts (proved)

On Model/Live.lean with the experiments of Spec/Chance.lean. A shrinkable whose shrinks draw is represented, for all engines at once, by a value and a plan of the draws its shrinks will make (`Plan`, Lemmas/ChanceLive.lean); flatMap and andThen are carried over to plans, so every generator of the class has an experiment for value and shrinks. Looking at the first shrink is a draw whose result is dropped, so it leaves the mean unchanged.
Proved for all generators built from generators that always return with pairWith, tupleWith, flatMap and map (Built, Spec/ChanceLive.lean), with uniform independent draws as in C138.

* `Verif.Live.C185_total` [p c q]
* `Verif.Live.C185_pairWith` [p c q]
* `Verif.Live.C185_tupleWith` [p c q]
* `Verif.Live.C185_flatMap` [p c q]
* `Verif.Live.C185_map` [p c q]
* `Verif.Live.C185_assoc` [p c q]
* `Verif.Live.C185_tuple` [p c q]

### C186 STREQ compares C strings (partial)

On Model/CString.lean (the macros with memcmp of Model/Context.lean and show of Model/Printing.lean), against `strncmp` as a specification: the strings up to the first zero, cut at n. The messages use the injectivity of the printed bytes (C119).
Violated for n beyond the terminating zero (memory behind it is compared) and beyond the buffer (undefined). Partial: exact for n up to the zeros. The messages of failing comparisons are proved to show what was compared.

* `Verif.CString.C186_strings_partial` [p c q]
* `Verif.CString.C186_rest_violated` [p c q]
* `Verif.CString.C186_end_violated` [p]
* `Verif.CString.C186_message` [p c q]
* `Verif.CString.C186_message2` [p c q]

### C187 The report of a stateful test tells the actions (partial)

On Model/ActionNames.lean (names, conversion of simple actions, `show` of actions) with the printers of Model/Printing.lean and the runs of Model/Stateful.lean. Order is stated by actions that note their own names in the object; replay by the alignment lemmas of C119.
Violated for unnamed actions, names with commas and the class style (all general). Partial: replay from the text for well named actions; order of the names = order of execution; simple actions.

* `Verif.C187_replay_partial` [p c q]
* `Verif.C187_order` [p q]
* `Verif.C187_runs` [p q]
* `Verif.C187_simple` [p q]
* `Verif.C187_unnamed_violated` [p q]
* `Verif.C187_comma_violated` [p q]
* `Verif.C187_class_violated` [p q]

### C188 The settings of a concurrent test are in force (partial)

On Model/ConcurrencySettings.lean: the members, constructors and setters of Concurrency, and go() as goTest of Model/ConcurrencyGo.lean with these members. Settings by induction over the calls; the time limit by counting calls of the startup hook.
Violated: the time limit is not looked at between discarded attempts. Partial: settings for all sequences of calls (numbers below 2^31, see C98 and C158 for larger ones), time limit up to the first attempt that is not discarded.

* `Verif.C188_settings_partial` [p q]
* `Verif.C188_time_limit_partial` [p q]
* `Verif.C188_no_limit` [p q]
* `Verif.C188_discards_violated` [p q]

### C189 How likely a test finds a failure, with generators that draw until they succeed (proved)

ChanceLimit is rewritten as convergence of the means of experiments (Lemmas/ChanceTendsto.lean); the experiment of a whole test with m draws per argument is that of C148 on `Searching` tests (Lemmas/ChanceTestLimit.lean), and its mean converges because the discards form a geometric series.
Holds for the model; extends C148 from generators with a fixed number of draws to generators that draw again until they succeed.

* `Verif.Engine.C189_any_set_found` [p c q]
* `Verif.Engine.C189_settles_set` [p c q]
* `Verif.Engine.C189_settles_map` [p q]
* `Verif.Engine.C189_settles_string` [p q]
* `Verif.Engine.C189_settles_transform` [p]
* `Verif.Engine.C189_settles_nested` [p c q]
* `Verif.Engine.C189_set_found` [p c q]
* `Verif.Engine.C189_found` [p c q]
* `Verif.Engine.C189_reported` [p c q]
* `Verif.Engine.C189_returns` [p c q]
* `Verif.Engine.C189_arguments` [p c q]
* `Verif.Engine.C189_settles` [p q]
* `Verif.Engine.C189_settles_filter` [p q]
* `Verif.Engine.C189_settles_oneOf` [p c q]

### C190 How likely a stateful test tries a sequence of actions (proved)

On Model/Stateful.lean: `statefulTest` is the configuration go() hands to forAll (definitionally, C190_go). Lists by summing over the lengths, tests by C189, with C191 to ignore what actions do that cannot be generated.
Holds for the function style; probabilities as limits over the number of draws.

* `Verif.Stateful.C190_exact` [p c q]
* `Verif.Stateful.C190_returns` [p c q]
* `Verif.Stateful.C190_begins` [p c q]
* `Verif.Stateful.C190_none` [p c q]
* `Verif.Stateful.C190_some` [p c q]
* `Verif.Stateful.C190_go` [p c q]
* `Verif.Stateful.C190_arguments` [p c q]
* `Verif.Stateful.C190_found` [p c q]
* `Verif.Stateful.C190_broken_action` [p c q]
* `Verif.Stateful.C190_class_go` [p c q]
* `Verif.Stateful.C190_class_found` [p c q]
* `Verif.Stateful.C190_class_broken_action` [p c q]
* `Verif.Stateful.C190_class_never_run` [p c q]

### C191 A test depends on the property function only at values that can be generated (proved)

By induction over forAll and shrink (Lemmas/PropertyCongr.lean): all arguments called come from draws or their shrinks, so both functions act alike at each call.
Holds for every configuration, including functions with state and generators that throw.

* `Verif.Engine.C191_same_test` [p q]
* `Verif.Engine.C191_calls` [p c q]

### C192 The number of runs and the time limit only cut a test off (proved)

By induction over the loop of forAll: both tests take the same steps until the shorter one ends; what follows only adds to the history (Lemmas/PropertyKeeps.lean).
Holds for every configuration, whatever function, hooks and generators do.

* `Verif.Engine.C192_cut_off` [p q]
* `Verif.Engine.C192_failure_kept` [p q]
* `Verif.Engine.C192_true_shorter` [p q]

### C193 Hooks that do nothing change nothing (proved)

By a simulation: erasing the calls of hooks from the history commutes with each statement of the engine.
Holds for every configuration with quiet hooks.

* `Verif.Engine.C193_quiet_hooks` [p]
* `Verif.Engine.C193_any_quiet_hooks` [p q]

### C194 Mapping commutes with the other combinators (proved)

Equations of generators, by induction over the trees and lists (Lemmas/MapCommutes.lean), with Model/Live.lean for the dependent combinators.
Sets and maps for functions that keep and reflect the order, as the model's elements are compared.

* `Verif.Comb.C194_filter` [p q]
* `Verif.Comb.C194_oneOf` [p c q]
* `Verif.Comb.C194_elementOf` [p c q]
* `Verif.Comb.C194_vector` [p c q]
* `Verif.Comb.C194_string` [p q]
* `Verif.Comb.C194_set` [p q]
* `Verif.Comb.C194_map` [p q]
* `Verif.Comb.C194_pair` [p q]
* `Verif.Comb.C194_tuple` [p q]
* `Verif.Comb.C194_construct` [p q]
* `Verif.Live.C194_flatMap` [p q]
* `Verif.Live.C194_pairWith` [p q]
* `Verif.Live.C194_tupleWith` [p q]

### C195 Filtering twice is filtering by both conditions (partial)

The filtered stream is described as what a search one level deep finds (firstOk); the two searches are compared.
Values, states and implied conditions as stated. What can be reached by shrinking with both conditions at once can be reached after filtering twice (C195_shrinks_partial), but not the other way round (C195_shrinks_violated): a refused candidate is replaced by its first shrink, which the first filter has removed already if it refuses it.

* `Verif.Comb.C195_values` [p q]
* `Verif.Comb.C195_shrinks_partial` [p c q]
* `Verif.Comb.C195_shrinks_violated` [p c q]
* `Verif.Comb.C195_implied` [p c q]

### C196 Mapping in the generators or in the property function is the same test (proved)

By a simulation: transforming histories and reports commutes with each statement of the engine.
Holds for every configuration.

* `Verif.Engine.C196_test` [p q]
* `Verif.Engine.C196_seen` [p q]

### C197 Discarding is filtering (partial)

The draws of the filtered generator are the draws at the positions of the accepted values (Nat.nth); both verdicts follow from C111, the calls from C43.
Proved up to shrinking. The discarding test takes a discarded candidate for a failing one and reports it (C197_reported_violated, see C51).

* `Verif.Engine.C197_same_end_partial` [p c q]
* `Verif.Engine.C197_reported_violated` [p q]

### C198 A property of several arguments and a property of a tuple are the same test (partial)

Both tests are compared with a search of the tree of the tuple (hunt), which of a concatenation searches the first part and then, from where it stopped, the second.
Holds if the compiler evaluates the calls of shrinkN (arguments of a function call, Property.hpp:410-411) from left to right, which C++ does not promise; from right to left the reports differ (C198_order_violated).

* `Verif.Engine.C198_test_partial` [p q]
* `Verif.Engine.C198_seen_partial` [p q]
* `Verif.Engine.C198_greedy` [p c q]
* `Verif.Engine.C198_pair` [p q]
* `Verif.Engine.C198_order_violated` [p q]

### C199 Checks made together or in separate tests (proved)

The failure shown is the first failing draw (C111); the draws do not depend on the property function.
PROP_SUCCESS ends the run, checks after it are not made (C199_success).

* `Verif.Engine.C199_together` [p c q]
* `Verif.Engine.C199_stricter` [p c q]
* `Verif.Engine.C199_success` [p]

### C200 The settings of a property object are in force (partial)

An invariant of all programs: every object is as the calls for it say (Model/PropertyObject.lean has the objects and the function objects they point to).
The settings are in force. Copies share the function object, so if the function has a state, tests of one copy change what tests of the other find (C200_copies_violated). Also found: PropertyBase::setDefaultNumRuns is declared and documented, but has no definition; a program that calls it is not linked, which a theorem about executions cannot express.

* `Verif.Object.C200_in_force` [p c q]
* `Verif.Object.C200_independent_partial` [p c q]
* `Verif.Object.C200_separate` [p c q]
* `Verif.Object.C200_copies_violated` [p]

### C201 Operations on streams and shrinkables can be regrouped (proved)

Induction over trees; element by element for streams.
filter without tolerance; for the filter with tolerance, which generators use, see C195.

* `Verif.Shr.C201_map` [p q]
* `Verif.Shr.C201_flatMap` [p q]
* `Verif.Shr.C201_filter` [p q]
* `Verif.Shr.C201_filter_map` [p]
* `Verif.Shr.C201_take` [p c q]
* `Verif.Shr.C201_concat` [p q]
* `Verif.Shr.C201_andThen` [p q]
* `Verif.Shr.C201_static` [p q]
* `Verif.Strm.C201_streams` [p q]
* `Verif.Strm.C201_streams_take` [p c q]

### C202 Tests can be nested (partial)

The inner test as property function of the outer one; C43, C44 and C48 for both levels.
The last sentence fails: inner tests without a seed of their own get the seed of the process, hence try the same inputs in each run of the outer test (C202_inner_inputs_violated).

* `Verif.Engine.C202_true` [p c q]
* `Verif.Engine.C202_false` [p c q]
* `Verif.Engine.C202_inner_inputs_violated` [p c q]

### C203 A concurrent test can meet every order of the actions, and no other (proved)

From an order the schedule is constructed that does one action after the other (induction over the order with the state of all threads); for commuting actions, any two orders with the same lists are transformed into each other by moving the first action of one to the front of the other.
User functions are single steps, as in all theorems about concurrent runs; the class style for lists of together at most 5000 actions (C71).

* `Verif.Concurrency.C203_every_order` [p c q]
* `Verif.Concurrency.C203_results` [p c q]
* `Verif.Concurrency.C203_terminates` [p c q]
* `Verif.Concurrency.C203_commuting` [p c q]
* `Verif.Concurrency.C203_same_result` [p c q]
* `Verif.Concurrency.C203_sequential` [p c q]
* `Verif.Concurrency.C203_class_every_order` [p c q]
* `Verif.Concurrency.C203_class_results` [p c q]
* `Verif.Concurrency.C203_class_commuting` [p c q]
* `Verif.Concurrency.C203_class_same_result` [p c q]

### C204 A reported counterexample can be given to example() and matrix() (partial)

C43 and C48 for the test, the result of example() as a function of the outcome of the call.
Fails for properties that tell failures by PROP_EXPECT (C204_expectations_violated) or use PROP_SUCCESS (C204_success_violated); matrix() always returns true (C204_matrix_violated).

* `Verif.Engine.C204_example_fails_partial` [p c q]
* `Verif.Engine.C204_expectations_violated` [p c q]
* `Verif.Engine.C204_success_violated` [p q]
* `Verif.Engine.C204_matrix_violated` [p c q]
* `Verif.Engine.C204_passed_runs` [p c q]

### C205 The order of generating arguments and unused arguments do not change probabilities (proved)

Averages over two experiments that do not depend on each other can be exchanged (Exp.mean_swap); by induction on permutations the experiments of all orders have the same averages, and components that are not used are averaged out.
For generators that draw with an ideal engine and follow a finite experiment (C205_limit: loops in the limit); shrinks are not part of the events.

* `Verif.Engine.C205_tuple` [p c q]
* `Verif.Engine.C205_arguments` [p c q]
* `Verif.Engine.C205_test` [p c q]
* `Verif.Engine.C205_limit` [p c q]
* `Verif.Engine.C205_unused_arguments` [p c q]
* `Verif.Engine.C205_unused_test` [p c q]
* `Verif.Engine.C205_unused_limit` [p c q]

