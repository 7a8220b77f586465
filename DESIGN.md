# Formal model of goldsborough/lru-cache: design

The library in `/repo/include/lru` is modelled in Lean 4 under `lean/Verif`.
`properties.jsonl` lists what is claimed, `MANIFEST.json` says which theorem
proves which claim, `seeded/LOG.jsonl` records the mutation tests of the theorems.

## 1. Layers

| layer | files | purpose |
|---|---|---|
| model | `Verif/Model/*` | the code, function by function, with pointers, undefined behaviour, exceptions, clock readings and callbacks |
| spec | `Verif/Spec/*` | small definitions in which the properties are stated (histories, recency, latest write, …); independent of the model's helpers |
| proofs | `Verif/Proofs/*` | a list machine ("mid level"), the exact simulation between model and list machine, invariants |
| properties | `Verif/Props/*` | one file per group of properties; theorems named after the claims, with concrete instances beside them |

### 1.1 The model

A cache is modelled with its real data structures:

* `_map` — a list of *map nodes* `(address, key, Information)`. Its list order is the
  enumeration order of the hash table. After every insertion it is re-arranged by an arbitrary
  permutation chosen by the environment (`Oracle.shuffle`), so nothing may depend on hash order.
* `_order` — a list of *list nodes* `(address, reference)`, front = least recently used.
  The reference is the address of the map node holding the key (`std::reference_wrapper<const Key>`).
* `Information` — value, `order` (address of a list node, or singular) and insertion time.
* `_last_accessed` — optional address of a map node (valid flag + two pointers into the same node).
* `_capacity` — optional number, `none` = indeterminate (the move constructor never initialises it).
* `_stats` — optional identifier of a `Statistics` object, shared between caches.
* callbacks — three lists of identifiers, in registration order.

Every operation is a total computable function `State → Outcome`; `Outcome` is one of
`ok result state`, `throw error state` (C++ exception, with the state it leaves behind),
`ub` (undefined behaviour), `terminate` (exception leaving a `noexcept` function),
`diverge` (loop did not finish within its bound; proved unreachable).

What counts as undefined behaviour: dereferencing an address at which no map node lives (dangling
`_last_accessed`, dangling reference in `_order`, end iterator), splicing or erasing a list node
that is not in this cache's own `_order`, reading an indeterminate capacity.

The environment (`Oracle`) chooses: every clock reading, whether each fallible action (callback,
copy/construct of user types, map-node allocation, list-node allocation, value assignment) throws,
what an assignment that throws leaves of the value (`Oracle.torn`), and the hash order. All theorems quantify over it; monotone clocks are a hypothesis only where used.

Several caches (`World`): creation by every constructor, destruction, swap, move, copy, and
single-cache operations in any order, sharing statistics objects.

### 1.2 The mid level

`Mid` keeps the entries of a cache as one list ordered by recency. `Rep` relates a model cache
to it (order list = entries, hash map = a permutation of the entries). For every
operation the model's outcome is *exactly* the mid level's outcome (same result, same exception,
same undefined behaviour), provided list-node allocation does not fail inside `insert`/`emplace`
(that case is refuted separately, C23). Invariants are then proved on lists. `Mid` is proof machinery only: no property
mentions it.

### 1.3 Which states the theorems are about

* `Reachable O s` (`Spec/Observe.lean`): `s` is a cache, with the state shared by all caches, as *any* program of any length
  can produce it, in any environment `O`. The program may use any number of caches of both classes, all
  constructors, all member functions with all arguments, swap, move, copy, destroy, shared statistics. Exceptions are
  caught and the program carries on. The cache itself must not be a copy (`ownAfter` tracks this; a copy that has been
  cleared counts as its own master again), because calls on copies are undefined behaviour (C28).
* `Reach O ok w`: any program state, copies included (C01, C02, C27, C29).
* `Run`, `Trace`: the same with the list of calls made, for statements about histories (C03, C08, C18, C24, …). Other things
  may happen between the calls of a `Run`, e.g. to statistics objects and other caches (`History`).
* `Calm O`: nothing throws. `NoListFault O`: list nodes can be allocated. `NoAssignFault O`: values can be assigned.
  `KeepsEqual O`: an assignment that throws keeps the value if it is the one to be assigned.
  `Steady O`: the clock does not go backwards. Each is a hypothesis only where it is needed.

### 1.4 Other layers of proofs

| files | what is compared | for |
|---|---|---|
| `Proofs/Raw`, `Pair`, `Own`, `Copy`, `Stale` | all caches of a program: disjoint addresses, who owns its contents, dangling iterators of copies | C27–C29, `Reachable` |
| `Proofs/Twin`, `Spec/Reorder` | two programs that differ in the order of the hash tables | C57 |
| `Proofs/Shortcut` | a cache that uses `_last_accessed` and one that never does | C17 |
| `Spec/Textbook` | the cache and a textbook LRU map (one list) | C62 |
| `Spec/Machine` | the answers of the cache and of the textbook LRU map to sequences of calls | C68 |
| `Spec/Many` | the same for programs with several caches, `swap`, moves, `==` and destruction | C76 |
| `Spec/ManyTimed` | the same for programs with plain and timed caches, every step made at one point in time | C79 |
| `Spec/Watched` | programs with several textbook LRU maps, statistics objects (journals) and callbacks, and what they learn; what they learn from the caches | C80 |
| `Spec/WatchedTimed` | the same for caches of both classes, each step at one time; which accesses to expired keys are overlooked | C84 |
| `Model/LastAccessed` | the class with its two pointers and its flag; the cache model keeps one address for it | C81 |
| `Model/Cost`, `Spec/Cost` | the calls with a meter: searches, nodes, notifications | C69 |
| `Spec/TimedMachine` | the same with insertion times and expiry, calls made at given times | C71 |
| `Model/Examples`, `Spec/Examples` | the function `fibonacci` of the README and the examples and `get` of the README's web server, as programs that use a cache | C72, C73 |
| `Spec/Competitive` | requests served with that `get`, and any other way to serve them with bounded room | C74 |
| `Model/Moves` | the insertions with a ledger: constructions, copies and moves of keys and values | C75 |
| `Model/Alias`, `Spec/Alias` | the calls with references as arguments, which may refer to what the cache stores | C77, C78 |
| `Model/HashFault`, `Spec/HashFault` | the calls with a hash function and a key comparison that may throw | C70 |
| `Spec/Stack` | two caches of different capacity | C53 |
| `Model/Wrap`, `Spec/Wrap`, `Spec/WrapThrow` | wrapped functions that may keep state, throw and call wrapped functions; the outcome of a body that depends only on its arguments | C49–C52, C86 |
| `Model/Overloads` | which overload C++ picks for lvalues, constants and temporaries, and what is moved from; assignment between caches of different types and through the base class | C61, C63, C64, C85 |
| `Model/Held` | ordered iterators that outlive a swap or move | C25 |
| `Model/Reenter`, `Spec/Reenter`, `Spec/ReenterTrace` | callbacks that call the cache, nested to any depth; accounts of what each was told and what it called | C65 |
| `Model/Layers`, `Spec/Layers`, `Spec/LayersTrace` | callbacks that call any cache of the program, nested to any depth | C89 |
| `Model/Floating`, `Spec/Floating` | durations and rates in floating point; `double` and `float` rounded to nearest | C90 |
| `Model/Durations` | durations with machine integers | C91 |
| `Model/Comparison`, `Spec/Comparison` | `==` and `!=` of caches with the program's comparisons of keys and values | C92 |
| `Model/Asserts` | the library with its assertions enabled | C93 |
| `Model/Optional`, `Spec/Optional` | the replacement of `std::optional`, on a heap with owners | C94 |
| `Model/Entry`, `Spec/Entry` | entries: references to keys and values, conversions, comparisons | C95 |
| `Model/IterObjects` | iterator objects: copies, moves, conversions, the entry stored on first use | C66 |
| `Model/Table` | the cache together with the size of its hash table; iterators that know the table they belong to | C67 |
| `Model/Hash` | the tuple hash on 64-bit words | C54 |
| `Model/Counters`, `Spec/Counters` | statistics objects with 64-bit counters | C87 |
| `Model/Functors`, `Spec/Functors` | where the hash functions and comparators of caches go | C88 |

## 2. Trusted base

* Lean 4.33.0's kernel. No axioms besides Lean's own `propext`, `Classical.choice`, `Quot.sound`;
  no `sorry`, no `native_decide`, no `bv_decide`. The axioms of every theorem of the manifest are listed in `AXIOMS.md`
  (written by `tools/gen_axioms.py`).
* The model is a hand translation. Each definition cites the lines it models.
* Behaviour of the standard library is taken from the C++14 standard: node stability of
  `std::unordered_map`/`std::list`, strong guarantee of `emplace` for a single element,
  `splice` keeps iterators valid, erase keeps the order of the others.
* Overload resolution (`Model/Overloads.lean`) is modelled from the rules of the standard, not checked with a compiler.

### Modelled
`internal/base-cache.hpp` (all public members and helpers), `cache.hpp`, `timed-cache.hpp`, `internal/last-accessed.hpp`, `internal/information.hpp`,
`internal/timed-information.hpp`, `internal/base-(un)ordered-iterator.hpp`, `statistics.hpp`,
`key-statistics.hpp`, `internal/statistics-mutator.hpp`, `internal/callback-manager.hpp`,
`internal/hash.hpp` (tuple combination), `wrap.hpp`, `entry.hpp`, `insertion-result.hpp`, `error.hpp` (kinds only).

### Not modelled / simplified
* Hash values and buckets: only the enumeration order, as an arbitrary permutation, and in `Model/Table.lean` (C67) how many elements
  there is room for. Elsewhere an iterator into the table stays valid until its element is erased; C67 shows that this makes no
  difference to what the calls do, but users' unordered iterators do become invalid when the table grows. Past-the-end iterators
  are taken to stay valid. A hash function
  inconsistent with `KeyEqual` is excluded (precondition of `std::unordered_map`).
* Time: `Model/Cost.lean` (C69) counts searches in the hash table, nodes created, destroyed or moved, and notifications. Growing
  the table, hashing, and the work of user-defined operations are not counted.
* `KeyEqual` is an arbitrary equivalence relation, the same for all caches; where function objects with a state go is
  `Model/Functors.lean` (C88). It is separate from
  `==` on keys (used by `Statistics` and cache equality). Neither it nor the hash function throws, except in
  `Model/HashFault.lean` (C70). There a search of the table either fails, without effect, or finds what it finds; for the hash
  function in `emplace` this is what the implementations do rather than what the standard promises. The table of monitored keys
  and copying, assigning and comparing caches are not part of that model.
* Machine integers: sizes, counters and the values of the Fibonacci examples are natural numbers (no overflow; statistics with
  64-bit counters are `Model/Counters.lean`, C87); time stamps and
  durations are integers in clock ticks, one unit of a `Duration` is an integer number of ticks (machine integers and other
  units are `Model/Durations.lean`, C91). The default
  `Duration` is `duration<double, milli>` (`timed-cache.hpp`), for which conversions do not truncate but round. `Model/Floating.lean`
  (C90) shows that it corresponds to one tick per unit, for every rounding, with a time to live that C90 states; rates are exact
  quotients except there. C45 is refuted for integer durations.
  The tuple hash is modelled with 64-bit wrap-around.
* Addresses are never reused. A dangling address therefore never becomes valid again (any
  use of it is undefined behaviour in C++ anyway).
* Reading an indeterminate capacity is undefined behaviour only when its value is used; copying it
  in `swap` is allowed. (Strictly the C++ standard makes even that copy undefined.)
* Threads: the caches are not thread safe and make no such claim.
* `const` and non-`const` overloads have the same body and are modelled once. Move versus copy of keys and values is
  modelled in `Model/Overloads` (C61), where it changes what a range holds afterwards, and counted in `Model/Moves` (C75): one entry
  per construction or assignment that succeeds. Copies made by the caller, by callbacks and by `wrap` are not counted.
* Callbacks do not use caches, except in `Model/Reenter.lean` (C65: their own) and `Model/Layers.lean` (C89: any). There a callback catches the exceptions of
  the calls it makes, always reads the arguments it is given, and an iterator to an entry stays valid until the entry is erased
  (a rehash by a callback's insertion invalidates iterators of `std::unordered_map`, strictly speaking).
* Iterator objects (`Model/IterObjects.lean`) all point into one cache; `const` and other iterators are not told apart. `swap`, and
  converting a temporary, do not compile with `std::optional` (`Entry` cannot be assigned); the model ignores the former and lets
  the latter take over the entry.
* Arguments are values, except in `Model/Alias.lean` (C77, C78), where
  they are references; what is left of a value that was moved from is an arbitrary function of it.
* Copied nodes are named `base + address` (`Impl.copyNodes`), so that names do not depend on the order of the hash table.
* `wrap`: no reference types as arguments or results, no threads; the move in `construct_from_tuple` is elided.
* Template constraints; overload resolution is modelled only for ranges and caches as arguments (C61, C63, C64). `copyCtor` and
  `copyAssign` of the model are what a `const` source gets. `Statistics::reset_all` (statistics.hpp:209-213) does not
  compile when instantiated (`_key_map.second`) and therefore has no behaviour to model.
* `assert`s are left out of the models (release build), except of `Model/Asserts`, in which they are shown never to fail (C93).

## 3. Where code and documentation disagree

Each is stated as a property, refuted with a concrete witness and accompanied by the strongest
statement found that does hold (`_partial`).

1. **Copies are broken** (C28). Only the key references in the copy's `_order` are re-seated
   (base-cache.hpp:1530-1534). `Information::order` of the copy still points into the original's list, and
   `_last_accessed` of the copy points to the original's node. A lookup hit or an erase on a copy is undefined
   behaviour; `lookup` of the last accessed key on the copy returns a reference into the original.
2. **The moved-from cache has an indeterminate capacity** (C26); statistics and callbacks stay behind.
3. **`front()`/`back()` of an empty cache terminate** (C14): `noexcept` functions that throw.
4. **Past-the-end unordered iterators are dereferenced before the check** (C38).
5. **Re-insertion does not restart the time to live** (C41): `insertion_time` is `const` and only set for new keys.
6. **`all_expired`/`clear_expired` assume the order list is sorted by insertion time** (C42, C43), which lookups break.
7. **An expired last-accessed key is not registered as a miss** and `lookup` throws `KeyExpired` instead of `KeyNotFound` (C44).
8. **`lookup` reads the clock twice** (C46): a hit can be registered and `KeyExpired` thrown.
9. **`erase(ordered iterator)` throws for expired entries** (C47).
10. **Time to live is truncated to `Duration`** (C45): a key may live one tick of `Duration` longer.
11. **All wrappers of functions of the same type share one static cache** (C51).
12. **`wrap` captures its cache arguments by reference** (C52).
13. **A failing list allocation corrupts the cache** (C23); a failing value assignment leaves the
    last-accessed pointer off the front, and whatever the assignment leaves of the value is served afterwards, by wrappers too (C49).
14. **`cache = lvalue_range` moves out of the range** (C61).
15. `cache.hpp:54-62` says lookups do not change the order; the code moves every hit to the front (C07, C08).
16. `hit_rate()` without accesses divides by zero (C20).
17. **Assigning a non-`const` cache** picks `operator=(Range&&)` and moves the values out of the source (C63); constructing
    from a non-`const` cache picks the range constructor (C64). The result depends on the order of the hash table (C57).
18. **Ordered iterators follow the cache object, not the contents** across swap and move (C25).
19. **The shortcut `_last_accessed` is observable** on timed caches, and on plain caches after a failed value assignment (C17).
20. **Callbacks that use the cache**: a hit callback that erases the key, a callback that registers a callback, or an
    access made by a hit callback for the same key are undefined or never return (C65).
21. **Ordered iterators to an evicted entry** come to denote the entry that replaced it, because its list node is reused (C66). The documentation calls them
    invalidated (base-cache.hpp:891, 928, ...).
22. **Unordered iterators to other elements are affected by insertions** (C67): the hash table grows until the first eviction, which
    invalidates them; base-cache.hpp:892, 929, 954, 974, 995, 1031, 1075 promise the opposite.
23. **Insertion and removal are not safe against throwing hash functions** (C70): `insert` into a full cache adds the new map node
    before it searches for the entry to evict, `erase(key)` of the last accessed key removes the list node before it searches for
    the map node. If the search throws, the cache is left inconsistent and later calls are undefined. Exceptions from comparing
    with the last accessed key, or in `has_expired`, terminate the program (`noexcept`).
24. **A capacity of 2 is not sufficient for the Fibonacci example** (C72): fibonacci-basic.cpp 47-48, statistics.cpp and callbacks.cpp
    say that it is, and statistics.cpp that there are always `n - 1` misses. If the left operand of `fibonacci(n - 1, cache) +
    fibonacci(n - 2, cache)` is evaluated first, as compilers usually do, the number of misses is exponential in `n`: computing
    `fibonacci(n - 1)` leaves `n - 1` and `n - 3` in the cache rather than `n - 1` and `n - 2`. With capacity 3 it is `n - 1`.
25. **The timed example and the web server of the README can throw** `KeyExpired` (C73): they ask `contains` and then `lookup`, which
    asks the clock again.
26. **Caches are not "100% move-aware"** (README 36, C75): `emplace` of a stored key constructs the value and then copies it
    (base-cache.hpp 1059-1060 calls `_move_to_front(MapIterator, const Value&)`); so does `insert(Range&&)`. If the map node cannot
    be allocated, the key and value given as rvalues are lost.
27. **A cache's own ordered range cannot be inserted into it** (C78): `insert(begin, end)` (base-cache.hpp 940-948) inserts `*begin`,
    which moves that entry to the end of the list, and goes on from there. With `ordered_end()` it stops after one entry, with
    another end it dereferences the end of the list. `cache.insert(cache)` is fine, but replaces the order of use by the order of
    the hash table.
28. **Moving a stored value into its own entry can lose it** (C77): `emplace(key, std::move(cache.lookup(key)))` moves the value into a
    temporary and copies it back (1059-1060); if the copy throws, the entry keeps the moved-from value.
29. **`swap` through the base class leaves the times to live behind** (C83): `TimedCache::swap(TimedCache&)` (timed-cache.hpp 181) hides
    `BaseCache::swap(BaseCache&)` (571) and does not override it. `swap(a, b)` for timed caches with different `Duration`s compiles,
    calls the latter, and exchanges entries and capacities only. Entries then expire too early or too late.
30. **Assignment between caches of different types is one of ranges** (C85): a cache is a range, so a plain cache can be assigned to a
    timed one, and timed caches with different `Duration`s to each other. This loses the order of use, gives expired entries a new
    life, and moves the values out of every source that is not `const`.
31. **A timed wrapper stops caching an argument once its entry has expired** (C86): the result of the next evaluation is stored with
    the insertion time of the expired entry (item 5), so every further call evaluates again, until the entry is evicted.
32. **Rates are wrong after 2^64 accesses** (C87): the counters wrap around without notice. The differences stay right modulo 2^64, but the
    hit rate can exceed 1 or be 0/0. Of theoretical interest only, unless `std::size_t` has 32 bits.
33. **A moved-from cache loses its hash function and comparator** (C88): the move constructor (base-cache.hpp 501-504) swaps with
    default-constructed members. Move assignment exchanges the functions instead.
34. **Callbacks that leave their own cache alone can still be harmful** (C89): `find` of one cache calls a hit callback, which uses a
    second cache, whose miss callback erases the key in the first. `find` then uses the erased entry (cf. C65). Caches whose
    callbacks use only caches below them are safe.
35. **Long times to live are not kept exactly** (C90): the default `Duration` is a `double` of milliseconds. An entry with a time to
    live of 105 days is still there when it should have expired (by less than three microseconds); one with a time to live of 18
    years can be gone too early. Beyond `2^53` accesses `hit_rate()` can be 1 although there was a miss.
36. **Narrow and fine durations overflow** (C91): with `duration<int, milli>` entries that have expired are fresh again after 25 days;
    with picoseconds testing an entry older than 107 days is undefined; so is a time to live of 342 years in nanoseconds.
37. **A cache can be equal to itself and not to its copy** (C92): `==` of one object with itself compares nothing, so that values that
    are not equal to themselves count as equal there and nowhere else. Comparisons that throw terminate the program.
38. **The replacement of `std::optional`** (C94, optional.hpp:71, 87) accepts `Optional<U>` if `T` converts to `U` instead of the opposite;
    its moved-from objects are empty, those of `std::optional` are not; its generalized move constructor is `noexcept` but allocates.
39. **Entries of other types** (C95, entry.hpp:57-63): the generalized constructor accepts entries whose key or value type is merely
    convertible; the reference is then bound to a temporary object and dangles at once. Compilers that implement core issue 1696 reject it.

## 4. Plan per property

| id | modelled by | proof |
|---|---|---|
| C01, C02 | `World` histories, `size`, ordered/unordered entries | invariant through the simulation |
| C03 | history of single-cache operations, `latestWrite` | invariant: every entry holds the latest write |
| C04–C07 | `insert`, `emplace`, `contains`, `find`, `lookup` on every well-formed cache | simulation + list lemmas |
| C08 | `lastUse` of a history | invariant: entries sorted by last use |
| C09–C12 | `erase*`, `clear`, `shrink`, `capacity` | simulation, induction over the loops |
| C13 | capacity 0 | invariant |
| C14 | `front`, `back` | order invariant; refutation for the empty cache |
| C15 | `size`, `space_left`, … | size bound |
| C16, C17 | `contains`/`lookup`/`find` | case analysis under the invariant |
| C18–C21, C24, C60 | `Statistics`, event log | counting inductions over histories |
| C22, C23 | oracle-chosen failures | simulation covers every failure but one; refutation for that one, and its exact effect (`Props.ListFault`) by comparing the call with itself in the environment `O.withLists` |
| C25–C28 | `swap`, move, copy in `World` | world invariant; refutations |
| C29 | `operator==` | list lemmas |
| C30–C32 | constructors, range insertion and assignment | induction over the range |
| C33, C34 | absence of `ub`; node addresses | simulation |
| C35–C38 | iterators | list lemmas |
| C39–C48 | `TimedCache` with arbitrary clocks | simulation + invariants on time stamps |
| C49–C52 | `wrap` | invariant: every cached pair satisfies f; refutations |
| C53 | two runs with different capacities | invariant: suffix of the recency order |
| C54 | tuple hash | induction over the arity |
| C55, C56, C57 | `emplace` = `insert`; `KeyEqual`; hash order | simulation |
| C58, C59 | iterators and references | list lemmas |
| C61, C63, C64 | overload resolution, ranges and caches as sources | explicit model of the moved-from source |
| C62 | textbook LRU map | refinement through the simulation |
| C66 | iterator objects with a stored entry | invariant: the stored entry is the denoted one |
| C67 | the cache with the size of its table | stepwise comparison with the cache alone; potential argument for the bound |
| C68 | textbook map with answers (`Spec/Machine`) | induction over the program with C62 and the outcome theorems; the converse reads contents off the answers |
| C65 | callbacks that call member functions | invariants through nested calls; refutations |
| C69 | the calls with a meter (`Model/Cost`) | the meter removed gives the model; bounds by composition; the number of elements as potential |
| C70 | the calls with searches and comparisons that may throw (`Model/HashFault`) | stepwise comparison with the model, the state at every search; refutations |
| C71 | textbook map with insertion times (`Spec/TimedMachine`) | call by call from the outcome theorems, induction over the program; refutation when the clock advances within a call |
| C72 | numbers `fibAt`, total misses and hits | induction on `n` with the state of the recency order as invariant; exponential lower bound by a recurrence; refutation with `n` = 5 |
| C73 | right entries (`AllRight`), an entry running out (`RunsOut`) | induction on `n`; refutation with a clock that ticks between the calls |
| C74 | schedules of a competitor (`Schedule`, `loads`) | potential function over the recency order (Sleator and Tarjan), by induction over the requests; matching lower bound by an explicit sequence and schedule |
| C75 | the insertions with a ledger (`Model/Moves`) | the ledger removed gives the model; entries by composition, induction over ranges; refutations |
| C76 | several textbook maps with answers (`Spec/Many`) | induction over the program; calls by C68, the other steps by C25, C26, C29, C31 |
| C77 | what a reference denotes (`KeyRef.Denotes`), the call with copies (`RefOp.Copied`) | no call destroys or changes what an argument refers to before it is read for the last time; refutation with a throwing assignment |
| C78 | inserting the elements one by one (`OneByOne` of C30) | induction over the hash table, which insertions of stored keys leave as it is; one step of the loop for ordered iterators; refutations with a cache of three entries |
| C79 | several textbook maps with and without expiry (`Spec/ManyTimed`) | induction over the program; calls by C68 and C71, the other steps by C25, C26, C29, C31 |
| C80 | several textbook maps with journals and callbacks (`Spec/Watched`) | induction over the program; answers by C76, callbacks and statistics by C18, C21 and C24 |
| C81 | objects made by the functions of the class (`LastAccessed.Made`), live nodes (`Alive`) | case analysis on how the object was made; the cache model's operations on its one address compared with the class |
| C82 | calls that bring an entry forward (`Op.BringsForward`), entries in order of their times (`SortedByTime`) | invariant on the mid level: sorted, and no time later than the last clock reading; then C42 and C43 |
| C83 | `swap` on references to the base class (a step of programs) | closed form; reachability is part of the world invariant; C40, C44; refutation with two durations |
| C84 | several textbook maps of both kinds with journals, callbacks and their latest keys (`Spec/WatchedTimed`) | induction over the program; answers by C79, the latest key by case analysis of all calls (`Proofs/Latest`), registrations by C24 and C44 |
| C85 | overload resolution with the operators of the base class; a cache as range for another one | C32 and C63 for the contents; the times by induction over the loop; three refutations |
| C86 | paths of programs with wrappers (`MPath`), entries that are live (`LiveFor`) | the steps of a call as a history of the cache (C39, C45), C41 for stored keys, C50 for what is stored; refutation with five calls |
| C87 | sequences of calls of a statistics object and how many of them are hits and misses (`Spec/Counters`) | induction over the calls in 64-bit arithmetic; commutation with the model on natural numbers; two refutations with 2^64 calls |
| C88 | function objects with which elements were stored, functions given to constructors (`Spec/Functors`) | invariant over all programs; closed forms of the steps; refutation with one move |
| C89 | programs with callbacks that use caches (`LProg`), ranks (`Layered`, `Tiered`, `Orderly`) | invariant over all programs through the simulation; frame, effect and termination by induction on the depth; closed form for two caches; refutation with two caches |
| C90 | whole nanoseconds, exact quotients; what is assumed of a rounding (`Spec/Floating`) | order preservation and exactness of representable neighbours; IEEE rounding to nearest as an instance; refutations with `double` |
| C91 | exact quotients | bounds of the intermediate results; refutations with particular durations |
| C92 | elements that are the same for the program, one by one in recency order | verdicts of comparisons that may throw; the element found for a key is the one at the same place |
| C93 | a failed assertion may do anything; the results do not depend on what | equality of the functions with and without assertions, in all states |
| C94 | operations on lists of optional values, without heap and pointers | every cell has one owner, an object or a local variable; simulation of programs that do not look at moved-from objects |
| C95 | elements and the element each entry stands for, without addresses | simulation of programs without changes of type; destroyed objects stay destroyed |

## 5. Testing the theorems

`seeded/mutants.py` lists wrong programs, `seeded/run.py` applies each to a scratch copy. A wrong program is expected to
break proofs — almost always the simulation lemma of the function first, after which Lean does not get to the
property theorems. Therefore `seeded/harness.txt` (a Lean file, copied into the scratch copy as `Harness.lean`) also evaluates the *statements* of the property theorems on random
programs, to see that the statements themselves, not only the proofs, reject the wrong program. For the models of single mechanisms
`seeded/statements.py` does the same with `seeded/harnesses/MODEL.txt`. Models without such a file (`Entry` among them) have only
been tested by the proofs that fail. `seeded/LOG.jsonl` has one
line per wrong program; a wrong program that does not compile is not counted. `tools/citations.py` prints the lines of the library that
the models cite, to check the citations.

## 6. Testing the model

`lean/Verif/Tests/` transcribes the assertions of the project's own tests (`/repo/tests/*.cpp`) and evaluates them on the model. They
are tests, not proofs; nothing else imports them. All assertions hold on the model except those that rely on undefined
behaviour or on what the standard leaves open:

- `iterator-test.cpp` 308, 310 call `key()` and `value()` on `unordered_end()`, which dereferences it before checking (C38).
- `wrap-test.cpp` 47-90 call wrappers whose arguments have been destroyed: `wrap(f, 1)` keeps a reference to the temporary.
- `timed-cache-test.cpp` 176 expects a certain element to be the last of the hash table. It is if the hash table enumerates
  new elements first, as with the usual implementation and few elements.
- `iterator-test.cpp` 208-226, 255-273 need a clock that advances between two readings.
