{"id": "C01", "title": "Size never exceeds capacity", "statement": "After any sequence of public calls that completes without undefined behaviour, size() <= capacity() for every cache whose capacity has been set.", "quantifier": "all histories of operations on any number of caches (construction, lookup, insertion, erasure, resizing, range assignment, swap, move, copy), all key/value types, all key-equality relations", "why_tests_cant": "tests fix a capacity and a handful of insertions; the bound must survive every interleaving of insert, capacity(), shrink(), erase, swap and move", "anchors": ["include/lru/internal/base-cache.hpp: insert, emplace, _insert_new_key, _is_too_full, capacity, shrink, swap"]}
{"id": "C02", "title": "No duplicate keys; ordered and unordered iteration agree", "statement": "In every reachable cache no two entries have keys that KeyEqual identifies, ordered iteration and unordered iteration visit exactly the same (key, value) entries, each exactly once, and both have length size().", "quantifier": "all reachable caches, all hash-iteration orders, all equivalence relations used as KeyEqual", "why_tests_cant": "the map and the order list are two separate containers kept in sync by hand; tests only compare them on short scripted sequences", "anchors": ["include/lru/internal/base-cache.hpp: _map, _order, insert, _erase, _evict_lru_for, ordered_begin, unordered_begin"]}
{"id": "C03", "title": "Lookups return the latest write", "statement": "If lookup(k) (or operator[], find(k)->value(), iterator dereference) yields a value v for key k, then v is the value of the most recent completed insert/emplace/range-insert/assignment-through-reference for a key equal to k; no call ever returns a value that was not the latest write.", "quantifier": "all histories of single-cache operations starting from any constructor, all keys", "why_tests_cant": "stale values could appear only after particular interleavings of eviction, re-insertion, the last-accessed shortcut and node reuse", "anchors": ["include/lru/internal/base-cache.hpp: insert, emplace, lookup, operator[], _value_for_last_accessed", "include/lru/internal/last-accessed.hpp: value", "include/lru/cache.hpp: find"]}
{"id": "C04", "title": "Eviction removes exactly the least recently used entry", "statement": "Inserting a key that is not present into a cache with size() == capacity() > 0 removes exactly one entry, the one whose last use (insertion, update, or successful contains/find/lookup) lies furthest in the past of the history; every other entry keeps its key, value and relative order.", "quantifier": "all histories, all keys and values, all capacities greater than zero", "why_tests_cant": "the victim depends on the entire access history; tests check one or two victims", "anchors": ["include/lru/internal/base-cache.hpp: _insert_new_key, _evict_lru_for, _move_to_front, insert, emplace"]}
{"id": "C05", "title": "No spurious eviction", "statement": "Inserting a new key while size() < capacity() removes nothing: all previous entries keep key, value and relative order, the new entry becomes the most recent one and size() grows by exactly one.", "quantifier": "all reachable caches with spare room, all keys not present and all values", "why_tests_cant": "an off-by-one in the fullness check shows up only at particular sizes/capacities", "anchors": ["include/lru/internal/base-cache.hpp: insert, emplace, _is_too_full, _insert_new_key"]}
{"id": "C06", "title": "Insert of a present key is an update", "statement": "insert(k, v) / emplace(k, v) with k present (capacity > 0) reports was_inserted() == false, returns an iterator to that entry, replaces its value by v, makes it the most recently used, and changes neither size() nor any other entry nor the relative order of the others.", "quantifier": "all reachable caches and all present keys", "why_tests_cant": "must hold at every position of the key in the order and for every cache size including 1", "anchors": ["include/lru/internal/base-cache.hpp: insert, emplace, _move_to_front(MapIterator,const Value&)"]}
{"id": "C07", "title": "A hit refreshes recency and changes nothing else", "statement": "A successful contains(k), find(k), lookup(k) or operator[](k) makes k the most recently used entry and leaves the set of entries, all values, the capacity and the relative order of all other entries unchanged; an unsuccessful one leaves entries, values, order and capacity unchanged.", "quantifier": "all reachable caches, all keys, plain and timed caches, both the shortcut and the hash-lookup path", "why_tests_cant": "the shortcut path relies on the unstated invariant that the last-accessed key is already at the front", "anchors": ["include/lru/internal/base-cache.hpp: contains, lookup, _move_to_front", "include/lru/cache.hpp: find", "include/lru/timed-cache.hpp: find"]}
{"id": "C08", "title": "Ordered iteration is recency order of the history", "statement": "In every reachable plain cache, ordered iteration from begin to end lists the entries in strictly increasing order of the time of their last use (insertion, update or successful lookup) in the history of calls.", "quantifier": "all single-cache histories from any constructor", "why_tests_cant": "a statement about the whole history of calls, not about one scripted one", "anchors": ["include/lru/internal/base-cache.hpp: ordered_begin, _order, _move_to_front, _insert_new_key", "include/lru/cache.hpp: front, back"]}
{"id": "C09", "title": "Erase removes exactly the given key", "statement": "erase(k) returns true iff k was present; afterwards k is absent and every other entry keeps key, value and relative order; erasing through a valid unordered or ordered iterator removes exactly the entry it denotes.", "quantifier": "all reachable caches, all keys, whether or not the key is the last accessed one, all valid iterators", "why_tests_cant": "two different erase implementations (last-accessed path and hash path) must agree in every state", "anchors": ["include/lru/internal/base-cache.hpp: erase(const Key&), erase(UnorderedConstIterator), erase(OrderedConstIterator), _erase"]}
{"id": "C10", "title": "Clear and re-use", "statement": "clear() (and shrink(0)) leaves an empty cache with the same capacity, statistics and callbacks, and the cache then behaves like a freshly constructed one of that capacity: no later call can observe or reach a previously stored entry.", "quantifier": "all reachable caches, all continuations of the history", "why_tests_cant": "dangling last-accessed pointers after clear() would only show for particular follow-up calls", "anchors": ["include/lru/internal/base-cache.hpp: clear, shrink", "include/lru/internal/last-accessed.hpp: invalidate"]}
{"id": "C11", "title": "Shrink keeps the most recent entries", "statement": "shrink(n) leaves exactly the min(n, size()) most recently used entries, in the same order with the same values, leaves capacity() unchanged, and terminates.", "quantifier": "all reachable caches and all n", "why_tests_cant": "loop over the LRU entries with a special case at 0; correctness for every size and n", "anchors": ["include/lru/internal/base-cache.hpp: shrink, _erase_lru, _erase"]}
{"id": "C12", "title": "Setting the capacity keeps the most recent entries", "statement": "capacity(n) sets capacity() to n, keeps exactly the min(n, size()) most recently used entries in order with their values, and terminates; growing the capacity removes nothing.", "quantifier": "all reachable caches and all n including 0", "why_tests_cant": "loop with eviction for every n and size", "anchors": ["include/lru/internal/base-cache.hpp: capacity(size_t), _erase_lru"]}
{"id": "C13", "title": "Capacity zero stores nothing", "statement": "With capacity() == 0 every insert/emplace returns {false, end()} and the cache stays empty; as long as the capacity stays 0 no call ever finds anything.", "quantifier": "all histories over a cache while its capacity is 0, all keys and values", "why_tests_cant": "must hold for every sequence of insertions, range insertions and lookups", "anchors": ["include/lru/internal/base-cache.hpp: insert, emplace"]}
{"id": "C14", "title": "front() and back() name the most and least recently used key", "statement": "On a non-empty plain cache front() is the most recently used key and back() the least recently used key; on an empty cache they throw LRU::Error::EmptyCache, which the caller can catch.", "quantifier": "all reachable plain caches, empty and non-empty", "why_tests_cant": "depends on the whole history; the error branch is inside a noexcept function", "anchors": ["include/lru/cache.hpp: front, back", "include/lru/error.hpp: EmptyCache"]}
{"id": "C15", "title": "Size arithmetic is consistent and never wraps", "statement": "size() + space_left() == capacity() as mathematical integers (no unsigned wrap-around), is_full() iff space_left() == 0, is_empty() iff ordered iteration is empty iff size() == 0.", "quantifier": "all reachable caches with a set capacity", "why_tests_cant": "unsigned subtraction is only safe if the size bound is an invariant of every reachable state", "anchors": ["include/lru/internal/base-cache.hpp: space_left, is_full, is_empty, size"]}
{"id": "C16", "title": "contains() predicts lookup()", "statement": "On a plain cache contains(k) returns true iff an immediately following lookup(k) returns normally, and false iff it throws KeyNotFound; find(k) != end() under the same condition.", "quantifier": "all reachable plain caches and all keys", "why_tests_cant": "contains/lookup/find have separate code paths with a shortcut", "anchors": ["include/lru/internal/base-cache.hpp: contains, lookup", "include/lru/cache.hpp: find"]}
{"id": "C17", "title": "The last-accessed shortcut is unobservable on plain caches", "statement": "For a plain cache, results, statistics, callbacks, entries and order produced by any call are the same whether or not the call is served by the last-accessed shortcut.", "quantifier": "all reachable plain caches, all operations and keys", "why_tests_cant": "an optimisation must be proved equivalent in every reachable state", "anchors": ["include/lru/internal/base-cache.hpp: contains, lookup, erase", "include/lru/internal/last-accessed.hpp: operator=="]}
{"id": "C18", "title": "Statistics count every access exactly once", "statement": "While a plain cache is monitored and callbacks do not throw, after any history total_accesses() grew by exactly the number of contains/find/lookup/operator[] calls, total_hits() by the number of those that found the key and total_misses() by the rest; insertions, erasures, resizing, iteration and comparison never change the statistics.", "quantifier": "all histories of operations on a monitored plain cache", "why_tests_cant": "a counting property over every history", "anchors": ["include/lru/internal/base-cache.hpp: _register_hit, _register_miss, contains, lookup", "include/lru/internal/statistics-mutator.hpp: register_hit, register_miss", "include/lru/cache.hpp: find"]}
{"id": "C19", "title": "Per-key statistics are exact", "statement": "For a key k monitored throughout a history, hits_for(k) and misses_for(k) grow by exactly the number of hit/miss accesses to k; accesses_for(k) is their sum; monitor(k) on an already monitored key does not reset it; unmonitored keys throw UnmonitoredKey.", "quantifier": "all histories of statistics operations and accesses, all keys", "why_tests_cant": "counting property over every history", "anchors": ["include/lru/statistics.hpp: monitor, unmonitor, stats_for, hits_for, misses_for, reset_key", "include/lru/internal/statistics-mutator.hpp", "include/lru/key-statistics.hpp"]}
{"id": "C20", "title": "Statistics totals are consistent and rates lie in [0,1]", "statement": "In every state of a Statistics object total_hits() <= total_accesses() (so total_misses() never wraps), the per-key hits (misses) summed over all monitored keys are at most total_hits() (total_misses()), and when at least one access was made 0 <= hit_rate() <= 1 and hit_rate() + miss_rate() == 1.", "quantifier": "all histories of register/monitor/unmonitor/reset operations on a Statistics object", "why_tests_cant": "an inductive invariant over all histories", "anchors": ["include/lru/statistics.hpp: total_misses, hit_rate, miss_rate", "include/lru/internal/statistics-mutator.hpp"]}
{"id": "C21", "title": "Callbacks fire exactly once per access, in registration order", "statement": "Each contains/find/lookup that is a hit calls every registered hit callback once with the queried key and the stored value and then every access callback once with (key, true); each miss calls every miss callback once with the key and then every access callback with (key, false); each in registration order, and nothing else calls any callback.", "quantifier": "all plain caches, all sets of registered callbacks, all histories", "why_tests_cant": "order and multiplicity over arbitrary registrations and histories", "anchors": ["include/lru/internal/callback-manager.hpp: hit, miss, _call_each", "include/lru/internal/base-cache.hpp: _register_hit, _register_miss"]}
{"id": "C22", "title": "A throwing callback does not damage the cache", "statement": "If a hit/miss/access callback throws, the exception propagates to the caller and the cache keeps exactly its entries, values, order and capacity; every later call behaves as on a valid cache.", "quantifier": "all reachable caches, all failing points among all callbacks", "why_tests_cant": "the failure point ranges over every callback of every access", "anchors": ["include/lru/internal/callback-manager.hpp: _call_each", "include/lru/cache.hpp: find", "include/lru/timed-cache.hpp: find", "include/lru/internal/base-cache.hpp: contains, lookup"]}
{"id": "C23", "title": "Insertion is exception safe", "statement": "If an exception (allocation failure, throwing copy of a value) leaves insert/emplace, the cache remains valid: size() equals the number of entries visited by iteration, and later calls have defined behaviour.", "quantifier": "all reachable caches and all points inside insert/emplace at which an exception may be raised", "why_tests_cant": "fault injection at every allocation/copy in every state", "anchors": ["include/lru/internal/base-cache.hpp: insert, emplace, _insert_new_key"]}
{"id": "C24", "title": "Shared statistics add up", "statement": "When several caches monitor the same Statistics object, each access on any of them is added exactly once to it, and accesses on caches monitoring other objects (or none) leave it unchanged.", "quantifier": "all interleavings of operations on any number of caches and statistics objects", "why_tests_cant": "interleavings over several caches", "anchors": ["include/lru/internal/base-cache.hpp: monitor, shared_stats, _register_hit", "include/lru/internal/statistics-mutator.hpp"]}
{"id": "C25", "title": "swap exchanges contents", "statement": "swap(a, b) exchanges entries, order, values and capacity (and the time to live for timed caches) and leaves statistics and callbacks where they were; both caches remain valid and swapping twice restores both; every iterator and reference to an element stays usable.", "quantifier": "all pairs of reachable caches, all later histories", "why_tests_cant": "pointer-linked structures must remain consistent after exchange, for every state and continuation", "anchors": ["include/lru/internal/base-cache.hpp: swap", "include/lru/timed-cache.hpp: swap"]}
{"id": "C26", "title": "Moving a cache transfers its contents and leaves a usable source", "statement": "After move construction the new cache has the entries, order, values and capacity of the source, and the moved-from cache is empty and in a valid state in which every operation is defined; move assignment likewise.", "quantifier": "all reachable source caches and all later histories", "why_tests_cant": "the moved-from state must be usable under every continuation", "anchors": ["include/lru/internal/base-cache.hpp: BaseCache(BaseCache&&), operator=(BaseCache&&)"]}
{"id": "C27", "title": "A copy is equal to the original", "statement": "Immediately after copy construction or copy assignment the copy compares equal to the original, has the same capacity and the same ordered iteration, and its order list refers to its own keys.", "quantifier": "all reachable source caches", "why_tests_cant": "reference re-seating must work for every content", "anchors": ["include/lru/internal/base-cache.hpp: BaseCache(const BaseCache&), operator=(const BaseCache&), _reassign_references"]}
{"id": "C28", "title": "A copy is independent of the original", "statement": "After copying, any operation on the copy has defined behaviour and affects only the copy, and any operation on the original affects only the original.", "quantifier": "all reachable source caches, all operations on copy and original afterwards", "why_tests_cant": "needs every state and every following operation; existing tests only touch an empty or single-element copy", "anchors": ["include/lru/internal/base-cache.hpp: BaseCache(const BaseCache&), operator=(const BaseCache&), _reassign_references, _move_to_front, _erase", "include/lru/internal/information.hpp: order", "include/lru/internal/last-accessed.hpp"]}
{"id": "C29", "title": "Cache equality", "statement": "a == b iff both caches hold the same (key, value) entries in the same recency order (for timed caches: also with the same insertion times); == is an equivalence relation and != its negation; capacity, statistics and callbacks do not matter.", "quantifier": "all pairs and triples of reachable caches whose KeyEqual is key equality", "why_tests_cant": "symmetric/transitive laws over all states", "anchors": ["include/lru/internal/base-cache.hpp: operator==, operator!=", "include/lru/internal/information.hpp: operator==", "include/lru/internal/timed-information.hpp: operator=="]}
{"id": "C30", "title": "Range insertion equals one-by-one insertion", "statement": "insert(first, last), insert(range) and insert(list) have the same effect as inserting the pairs one at a time in order, and return how many of these insertions were new.", "quantifier": "all ranges of pairs and all reachable caches", "why_tests_cant": "ranges of every length with every pattern of repeats and evictions", "anchors": ["include/lru/internal/base-cache.hpp: insert(Iterator,Iterator), insert(Range&), insert(Range&&), insert(InitializerList)"]}
{"id": "C31", "title": "Constructors set the documented capacity", "statement": "A cache built from iterators or an lvalue range has capacity max(length, 128); from an rvalue range or initializer list capacity length; with explicit capacity n capacity n; default 128; in each case the contents are those of inserting the pairs in order, and when the capacity is at least the length no inserted key is lost.", "quantifier": "all ranges/lists and capacities", "why_tests_cant": "all lengths, repeats and capacities", "anchors": ["include/lru/internal/base-cache.hpp: constructors", "include/lru/cache.hpp: constructors", "include/lru/timed-cache.hpp: constructors", "include/lru/internal/definitions.hpp: DEFAULT_CAPACITY"]}
{"id": "C32", "title": "Range assignment", "statement": "cache = range discards all previous entries, raises the capacity to the range's length if it was smaller and otherwise keeps it, then holds exactly the distinct keys of the range with their last values, ordered by last occurrence; nothing of the range is lost.", "quantifier": "all reachable caches and all ranges", "why_tests_cant": "every previous state and every range", "anchors": ["include/lru/internal/base-cache.hpp: operator=(const Range&), operator=(Range&&), operator=(InitializerList), _clear_and_increase_capacity"]}
{"id": "C33", "title": "Memory safety without copies", "statement": "No history of API calls that uses iterators only while they are valid and never copies a cache, nor uses a moved-from cache before resetting its capacity, reaches undefined behaviour (dangling last-accessed pointer, dangling key reference in the order list, foreign or singular list iterator, end dereference).", "quantifier": "all histories over any number of caches, with arbitrary hash order, clock and throwing callbacks", "why_tests_cant": "memory safety is a universal statement over histories", "anchors": ["include/lru/internal/base-cache.hpp", "include/lru/internal/last-accessed.hpp", "include/lru/cache.hpp", "include/lru/timed-cache.hpp"]}
{"id": "C34", "title": "Iterators and references to other entries stay valid", "statement": "insert, emplace, find, lookup, contains, erase, shrink and capacity() leave every ordered iterator and every reference to an entry that is still in the cache denoting the same key afterwards.", "quantifier": "all reachable caches, all operations, all entries not removed by the operation", "why_tests_cant": "must hold for every entry in every state", "anchors": ["include/lru/internal/base-cache.hpp: insert, emplace, _move_to_front, _evict_lru_for, _erase", "include/lru/internal/base-ordered-iterator.hpp", "include/lru/internal/base-unordered-iterator.hpp"]}
{"id": "C35", "title": "Ordered iteration can be walked both ways", "statement": "From ordered_begin() size() increments reach ordered_end(); ++ and -- are inverse; walking backwards from ordered_end() visits the entries from most to least recently used.", "quantifier": "all reachable caches and all positions", "why_tests_cant": "all sizes and positions", "anchors": ["include/lru/internal/base-ordered-iterator.hpp: operator++, operator--", "include/lru/internal/base-cache.hpp: ordered_begin, ordered_end"]}
{"id": "C36", "title": "Dereferencing iterators has no side effects", "statement": "Incrementing, dereferencing, comparing and converting iterators, is_valid, has_expired, all_expired, size queries, front and back change neither the entries, values, order, capacity, the last-accessed state, the statistics, nor call callbacks.", "quantifier": "all reachable caches, all iterators", "why_tests_cant": "frame property over all states", "anchors": ["include/lru/internal/base-ordered-iterator.hpp: _maybe_lookup, entry, key, value", "include/lru/internal/base-unordered-iterator.hpp: entry, key, value", "include/lru/internal/base-cache.hpp: is_valid, throw_if_invalid"]}
{"id": "C37", "title": "Unordered-to-ordered conversion and mixed comparison are consistent", "statement": "Converting a valid unordered iterator yields an ordered iterator denoting the same entry; an ordered and an unordered iterator compare equal iff they denote the same entry or are both past-the-end; converting the past-the-end iterator throws InvalidIteratorConversion.", "quantifier": "all reachable (non-copied) caches, all pairs of iterators into them", "why_tests_cant": "all pairs of positions in all states", "anchors": ["include/lru/internal/base-ordered-iterator.hpp: BaseOrderedIterator(BaseUnorderedIterator), operator==, _throw_if_at_invalid"]}
{"id": "C38", "title": "Accessing a past-the-end iterator throws InvalidIterator", "statement": "key(), value() and entry() on a past-the-end ordered or unordered iterator throw LRU::Error::InvalidIterator without touching invalid memory, and erase(end) throws InvalidIterator and changes nothing.", "quantifier": "all reachable caches", "why_tests_cant": "a null-node dereference that happens to work in one standard library is invisible to a test", "anchors": ["include/lru/internal/base-unordered-iterator.hpp: entry", "include/lru/internal/base-ordered-iterator.hpp: entry, key", "include/lru/internal/base-cache.hpp: throw_if_invalid, erase"]}
{"id": "C39", "title": "A timed cache never serves an expired value", "statement": "If contains, find, lookup or operator[] on a timed cache succeed for key k, then at the moment of the (last) clock reading in that call no more than the time to live has passed since k was inserted into the cache, in units of the cache's Duration.", "quantifier": "all histories, all clock behaviours (any monotone sequence of readings), all time-to-live values", "why_tests_cant": "every timing", "anchors": ["include/lru/timed-cache.hpp: find, _has_expired, _last_accessed_is_ok, _value_for_last_accessed"]}
{"id": "C40", "title": "A timed cache serves every fresh entry", "statement": "If k is stored in a timed cache and has not expired at the clock readings made during the call, contains(k) is true and lookup(k) returns its value.", "quantifier": "all histories, all clock behaviours", "why_tests_cant": "every timing and state", "anchors": ["include/lru/timed-cache.hpp: find, _has_expired", "include/lru/internal/base-cache.hpp: contains, lookup"]}
{"id": "C41", "title": "Re-inserting a key restarts its time to live", "statement": "After insert(k, v) or emplace(k, v) on a timed cache completes at time t with capacity > 0, k is available until the time to live has elapsed since t.", "quantifier": "all histories and clock behaviours", "why_tests_cant": "needs re-insertion at arbitrary ages; tests only insert fresh keys", "anchors": ["include/lru/internal/base-cache.hpp: insert, emplace, _move_to_front", "include/lru/internal/timed-information.hpp: insertion_time"]}
{"id": "C42", "title": "all_expired() is true iff every stored key has expired", "statement": "all_expired() returns true iff every key stored in the timed cache has expired (vacuously for the empty cache).", "quantifier": "all histories (including lookups that reorder entries) and clock behaviours", "why_tests_cant": "wrong only for particular interleavings of lookups and time", "anchors": ["include/lru/timed-cache.hpp: all_expired"]}
{"id": "C43", "title": "clear_expired() removes exactly the expired entries", "statement": "clear_expired() erases every expired entry and no other, returns the number erased and terminates.", "quantifier": "all histories and clock behaviours", "why_tests_cant": "wrong only for particular interleavings of lookups and time", "anchors": ["include/lru/timed-cache.hpp: clear_expired"]}
{"id": "C44", "title": "Expired keys behave like absent keys", "statement": "For an expired key k of a timed cache: contains(k) is false, find(k) is end(), lookup(k) throws, and each of these is registered as a miss (statistics and callbacks) exactly as for an absent key.", "quantifier": "all histories, clocks, whether or not k is the last accessed key", "why_tests_cant": "depends on which key was last accessed", "anchors": ["include/lru/timed-cache.hpp: find, _last_accessed_is_ok, _value_for_last_accessed", "include/lru/internal/base-cache.hpp: contains, lookup"]}
{"id": "C45", "title": "Expiration is monotone and respects the requested time to live", "statement": "A key never expires while at most the requested time to live has elapsed since its insertion; once expired it stays expired until removed; and it is expired as soon as the elapsed time exceeds the requested time to live.", "quantifier": "all time-to-live values, all Duration resolutions, all monotone clocks", "why_tests_cant": "rounding of duration_cast for all values", "anchors": ["include/lru/timed-cache.hpp: _has_expired, constructors", "include/lru/internal/timed-information.hpp: insertion_time"]}
{"id": "C46", "title": "A hit on a timed cache yields the value", "statement": "If contains(k) returned true, or find(k) registered a hit inside lookup(k), the same lookup(k) returns the value.", "quantifier": "all clock behaviours between the clock readings inside one call", "why_tests_cant": "requires the clock to advance between two readings inside one call", "anchors": ["include/lru/internal/base-cache.hpp: lookup", "include/lru/timed-cache.hpp: find, throw_if_invalid", "include/lru/internal/base-unordered-iterator.hpp: entry"]}
{"id": "C47", "title": "Expired entries can be erased by key or iterator", "statement": "erase(key), erase(unordered iterator) and erase(ordered iterator) remove an expired entry just like a fresh one.", "quantifier": "all timed caches, keys, clocks", "why_tests_cant": "requires expiry between obtaining the iterator and erasing", "anchors": ["include/lru/internal/base-cache.hpp: erase(OrderedConstIterator)", "include/lru/internal/base-ordered-iterator.hpp: key", "include/lru/timed-cache.hpp: throw_if_invalid"]}
{"id": "C48", "title": "Expiry does not free space by itself", "statement": "Expired entries continue to count towards size() and are removed only by eviction, erase, clear, shrink, capacity or clear_expired; an access to an expired key changes neither entries nor order.", "quantifier": "all histories and clocks", "why_tests_cant": "all states and timings", "anchors": ["include/lru/timed-cache.hpp: find", "include/lru/internal/base-cache.hpp: size"]}
{"id": "C49", "title": "A wrapped function is transparent", "statement": "For a deterministic function f, every call of LRU::wrap(f)(args) returns f(args), or throws what f(args) throws, for every capacity of the internal cache and every history of calls (exceptions included, if a failed assignment of a value that is there already keeps it).", "quantifier": "all functions, capacities and call histories of one wrapper", "why_tests_cant": "all histories of arguments", "anchors": ["include/lru/wrap.hpp: wrap", "include/lru/internal/base-cache.hpp: emplace", "include/lru/cache.hpp: find"]}
{"id": "C50", "title": "Wrapped calls are memoised for the last N distinct arguments", "statement": "With internal cache capacity N > 0, a call of the wrapped function evaluates f iff its argument is not among the N most recently used distinct arguments of earlier calls that returned; exceptions are not remembered.", "quantifier": "all call histories and capacities", "why_tests_cant": "characterisation over all histories", "anchors": ["include/lru/wrap.hpp: wrap", "include/lru/internal/base-cache.hpp: _evict_lru_for", "include/lru/cache.hpp: find"]}
{"id": "C51", "title": "Different wrapped functions do not interfere", "statement": "If f and g are two functions, the results of LRU::wrap(f) and LRU::wrap(g) are those of f and g respectively, even when f and g have the same type.", "quantifier": "all pairs of functions of the same type, all interleavings of calls", "why_tests_cant": "needs two functions of the same C++ type wrapped in one program and a shared argument", "anchors": ["include/lru/wrap.hpp: wrap (function-local static cache)"]}
{"id": "C52", "title": "Arguments forwarded to wrap() reach the cache", "statement": "LRU::wrap(f, n) and LRU::timed_wrap(f, d) behave as wrappers with an internal cache of capacity n / time to live d whenever the wrapper is called.", "quantifier": "all arguments (temporaries and lvalues) and call times", "why_tests_cant": "a dangling reference may appear to work in a test", "anchors": ["include/lru/wrap.hpp: wrap (cache_args = forward_as_tuple), timed_wrap"]}
{"id": "C53", "title": "LRU inclusion property", "statement": "For the same sequence of memoised accesses (look up, insert on miss), the entries held by a cache of capacity n are always among those held by a cache of capacity m >= n; hence a larger cache never has more misses.", "quantifier": "all access sequences and all capacities n <= m", "why_tests_cant": "compares two runs over all histories", "anchors": ["include/lru/internal/base-cache.hpp: insert, _evict_lru_for", "include/lru/cache.hpp: find"]}
{"id": "C54", "title": "Equal tuples have equal hashes", "statement": "The std::hash specialisation for tuples gives equal results for tuples whose elements have equal hashes, for every arity, with 64-bit wrap-around arithmetic, and depends on element order.", "quantifier": "all tuples of all arities, all element hashes", "why_tests_cant": "all arities and values", "anchors": ["include/lru/internal/hash.hpp: hash_tuple"]}
{"id": "C55", "title": "emplace and insert agree", "statement": "emplace(k, v) and insert(k, v) have the same observable effect and result (up to exceptions thrown by user constructors).", "quantifier": "all reachable caches, keys and values", "why_tests_cant": "two separate implementations must agree in every state", "anchors": ["include/lru/internal/base-cache.hpp: insert, emplace"]}
{"id": "C56", "title": "Custom key equality: one representative per class", "statement": "If KeyEqual is coarser than ==, updating or looking up with an equivalent key acts on the entry stored under the first inserted representative, and iteration keeps reporting that representative until the entry is removed.", "quantifier": "all equivalence relations, all histories", "why_tests_cant": "arbitrary equivalence relations", "anchors": ["include/lru/internal/base-cache.hpp: insert, emplace, _move_to_front", "include/lru/internal/last-accessed.hpp: operator==", "include/lru/cache.hpp: find"]}
{"id": "C57", "title": "Behaviour is independent of hash-table order", "statement": "Apart from the order of unordered iteration, no result, exception, callback, statistic or ordered iteration depends on the order in which the hash table enumerates its entries.", "quantifier": "all enumeration orders at every step of every history", "why_tests_cant": "tests run with one hash function/library", "anchors": ["include/lru/internal/base-cache.hpp: _map", "include/lru/cache.hpp: find"]}
{"id": "C58", "title": "Traversal while looking up", "statement": "An ordered iterator to k stays valid when k is looked up, but becomes the last position: the next increment yields ordered_end().", "quantifier": "all reachable caches and stored keys", "why_tests_cant": "all positions and sizes", "anchors": ["include/lru/internal/base-cache.hpp: _move_to_front", "include/lru/internal/base-ordered-iterator.hpp: operator++"]}
{"id": "C59", "title": "Assignment through a returned reference is visible everywhere", "statement": "After cache[k] = v, lookup(k), find(k), ordered and unordered iteration report v for k and every other entry is unchanged.", "quantifier": "all reachable (non-copied) caches, keys and values", "why_tests_cant": "aliasing between last-accessed pointer, map and iterators in every state", "anchors": ["include/lru/internal/base-cache.hpp: lookup, operator[]", "include/lru/internal/last-accessed.hpp: value", "include/lru/internal/base-unordered-iterator.hpp: value"]}
{"id": "C60", "title": "Monitoring life cycle", "statement": "stats() throws NotMonitoring iff the cache is not monitoring; monitor(...) starts counting from the given object; stop_monitoring() freezes it; copying a cache shares the statistics object with the copy while swap and move leave it with the original object.", "quantifier": "all histories of monitor/stop_monitoring/copy/move/swap and accesses", "why_tests_cant": "lifecycle over arbitrary histories", "anchors": ["include/lru/internal/base-cache.hpp: monitor, stop_monitoring, is_monitoring, stats, shared_stats, swap, BaseCache(BaseCache&&)"]}
{"id": "C61", "title": "Range assignment leaves its source alone", "statement": "cache = range for an lvalue range does not modify the range.", "quantifier": "all ranges and caches", "why_tests_cant": "overload resolution depends on constness of the argument; tests only use rvalues or const ranges", "anchors": ["include/lru/internal/base-cache.hpp: operator=(Range&&), insert(Range&&)"]}
{"id": "C62", "title": "Every cache refines a textbook LRU map", "statement": "For every history of calls (including calls that throw and calls on other caches in between), the capacity and the key-value contents in recency order of a plain or timed cache equal those of a textbook LRU map (a bounded list of pairs, least recently used first) on which the corresponding puts, uses, removals and capacity changes were performed in the same order; range insertions that throw contribute a prefix.", "quantifier": "all reachable caches, all histories of all public calls, all keys, values and capacities", "why_tests_cant": "a relation between two state machines over unbounded histories", "anchors": ["include/lru/internal/base-cache.hpp: insert, emplace, find, contains, lookup, erase, clear, shrink, capacity, _move_to_front, _insert_new_key, _erase_lru", "include/lru/timed-cache.hpp: clear_expired, find"]}
{"id": "C63", "title": "Assigning one cache to another copies it", "statement": "After a = b for caches a and b of the same type, a compares equal to b and has its capacity, and b is unchanged; a = a changes nothing; whether or not b is const.", "quantifier": "all reachable caches a and b (also a and b the same), const or not", "why_tests_cant": "overload resolution between the copy assignment operator and the range assignment templates that caches inherit; tests compare caches with few entries or use const sources", "anchors": ["include/lru/internal/base-cache.hpp: operator=(const BaseCache&), operator=(const Range&), operator=(Range&&)", "include/lru/cache.hpp: using super::operator=", "include/lru/timed-cache.hpp: using super::operator="]}
{"id": "C64", "title": "Constructing a cache from another copies it", "statement": "After Cache c(b) for a cache b, c compares equal to b and has its capacity, and b is unchanged; whether or not b is const.", "quantifier": "all reachable caches b, const or not", "why_tests_cant": "overload resolution between the copy constructor and the range constructor template", "anchors": ["include/lru/internal/base-cache.hpp: BaseCache(const BaseCache&)", "include/lru/cache.hpp: Cache(Range&, ...), Cache(Range&&, ...)"]}
{"id": "C65", "title": "Callbacks may use the cache", "statement": "A hit, miss or access callback may call member functions of the cache it is registered with. Whatever it calls, the call under way is defined and ends; size, distinctness of keys and consistency of map and list hold afterwards; the answer is right for the moment of the call, and a found entry is the most recently used one. All callbacks are called in order with what is true at that moment, make all their calls, also after calls that throw, and these calls have the same effect as outside of callbacks. In particular a miss callback may store the missing key.", "quantifier": "all reachable caches, all callbacks (scripts of public calls that depend on the results of earlier ones), nested to any depth", "why_tests_cant": "re-entrancy: callbacks run in the middle of find, contains and lookup, between the search and the reordering; tests only use callbacks that count", "anchors": ["include/lru/internal/callback-manager.hpp: hit, miss, _call_each", "include/lru/internal/base-cache.hpp: _register_hit, _register_miss, contains, lookup", "include/lru/cache.hpp: find", "include/lru/timed-cache.hpp: find"]}
{"id": "C66", "title": "Iterator objects denote entries", "statement": "However an iterator object was obtained (begin, find, insert, copying, moving, assigning, swapping, converting, incrementing), key() and value() give the key and the current value of the entry it denotes as long as this entry is in the cache; copies denote the same entry as the original; the entry it stores once it has been dereferenced never goes stale; and an iterator never comes to denote another entry unless it is assigned to or moved.", "quantifier": "all programs that hold any number of iterators of a cache, use them in any way and make any calls in between", "why_tests_cant": "iterators store the entry they found when they were dereferenced, and moves pass it on while copies do not; the interplay with insertions and evictions in between has unboundedly many cases", "anchors": ["include/lru/internal/base-iterator.hpp: copy and move, swap, _entry", "include/lru/internal/base-ordered-iterator.hpp: all members", "include/lru/internal/base-unordered-iterator.hpp: all members", "include/lru/internal/base-cache.hpp: OrderedIterator, UnorderedIterator and their const versions, _evict_lru_for"]}
{"id": "C67", "title": "Insertions do not affect iterators to other elements", "statement": "Inserting invalidates the iterators of the evicted entry only (base-cache.hpp 891-892 and six more places): ordered iterators, unordered iterators and references to all other entries can be used as before. In particular the cache itself never uses an iterator that the growth of its hash table has invalidated.", "quantifier": "all reachable caches, all ways in which the hash table chooses its size, all programs of public calls", "why_tests_cant": "std::unordered_map invalidates its iterators when it grows, but no implementation reports the use of such an iterator, and whether it grows depends on the number of buckets", "anchors": ["include/lru/internal/base-cache.hpp: insert, emplace, _insert_new_key, _evict_lru_for, clear, shrink", "include/lru/internal/base-unordered-iterator.hpp: operator++, entry, key, value"]}
{"id": "C68", "title": "A plain cache is indistinguishable from a textbook LRU map", "statement": "Whatever a program did with a plain cache before, every further sequence of calls that take and return keys, values and numbers (contains, find, lookup, insert, emplace, range insertion and assignment, erase, clear, shrink, capacity, size and so on) gets exactly the answers that a textbook LRU map (a bounded list of pairs) with the same contents gives, including KeyNotFound exceptions and the call that terminates the program. Two plain caches give the same answers to all such programs if and only if they have the same capacity and the same pairs in the same order.", "quantifier": "all reachable plain caches, all finite sequences of such calls", "why_tests_cant": "observational equivalence quantifies over all programs that use the cache", "anchors": ["include/lru/internal/base-cache.hpp: contains, lookup, insert, emplace, erase, clear, shrink, capacity, size, space_left, is_full, front, back, operator=(Range&&)", "include/lru/cache.hpp: find"]}
{"id": "C69", "title": "The documented complexity: constant work per call, amortized over all calls", "statement": "contains, find, lookup and operator[] search the hash table at most once and move at most one list node, however many elements there are; insert and emplace cost at most three searches and three nodes created, destroyed or moved; contains and lookup of the key accessed or inserted last cost neither. clear, shrink, capacity(n) and clear_expired do work only for the elements they remove. Over any sequence of calls, whatever they return or throw, the number of searches is at most four and the number of nodes at most five per element the calls were given, plus what the elements present at the start are worth.", "quantifier": "all states for the bounds on single calls; all reachable caches, all environments without refused list nodes and all histories for the amortized bound", "why_tests_cant": "measured times depend on the machine and say nothing about all states and sequences; a linear step can hide behind small test caches", "anchors": ["include/lru/internal/base-cache.hpp: contains, lookup, operator[], insert, emplace, erase, clear, shrink, capacity, _move_to_front, _erase_lru, _insert_new_key", "include/lru/timed-cache.hpp: clear_expired, all_expired, has_expired", "include/lru/internal/last-accessed.hpp: operator=="]}
{"id": "C70", "title": "Hash functions and key comparisons may throw", "statement": "If the hash function or the key comparison throws during a call, the exception reaches the caller and the cache is as it was before the call (for calls that insert or remove several elements: as after some of them).", "quantifier": "all reachable caches, all public calls, every choice of which searches and comparisons throw", "why_tests_cant": "the functions are called at several points of a call, between changes to the two data structures; no test uses functions that throw", "anchors": ["include/lru/internal/base-cache.hpp: insert, emplace, _insert_new_key, _evict_lru_for, erase, _erase, _erase_lru, shrink, capacity", "include/lru/internal/last-accessed.hpp: operator==", "include/lru/timed-cache.hpp: has_expired, clear_expired, all_expired", "include/lru/internal/base-ordered-iterator.hpp: _lookup"]}
{"id": "C71", "title": "A timed cache is indistinguishable from a textbook LRU map with expiry", "statement": "If the clock does not advance within a call, then whatever a program did with a timed cache before, every further sequence of calls that take and return keys, values and numbers gets exactly the answers of a textbook LRU map whose items carry their insertion times: expired items count and take part in eviction but are not found, an update keeps the time, has_expired tests one item, all_expired the most recently used one, clear_expired removes items from the least recently used on up to the first fresh one. While nothing expires the answers are those of a plain cache with the same contents. If the clock advances within a call there may be no such explanation.", "quantifier": "all reachable timed caches, all finite sequences of such calls, all clocks (also ones that go backwards between calls)", "why_tests_cant": "observational equivalence quantifies over all programs that use the cache and all times at which the calls are made", "anchors": ["include/lru/timed-cache.hpp: find, lookup, contains, has_expired, all_expired, clear_expired", "include/lru/internal/base-cache.hpp: contains, lookup, insert, emplace, erase, clear, shrink, capacity, size, space_left, is_full, operator=(Range&&)", "include/lru/internal/timed-information.hpp: TimedInformation"]}
{"id": "C72", "title": "The Fibonacci example computes Fibonacci numbers, with n - 1 misses for a capacity of two", "statement": "The function fibonacci of the README and the examples returns the n-th Fibonacci number for every capacity and every order in which the two operands of the sum are evaluated, also if the cache holds Fibonacci numbers already. A capacity of 2 is sufficient (fibonacci-basic.cpp 47-48): starting with an empty cache, every number is computed once, so that there are n - 1 misses (statistics.cpp).", "quantifier": "all n, all capacities, all orders of evaluation (which C++ leaves open and which may vary from call to call), all reachable plain caches that hold Fibonacci numbers", "why_tests_cant": "an execution shows one n, one capacity and the one order the compiler chose", "anchors": ["README.md: fibonacci", "examples/fibonacci-basic.cpp: fibonacci, main", "examples/statistics.cpp: fibonacci, main", "examples/callbacks.cpp: fibonacci", "include/lru/internal/base-cache.hpp: contains, lookup, emplace"]}
{"id": "C73", "title": "contains followed by a lookup in the examples", "statement": "The programs of the README that ask contains(key) and then read cache[key] (fibonacci with a timed cache, MyWebServer::get) return the value the function or the resource has, for plain and timed caches.", "quantifier": "all reachable plain and timed caches whose entries are right, all clocks, all keys", "why_tests_cant": "whether an entry expires between the two calls depends on the clock; tests use times to live that are either much longer or much shorter than a call", "anchors": ["README.md: fibonacci, MyWebServer::get", "examples/fibonacci-timed.cpp: fibonacci", "include/lru/timed-cache.hpp: contains, lookup", "include/lru/internal/base-cache.hpp: contains, lookup, operator[], emplace, insert"]}
{"id": "C74", "title": "Least recently used is a good choice of what to evict", "statement": "A program that serves requests through a plain cache of capacity n (asks contains, reads on a hit, inserts on a miss) has at most n / (n - h + 1) times as many misses as any other way to serve the same requests with room for h keys has to load keys, even if it knows all requests in advance. With twice the room it misses at most twice as often. Requests that differ from the n before them all miss, and going round n + 1 keys the factor n is attained for h = n.", "quantifier": "all request sequences, all competing schedules, all capacities, all reachable plain caches", "why_tests_cant": "a comparison with the best possible schedule, for unboundedly many request sequences; every test that only looks at single evictions passes with many other policies", "anchors": ["include/lru/internal/base-cache.hpp: contains, lookup, insert, _insert_new_key, _erase_lru, _move_to_front", "README.md: MyWebServer::get"]}
{"id": "C75", "title": "Caches are move-aware", "statement": "Keys and values given as rvalues, or constructed in place, are not copied (README 36: 100% move-aware): emplace constructs each once and moves each once into the cache; insert(Range&&) and operator=(Range&&) take every element of the range. insert(const Key&, const Value&), and ranges that are not rvalues, copy a new key once and every value once and never move from the caller's objects.", "quantifier": "all reachable plain and timed caches, all keys, values and ranges, all environments; the statements about what is never moved from and never copied also for calls that throw", "why_tests_cant": "the tests count copies for one call each on an empty cache; none of them updates a stored key, repeats a key in a range or lets an allocation fail", "anchors": ["README.md: features", "include/lru/internal/base-cache.hpp: insert, emplace, insert(Range&&), operator=(Range&&), _move_to_front(MapIterator, const Value&)", "include/lru/internal/information.hpp: Information", "include/lru/internal/utility.hpp: construct_from_tuple"]}
{"id": "C76", "title": "Several plain caches are indistinguishable from several textbook LRU maps", "statement": "A program that creates plain caches with any constructor, calls them with keys, values and numbers, and swaps, moves, compares and destroys them (but does not copy them) gets exactly the answers of the same program with textbook LRU maps: swapping and move assignment exchange the maps, move construction leaves an empty map without capacity behind, equality compares the pairs in recency order. Behaviour is undefined exactly where the textbook has no answer: for caches that do not exist, and for calls that need the capacity of a cache that was moved from.", "quantifier": "all finite programs of such steps, with any number of caches", "why_tests_cant": "observational equivalence quantifies over all programs; the interplay of moving and swapping with later calls (internal pointers travel with the contents, callbacks do not) shows only in sequences of steps", "anchors": ["include/lru/internal/base-cache.hpp: constructors, swap, operator=(BaseCache&&), operator==, contains, lookup, insert, emplace, erase, clear, shrink, capacity, size, space_left, is_full, front, back", "include/lru/cache.hpp: constructors, find"]}
{"id": "C77", "title": "Arguments may refer to what the cache stores", "statement": "Calls whose key or value arguments are references to a key or a value stored in the same cache (cache.insert(4, cache.lookup(1)), cache.erase(cache.front())) do exactly what they do when given copies made before the call, whatever the outcome: also if the call evicts, erases, updates or moves the entry the argument belongs to. A value moved out of the cache into one of its own entries arrives there.", "quantifier": "all reachable plain and timed caches, all environments, all calls with key and value arguments, all entries the arguments may refer to", "why_tests_cant": "whether an argument is read after the entry has been destroyed depends on which entry it belongs to and on the state of the cache; reading freed memory usually goes unnoticed in tests", "anchors": ["include/lru/internal/base-cache.hpp: contains, lookup, insert, emplace, erase, _insert_new_key, _move_to_front", "include/lru/cache.hpp: find", "include/lru/timed-cache.hpp: find, has_expired", "include/lru/internal/utility.hpp: construct_from_tuple"]}
{"id": "C78", "title": "A cache's own elements can be inserted into it", "statement": "insert(begin, end), where begin and end are iterators of the cache itself, inserts the elements of the range one by one, like insert of a list of copies of them; so does insert(cache) given the cache itself. No entry or value is lost.", "quantifier": "all reachable plain and timed caches, all environments, all ranges of ordered and of unordered iterators of the cache itself", "why_tests_cant": "every insertion changes the list over which the ordered iterators run; no test inserts a range of the cache itself", "anchors": ["include/lru/internal/base-cache.hpp: insert(Iterator, Iterator), insert(Range&), insert(Range&&), insert, _move_to_front", "include/lru/internal/base-ordered-iterator.hpp: operator++, operator->", "include/lru/internal/base-unordered-iterator.hpp: operator->", "include/lru/entry.hpp: Entry"]}
{"id": "C79", "title": "Several plain and timed caches are indistinguishable from textbook LRU maps with and without expiry", "statement": "A program that creates plain and timed caches with any constructor, calls them with keys, values and numbers, and swaps, moves, compares and destroys them (but does not copy them) gets exactly the answers of the same program with textbook LRU maps, plain or with expiry, if every step happens at one point in time. Swapping exchanges the contents, the capacities and the times to live, or all but the times to live if it is done through the base class; move assignment exchanges the contents and capacities and gives both caches the time to live of the source; the insertion times travel with the contents. Equality of timed caches compares the insertion times too. Behaviour is undefined exactly where the textbook has no answer.", "quantifier": "all finite programs of such steps, with any number of caches of any types, made at any times", "why_tests_cant": "observational equivalence quantifies over all programs and times; which time to live applies after moves and swaps shows only in later calls, at particular times", "anchors": ["include/lru/timed-cache.hpp: constructors, swap, operator=, find, has_expired, all_expired, clear_expired, _is_expired", "include/lru/internal/base-cache.hpp: constructors, swap, operator=(BaseCache&&), operator==", "include/lru/cache.hpp: constructors, find", "include/lru/internal/timed-information.hpp: operator=="]}
{"id": "C80", "title": "Plain caches with statistics and callbacks are indistinguishable from watched textbook LRU maps", "statement": "A program that uses several plain caches (C76), has them report to statistics objects, several caches to the same object if it likes, registers and clears callbacks, and asks the statistics objects, learns exactly what the same program learns from textbook LRU maps and journals: a statistics object answers what is counted from a journal of the accesses made by the caches reporting to it and of the calls made on it. At each step exactly the callbacks the textbook names are called, in its order and with its arguments. Statistics objects and callbacks stay with the cache object when contents are swapped or moved; a cache constructed by a move has none.", "quantifier": "all finite programs of such steps, with any number of caches, statistics objects and callbacks", "why_tests_cant": "observational equivalence quantifies over all programs; tests look at one cache, one statistics object and one callback at a time, not at shared objects, or at observers of caches that are swapped or moved", "anchors": ["include/lru/internal/base-cache.hpp: monitor, stop_monitoring, is_monitoring, stats, shared_stats, hit_callback, miss_callback, access_callback, clear_*_callbacks, _register_hit, _register_miss, swap, BaseCache(BaseCache&&), operator=(BaseCache&&)", "include/lru/statistics.hpp: all", "include/lru/internal/statistics-mutator.hpp: register_hit, register_miss", "include/lru/internal/callback-manager.hpp: hit, miss"]}
{"id": "C81", "title": "The last accessed entry is tracked by two pointers that agree", "statement": "A LastAccessed object is valid exactly if both its pointers are set. Its accessors are defined exactly as long as it is valid and what it points to is alive, and give the key and the information of the node it was last assigned. Comparing it with a key follows nothing if it is not valid; comparing it with an iterator compares with the key of the iterator. For a cache both pointers always point into the same node, so that the cache's use of the object depends on one address only.", "quantifier": "all objects that construction, assignment and invalidation can make, all states of a cache, all keys and iterators", "why_tests_cant": "whether a pointer is followed after what it points to is gone depends on the state of the cache; tests only look at objects whose targets are alive", "anchors": ["include/lru/internal/last-accessed.hpp: all", "include/lru/internal/base-cache.hpp: _last_accessed, _last_accessed_is_ok, _value_for_last_accessed"]}
{"id": "C82", "title": "The expiry functions are exact while no entry is brought forward", "statement": "If the clock does not go backwards and no call finds or updates an entry other than the most recently used one, the entries of a timed cache stay in the order of their insertion times, whatever else is called and whether the calls return or throw. After such a history all_expired() is true exactly if all entries have expired, and clear_expired() removes exactly the entries that have expired, up to the time that passes during the call.", "quantifier": "all reachable caches in that order (for instance new ones), all histories of calls of any length, all monotonic clocks, all environments", "why_tests_cant": "quantifies over all histories and clocks; the shortcut taken by the two functions is right or wrong depending on the whole history of the cache", "anchors": ["include/lru/timed-cache.hpp: all_expired, clear_expired, find, insert, emplace", "include/lru/internal/base-cache.hpp: insert, emplace, _insert_new_key, _move_to_front, shrink, erase"]}
{"id": "C83", "title": "swap exchanges the complete contents, however it is called", "statement": "swap exchanges the entries, the capacities and the times to live of two caches also if it is called on references to the base class, or as swap(a, b) on timed caches with different Durations (for which only the swap of the base class matches): a key that one cache serves before the swap is served by the other one immediately afterwards. Both caches stay valid, nothing is thrown, statistics and callbacks stay with their objects.", "quantifier": "all programs with any number of caches, all pairs of caches with the same base class, all environments", "why_tests_cant": "which swap is called is decided by overload resolution; that the time to live stays behind shows only later, when entries expire too early or too late", "anchors": ["include/lru/internal/base-cache.hpp: swap(BaseCache&), friend swap", "include/lru/timed-cache.hpp: swap(TimedCache&), friend swap, TimedCacheBase"]}
{"id": "C84", "title": "programs with watched caches of both classes learn what watched textbook maps tell", "statement": "A program that creates any number of plain and timed caches, uses, compares, swaps (also through the base class), moves and move-assigns them, lets them report to statistics objects, registers callbacks and asks statistics objects learns at each step exactly what a set of textbook LRU maps with and without expiry tells whose accesses are written into journals, and its callbacks are told exactly the same calls in the same order. An access to an expired key is a miss like any other, with one exception: contains and lookup of the expired key that was found or stored last are not registered anywhere, and this lookup throws KeyExpired instead of KeyNotFound. Swapping and moving takes the latest key along.", "quantifier": "all programs of such steps, of any length, with any number of caches, statistics objects and callbacks, that compile and name no statistics object before it exists, all schedules of steps, all environments in which nothing fails and in which the clock shows one time during each step", "why_tests_cant": "whether an access is registered depends on the interplay of the last accessed entry, the clock, swaps and moves along the whole history", "anchors": ["include/lru/timed-cache.hpp: contains, find, lookup, _has_expired", "include/lru/internal/base-cache.hpp: _register_hit, _register_miss, _value_for_last_accessed, monitor, swap, operator=", "include/lru/internal/last-accessed.hpp", "include/lru/statistics.hpp", "include/lru/internal/callback-manager.hpp", "include/lru/internal/statistics-mutator.hpp"]}
{"id": "C85", "title": "assignment between caches of different types transfers what the source serves", "statement": "A cache can be assigned to a cache of another class or with another Duration, and a cache can be constructed from one of another type. The target then holds the pairs of the source in the order of their use, keys that have expired in the source are not served by the target, the source is left alone unless it is an rvalue, and the target keeps its own time to live, statistics and callbacks; its capacity is raised if it does not suffice, otherwise kept. Assignment through references to the base class copies or moves the entries and leaves the time to live.", "quantifier": "all programs with any number of caches, all pairs of caches, all value categories of the source, all environments", "why_tests_cant": "which operator is called is decided by overload resolution among functions of two classes; that the order of use and the insertion times are lost shows only later", "anchors": ["include/lru/internal/base-cache.hpp: operator=(const Range&), operator=(Range&&), operator=(const BaseCache&), operator=(BaseCache&&), constructors for ranges", "include/lru/cache.hpp: using super::operator=, Cache(AnyRange&&)", "include/lru/timed-cache.hpp: using super::operator=, TimedCache(Duration, AnyRange&&)"]}
{"id": "C86", "title": "a timed wrapper evaluates the function once per argument and time to live", "statement": "A call of a timed wrapper evaluates the function only if the argument is not among the most recent distinct ones that fit into the cache, or if more than the time to live has passed since the function was last evaluated for it. In particular, two calls with the same argument in a row, both within the time to live, evaluate the function at most once. A call that does not evaluate returns a value that was stored no longer ago than the time to live.", "quantifier": "all programs with any number of wrappers, functions (also recursive ones and ones that keep a state), arguments and clocks that do not run backwards", "why_tests_cant": "the tests of wrappers use plain caches only; the defect shows only from the second call after an expiry on, and then as lost time, not as a wrong result", "anchors": ["include/lru/wrap.hpp: wrap, timed_wrap", "include/lru/timed-cache.hpp: find, emplace", "include/lru/internal/base-cache.hpp: emplace(std::piecewise_construct_t, ...), _move_to_front"]}
{"id": "C87", "title": "statistics count right with machine integers", "statement": "The counters of a statistics object are 64-bit numbers. After any number of accesses total_accesses, total_hits and total_misses show the true numbers modulo 2^64, the misses although they are the difference of two counters that wrap around at different times, and the counters of a monitored key show its hits, misses and accesses since monitoring began modulo 2^64. Whenever there has been an access, the hit rate exists, lies between 0 and 1 and is the quotient of hits and accesses.", "quantifier": "all sequences of calls of all lengths, all sets of monitored keys, all programs with caches that report to the object", "why_tests_cant": "2^64 accesses cannot be made in a test", "anchors": ["include/lru/statistics.hpp: _register_hit, _register_miss, total_accesses, total_hits, total_misses, hit_rate, stats_for", "include/lru/key-statistics.hpp"]}
{"id": "C88", "title": "hash functions and comparators follow the elements", "statement": "The hash function and the comparator of a cache may be objects with a state. Every cache looks for its elements with the functions they were stored with, in the hash table and when it compares with the entry accessed last, and hash_function() and key_equal() return these functions. Swapping, moving and copying take them along with the elements, all other calls keep them. A cache only ever uses functions that the program gave to a constructor.", "quantifier": "all programs with any number of caches that construct, use, swap, copy, move, assign and destroy caches in any order, all types of functions", "why_tests_cant": "the tests only use comparators without a state, for which all objects are the same", "anchors": ["include/lru/internal/base-cache.hpp: constructors, swap, operator=, hash_function, key_equal", "include/lru/internal/last-accessed.hpp: LastAccessed(const KeyEqual&), _key_equal"]}
{"id": "C89", "title": "callbacks may use other caches", "statement": "The callbacks of a cache may use any cache of the program, whose callbacks may do the same. Callbacks that leave the cache they are registered with alone do no harm: every call returns or throws, each cache stays well-formed, and find, contains and lookup have the same result and the same effect on their cache as if the callbacks did nothing. If callbacks use only caches below their own, a call changes no other cache on the same level or above. The callbacks are told in the order they were registered in, the first before the second, and between two of them nothing happens but what they call; exceptions that a callback catches do not reach the caller. In particular two caches can be put in front of each other: a miss callback of the small one looks the key up in the large one and stores it in the small one.", "quantifier": "all programs with any number of caches, all callbacks, nested to any depth, all environments", "why_tests_cant": "what happens depends on what all callbacks of all caches do while other calls are under way", "anchors": ["include/lru/internal/base-cache.hpp: _register_hit, _register_miss, contains, lookup", "include/lru/cache.hpp: find", "include/lru/timed-cache.hpp: find", "include/lru/internal/callback-manager.hpp: hit, miss, _call_each"]}
{"id": "C90", "title": "floating-point durations and rates are accurate", "statement": "The default Duration of a timed cache is a floating-point number of milliseconds. Whatever the rounding, it behaves like a duration in whole ticks of the clock: there is a number of ticks such that exactly the older entries have expired. A time to live given as a whole number of milliseconds is kept to the nanosecond: an entry has expired if and only if more than the time to live has passed. The hit rate and the miss rate lie between 0 and 1, add up to 1 up to rounding, and are 0 or 1 only if there were no hits or no misses.", "quantifier": "all times to live, all readings of a 64-bit clock in nanoseconds, all rounding modes, all units in which the time to live can be given; all numbers of hits and misses", "why_tests_cant": "rounding errors show up only for particular values: the first time to live for which an entry expires early is 576460752307 ms", "anchors": ["include/lru/timed-cache.hpp: _has_expired, constructors, Duration", "include/lru/statistics.hpp: hit_rate, miss_rate"]}
{"id": "C91", "title": "durations do not overflow", "statement": "Timed caches can be used with any integer Duration: computing the time that has passed since an insertion in units of the Duration, and the time to live from the one given to the constructor, never overflows, and the result is the exact one, rounded towards zero.", "quantifier": "all types of durations: all numbers of bits, all units; all times to live, all readings of a 64-bit clock", "why_tests_cant": "overflow needs programs that run for weeks", "anchors": ["include/lru/timed-cache.hpp: _has_expired, constructors, Duration"]}
{"id": "C92", "title": "cache equality follows the comparisons of the program", "statement": "For any operator== of keys (whose equal keys are equivalent for KeyEqual) and any operator!= of values, reflexive or not, == of caches is true exactly if they are the same object or hold, in the same recency order, entries with equal keys, values that are not unequal, and for timed caches equal insertion times; != is its opposite; it is symmetric and transitive if the comparisons are; a copy is equal to its original; the program is not terminated.", "quantifier": "all pairs of caches of all programs, copies included; all comparisons, throwing ones included; both orders in which standard libraries compare elements", "why_tests_cant": "the tests compare caches of ints, for which == is reflexive and does not throw", "anchors": ["include/lru/internal/base-cache.hpp: operator==, operator!=", "include/lru/internal/information.hpp: operator==", "include/lru/internal/timed-information.hpp: operator=="]}
{"id": "C93", "title": "no assertion of the library ever fails", "statement": "None of the library's assertions (last accessed element valid, statistics present, emplace has inserted, iterator not past the end) fails, so that builds with and without assertions behave alike: same results, exceptions, events and states.", "quantifier": "all calls, constructors included, in all states of all caches, copied and moved-from caches included; whatever a failed assertion would do", "why_tests_cant": "a test can only show that an assertion holds in the states it visits", "anchors": ["include/lru/internal/base-cache.hpp: insert, emplace", "include/lru/timed-cache.hpp: has_expired", "include/lru/internal/last-accessed.hpp: key, information, iterator, value", "include/lru/internal/statistics-mutator.hpp: register_hit, register_miss, get"]}
{"id": "C94", "title": "the replacement of std::optional behaves like it", "statement": "Objects of the library's own Optional hold what was put into them: copies, moves, conversions, assignments (to themselves too), swap, reset and emplace do to the values held what the documentation of std::optional says; a construction that throws changes no object; value() without a value throws; an operation is undefined only for objects that are gone or * without a value; every heap cell is owned by exactly one object and none leaks; programs see the same as with std::optional; Optional<U> converts to Optional<T> if U converts to T.", "quantifier": "all programs that use any number of objects, all values, all failures of allocations and constructors, all conversions", "why_tests_cant": "whether std::optional or the replacement is used depends on the compiler; the iterators use a part of the interface only", "anchors": ["include/lru/internal/optional.hpp: Optional", "include/lru/internal/base-iterator.hpp: _entry"]}
{"id": "C95", "title": "entries are references to their elements", "statement": "An Entry obtained from an iterator, and every Entry converted from it, stands for the element: key and value read through it are those the element has at that time, writes through it are seen by the element and all its entries, and nothing but the use of an erased element is undefined. Comparison of an entry with a pair is true exactly if key and value are equal; values are compared only if the keys are equal; != is the opposite of ==.", "quantifier": "all programs that create, erase and assign elements, dereference iterators, convert entries and write through them, in any order; all comparisons, throwing ones included", "why_tests_cant": "the tests convert no entries between types; a reference to a destroyed temporary object often still reads the old bytes", "anchors": ["include/lru/entry.hpp: Entry, operator==, operator!=", "include/lru/internal/base-ordered-iterator.hpp: operator*", "include/lru/internal/base-unordered-iterator.hpp: operator*"]}
