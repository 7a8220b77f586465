#!/usr/bin/env python3
"""Writes /verif/properties.jsonl. Kept in the repo so that the list is easy to extend."""
import json, os
B = "include/lru/internal/base-cache.hpp"
CA = "include/lru/cache.hpp"
TC = "include/lru/timed-cache.hpp"
LA = "include/lru/internal/last-accessed.hpp"
ST = "include/lru/statistics.hpp"
SM = "include/lru/internal/statistics-mutator.hpp"
KS = "include/lru/key-statistics.hpp"
CB = "include/lru/internal/callback-manager.hpp"
OI = "include/lru/internal/base-ordered-iterator.hpp"
UI = "include/lru/internal/base-unordered-iterator.hpp"
BI = "include/lru/internal/base-iterator.hpp"
IN = "include/lru/internal/information.hpp"
TI = "include/lru/internal/timed-information.hpp"
WR = "include/lru/wrap.hpp"
HA = "include/lru/internal/hash.hpp"
DE = "include/lru/internal/definitions.hpp"
UT = "include/lru/internal/utility.hpp"
P = []
def p(id, title, statement, quantifier, why, anchors):
    P.append(dict(id=id, title=title, statement=statement, quantifier=quantifier,
                  why_tests_cant=why, anchors=anchors))

p("C01", "Size never exceeds capacity",
  "After any sequence of public calls that completes without undefined behaviour, size() <= capacity() for every cache whose capacity has been set.",
  "all histories of operations on any number of caches (construction, lookup, insertion, erasure, resizing, range assignment, swap, move, copy), all key/value types, all key-equality relations",
  "tests fix a capacity and a handful of insertions; the bound must survive every interleaving of insert, capacity(), shrink(), erase, swap and move",
  [B+": insert, emplace, _insert_new_key, _is_too_full, capacity, shrink, swap"])
p("C02", "No duplicate keys; ordered and unordered iteration agree",
  "In every reachable cache no two entries have keys that KeyEqual identifies, ordered iteration and unordered iteration visit exactly the same (key, value) entries, each exactly once, and both have length size().",
  "all reachable caches, all hash-iteration orders, all equivalence relations used as KeyEqual",
  "the map and the order list are two separate containers kept in sync by hand; tests only compare them on short scripted sequences",
  [B+": _map, _order, insert, _erase, _evict_lru_for, ordered_begin, unordered_begin"])
p("C03", "Lookups return the latest write",
  "If lookup(k) (or operator[], find(k)->value(), iterator dereference) yields a value v for key k, then v is the value of the most recent completed insert/emplace/range-insert/assignment-through-reference for a key equal to k; no call ever returns a value that was not the latest write.",
  "all histories of single-cache operations starting from any constructor, all keys",
  "stale values could appear only after particular interleavings of eviction, re-insertion, the last-accessed shortcut and node reuse",
  [B+": insert, emplace, lookup, operator[], _value_for_last_accessed", LA+": value", CA+": find"])
p("C04", "Eviction removes exactly the least recently used entry",
  "Inserting a key that is not present into a cache with size() == capacity() > 0 removes exactly one entry, the one whose last use (insertion, update, or successful contains/find/lookup) lies furthest in the past of the history; every other entry keeps its key, value and relative order.",
  "all histories, all keys and values, all capacities greater than zero",
  "the victim depends on the entire access history; tests check one or two victims",
  [B+": _insert_new_key, _evict_lru_for, _move_to_front, insert, emplace"])
p("C05", "No spurious eviction",
  "Inserting a new key while size() < capacity() removes nothing: all previous entries keep key, value and relative order, the new entry becomes the most recent one and size() grows by exactly one.",
  "all reachable caches with spare room, all keys not present and all values",
  "an off-by-one in the fullness check shows up only at particular sizes/capacities",
  [B+": insert, emplace, _is_too_full, _insert_new_key"])
p("C06", "Insert of a present key is an update",
  "insert(k, v) / emplace(k, v) with k present (capacity > 0) reports was_inserted() == false, returns an iterator to that entry, replaces its value by v, makes it the most recently used, and changes neither size() nor any other entry nor the relative order of the others.",
  "all reachable caches and all present keys",
  "must hold at every position of the key in the order and for every cache size including 1",
  [B+": insert, emplace, _move_to_front(MapIterator,const Value&)"])
p("C07", "A hit refreshes recency and changes nothing else",
  "A successful contains(k), find(k), lookup(k) or operator[](k) makes k the most recently used entry and leaves the set of entries, all values, the capacity and the relative order of all other entries unchanged; an unsuccessful one leaves entries, values, order and capacity unchanged.",
  "all reachable caches, all keys, plain and timed caches, both the shortcut and the hash-lookup path",
  "the shortcut path relies on the unstated invariant that the last-accessed key is already at the front",
  [B+": contains, lookup, _move_to_front", CA+": find", TC+": find"])
p("C08", "Ordered iteration is recency order of the history",
  "In every reachable plain cache, ordered iteration from begin to end lists the entries in strictly increasing order of the time of their last use (insertion, update or successful lookup) in the history of calls.",
  "all single-cache histories from any constructor",
  "a statement about the whole history of calls, not about one scripted one",
  [B+": ordered_begin, _order, _move_to_front, _insert_new_key", CA+": front, back"])
p("C09", "Erase removes exactly the given key",
  "erase(k) returns true iff k was present; afterwards k is absent and every other entry keeps key, value and relative order; erasing through a valid unordered or ordered iterator removes exactly the entry it denotes.",
  "all reachable caches, all keys, whether or not the key is the last accessed one, all valid iterators",
  "two different erase implementations (last-accessed path and hash path) must agree in every state",
  [B+": erase(const Key&), erase(UnorderedConstIterator), erase(OrderedConstIterator), _erase"])
p("C10", "Clear and re-use",
  "clear() (and shrink(0)) leaves an empty cache with the same capacity, statistics and callbacks, and the cache then behaves like a freshly constructed one of that capacity: no later call can observe or reach a previously stored entry.",
  "all reachable caches, all continuations of the history",
  "dangling last-accessed pointers after clear() would only show for particular follow-up calls",
  [B+": clear, shrink", LA+": invalidate"])
p("C11", "Shrink keeps the most recent entries",
  "shrink(n) leaves exactly the min(n, size()) most recently used entries, in the same order with the same values, leaves capacity() unchanged, and terminates.",
  "all reachable caches and all n",
  "loop over the LRU entries with a special case at 0; correctness for every size and n",
  [B+": shrink, _erase_lru, _erase"])
p("C12", "Setting the capacity keeps the most recent entries",
  "capacity(n) sets capacity() to n, keeps exactly the min(n, size()) most recently used entries in order with their values, and terminates; growing the capacity removes nothing.",
  "all reachable caches and all n including 0",
  "loop with eviction for every n and size",
  [B+": capacity(size_t), _erase_lru"])
p("C13", "Capacity zero stores nothing",
  "With capacity() == 0 every insert/emplace returns {false, end()} and the cache stays empty; as long as the capacity stays 0 no call ever finds anything.",
  "all histories over a cache while its capacity is 0, all keys and values",
  "must hold for every sequence of insertions, range insertions and lookups",
  [B+": insert, emplace"])
p("C14", "front() and back() name the most and least recently used key",
  "On a non-empty plain cache front() is the most recently used key and back() the least recently used key; on an empty cache they throw LRU::Error::EmptyCache, which the caller can catch.",
  "all reachable plain caches, empty and non-empty",
  "depends on the whole history; the error branch is inside a noexcept function",
  [CA+": front, back", "include/lru/error.hpp: EmptyCache"])
p("C15", "Size arithmetic is consistent and never wraps",
  "size() + space_left() == capacity() as mathematical integers (no unsigned wrap-around), is_full() iff space_left() == 0, is_empty() iff ordered iteration is empty iff size() == 0.",
  "all reachable caches with a set capacity",
  "unsigned subtraction is only safe if the size bound is an invariant of every reachable state",
  [B+": space_left, is_full, is_empty, size"])
p("C16", "contains() predicts lookup()",
  "On a plain cache contains(k) returns true iff an immediately following lookup(k) returns normally, and false iff it throws KeyNotFound; find(k) != end() under the same condition.",
  "all reachable plain caches and all keys",
  "contains/lookup/find have separate code paths with a shortcut",
  [B+": contains, lookup", CA+": find"])
p("C17", "The last-accessed shortcut is unobservable on plain caches",
  "For a plain cache, results, statistics, callbacks, entries and order produced by any call are the same whether or not the call is served by the last-accessed shortcut.",
  "all reachable plain caches, all operations and keys",
  "an optimisation must be proved equivalent in every reachable state",
  [B+": contains, lookup, erase", LA+": operator=="])
p("C18", "Statistics count every access exactly once",
  "While a plain cache is monitored and callbacks do not throw, after any history total_accesses() grew by exactly the number of contains/find/lookup/operator[] calls, total_hits() by the number of those that found the key and total_misses() by the rest; insertions, erasures, resizing, iteration and comparison never change the statistics.",
  "all histories of operations on a monitored plain cache",
  "a counting property over every history",
  [B+": _register_hit, _register_miss, contains, lookup", SM+": register_hit, register_miss", CA+": find"])
p("C19", "Per-key statistics are exact",
  "For a key k monitored throughout a history, hits_for(k) and misses_for(k) grow by exactly the number of hit/miss accesses to k; accesses_for(k) is their sum; monitor(k) on an already monitored key does not reset it; unmonitored keys throw UnmonitoredKey.",
  "all histories of statistics operations and accesses, all keys",
  "counting property over every history",
  [ST+": monitor, unmonitor, stats_for, hits_for, misses_for, reset_key", SM, KS])
p("C20", "Statistics totals are consistent and rates lie in [0,1]",
  "In every state of a Statistics object total_hits() <= total_accesses() (so total_misses() never wraps), the per-key hits (misses) summed over all monitored keys are at most total_hits() (total_misses()), and when at least one access was made 0 <= hit_rate() <= 1 and hit_rate() + miss_rate() == 1.",
  "all histories of register/monitor/unmonitor/reset operations on a Statistics object",
  "an inductive invariant over all histories",
  [ST+": total_misses, hit_rate, miss_rate", SM])
p("C21", "Callbacks fire exactly once per access, in registration order",
  "Each contains/find/lookup that is a hit calls every registered hit callback once with the queried key and the stored value and then every access callback once with (key, true); each miss calls every miss callback once with the key and then every access callback with (key, false); each in registration order, and nothing else calls any callback.",
  "all plain caches, all sets of registered callbacks, all histories",
  "order and multiplicity over arbitrary registrations and histories",
  [CB+": hit, miss, _call_each", B+": _register_hit, _register_miss"])
p("C22", "A throwing callback does not damage the cache",
  "If a hit/miss/access callback throws, the exception propagates to the caller and the cache keeps exactly its entries, values, order and capacity; every later call behaves as on a valid cache.",
  "all reachable caches, all failing points among all callbacks",
  "the failure point ranges over every callback of every access",
  [CB+": _call_each", CA+": find", TC+": find", B+": contains, lookup"])
p("C23", "Insertion is exception safe",
  "If an exception (allocation failure, throwing copy of a value) leaves insert/emplace, the cache remains valid: size() equals the number of entries visited by iteration, and later calls have defined behaviour.",
  "all reachable caches and all points inside insert/emplace at which an exception may be raised",
  "fault injection at every allocation/copy in every state",
  [B+": insert, emplace, _insert_new_key"])
p("C24", "Shared statistics add up",
  "When several caches monitor the same Statistics object, each access on any of them is added exactly once to it, and accesses on caches monitoring other objects (or none) leave it unchanged.",
  "all interleavings of operations on any number of caches and statistics objects",
  "interleavings over several caches",
  [B+": monitor, shared_stats, _register_hit", SM])
p("C25", "swap exchanges contents",
  "swap(a, b) exchanges entries, order, values and capacity (and the time to live for timed caches) and leaves statistics and callbacks where they were; both caches remain valid and swapping twice restores both; every iterator and reference to an element stays usable.",
  "all pairs of reachable caches, all later histories",
  "pointer-linked structures must remain consistent after exchange, for every state and continuation",
  [B+": swap", TC+": swap"])
p("C26", "Moving a cache transfers its contents and leaves a usable source",
  "After move construction the new cache has the entries, order, values and capacity of the source, and the moved-from cache is empty and in a valid state in which every operation is defined; move assignment likewise.",
  "all reachable source caches and all later histories",
  "the moved-from state must be usable under every continuation",
  [B+": BaseCache(BaseCache&&), operator=(BaseCache&&)"])
p("C27", "A copy is equal to the original",
  "Immediately after copy construction or copy assignment the copy compares equal to the original, has the same capacity and the same ordered iteration, and its order list refers to its own keys.",
  "all reachable source caches",
  "reference re-seating must work for every content",
  [B+": BaseCache(const BaseCache&), operator=(const BaseCache&), _reassign_references"])
p("C28", "A copy is independent of the original",
  "After copying, any operation on the copy has defined behaviour and affects only the copy, and any operation on the original affects only the original.",
  "all reachable source caches, all operations on copy and original afterwards",
  "needs every state and every following operation; existing tests only touch an empty or single-element copy",
  [B+": BaseCache(const BaseCache&), operator=(const BaseCache&), _reassign_references, _move_to_front, _erase", IN+": order", LA])
p("C29", "Cache equality",
  "a == b iff both caches hold the same (key, value) entries in the same recency order (for timed caches: also with the same insertion times); == is an equivalence relation and != its negation; capacity, statistics and callbacks do not matter.",
  "all pairs and triples of reachable caches whose KeyEqual is key equality",
  "symmetric/transitive laws over all states",
  [B+": operator==, operator!=", IN+": operator==", TI+": operator=="])
p("C30", "Range insertion equals one-by-one insertion",
  "insert(first, last), insert(range) and insert(list) have the same effect as inserting the pairs one at a time in order, and return how many of these insertions were new.",
  "all ranges of pairs and all reachable caches",
  "ranges of every length with every pattern of repeats and evictions",
  [B+": insert(Iterator,Iterator), insert(Range&), insert(Range&&), insert(InitializerList)"])
p("C31", "Constructors set the documented capacity",
  "A cache built from iterators or an lvalue range has capacity max(length, 128); from an rvalue range or initializer list capacity length; with explicit capacity n capacity n; default 128; in each case the contents are those of inserting the pairs in order, and when the capacity is at least the length no inserted key is lost.",
  "all ranges/lists and capacities",
  "all lengths, repeats and capacities",
  [B+": constructors", CA+": constructors", TC+": constructors", DE+": DEFAULT_CAPACITY"])
p("C32", "Range assignment",
  "cache = range discards all previous entries, raises the capacity to the range's length if it was smaller and otherwise keeps it, then holds exactly the distinct keys of the range with their last values, ordered by last occurrence; nothing of the range is lost.",
  "all reachable caches and all ranges",
  "every previous state and every range",
  [B+": operator=(const Range&), operator=(Range&&), operator=(InitializerList), _clear_and_increase_capacity"])
p("C33", "Memory safety without copies",
  "No history of API calls that uses iterators only while they are valid and never copies a cache, nor uses a moved-from cache before resetting its capacity, reaches undefined behaviour (dangling last-accessed pointer, dangling key reference in the order list, foreign or singular list iterator, end dereference).",
  "all histories over any number of caches, with arbitrary hash order, clock and throwing callbacks",
  "memory safety is a universal statement over histories",
  [B, LA, CA, TC])
p("C34", "Iterators and references to other entries stay valid",
  "insert, emplace, find, lookup, contains, erase, shrink and capacity() leave every ordered iterator and every reference to an entry that is still in the cache denoting the same key afterwards.",
  "all reachable caches, all operations, all entries not removed by the operation",
  "must hold for every entry in every state",
  [B+": insert, emplace, _move_to_front, _evict_lru_for, _erase", OI, UI])
p("C35", "Ordered iteration can be walked both ways",
  "From ordered_begin() size() increments reach ordered_end(); ++ and -- are inverse; walking backwards from ordered_end() visits the entries from most to least recently used.",
  "all reachable caches and all positions",
  "all sizes and positions",
  [OI+": operator++, operator--", B+": ordered_begin, ordered_end"])
p("C36", "Dereferencing iterators has no side effects",
  "Incrementing, dereferencing, comparing and converting iterators, is_valid, has_expired, all_expired, size queries, front and back change neither the entries, values, order, capacity, the last-accessed state, the statistics, nor call callbacks.",
  "all reachable caches, all iterators",
  "frame property over all states",
  [OI+": _maybe_lookup, entry, key, value", UI+": entry, key, value", B+": is_valid, throw_if_invalid"])
p("C37", "Unordered-to-ordered conversion and mixed comparison are consistent",
  "Converting a valid unordered iterator yields an ordered iterator denoting the same entry; an ordered and an unordered iterator compare equal iff they denote the same entry or are both past-the-end; converting the past-the-end iterator throws InvalidIteratorConversion.",
  "all reachable (non-copied) caches, all pairs of iterators into them",
  "all pairs of positions in all states",
  [OI+": BaseOrderedIterator(BaseUnorderedIterator), operator==, _throw_if_at_invalid"])
p("C38", "Accessing a past-the-end iterator throws InvalidIterator",
  "key(), value() and entry() on a past-the-end ordered or unordered iterator throw LRU::Error::InvalidIterator without touching invalid memory, and erase(end) throws InvalidIterator and changes nothing.",
  "all reachable caches",
  "a null-node dereference that happens to work in one standard library is invisible to a test",
  [UI+": entry", OI+": entry, key", B+": throw_if_invalid, erase"])
p("C39", "A timed cache never serves an expired value",
  "If contains, find, lookup or operator[] on a timed cache succeed for key k, then at the moment of the (last) clock reading in that call no more than the time to live has passed since k was inserted into the cache, in units of the cache's Duration.",
  "all histories, all clock behaviours (any monotone sequence of readings), all time-to-live values",
  "every timing",
  [TC+": find, _has_expired, _last_accessed_is_ok, _value_for_last_accessed"])
p("C40", "A timed cache serves every fresh entry",
  "If k is stored in a timed cache and has not expired at the clock readings made during the call, contains(k) is true and lookup(k) returns its value.",
  "all histories, all clock behaviours",
  "every timing and state",
  [TC+": find, _has_expired", B+": contains, lookup"])
p("C41", "Re-inserting a key restarts its time to live",
  "After insert(k, v) or emplace(k, v) on a timed cache completes at time t with capacity > 0, k is available until the time to live has elapsed since t.",
  "all histories and clock behaviours",
  "needs re-insertion at arbitrary ages; tests only insert fresh keys",
  [B+": insert, emplace, _move_to_front", TI+": insertion_time"])
p("C42", "all_expired() is true iff every stored key has expired",
  "all_expired() returns true iff every key stored in the timed cache has expired (vacuously for the empty cache).",
  "all histories (including lookups that reorder entries) and clock behaviours",
  "wrong only for particular interleavings of lookups and time",
  [TC+": all_expired"])
p("C43", "clear_expired() removes exactly the expired entries",
  "clear_expired() erases every expired entry and no other, returns the number erased and terminates.",
  "all histories and clock behaviours",
  "wrong only for particular interleavings of lookups and time",
  [TC+": clear_expired"])
p("C44", "Expired keys behave like absent keys",
  "For an expired key k of a timed cache: contains(k) is false, find(k) is end(), lookup(k) throws, and each of these is registered as a miss (statistics and callbacks) exactly as for an absent key.",
  "all histories, clocks, whether or not k is the last accessed key",
  "depends on which key was last accessed",
  [TC+": find, _last_accessed_is_ok, _value_for_last_accessed", B+": contains, lookup"])
p("C45", "Expiration is monotone and respects the requested time to live",
  "A key never expires while at most the requested time to live has elapsed since its insertion; once expired it stays expired until removed; and it is expired as soon as the elapsed time exceeds the requested time to live.",
  "all time-to-live values, all Duration resolutions, all monotone clocks",
  "rounding of duration_cast for all values",
  [TC+": _has_expired, constructors", TI+": insertion_time"])
p("C46", "A hit on a timed cache yields the value",
  "If contains(k) returned true, or find(k) registered a hit inside lookup(k), the same lookup(k) returns the value.",
  "all clock behaviours between the clock readings inside one call",
  "requires the clock to advance between two readings inside one call",
  [B+": lookup", TC+": find, throw_if_invalid", UI+": entry"])
p("C47", "Expired entries can be erased by key or iterator",
  "erase(key), erase(unordered iterator) and erase(ordered iterator) remove an expired entry just like a fresh one.",
  "all timed caches, keys, clocks",
  "requires expiry between obtaining the iterator and erasing",
  [B+": erase(OrderedConstIterator)", OI+": key", TC+": throw_if_invalid"])
p("C48", "Expiry does not free space by itself",
  "Expired entries continue to count towards size() and are removed only by eviction, erase, clear, shrink, capacity or clear_expired; an access to an expired key changes neither entries nor order.",
  "all histories and clocks",
  "all states and timings",
  [TC+": find", B+": size"])
p("C49", "A wrapped function is transparent",
  "For a deterministic function f, every call of LRU::wrap(f)(args) returns f(args), or throws what f(args) throws, for every capacity of the internal cache and every history of calls (exceptions included, if a failed assignment of a value that is there already keeps it).",
  "all functions, capacities and call histories of one wrapper",
  "all histories of arguments",
  [WR+": wrap", B+": emplace", CA+": find"])
p("C50", "Wrapped calls are memoised for the last N distinct arguments",
  "With internal cache capacity N > 0, a call of the wrapped function evaluates f iff its argument is not among the N most recently used distinct arguments of earlier calls that returned; exceptions are not remembered.",
  "all call histories and capacities",
  "characterisation over all histories",
  [WR+": wrap", B+": _evict_lru_for", CA+": find"])
p("C51", "Different wrapped functions do not interfere",
  "If f and g are two functions, the results of LRU::wrap(f) and LRU::wrap(g) are those of f and g respectively, even when f and g have the same type.",
  "all pairs of functions of the same type, all interleavings of calls",
  "needs two functions of the same C++ type wrapped in one program and a shared argument",
  [WR+": wrap (function-local static cache)"])
p("C52", "Arguments forwarded to wrap() reach the cache",
  "LRU::wrap(f, n) and LRU::timed_wrap(f, d) behave as wrappers with an internal cache of capacity n / time to live d whenever the wrapper is called.",
  "all arguments (temporaries and lvalues) and call times",
  "a dangling reference may appear to work in a test",
  [WR+": wrap (cache_args = forward_as_tuple), timed_wrap"])
p("C53", "LRU inclusion property",
  "For the same sequence of memoised accesses (look up, insert on miss), the entries held by a cache of capacity n are always among those held by a cache of capacity m >= n; hence a larger cache never has more misses.",
  "all access sequences and all capacities n <= m",
  "compares two runs over all histories",
  [B+": insert, _evict_lru_for", CA+": find"])
p("C54", "Equal tuples have equal hashes",
  "The std::hash specialisation for tuples gives equal results for tuples whose elements have equal hashes, for every arity, with 64-bit wrap-around arithmetic, and depends on element order.",
  "all tuples of all arities, all element hashes",
  "all arities and values",
  [HA+": hash_tuple"])
p("C55", "emplace and insert agree",
  "emplace(k, v) and insert(k, v) have the same observable effect and result (up to exceptions thrown by user constructors).",
  "all reachable caches, keys and values",
  "two separate implementations must agree in every state",
  [B+": insert, emplace"])
p("C56", "Custom key equality: one representative per class",
  "If KeyEqual is coarser than ==, updating or looking up with an equivalent key acts on the entry stored under the first inserted representative, and iteration keeps reporting that representative until the entry is removed.",
  "all equivalence relations, all histories",
  "arbitrary equivalence relations",
  [B+": insert, emplace, _move_to_front", LA+": operator==", CA+": find"])
p("C57", "Behaviour is independent of hash-table order",
  "Apart from the order of unordered iteration, no result, exception, callback, statistic or ordered iteration depends on the order in which the hash table enumerates its entries.",
  "all enumeration orders at every step of every history",
  "tests run with one hash function/library",
  [B+": _map", CA+": find"])
p("C58", "Traversal while looking up",
  "An ordered iterator to k stays valid when k is looked up, but becomes the last position: the next increment yields ordered_end().",
  "all reachable caches and stored keys",
  "all positions and sizes",
  [B+": _move_to_front", OI+": operator++"])
p("C59", "Assignment through a returned reference is visible everywhere",
  "After cache[k] = v, lookup(k), find(k), ordered and unordered iteration report v for k and every other entry is unchanged.",
  "all reachable (non-copied) caches, keys and values",
  "aliasing between last-accessed pointer, map and iterators in every state",
  [B+": lookup, operator[]", LA+": value", UI+": value"])
p("C60", "Monitoring life cycle",
  "stats() throws NotMonitoring iff the cache is not monitoring; monitor(...) starts counting from the given object; stop_monitoring() freezes it; copying a cache shares the statistics object with the copy while swap and move leave it with the original object.",
  "all histories of monitor/stop_monitoring/copy/move/swap and accesses",
  "lifecycle over arbitrary histories",
  [B+": monitor, stop_monitoring, is_monitoring, stats, shared_stats, swap, BaseCache(BaseCache&&)"])
p("C61", "Range assignment leaves its source alone",
  "cache = range for an lvalue range does not modify the range.",
  "all ranges and caches",
  "overload resolution depends on constness of the argument; tests only use rvalues or const ranges",
  [B+": operator=(Range&&), insert(Range&&)"])
p("C62", "Every cache refines a textbook LRU map",
  "For every history of calls (including calls that throw and calls on other caches in between), the capacity and the key-value contents in recency order of a plain or timed cache equal those of a textbook LRU map (a bounded list of pairs, least recently used first) on which the corresponding puts, uses, removals and capacity changes were performed in the same order; range insertions that throw contribute a prefix.",
  "all reachable caches, all histories of all public calls, all keys, values and capacities",
  "a relation between two state machines over unbounded histories",
  [B+": insert, emplace, find, contains, lookup, erase, clear, shrink, capacity, _move_to_front, _insert_new_key, _erase_lru", "include/lru/timed-cache.hpp: clear_expired, find"])
p("C63", "Assigning one cache to another copies it",
  "After a = b for caches a and b of the same type, a compares equal to b and has its capacity, and b is unchanged; a = a changes nothing; whether or not b is const.",
  "all reachable caches a and b (also a and b the same), const or not",
  "overload resolution between the copy assignment operator and the range assignment templates that caches inherit; tests compare caches with few entries or use const sources",
  [B+": operator=(const BaseCache&), operator=(const Range&), operator=(Range&&)", CA+": using super::operator=", TC+": using super::operator="])
p("C64", "Constructing a cache from another copies it",
  "After Cache c(b) for a cache b, c compares equal to b and has its capacity, and b is unchanged; whether or not b is const.",
  "all reachable caches b, const or not",
  "overload resolution between the copy constructor and the range constructor template",
  [B+": BaseCache(const BaseCache&)", CA+": Cache(Range&, ...), Cache(Range&&, ...)"])
p("C65", "Callbacks may use the cache",
  "A hit, miss or access callback may call member functions of the cache it is registered with. Whatever it calls, the call under way is defined and ends; size, distinctness of keys and consistency of map and list hold afterwards; the answer is right for the moment of the call, and a found entry is the most recently used one. All callbacks are called in order with what is true at that moment, make all their calls, also after calls that throw, and these calls have the same effect as outside of callbacks. In particular a miss callback may store the missing key.",
  "all reachable caches, all callbacks (scripts of public calls that depend on the results of earlier ones), nested to any depth",
  "re-entrancy: callbacks run in the middle of find, contains and lookup, between the search and the reordering; tests only use callbacks that count",
  ["include/lru/internal/callback-manager.hpp: hit, miss, _call_each", B+": _register_hit, _register_miss, contains, lookup", CA+": find", TC+": find"])
p("C66", "Iterator objects denote entries",
  "However an iterator object was obtained (begin, find, insert, copying, moving, assigning, swapping, converting, incrementing), key() and value() give the key and the current value of the entry it denotes as long as this entry is in the cache; copies denote the same entry as the original; the entry it stores once it has been dereferenced never goes stale; and an iterator never comes to denote another entry unless it is assigned to or moved.",
  "all programs that hold any number of iterators of a cache, use them in any way and make any calls in between",
  "iterators store the entry they found when they were dereferenced, and moves pass it on while copies do not; the interplay with insertions and evictions in between has unboundedly many cases",
  ["include/lru/internal/base-iterator.hpp: copy and move, swap, _entry", "include/lru/internal/base-ordered-iterator.hpp: all members", "include/lru/internal/base-unordered-iterator.hpp: all members", B+": OrderedIterator, UnorderedIterator and their const versions, _evict_lru_for"])
p("C67", "Insertions do not affect iterators to other elements",
  "Inserting invalidates the iterators of the evicted entry only (base-cache.hpp 891-892 and six more places): ordered iterators, unordered iterators and references to all other entries can be used as before. In particular the cache itself never uses an iterator that the growth of its hash table has invalidated.",
  "all reachable caches, all ways in which the hash table chooses its size, all programs of public calls",
  "std::unordered_map invalidates its iterators when it grows, but no implementation reports the use of such an iterator, and whether it grows depends on the number of buckets",
  [B+": insert, emplace, _insert_new_key, _evict_lru_for, clear, shrink", "include/lru/internal/base-unordered-iterator.hpp: operator++, entry, key, value"])
p("C68", "A plain cache is indistinguishable from a textbook LRU map",
  "Whatever a program did with a plain cache before, every further sequence of calls that take and return keys, values and numbers (contains, find, lookup, insert, emplace, range insertion and assignment, erase, clear, shrink, capacity, size and so on) gets exactly the answers that a textbook LRU map (a bounded list of pairs) with the same contents gives, including KeyNotFound exceptions and the call that terminates the program. Two plain caches give the same answers to all such programs if and only if they have the same capacity and the same pairs in the same order.",
  "all reachable plain caches, all finite sequences of such calls",
  "observational equivalence quantifies over all programs that use the cache",
  [B+": contains, lookup, insert, emplace, erase, clear, shrink, capacity, size, space_left, is_full, front, back, operator=(Range&&)", CA+": find"])
p("C69", "The documented complexity: constant work per call, amortized over all calls",
  "contains, find, lookup and operator[] search the hash table at most once and move at most one list node, however many elements there are; insert and emplace cost at most three searches and three nodes created, destroyed or moved; contains and lookup of the key accessed or inserted last cost neither. clear, shrink, capacity(n) and clear_expired do work only for the elements they remove. Over any sequence of calls, whatever they return or throw, the number of searches is at most four and the number of nodes at most five per element the calls were given, plus what the elements present at the start are worth.",
  "all states for the bounds on single calls; all reachable caches, all environments without refused list nodes and all histories for the amortized bound",
  "measured times depend on the machine and say nothing about all states and sequences; a linear step can hide behind small test caches",
  [B+": contains, lookup, operator[], insert, emplace, erase, clear, shrink, capacity, _move_to_front, _erase_lru, _insert_new_key", TC+": clear_expired, all_expired, has_expired", "include/lru/internal/last-accessed.hpp: operator=="])
p("C70", "Hash functions and key comparisons may throw",
  "If the hash function or the key comparison throws during a call, the exception reaches the caller and the cache is as it was before the call (for calls that insert or remove several elements: as after some of them).",
  "all reachable caches, all public calls, every choice of which searches and comparisons throw",
  "the functions are called at several points of a call, between changes to the two data structures; no test uses functions that throw",
  [B+": insert, emplace, _insert_new_key, _evict_lru_for, erase, _erase, _erase_lru, shrink, capacity", "include/lru/internal/last-accessed.hpp: operator==", TC+": has_expired, clear_expired, all_expired", "include/lru/internal/base-ordered-iterator.hpp: _lookup"])
p("C71", "A timed cache is indistinguishable from a textbook LRU map with expiry",
  "If the clock does not advance within a call, then whatever a program did with a timed cache before, every further sequence of calls that take and return keys, values and numbers gets exactly the answers of a textbook LRU map whose items carry their insertion times: expired items count and take part in eviction but are not found, an update keeps the time, has_expired tests one item, all_expired the most recently used one, clear_expired removes items from the least recently used on up to the first fresh one. While nothing expires the answers are those of a plain cache with the same contents. If the clock advances within a call there may be no such explanation.",
  "all reachable timed caches, all finite sequences of such calls, all clocks (also ones that go backwards between calls)",
  "observational equivalence quantifies over all programs that use the cache and all times at which the calls are made",
  [TC+": find, lookup, contains, has_expired, all_expired, clear_expired", B+": contains, lookup, insert, emplace, erase, clear, shrink, capacity, size, space_left, is_full, operator=(Range&&)", TI+": TimedInformation"])

p("C72", "The Fibonacci example computes Fibonacci numbers, with n - 1 misses for a capacity of two",
  "The function fibonacci of the README and the examples returns the n-th Fibonacci number for every capacity and every order in which the two operands of the sum are evaluated, also if the cache holds Fibonacci numbers already. A capacity of 2 is sufficient (fibonacci-basic.cpp 47-48): starting with an empty cache, every number is computed once, so that there are n - 1 misses (statistics.cpp).",
  "all n, all capacities, all orders of evaluation (which C++ leaves open and which may vary from call to call), all reachable plain caches that hold Fibonacci numbers",
  "an execution shows one n, one capacity and the one order the compiler chose",
  ["README.md: fibonacci", "examples/fibonacci-basic.cpp: fibonacci, main", "examples/statistics.cpp: fibonacci, main", "examples/callbacks.cpp: fibonacci", B+": contains, lookup, emplace"])
p("C73", "contains followed by a lookup in the examples",
  "The programs of the README that ask contains(key) and then read cache[key] (fibonacci with a timed cache, MyWebServer::get) return the value the function or the resource has, for plain and timed caches.",
  "all reachable plain and timed caches whose entries are right, all clocks, all keys",
  "whether an entry expires between the two calls depends on the clock; tests use times to live that are either much longer or much shorter than a call",
  ["README.md: fibonacci, MyWebServer::get", "examples/fibonacci-timed.cpp: fibonacci", TC+": contains, lookup", B+": contains, lookup, operator[], emplace, insert"])

p("C74", "Least recently used is a good choice of what to evict",
  "A program that serves requests through a plain cache of capacity n (asks contains, reads on a hit, inserts on a miss) has at most n / (n - h + 1) times as many misses as any other way to serve the same requests with room for h keys has to load keys, even if it knows all requests in advance. With twice the room it misses at most twice as often. Requests that differ from the n before them all miss, and going round n + 1 keys the factor n is attained for h = n.",
  "all request sequences, all competing schedules, all capacities, all reachable plain caches",
  "a comparison with the best possible schedule, for unboundedly many request sequences; every test that only looks at single evictions passes with many other policies",
  [B+": contains, lookup, insert, _insert_new_key, _erase_lru, _move_to_front", "README.md: MyWebServer::get"])

p("C75", "Caches are move-aware",
  "Keys and values given as rvalues, or constructed in place, are not copied (README 36: 100% move-aware): emplace constructs each once and moves each once into the cache; insert(Range&&) and operator=(Range&&) take every element of the range. insert(const Key&, const Value&), and ranges that are not rvalues, copy a new key once and every value once and never move from the caller's objects.",
  "all reachable plain and timed caches, all keys, values and ranges, all environments; the statements about what is never moved from and never copied also for calls that throw",
  "the tests count copies for one call each on an empty cache; none of them updates a stored key, repeats a key in a range or lets an allocation fail",
  ["README.md: features", B+": insert, emplace, insert(Range&&), operator=(Range&&), _move_to_front(MapIterator, const Value&)", IN+": Information", UT+": construct_from_tuple"])

p("C76", "Several plain caches are indistinguishable from several textbook LRU maps",
  "A program that creates plain caches with any constructor, calls them with keys, values and numbers, and swaps, moves, compares and destroys them (but does not copy them) gets exactly the answers of the same program with textbook LRU maps: swapping and move assignment exchange the maps, move construction leaves an empty map without capacity behind, equality compares the pairs in recency order. Behaviour is undefined exactly where the textbook has no answer: for caches that do not exist, and for calls that need the capacity of a cache that was moved from.",
  "all finite programs of such steps, with any number of caches",
  "observational equivalence quantifies over all programs; the interplay of moving and swapping with later calls (internal pointers travel with the contents, callbacks do not) shows only in sequences of steps",
  [B+": constructors, swap, operator=(BaseCache&&), operator==, contains, lookup, insert, emplace, erase, clear, shrink, capacity, size, space_left, is_full, front, back", CA+": constructors, find"])

p("C77", "Arguments may refer to what the cache stores",
  "Calls whose key or value arguments are references to a key or a value stored in the same cache (cache.insert(4, cache.lookup(1)), cache.erase(cache.front())) do exactly what they do when given copies made before the call, whatever the outcome: also if the call evicts, erases, updates or moves the entry the argument belongs to. A value moved out of the cache into one of its own entries arrives there.",
  "all reachable plain and timed caches, all environments, all calls with key and value arguments, all entries the arguments may refer to",
  "whether an argument is read after the entry has been destroyed depends on which entry it belongs to and on the state of the cache; reading freed memory usually goes unnoticed in tests",
  [B+": contains, lookup, insert, emplace, erase, _insert_new_key, _move_to_front", CA+": find", TC+": find, has_expired", UT+": construct_from_tuple"])

p("C78", "A cache's own elements can be inserted into it",
  "insert(begin, end), where begin and end are iterators of the cache itself, inserts the elements of the range one by one, like insert of a list of copies of them; so does insert(cache) given the cache itself. No entry or value is lost.",
  "all reachable plain and timed caches, all environments, all ranges of ordered and of unordered iterators of the cache itself",
  "every insertion changes the list over which the ordered iterators run; no test inserts a range of the cache itself",
  [B+": insert(Iterator, Iterator), insert(Range&), insert(Range&&), insert, _move_to_front", OI+": operator++, operator->", UI+": operator->", "include/lru/entry.hpp: Entry"])

p("C79", "Several plain and timed caches are indistinguishable from textbook LRU maps with and without expiry",
  "A program that creates plain and timed caches with any constructor, calls them with keys, values and numbers, and swaps, moves, compares and destroys them (but does not copy them) gets exactly the answers of the same program with textbook LRU maps, plain or with expiry, if every step happens at one point in time. Swapping exchanges the contents, the capacities and the times to live, or all but the times to live if it is done through the base class; move assignment exchanges the contents and capacities and gives both caches the time to live of the source; the insertion times travel with the contents. Equality of timed caches compares the insertion times too. Behaviour is undefined exactly where the textbook has no answer.",
  "all finite programs of such steps, with any number of caches of any types, made at any times",
  "observational equivalence quantifies over all programs and times; which time to live applies after moves and swaps shows only in later calls, at particular times",
  [TC+": constructors, swap, operator=, find, has_expired, all_expired, clear_expired, _is_expired", B+": constructors, swap, operator=(BaseCache&&), operator==", CA+": constructors, find", TI+": operator=="])

p("C80", "Plain caches with statistics and callbacks are indistinguishable from watched textbook LRU maps",
  "A program that uses several plain caches (C76), has them report to statistics objects, several caches to the same object if it likes, registers and clears callbacks, and asks the statistics objects, learns exactly what the same program learns from textbook LRU maps and journals: a statistics object answers what is counted from a journal of the accesses made by the caches reporting to it and of the calls made on it. At each step exactly the callbacks the textbook names are called, in its order and with its arguments. Statistics objects and callbacks stay with the cache object when contents are swapped or moved; a cache constructed by a move has none.",
  "all finite programs of such steps, with any number of caches, statistics objects and callbacks",
  "observational equivalence quantifies over all programs; tests look at one cache, one statistics object and one callback at a time, not at shared objects, or at observers of caches that are swapped or moved",
  [B+": monitor, stop_monitoring, is_monitoring, stats, shared_stats, hit_callback, miss_callback, access_callback, clear_*_callbacks, _register_hit, _register_miss, swap, BaseCache(BaseCache&&), operator=(BaseCache&&)", ST+": all", SM+": register_hit, register_miss", CB+": hit, miss"])

p("C81", "The last accessed entry is tracked by two pointers that agree",
  "A LastAccessed object is valid exactly if both its pointers are set. Its accessors are defined exactly as long as it is valid and what it points to is alive, and give the key and the information of the node it was last assigned. Comparing it with a key follows nothing if it is not valid; comparing it with an iterator compares with the key of the iterator. For a cache both pointers always point into the same node, so that the cache's use of the object depends on one address only.",
  "all objects that construction, assignment and invalidation can make, all states of a cache, all keys and iterators",
  "whether a pointer is followed after what it points to is gone depends on the state of the cache; tests only look at objects whose targets are alive",
  [LA+": all", B+": _last_accessed, _last_accessed_is_ok, _value_for_last_accessed"])

p("C82", "The expiry functions are exact while no entry is brought forward",
  "If the clock does not go backwards and no call finds or updates an entry other than the most recently used one, the entries of a timed cache stay in the order of their insertion times, whatever else is called and whether the calls return or throw. After such a history all_expired() is true exactly if all entries have expired, and clear_expired() removes exactly the entries that have expired, up to the time that passes during the call.",
  "all reachable caches in that order (for instance new ones), all histories of calls of any length, all monotonic clocks, all environments",
  "quantifies over all histories and clocks; the shortcut taken by the two functions is right or wrong depending on the whole history of the cache",
  [TC+": all_expired, clear_expired, find, insert, emplace", B+": insert, emplace, _insert_new_key, _move_to_front, shrink, erase"])

p("C83", "swap exchanges the complete contents, however it is called",
  "swap exchanges the entries, the capacities and the times to live of two caches also if it is called on references to the base class, or as swap(a, b) on timed caches with different Durations (for which only the swap of the base class matches): a key that one cache serves before the swap is served by the other one immediately afterwards. Both caches stay valid, nothing is thrown, statistics and callbacks stay with their objects.",
  "all programs with any number of caches, all pairs of caches with the same base class, all environments",
  "which swap is called is decided by overload resolution; that the time to live stays behind shows only later, when entries expire too early or too late",
  [B+": swap(BaseCache&), friend swap", TC+": swap(TimedCache&), friend swap, TimedCacheBase"])

p("C84", "programs with watched caches of both classes learn what watched textbook maps tell",
  "A program that creates any number of plain and timed caches, uses, compares, swaps (also through the base class), moves and move-assigns them, lets them report to statistics objects, registers callbacks and asks statistics objects learns at each step exactly what a set of textbook LRU maps with and without expiry tells whose accesses are written into journals, and its callbacks are told exactly the same calls in the same order. An access to an expired key is a miss like any other, with one exception: contains and lookup of the expired key that was found or stored last are not registered anywhere, and this lookup throws KeyExpired instead of KeyNotFound. Swapping and moving takes the latest key along.",
  "all programs of such steps, of any length, with any number of caches, statistics objects and callbacks, that compile and name no statistics object before it exists, all schedules of steps, all environments in which nothing fails and in which the clock shows one time during each step",
  "whether an access is registered depends on the interplay of the last accessed entry, the clock, swaps and moves along the whole history",
  [TC+": contains, find, lookup, _has_expired", B+": _register_hit, _register_miss, _value_for_last_accessed, monitor, swap, operator=", LA, ST, CB, SM])

p("C85", "assignment between caches of different types transfers what the source serves",
  "A cache can be assigned to a cache of another class or with another Duration, and a cache can be constructed from one of another type. The target then holds the pairs of the source in the order of their use, keys that have expired in the source are not served by the target, the source is left alone unless it is an rvalue, and the target keeps its own time to live, statistics and callbacks; its capacity is raised if it does not suffice, otherwise kept. Assignment through references to the base class copies or moves the entries and leaves the time to live.",
  "all programs with any number of caches, all pairs of caches, all value categories of the source, all environments",
  "which operator is called is decided by overload resolution among functions of two classes; that the order of use and the insertion times are lost shows only later",
  [B+": operator=(const Range&), operator=(Range&&), operator=(const BaseCache&), operator=(BaseCache&&), constructors for ranges", CA+": using super::operator=, Cache(AnyRange&&)", TC+": using super::operator=, TimedCache(Duration, AnyRange&&)"])

p("C86", "a timed wrapper evaluates the function once per argument and time to live",
  "A call of a timed wrapper evaluates the function only if the argument is not among the most recent distinct ones that fit into the cache, or if more than the time to live has passed since the function was last evaluated for it. In particular, two calls with the same argument in a row, both within the time to live, evaluate the function at most once. A call that does not evaluate returns a value that was stored no longer ago than the time to live.",
  "all programs with any number of wrappers, functions (also recursive ones and ones that keep a state), arguments and clocks that do not run backwards",
  "the tests of wrappers use plain caches only; the defect shows only from the second call after an expiry on, and then as lost time, not as a wrong result",
  [WR+": wrap, timed_wrap", TC+": find, emplace", B+": emplace(std::piecewise_construct_t, ...), _move_to_front"])

p("C87", "statistics count right with machine integers",
  "The counters of a statistics object are 64-bit numbers. After any number of accesses total_accesses, total_hits and total_misses show the true numbers modulo 2^64, the misses although they are the difference of two counters that wrap around at different times, and the counters of a monitored key show its hits, misses and accesses since monitoring began modulo 2^64. Whenever there has been an access, the hit rate exists, lies between 0 and 1 and is the quotient of hits and accesses.",
  "all sequences of calls of all lengths, all sets of monitored keys, all programs with caches that report to the object",
  "2^64 accesses cannot be made in a test",
  [ST+": _register_hit, _register_miss, total_accesses, total_hits, total_misses, hit_rate, stats_for", KS])

p("C88", "hash functions and comparators follow the elements",
  "The hash function and the comparator of a cache may be objects with a state. Every cache looks for its elements with the functions they were stored with, in the hash table and when it compares with the entry accessed last, and hash_function() and key_equal() return these functions. Swapping, moving and copying take them along with the elements, all other calls keep them. A cache only ever uses functions that the program gave to a constructor.",
  "all programs with any number of caches that construct, use, swap, copy, move, assign and destroy caches in any order, all types of functions",
  "the tests only use comparators without a state, for which all objects are the same",
  [B+": constructors, swap, operator=, hash_function, key_equal", LA+": LastAccessed(const KeyEqual&), _key_equal"])

p("C89", "callbacks may use other caches",
  "The callbacks of a cache may use any cache of the program, whose callbacks may do the same. Callbacks that leave the cache they are registered with alone do no harm: every call returns or throws, each cache stays well-formed, and find, contains and lookup have the same result and the same effect on their cache as if the callbacks did nothing. If callbacks use only caches below their own, a call changes no other cache on the same level or above. The callbacks are told in the order they were registered in, the first before the second, and between two of them nothing happens but what they call; exceptions that a callback catches do not reach the caller. In particular two caches can be put in front of each other: a miss callback of the small one looks the key up in the large one and stores it in the small one.",
  "all programs with any number of caches, all callbacks, nested to any depth, all environments",
  "what happens depends on what all callbacks of all caches do while other calls are under way",
  [B+": _register_hit, _register_miss, contains, lookup", CA+": find", TC+": find", CB+": hit, miss, _call_each"])

p("C90", "floating-point durations and rates are accurate",
  "The default Duration of a timed cache is a floating-point number of milliseconds. Whatever the rounding, it behaves like a duration in whole ticks of the clock: there is a number of ticks such that exactly the older entries have expired. A time to live given as a whole number of milliseconds is kept to the nanosecond: an entry has expired if and only if more than the time to live has passed. The hit rate and the miss rate lie between 0 and 1, add up to 1 up to rounding, and are 0 or 1 only if there were no hits or no misses.",
  "all times to live, all readings of a 64-bit clock in nanoseconds, all rounding modes, all units in which the time to live can be given; all numbers of hits and misses",
  "rounding errors show up only for particular values: the first time to live for which an entry expires early is 576460752307 ms",
  [TC+": _has_expired, constructors, Duration", ST+": hit_rate, miss_rate"])

p("C91", "durations do not overflow",
  "Timed caches can be used with any integer Duration: computing the time that has passed since an insertion in units of the Duration, and the time to live from the one given to the constructor, never overflows, and the result is the exact one, rounded towards zero.",
  "all types of durations: all numbers of bits, all units; all times to live, all readings of a 64-bit clock",
  "overflow needs programs that run for weeks",
  [TC+": _has_expired, constructors, Duration"])

p("C92", "cache equality follows the comparisons of the program",
  "For any operator== of keys (whose equal keys are equivalent for KeyEqual) and any operator!= of values, reflexive or not, == of caches is true exactly if they are the same object or hold, in the same recency order, entries with equal keys, values that are not unequal, and for timed caches equal insertion times; != is its opposite; it is symmetric and transitive if the comparisons are; a copy is equal to its original; the program is not terminated.",
  "all pairs of caches of all programs, copies included; all comparisons, throwing ones included; both orders in which standard libraries compare elements",
  "the tests compare caches of ints, for which == is reflexive and does not throw",
  [B+": operator==, operator!=", "include/lru/internal/information.hpp: operator==", "include/lru/internal/timed-information.hpp: operator=="])

p("C93", "no assertion of the library ever fails",
  "None of the library's assertions (last accessed element valid, statistics present, emplace has inserted, iterator not past the end) fails, so that builds with and without assertions behave alike: same results, exceptions, events and states.",
  "all calls, constructors included, in all states of all caches, copied and moved-from caches included; whatever a failed assertion would do",
  "a test can only show that an assertion holds in the states it visits",
  [B+": insert, emplace", TC+": has_expired", "include/lru/internal/last-accessed.hpp: key, information, iterator, value", "include/lru/internal/statistics-mutator.hpp: register_hit, register_miss, get"])

p("C94", "the replacement of std::optional behaves like it",
  "Objects of the library's own Optional hold what was put into them: copies, moves, conversions, assignments (to themselves too), swap, reset and emplace do to the values held what the documentation of std::optional says; a construction that throws changes no object; value() without a value throws; an operation is undefined only for objects that are gone or * without a value; every heap cell is owned by exactly one object and none leaks; programs see the same as with std::optional; Optional<U> converts to Optional<T> if U converts to T.",
  "all programs that use any number of objects, all values, all failures of allocations and constructors, all conversions",
  "whether std::optional or the replacement is used depends on the compiler; the iterators use a part of the interface only",
  ["include/lru/internal/optional.hpp: Optional", "include/lru/internal/base-iterator.hpp: _entry"])

p("C95", "entries are references to their elements",
  "An Entry obtained from an iterator, and every Entry converted from it, stands for the element: key and value read through it are those the element has at that time, writes through it are seen by the element and all its entries, and nothing but the use of an erased element is undefined. Comparison of an entry with a pair is true exactly if key and value are equal; values are compared only if the keys are equal; != is the opposite of ==.",
  "all programs that create, erase and assign elements, dereference iterators, convert entries and write through them, in any order; all comparisons, throwing ones included",
  "the tests convert no entries between types; a reference to a destroyed temporary object often still reads the old bytes",
  ["include/lru/entry.hpp: Entry, operator==, operator!=", "include/lru/internal/base-ordered-iterator.hpp: operator*", "include/lru/internal/base-unordered-iterator.hpp: operator*"])

if __name__ == "__main__":
    out = os.path.join(os.path.dirname(os.path.abspath(__file__)), "..", "properties.jsonl")
    with open(out, "w") as f:
        for d in P:
            f.write(json.dumps(d) + "\n")
    print(len(P))
