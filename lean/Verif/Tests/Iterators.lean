import Verif.Tests.Script
/-!
# `tests/iterator-test.cpp`
-/

set_option autoImplicit false

namespace LRU.Tests

/-- Shorthands: a call that must return, `EXPECT_TRUE` and `EXPECT_FALSE`. -/
def it (o : IOp Nat Nat) : ILine := .call o .any
@[inherit_doc it] def itYes (o : IOp Nat Nat) : ILine := .call o (.is (.bool true))
@[inherit_doc it] def itNo (o : IOp Nat Nat) : ILine := .call o (.is (.bool false))

/-- `UnorderedIteratorsAreCompatibleAsExpected`, `OrderedIteratorsAreCompatibleAsExpected` (42-88). -/
example : [true, false].all (fun o => IPass .basic .default [it (.call (.emplace 1 1)), it (.begin 0 o), it (.copy 1 0),
    it (.default 2 o), it (.copy 2 1), it (.moveNew 3 0), it (.copy 4 1), it (.default 5 o), it (.copy 5 2)])
    = true := by decide +kernel

/-- `OrderedAndUnorderedAreComparable` (90-119). The objects 0 to 7 are the two copies each of the unordered and ordered
begin and end. -/
example : IPass .basic .default [it (.call (.emplace 1 1)),
    it (.begin 0 false), it (.begin 1 false), it (.begin 2 true), it (.begin 3 true), it (.fin 4 false),
    it (.fin 5 false), it (.fin 6 true), it (.fin 7 true),
    itYes (.eq 0 1), itYes (.eq 2 3), itYes (.eq 4 5), itYes (.eq 6 7),
    itYes (.eq 0 2), itYes (.eq 2 0), itYes (.eq 4 6), itYes (.eq 6 4), itYes (.eq 3 1), itYes (.eq 1 3),
    it (.call (.emplace 2 1)),
    it (.begin 2 true), it (.find 8 2), itNo (.eq 2 8), it (.find 8 2), it (.begin 2 true), itNo (.eq 8 2)]
    = true := by decide +kernel

/-- `TestConversionFromUnorderedToOrdered` (121-155). 0: `unordered`, 1: `ordered`, 2: `const_unordered`,
3: `const_ordered`, 4: temporaries. -/
example : IPass .basic .default [it (.call (.emplace 1 1)), it (.call (.emplace 2 2)), it (.call (.emplace 3 3)),
    it (.find 0 1), .call (.key 0) (.is (.key 1)), .call (.value 0) (.value 1), it (.convert 1 0), it (.convert 4 0),
    it (.moveTo 1 4), .call (.key 1) (.is (.key 1)), .call (.value 1) (.value 1), it (.dec 1),
    .call (.key 1) (.is (.key 3)), .call (.value 1) (.value 3), it (.copy 2 0), it (.copy 2 0), it (.convertMove 3 2),
    it (.convertMove 4 2), it (.moveTo 3 4), it (.dec 1), it (.copy 4 1), it (.moveTo 3 4), it (.convert 4 0),
    it (.moveTo 3 4), .call (.key 1) (.is (.key 2)), .call (.value 1) (.value 2)] = true := by decide +kernel

/-- `OrdereredIteratorsAreOrdered` (157-166). -/
example : IPass .basic .default ((List.range 100).map (fun i => it (.call (.emplace (1000 + i) i))) ++ [it (.begin 0 true)] ++
    (List.range 100).flatMap (fun i => [.call (.value 0) (.value i), it (.inc 0)])) = true := by decide +kernel

/-- `OrderedIteratorsDoNotChangeTheOrderOfElements` (168-186). (`->key()` is `*` followed by reading the entry.) -/
example : IPass .basic .default [it (.call (.setCapacity 2)), it (.call (.insertRange [(1, 1)])), it (.begin 0 true),
    it (.call (.emplace 2 2)), it (.deref 0), .call (.key 0) (.is (.key 1)), it (.inc 0), it (.deref 0),
    .call (.key 0) (.is (.key 2)), it (.dec 0), it (.deref 0), .call (.key 0) (.is (.key 1)), it (.call (.emplace 3 3)),
    itNo (.call (.contains 1)), itYes (.call (.contains 2)), itYes (.call (.contains 3))] = true := by decide +kernel

/-- `UnorderedIteratorsDoNotChangeTheOrderOfElements` (188-205). The iterator is used after an insertion, which invalidates it
if the hash table grows; the model follows the usual implementation, in which iterators are pointers to nodes. -/
example : IPass .basic .default [it (.call (.setCapacity 2)), it (.call (.insertRange [(1, 1)])), it (.begin 0 false),
    it (.call (.emplace 2 2)), it (.deref 0), .call (.key 0) (.is (.key 1)), it (.call (.emplace 3 3)),
    itNo (.call (.contains 1)), itYes (.call (.contains 2)), itYes (.call (.contains 3)),
    .call (.call .back) (.is (.key 2)), .call (.call .front) (.is (.key 3))] = true := by decide +kernel

/-- `OrderedIteratorsThrowWhenAccessingExpiredElements`, `UnorderedIteratorsThrowWhenAccessingExpiredElements` (208-226). They
need a clock that advances between two readings. -/
example : [true, false].all (fun o => IPass (timedKind 0 1) .default [it (.call (.emplace 1 1)), it (.begin 0 o),
    .call (.entry 0) (.throws .keyExpired)]) = true := by decide +kernel

/-- `IsValidReturnsTrueForValidIterators` (228-239). Positions are written as the addresses the model gives the nodes. -/
example : IPass .basic .default [.call (.insert 0 1 1) (.is (.inserted true (some 0))),
    .call (.insert 1 2 1) (.is (.inserted true (some 2))), .call (.call .oBegin) (.is (.pos (some 1))),
    itYes (.call (.isValidO (some 1))), .call (.call (.oNext (some 1))) (.is (.pos (some 3))),
    itYes (.call (.isValidO (some 3))), itYes (.call (.isValidU (some 2))), itYes (.call (.isValidU (some 0)))]
    = true := by decide +kernel

/-- `IsValidReturnsFalseForInvalidIterators` (241-253). All its iterators, also those after "timed_cache.emplace", are of the
empty `cache`, where begin and end are the same. -/
example : IPass .basic .default [.call (.call .oBegin) (.is (.pos none)), itNo (.call (.isValidO none)),
    itNo (.call (.isValidU none))] = true := by decide +kernel

/-- `ThrowIfInvalidThrowsAsExpected` (255-273); `throw_if_invalid` is called by `entry()`. -/
example :
    (match Impl.throwIfInvalidO calmO none (demoState calmO [.create .basic .default] 0) with
      | .throw e _ => e == .invalidIterator | _ => false) = true ∧
    (match Impl.throwIfInvalidU calmO none (demoState calmO [.create .basic .default] 0) with
      | .throw e _ => e == .invalidIterator | _ => false) = true ∧
    IPass (timedKind 0 1) (.initList [(1, 1)]) [.call (.call .size) (.is (.nat 1)), it (.begin 0 true),
      .call (.entry 0) (.throws .keyExpired), it (.begin 1 false), .call (.entry 1) (.throws .keyExpired)] = true := by
  decide +kernel

/-- `DereferencingNeverThrows` (275-291). -/
example : [true, false].all (fun o => IPass (timedKind 1000 1) (.initList [(1, 1)]) [it (.begin 0 o), it (.deref 0),
    .call (.key 0) (.is (.key 1)), .sleep 1000, it (.begin 0 o), it (.deref 0), it (.begin 0 o), it (.deref 0)])
    = true := by decide +kernel

/-- `CallingAccessThrowsForInvalidIterators` (293-312), as far as it has no undefined behaviour. -/
example : IPass (timedKind 1000 1) (.initList [(1, 1)]) [it (.begin 0 true), it (.deref 0), it (.begin 1 false), it (.deref 1),
    .sleep 1000, it (.begin 0 true), .call (.key 0) (.throws .keyExpired), it (.begin 1 false),
    .call (.key 1) (.throws .keyExpired), it (.begin 0 true), .call (.value 0) (.throws .keyExpired),
    it (.begin 1 false), .call (.value 1) (.throws .keyExpired), it (.fin 0 true),
    .call (.key 0) (.throws .invalidIterator), it (.fin 0 true), .call (.value 0) (.throws .invalidIterator)]
    = true := by decide +kernel

/-- The remaining assertions of that test (308, 310) dereference `unordered_end()` before checking it (C38). That compilers
let them pass is luck. -/
example : IPass (timedKind 1000 1) (.initList [(1, 1)]) [it (.fin 0 false), .call (.key 0) .ub] = true ∧
    IPass (timedKind 1000 1) (.initList [(1, 1)]) [it (.fin 0 false), .call (.value 0) .ub] = true := by
  decide +kernel

end LRU.Tests
