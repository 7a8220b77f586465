import Verif.Tests.Script
/-!
# `tests/timed-cache-test.cpp`
-/

set_option autoImplicit false

namespace LRU.Tests

/-- `ContainsRespectsExpiration` (34-49). -/
example : Pass [timedCache 2000 .default, on (.insert 1 2), num .size 1, yes (.contains 1), on (.lookup 1) (.value 2),
    .sleep 1000, yes (.contains 1), .sleep 1000, no (.contains 1)] = true := by decide +kernel

/-- `KnowsWhenAllKeysHaveExpired` (51-78). -/
example : Pass [timedCache 2000 .default, yes .allExpired, on (.assignRange [(1, 2), (2, 3)]), num .size 2, no .allExpired,
    .sleep 1000, on (.insert 3 4), .sleep 1000, no .allExpired, no (.contains 1), no (.contains 2), yes (.contains 3),
    .sleep 1000, yes .allExpired, no (.contains 1), no (.contains 2), no (.contains 3)] = true := by decide +kernel

/-- `CleanExpiredRemovesExpiredElements` (80-109). -/
example : Pass [timedCache 2000 (.sizedItems 128 [(1, 2), (2, 3)]), num .size 2, no .allExpired, .sleep 1000,
    on (.insert 3 4), num .size 3, .sleep 1000, num .size 3, on .clearExpired, num .size 1, no (.contains 1),
    no (.contains 2), yes (.contains 3), .sleep 1000, on .clearExpired, no (.contains 3), num .size 0, yes .isEmpty]
    = true := by decide +kernel

/-- `LookupThrowsWhenKeyExpired` (111-119). -/
example : Pass [timedCache 2000 (.sizedItems 128 [(1, 2)]), on (.lookup 1) (.value 2), .sleep 2000,
    on (.lookup 1) (.throws .keyExpired)] = true := by decide +kernel

/-- `HasExpiredReturnsFalseForNonContainedKeys`, `HasExpiredReturnsFalseForContainedButNotExpiredKeys` (121-136). -/
example : Pass [timedCache 2000 .default, no (.hasExpired 1), no (.hasExpired 2)] = true := by decide +kernel
example : Pass [timedCache 100000 .default, on (.emplace 1 1), on (.emplace 2 2), no (.hasExpired 1), no (.hasExpired 2)]
    = true := by decide +kernel

/-- `HasExpiredReturnsTrueForContainedAndExpiredKeys` (138-158). -/
example : Pass [timedCache 2000 .default, on (.emplace 1 1), .sleep 1000, on (.emplace 2 2), no (.hasExpired 1),
    .sleep 1000, yes (.hasExpired 1), no (.hasExpired 2), .sleep 3000, yes (.hasExpired 1), yes (.hasExpired 2)]
    = true := by decide +kernel

/-- `LookupsMoveElementsToFront` (160-177). The last assertion, that the unordered iterator to "one" is the last of the
hash table, holds because the hash table enumerates the newest element first. -/
example : IPass (timedKind 1000000 1) .default [.call (.call (.setCapacity 2)) .any,
    .call (.call (.insertRange [(1, 1), (2, 2)])) .any, .call (.find 0 1) .any, .call (.call (.emplace 3 3)) .any,
    .call (.call (.contains 1)) (.is (.bool true)), .call (.call (.contains 2)) (.is (.bool false)),
    .call (.call (.contains 3)) (.is (.bool true)), .call (.inc 0) .any, .call (.fin 1 false) .any,
    .call (.eq 0 1) (.is (.bool true))] = true := by decide +kernel

end LRU.Tests
