import Verif.Tests.Script
import Verif.Model.Cost
/-!
# `tests/cache-test.cpp` 117-151: how often keys are hashed and compared
-/

set_option autoImplicit false

namespace LRU.Tests

/-- `UsesCustomHashFunction` (117-132): `contains` on an empty cache searches the hash table once, and each search hashes its
key once. -/
example : (Cost.step calmO (.contains 5) (demoState calmO [.create .basic (.sized 128)] 0)).2.hash = 1 := by decide +kernel

/-- `UsesCustomKeyEqual` (134-151): the search and the insertion in an empty hash table compare nothing, and `contains` finds
the key with the one comparison of the shortcut, without a search. -/
example : (Cost.step calmO (.contains 5) (demoState calmO [.create .basic (.sized 128), .op 0 (.insert 5 1)] 0)).2.hash = 0 ∧
    Pass [cache (.sized 128), on (.insert 5 1), yes (.contains 5)] = true := by decide +kernel

end LRU.Tests
