import Verif.Tests.Script
import Verif.Model.Moves
/-!
# `/repo/tests/move-awareness-test.cpp`

`kCopied` and `vCopied` stand for `copy_count`, `kMade` and `vMade` for the sum of `forwarding_count`, `move_count` and
`non_move_count`, except for objects that the caller makes. The model does not tell apart the constructors that are neither copy
nor move constructor; the one that runs depends on the types of the arguments (`std::forward`, `base-cache.hpp` 1086-1087).
-/

set_option autoImplicit false

namespace LRU.Tests

/-- The entries for one call on an empty cache of the default capacity. -/
def ledgerOf (m : Moves.MOp Nat Nat) : Ledger := ledger calmO m (demoState calmO [.create .basic .default] 0)

/-- `DoesNotMoveForInsert` (39-53): key and value are made by the caller (conversion from `const char*`). -/
example : (ledgerOf (.insert 0 1)).kCopied = 1 ∧ (ledgerOf (.insert 0 1)).vCopied = 1 := by decide +kernel

/-- `ForwardsValuesWell` (55-66), `MovesSingleRValues` (68-82), `CopiesSingleLValues` (84-100), `MovesRValueTuples` (102-117),
`MovesLValueTuples` (119-137): the arguments are no keys and values, but something to make them from. -/
example : let l := ledgerOf (.emplace .args .args 0 1)
    l.kMade = 1 ∧ l.vMade = 1 ∧ l.kCopied = 0 ∧ l.vCopied = 0 := by decide +kernel

/-- `MovesElementsOutOfRValueRanges` (139-154), but with keys and values in the range instead of strings: one move each is that
from the range. -/
example : let l := ledgerOf (.insertRangeMove [(0, 1)])
    l.kTaken = 1 ∧ l.vTaken = 1 ∧ l.kCopied = 0 ∧ l.vCopied = 0 := by decide +kernel

end LRU.Tests
