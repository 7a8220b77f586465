import Verif.Model.Ops
/-!
# Classes of calls
-/

set_option autoImplicit false

namespace LRU

variable {K V : Type}

/-- Calls that can remove entries: insertions (by eviction), range assignment, erasure, clearing and resizing. -/
def Op.mayRemove : Op K V → Bool
  | .insert .. | .emplace .. | .insertRange .. | .insertRangeMove .. | .assignRange .. | .assignRangeMove .. => true
  | .erase .. | .eraseU .. | .eraseO .. => true
  | .clear | .shrink .. | .setCapacity .. | .clearExpired => true
  | _ => false

/-- Calls that only ask something: sizes, `front`/`back`, expiry, validity, iterator operations, monitoring state, and
reading through a reference. -/
def Op.query : Op K V → Bool
  | .size | .capacity | .spaceLeft | .isEmpty | .isFull | .front | .back => true
  | .allExpired | .hasExpired .. | .hasExpiredU .. | .hasExpiredO .. | .isValidU .. | .isValidO .. => true
  | .uKey .. | .uValue .. | .oBegin | .oNext .. | .oPrev .. | .oKey .. | .oValue .. => true
  | .toOrdered .. | .eqOU .. | .isMonitoring | .stats | .sharedStats | .read .. => true
  | _ => false

/-- The three kinds of accesses that statistics count. -/
def Op.isAccess : Op K V → Bool
  | .contains .. | .find .. | .lookup .. => true
  | _ => false

/-- Calls that change the statistics object or the callbacks of the cache. -/
def Op.configures : Op K V → Bool
  | .monitor .. | .monitorNew .. | .stopMonitoring => true
  | .addHitCallback .. | .addMissCallback .. | .addAccessCallback .. => true
  | .clearHitCallbacks | .clearMissCallbacks | .clearAccessCallbacks | .clearAllCallbacks => true
  | _ => false

/-- Calls that change which statistics object the cache reports to. -/
def Op.setsMonitor : Op K V → Bool
  | .monitor .. | .monitorNew .. | .stopMonitoring => true
  | _ => false

end LRU
