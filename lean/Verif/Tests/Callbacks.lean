import Verif.Tests.Script
/-!
# `tests/callback-test.cpp`

Callbacks 0, 1 and 2 are the hit, miss and access callbacks of each test. The counters of the tests are computed from the
record of callback invocations.
-/

set_option autoImplicit false

namespace LRU.Tests

/-- The changes a callback makes to the counters: key, amount. -/
def change : Event Nat Nat → Nat × Int
  | .hit _ k _ => (k, 1)
  | .miss _ k => (k, 1)
  | .access _ k found => (k, if found then 1 else -1)

/-- `counts[0]`, `counts[1]`, `counts[2]`. -/
def counts (a b c : Int) : Line := .check fun w =>
  [0, 1, 2].map (fun k => ((w.g.log.map change).map (fun p => if p.1 = k then p.2 else 0)).sum) == [a, b, c]

/-- How often each of the callbacks 0, 1 and 2 was called. -/
def called (a b c : Nat) : Line := .check fun w =>
  [(w.g.log.filter (fun e => match e with | .hit .. => true | _ => false)).length,
    (w.g.log.filter (fun e => match e with | .miss .. => true | _ => false)).length,
    (w.g.log.filter (fun e => match e with | .access .. => true | _ => false)).length] == [a, b, c]

/-- `HitCallbacksGetCalled` (34-67). -/
example : Pass [cache .default, on (.addHitCallback 0), on (.emplace 0 0), on (.emplace 1 1), on (.emplace 2 2),
    yes (.contains 0), counts 1 0 0, on (.find 2), counts 1 0 1, on (.lookup 1), counts 1 1 1, on (.lookup 0),
    counts 2 1 1, on (.contains 5), counts 2 1 1] = true := by decide +kernel

/-- `MissCallbacksGetCalled` (69-95). -/
example : Pass [cache .default, on (.addMissCallback 1), on (.emplace 0 0), yes (.contains 0), counts 0 0 0,
    on (.find 2), counts 0 0 1, on (.find 1), counts 0 1 1, on (.contains 1), counts 0 2 1] = true := by decide +kernel

/-- `AccessCallbacksGetCalled` (97-129). -/
example : Pass [cache .default, on (.addAccessCallback 2), on (.emplace 0 0), yes (.contains 0), counts 1 0 0,
    on (.find 2), counts 1 0 (-1), on (.find 1), counts 1 (-1) (-1), on (.contains 1), counts 1 (-2) (-1), on (.find 0),
    counts 2 (-2) (-1)] = true := by decide +kernel

/-- `CallbacksAreNotCalledAfterBeingCleared` (131-155). -/
example : Pass [cache .default, on (.addHitCallback 0), on (.addMissCallback 1), on (.addAccessCallback 2),
    on (.emplace 0 0), on (.contains 0), on (.find 1), called 1 1 2, on .clearAllCallbacks, on (.contains 0), on (.find 1),
    on (.find 2), called 1 1 2] = true := by decide +kernel

end LRU.Tests
