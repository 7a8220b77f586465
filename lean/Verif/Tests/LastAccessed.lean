import Verif.Tests.Script
import Verif.Model.LastAccessed
/-!
# `tests/last-accessed-test.cpp`
-/

set_option autoImplicit false

namespace LRU.Tests

open Impl

/-- The map of the tests (38-42): "one" ↦ 1, "two" ↦ 2, "three" ↦ 3. -/
abbrev laMap : St (Cache Nat Nat) Nat Nat :=
  demoState calmO [.create .basic (.sized 3), .op 0 (.insert 1 1), .op 0 (.insert 2 2), .op 0 (.insert 3 3)] 0

/-- `map.find(key)`. -/
def laFind (k : Nat) : CM Nat Nat (Option Ptr) := do
  let n ← mapFind k
  pure (n.map (·.addr))

/-- What `key()` and `information()` say. -/
def laSays (l : LastAccessed) : CM Nat Nat (Nat × Nat) := do
  let k ← l.keyOf
  let i ← l.informationOf
  pure (k, i.value)

/-- `IsAssignableFromConstAndNonConst` (45-62). -/
example : ((do
    let front ← laFind 1
    let l ← LastAccessed.ofIterator front
    let a ← laSays l
    let l ← l.assign (← laFind 2)
    let b ← laSays l
    let l ← l.assign (← laFind 3)
    let c ← laSays l
    pure [a, b, c] : CM Nat Nat _) laMap).result = some [(1, 1), (2, 2), (3, 3)] := by decide +kernel

/-- `IsComparableWithConstAndNonConstIterators` (64-85). -/
example : ((do
    let front ← laFind 1
    let l ← LastAccessed.ofIterator front
    let a ← l.eqIterator front
    let b ← l.neIterator (← laFind 2)
    let c ← l.neIterator (← laFind 3)
    pure [a, b, c] : CM Nat Nat _) laMap).result = some [true, true, true] := by decide +kernel

/-- `IsComparableToConstAndNonConstKeys` (87-109). -/
example : ((do
    let l ← LastAccessed.ofIterator (← laFind 3)
    let a ← l.eqKey 3
    let b ← l.neKey 5
    let c ← l.neKey 6
    pure [a, b, c] : CM Nat Nat _) laMap).result = some [true, true, true] := by decide +kernel

end LRU.Tests
