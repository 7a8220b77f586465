import Verif.Tests.Script
/-!
# `tests/wrap-test.cpp`
-/

set_option autoImplicit false

namespace LRU.Tests

open Impl

/-- Run calls of a wrapper, collecting the results; `none` if something goes wrong. -/
def results (f : Nat) : List Nat → M (Memo Nat Nat) (List Nat)
  | [] => pure []
  | k :: ks => do
    let v ← callWrapper calmO 3 f k
    let vs ← results f ks
    pure (v :: vs)

/-- A function that returns how often it was called: `[x = 0](int) mutable { return ++x; }`. -/
def counting (before : List (Nat × Nat)) (_ : Nat) : Body Nat Nat := .ret (before.length + 1)

/-- `CanWrapMutableAndNonMutableLambdas` (28-32): the first wrapper of another type. -/
example : ((do
    let f ← wrap 0 (fun _ k => .ret k) .basic
    results f [5] : M (Memo Nat Nat) (List Nat)) initMemo).result = some [5] := by decide +kernel

/-- `WrappingWorks` (34-45). -/
example : ((do
    let f ← wrap 0 counting .basic
    results f [69, 69, 42, 42, 50] : M (Memo Nat Nat) (List Nat)) initMemo).result = some [1, 1, 2, 2, 3] := by
  decide +kernel

/-- `CanPassCapacityArgumentToWrap` (47-66): the wrapper keeps a reference to the argument `1`, a temporary that is destroyed
at the end of the statement, and reads it in the first call. -/
example : ((do
    let f ← wrapTemporary 0 counting 1
    results f [1, 1] : M (Memo Nat Nat) (List Nat)) initMemo).isUb = true := by decide +kernel

/-- With an object that is still there, the test does what it expects. (`wrapped2` is never called.) -/
example : ((do
    let one ← newObject 1
    let f ← wrap 0 counting (.sized one)
    let a ← results f [1, 1]
    let _ ← wrapTemporary 0 counting 0
    let b ← results f [1, 1]
    pure (a ++ b) : M (Memo Nat Nat) (List Nat)) initMemo).result = some [1, 1, 1, 1] := by decide +kernel

/-- `CanPassTimeArgumentToTimedCacheWrap` (69-90): the same with `100ms`. -/
example : ((do
    let d ← newObject 100000
    let f ← wrap 0 counting (.timed 1 d)
    endObject d
    results f [1, 1] : M (Memo Nat Nat) (List Nat)) initMemo).isUb = true := by decide +kernel
example : ((do
    let d ← newObject 100000
    let f ← wrap 0 counting (.timed 1 d)
    let a ← results f [1, 1]
    let _ ← timedWrap 1 counting 1 0
    let b ← results f [1, 1]
    pure (a ++ b) : M (Memo Nat Nat) (List Nat)) initMemo).result = some [1, 1, 1, 1] := by decide +kernel

end LRU.Tests
