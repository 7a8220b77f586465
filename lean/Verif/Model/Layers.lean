import Verif.Model.Reenter
import Verif.Model.World
/-!
# Callbacks that use other caches

`Model.Reenter` has callbacks that use the cache they are registered with. Here a callback may use any live cache of the
program, as one does that keeps several caches in layers (a miss in the small cache is looked up in the large one), and so
may the callbacks called meanwhile.

`F i` are the callbacks of cache `i`. `call` is how they call caches, and `busy` are the containers of callbacks that are
being iterated over, in all the calls under way, with the caches they belong to. Caches are not created or destroyed by
callbacks.
-/

set_option autoImplicit false

namespace LRU

/-- What a callback does: public calls on caches, depending on the results of the earlier ones. Exceptions are caught. -/
inductive WScript (K V : Type) where
  | done
  | call (j : Nat) (op : Op K V) (next : Except Err (Res K V) → WScript K V)

/-- A callback that uses one cache only. -/
def WScript.on {K V : Type} (i : Nat) : Script K V → WScript K V
  | .done => .done
  | .call op next => .call i op fun r => WScript.on i (next r)

namespace Impl

variable {K V : Type} [KeyEqual K] [DecidableEq K] (O : Oracle K V) (F : Nat → Event K V → WScript K V)
variable (call : List (Nat × CbList) → Nat → Op K V → M (World K V) (Res K V)) (busy : List (Nat × CbList)) (i : Nat)

/-- Run the body of a callback. -/
def runW (call : Nat → Op K V → M (World K V) (Res K V)) : WScript K V → M (World K V) Unit
  | .done => pure ()
  | .call j op next => fun w =>
    match call j op w with
    | .ok r w' => runW call (next (.ok r)) w'
    | .throw e w' => runW call (next (.error e)) w'
    | .ub => .ub
    | .terminate => .terminate
    | .diverge => .diverge

/-- `callback-manager.hpp` 140-145 `_call_each`, for cache `i`. `ev` reads the arguments. -/
def callEachL (call : Nat → Op K V → M (World K V) (Res K V)) (ev : Nat → CM K V (Event K V)) :
    List Nat → M (World K V) Unit
  | [] => pure ()
  | cb :: rest => do
    let e ← onCache i (ev cb)
    onCache i (emit e)
    runW call (F i e)
    onCache i (attempt O (.callback cb))
    callEachL call ev rest

/-- `base-cache.hpp` 1491-1497 `_register_hit`, with `callback-manager.hpp` 58-61. -/
def registerHitL (k : K) (p : Ptr) : M (World K V) Unit := do
  let o ← onCache i getObs
  onCache i (countHit o k)
  callEachL O F i (call ((i, .hit) :: busy)) (fun cb => do let n ← deref p; pure (.hit cb k n.info.value)) o.hitCbs
  let o ← onCache i getObs
  callEachL O F i (call ((i, .access) :: busy)) (fun cb => pure (.access cb k true)) o.accCbs

/-- `base-cache.hpp` 1501-1507 `_register_miss`, with `callback-manager.hpp` 66-69. -/
def registerMissL (k : K) : M (World K V) Unit := do
  let o ← onCache i getObs
  onCache i (countMiss o k)
  callEachL O F i (call ((i, .miss) :: busy)) (fun cb => pure (.miss cb k)) o.missCbs
  let o ← onCache i getObs
  callEachL O F i (call ((i, .access) :: busy)) (fun cb => pure (.access cb k false)) o.accCbs

/-- `cache.hpp` 152-177 and `timed-cache.hpp` 197-228 `find(key)` of cache `i`. -/
def findL (k : K) : M (World K V) (Option Ptr) := do
  match ← onCache i (mapFind k) with
  | some n =>
    if ← onCache i (hasExpiredInfo O n.info.time) then do
      registerMissL O F call busy i k
      pure none
    else do
      registerHitL O F call busy i k n.addr
      onCache i (touchR n.addr)
      pure (some n.addr)
  | none => do
    registerMissL O F call busy i k
    pure none

/-- `base-cache.hpp` 786-798 `contains(key)` of cache `i`. -/
def containsL (k : K) : M (World K V) Bool := do
  if ← onCache i (lastIs k) then
    if ← onCache i (lastAccessedIsOk O) then do
      let n ← onCache i lastNode
      registerHitL O F call busy i k n.addr
      pure true
    else pure false
  else do
    let it ← findL O F call busy i k
    pure it.isSome

/-- `base-cache.hpp` 811-852 `lookup(key)` and 879-886 `operator[]` of cache `i`. -/
def lookupL (k : K) : M (World K V) (Ptr × V) := do
  if ← onCache i (lastIs k) then do
    let n ← onCache i (valueForLastAccessed O)
    registerHitL O F call busy i k n.addr
    let n' ← onCache i (deref n.addr)
    pure (n.addr, n'.info.value)
  else do
    match ← findL O F call busy i k with
    | none => M.throw .keyNotFound
    | some p => do
      let n ← onCache i (entryU O (some p))
      pure (n.addr, n.info.value)

/-- Run a public call on cache `i` (dispatch only). -/
def dispatchL : Op K V → M (World K V) (Res K V)
  | .contains k => ret (containsL O F call busy i k) .bool
  | .find k => ret (findL O F call busy i k) .pos
  | .lookup k => ret (lookupL O F call busy i k) (fun r => .ref r.1 r.2)
  | op => onCache i (step O op)

/-- A public call on cache `i` whose callbacks use caches, with at most `depth` calls nested in each other. Registering a
callback in a container that is being iterated over is undefined. -/
def stepL : Nat → List (Nat × CbList) → Nat → Op K V → M (World K V) (Res K V)
  | 0, _, _, _ => M.diverge
  | depth + 1, busy, i, op =>
    if busy.any (fun b => b.1 == i && op.registers b.2) then M.ub else dispatchL O F (stepL depth) busy i op

end Impl

end LRU
