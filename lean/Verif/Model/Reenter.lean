import Verif.Model.Ops
/-!
# Callbacks that use the cache

The callbacks of a cache are user code, called from inside `contains`, `find` and `lookup`
(`callback-manager.hpp` 58-69, 140-145, called by `base-cache.hpp` 1491-1507). In `Model.Types` a callback is
recorded and may throw. Here it may also call the cache it is registered with, before the function that called it
has finished.

What a callback does is a `Script`: public calls, chosen from the results of the earlier ones. A callback catches the
exceptions of the calls it makes. Whether it throws one of its own is left to the environment, as before.

`call` is how a callback calls the cache and `busy` are the containers of callbacks being iterated over, in
all the calls under way. `_call_each` iterates over a `std::vector` of `std::function`s with a range-based `for`: adding to
or clearing that container moves or destroys the function that is being executed, hence undefined behaviour.

References and iterators are read where the C++ reads them: an entry that a callback erased is gone.
-/

namespace LRU

/-- What a callback does: public calls, depending on the results of the earlier ones. -/
inductive Script (K V : Type) where
  | done
  | call (op : Op K V) (next : Except Err (Res K V) → Script K V)

/-- The three containers of `callback-manager.hpp` 148-154. -/
inductive CbList where
  | hit | miss | access
  deriving DecidableEq

/-- The call changes the container of callbacks (`callback-manager.hpp` 75-118). -/
def Op.registers : Op K V → CbList → Bool
  | .addHitCallback _, .hit | .addMissCallback _, .miss | .addAccessCallback _, .access => true
  | .clearHitCallbacks, .hit | .clearMissCallbacks, .miss | .clearAccessCallbacks, .access => true
  | .clearAllCallbacks, _ => true
  | _, _ => false

namespace Impl

variable {K V : Type} [KeyEqual K] [DecidableEq K] (O : Oracle K V) (F : Event K V → Script K V)
variable (call : List CbList → Op K V → CM K V (Res K V)) (busy : List CbList)

/-- Run the body of a callback, which catches the exceptions of the calls it makes. -/
def runScript (call : Op K V → CM K V (Res K V)) : Script K V → CM K V Unit
  | .done => pure ()
  | .call op next => fun s =>
    match call op s with
    | .ok r s' => runScript call (next (.ok r)) s'
    | .throw e s' => runScript call (next (.error e)) s'
    | .ub => .ub
    | .terminate => .terminate
    | .diverge => .diverge

/-- `callback-manager.hpp` 140-145 `_call_each`. `ev` reads the arguments of the callback, which are passed by
reference. -/
def callEachR (call : Op K V → CM K V (Res K V)) (ev : Nat → CM K V (Event K V)) : List Nat → CM K V Unit
  | [] => pure ()
  | cb :: rest => do
    let e ← ev cb
    emit e
    runScript call (F e)
    attempt O (.callback cb)
    callEachR call ev rest

/-- `base-cache.hpp` 1491-1497 `_register_hit`, with `callback-manager.hpp` 58-61. `p` is the node whose value is
passed by reference. -/
def registerHitR (k : K) (p : Ptr) : CM K V Unit := do
  let o ← getObs
  countHit o k
  callEachR O F (call (.hit :: busy)) (fun cb => do let n ← deref p; pure (.hit cb k n.info.value)) o.hitCbs
  let o ← getObs
  callEachR O F (call (.access :: busy)) (fun cb => pure (.access cb k true)) o.accCbs

/-- `base-cache.hpp` 1501-1507 `_register_miss`, with `callback-manager.hpp` 66-69. -/
def registerMissR (k : K) : CM K V Unit := do
  let o ← getObs
  countMiss o k
  callEachR O F (call (.miss :: busy)) (fun cb => pure (.miss cb k)) o.missCbs
  let o ← getObs
  callEachR O F (call (.access :: busy)) (fun cb => pure (.access cb k false)) o.accCbs

/-- `_move_to_front(iterator->second.order); _last_accessed = iterator;` (`cache.hpp` 156-157, 170-171 and
`timed-cache.hpp` 202-203, 218-219): the iterator is dereferenced after the callbacks have run. -/
def touchR (p : Ptr) : CM K V Unit := do
  let n ← derefIt (some p)
  moveToFront n.info.order
  setLast p

/-- `cache.hpp` 152-177 and `timed-cache.hpp` 197-228 `find(key)`. -/
def findR (k : K) : CM K V (Option Ptr) := do
  match ← mapFind k with
  | some n =>
    if ← hasExpiredInfo O n.info.time then do
      registerMissR O F call busy k
      pure none
    else do
      registerHitR O F call busy k n.addr
      touchR n.addr
      pure (some n.addr)
  | none => do
    registerMissR O F call busy k
    pure none

/-- `base-cache.hpp` 786-798 `contains(key)`. -/
def containsR (k : K) : CM K V Bool := do
  if ← lastIs k then
    if ← lastAccessedIsOk O then do
      let n ← lastNode
      registerHitR O F call busy k n.addr
      pure true
    else pure false
  else do
    let it ← findR O F call busy k
    pure it.isSome

/-- `base-cache.hpp` 811-852 `lookup(key)` and 879-886 `operator[]`. The caller reads the value. -/
def lookupR (k : K) : CM K V (Ptr × V) := do
  if ← lastIs k then do
    let n ← valueForLastAccessed O
    registerHitR O F call busy k n.addr
    let n' ← deref n.addr
    pure (n.addr, n'.info.value)
  else do
    match ← findR O F call busy k with
    | none => M.throw .keyNotFound
    | some p => do
      let n ← entryU O (some p)
      pure (n.addr, n.info.value)

/-- Run a public call (dispatch only). -/
def dispatchR : Op K V → CM K V (Res K V)
  | .contains k => ret (containsR O F call busy k) .bool
  | .find k => ret (findR O F call busy k) .pos
  | .lookup k => ret (lookupR O F call busy k) (fun r => .ref r.1 r.2)
  | op => step O op

/-- A public call whose callbacks use the cache, with at most `depth` calls nested in each other. -/
def stepR : Nat → List CbList → Op K V → CM K V (Res K V)
  | 0, _, _ => M.diverge
  | depth + 1, busy, op =>
    if busy.any op.registers then M.ub else dispatchR O F (stepR depth) busy op

end Impl

end LRU
