import Verif.Spec.History
import Verif.Spec.Record
import Verif.Spec.Classes
/-!
# Runs of calls on one cache and traces of programs

`Run O s h s'`: only calls on this cache were made. `Trace O w h w'`: steps of a program using several caches. Both
are lists of calls, newest first.
-/

set_option autoImplicit false

namespace LRU

variable {K V : Type} [KeyEqual K] [DecidableEq K]

/-- A call returned or threw. -/
def Performs (O : Oracle K V) (op : Op K V) (s : St (Cache K V) K V) (res : Except Err (Res K V))
    (s' : St (Cache K V) K V) : Prop :=
  match res with
  | .ok r => Returns O op s r s'
  | .error e => Throws O op s e s'

/-- Calls on one cache, with nothing in between. -/
inductive Run (O : Oracle K V) (s : St (Cache K V) K V) : List (Call K V) → St (Cache K V) K V → Prop
  | nil : Run O s [] s
  | call {h s' s'' op res} : Run O s h s' → Performs O op s' res s'' → Run O s (⟨op, res, s', s''⟩ :: h) s''

/-- The key that a `contains`, `find` or `lookup` asks for. -/
def Op.accessed : Op K V → Option K
  | .contains k => some k
  | .find k => some k
  | .lookup k => some k
  | _ => none

/-- An access reports that it found the key. -/
def found : Except Err (Res K V) → Bool
  | .ok (.bool b) => b
  | .ok (.pos p) => p.isSome
  | .ok (.ref ..) => true
  | _ => false

/-- The value stored for a key. -/
def stored? (c : Cache K V) (k : K) : Option V := (entryFor c k).map (·.info.value)

/-- The callbacks due for an access to `k`: hit callbacks with key and value, or miss callbacks with the key; then
access callbacks with the verdict. -/
def dueCallbacks (o : Obs) (k : K) : Option V → List (Event K V)
  | some v => o.hitCbs.map (fun cb => .hit cb k v) ++ o.accCbs.map (fun cb => .access cb k true)
  | none => o.missCbs.map (fun cb => .miss cb k) ++ o.accCbs.map (fun cb => .access cb k false)

/-- The call is an access made while the cache was monitored by the statistics object `i`. -/
def Call.reportsTo (c : Call K V) (i : Nat) : Bool := c.op.isAccess && decide (c.before.c.obs.stats = some i)

/-- The key was stored when the call was made. -/
def Call.wasStored (c : Call K V) : Bool :=
  match c.op.accessed with
  | none => false
  | some k => (entryFor c.before.c k).isSome

/-- The callbacks due for a call. -/
def Call.callbacks (c : Call K V) : List (Event K V) :=
  match c.op.accessed with
  | none => []
  | some k => dueCallbacks c.before.c.obs k (stored? c.before.c k)

/-- A step of a program and its outcome. -/
structure WCall (K V : Type) where
  op : WOp K V
  res : Except Err (Res K V)
  before : World K V
  after : World K V

variable [DecidableEq V]

/-- A step of a program returned or threw. -/
def WPerforms (O : Oracle K V) (op : WOp K V) (w : World K V) (res : Except Err (Res K V)) (w' : World K V) : Prop :=
  match res with
  | .ok r => Impl.wstep O op w = .ok r w'
  | .error e => Impl.wstep O op w = .throw e w'

inductive Trace (O : Oracle K V) (w : World K V) : List (WCall K V) → World K V → Prop
  | nil : Trace O w [] w
  | step {h w' w'' op res} : Trace O w h w' → WPerforms O op w' res w'' → Trace O w (⟨op, res, w', w''⟩ :: h) w''

/-- The key accessed by a step, if it is an access on a cache that is monitored by statistics object `i`. -/
def WCall.accessFor (c : WCall K V) (i : Nat) : Option K :=
  match c.op with
  | .op j o =>
    match c.before.caches[j]? with
    | some (some ca) => if ca.obs.stats = some i then o.accessed else none
    | _ => none
  | _ => none

/-- The cache a step works on, if monitored by statistics object `i`, is a plain one. -/
def WCall.plainFor (c : WCall K V) (i : Nat) : Prop :=
  ∀ j o ca, c.op = .op j o → c.before.caches[j]? = some (some ca) → ca.obs.stats = some i → ca.kind = .basic

end LRU
