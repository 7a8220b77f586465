import Verif.Model.Iterators
/-!
# Calls on a single cache

`Op` is the list of public calls on one cache, `Res` what a call returns, `step` runs a call.
Unordered iteration (`uBegin`, `uNext`) is kept apart because its results depend on the hash order.
-/

namespace LRU

/-- A public call on a cache. Positions are arguments of iterator type (`none`: past the end). -/
inductive Op (K V : Type) where
  | contains (k : K) | find (k : K) | lookup (k : K)
  | insert (k : K) (v : V) | emplace (k : K) (v : V)
  | insertRange (l : List (K × V)) | insertRangeMove (l : List (K × V))
  | assignRange (l : List (K × V)) | assignRangeMove (l : List (K × V))
  | erase (k : K) | eraseU (pos : Option Ptr) | eraseO (pos : Option Ptr)
  | clear | shrink (n : Nat) | setCapacity (n : Nat)
  | size | capacity | spaceLeft | isEmpty | isFull | front | back
  | allExpired | clearExpired | hasExpired (k : K)
  | hasExpiredU (pos : Option Ptr) | hasExpiredO (pos : Option Ptr)
  | isValidU (pos : Option Ptr) | isValidO (pos : Option Ptr)
  | uKey (pos : Option Ptr) | uValue (pos : Option Ptr)
  | oBegin | oNext (pos : Option Ptr) | oPrev (pos : Option Ptr)
  | oKey (pos : Option Ptr) | oValue (pos : Option Ptr)
  | toOrdered (pos : Option Ptr) | eqOU (o u : Option Ptr)
  | monitor (i : Option Nat) | monitorNew (ks : List K) | stopMonitoring | isMonitoring
  | stats | sharedStats
  | addHitCallback (cb : Nat) | addMissCallback (cb : Nat) | addAccessCallback (cb : Nat)
  | clearHitCallbacks | clearMissCallbacks | clearAccessCallbacks | clearAllCallbacks
  | write (p : Ptr) (v : V) | read (p : Ptr)

/-- What a call returns. -/
inductive Res (K V : Type) where
  | unit
  | bool (b : Bool)
  | nat (n : Nat)
  | optNat (n : Option Nat)
  | key (k : K)
  | value (v : V)
  /-- a reference: address of the node and the value stored there -/
  | ref (p : Ptr) (v : V)
  /-- an iterator -/
  | pos (p : Option Ptr)
  /-- `InsertionResult`: `was_inserted()` and `iterator()` -/
  | inserted (b : Bool) (p : Option Ptr)
  deriving DecidableEq

namespace Impl

variable {K V : Type} [KeyEqual K] [DecidableEq K] (O : Oracle K V)

/-- Wrap the result of a body. -/
def ret {σ α : Type} (m : M σ α) (f : α → Res K V) : M σ (Res K V) := do
  let a ← m
  pure (f a)

/-- Run a public call (dispatch only; the bodies are in `Model.Cache` and `Model.Iterators`). -/
def step : Op K V → CM K V (Res K V)
  | .contains k => ret (contains O k) .bool
  | .find k => ret (find O k) .pos
  | .lookup k => ret (lookup O k) (fun r => .ref r.1 r.2)
  | .insert k v => ret (insert O k v) (fun r => .inserted r.1 r.2)
  | .emplace k v => ret (emplace O k v) (fun r => .inserted r.1 r.2)
  | .insertRange l => ret (insertRange O l) .nat
  | .insertRangeMove l => ret (insertRangeMove O l) .nat
  | .assignRange l => ret (assignRange O l) (fun _ => .unit)
  | .assignRangeMove l => ret (assignRangeMove O l) (fun _ => .unit)
  | .erase k => ret (erase k) .bool
  | .eraseU pos => ret (eraseU pos) (fun _ => .unit)
  | .eraseO pos => ret (eraseO O { pos := pos }) (fun _ => .unit)
  | .clear => ret clear (fun _ => .unit)
  | .shrink n => ret (shrink n) (fun _ => .unit)
  | .setCapacity n => ret (setCapacity n) (fun _ => .unit)
  | .size => ret size .nat
  | .capacity => ret readCapacity .nat
  | .spaceLeft => ret spaceLeft .optNat
  | .isEmpty => ret isEmpty .bool
  | .isFull => ret isFull .bool
  | .front => ret front .key
  | .back => ret back .key
  | .allExpired => ret (allExpired O) .bool
  | .clearExpired => ret (clearExpired O) .nat
  | .hasExpired k => ret (hasExpired O k) .bool
  | .hasExpiredU pos => ret (hasExpiredU O pos) .bool
  | .hasExpiredO pos => ret (hasExpiredO O pos) .bool
  | .isValidU pos => ret (isValidU O pos) .bool
  | .isValidO pos => ret (isValidO O pos) .bool
  | .uKey pos => ret (uKey O { pos := pos }) .key
  | .uValue pos => ret (uValue O { pos := pos }) .value
  | .oBegin => ret oBegin (fun it => .pos it.pos)
  | .oNext pos => ret (oNext { pos := pos }) (fun it => .pos it.pos)
  | .oPrev pos => ret (oPrev { pos := pos }) (fun it => .pos it.pos)
  | .oKey pos => ret (oKey O { pos := pos }) .key
  | .oValue pos => ret (oValue O { pos := pos }) .value
  | .toOrdered pos => ret (toOrdered { pos := pos }) (fun it => .pos it.pos)
  | .eqOU o u => ret (eqOU { pos := o } { pos := u }) .bool
  | .monitor i => ret (monitor i) (fun _ => .unit)
  | .monitorNew ks => ret (monitorNew ks) .nat
  | .stopMonitoring => ret stopMonitoring (fun _ => .unit)
  | .isMonitoring => ret isMonitoring .bool
  | .stats => ret stats .nat
  | .sharedStats => ret sharedStats .optNat
  | .addHitCallback cb => ret (addHitCallback cb) (fun _ => .unit)
  | .addMissCallback cb => ret (addMissCallback cb) (fun _ => .unit)
  | .addAccessCallback cb => ret (addAccessCallback cb) (fun _ => .unit)
  | .clearHitCallbacks => ret clearHitCallbacks (fun _ => .unit)
  | .clearMissCallbacks => ret clearMissCallbacks (fun _ => .unit)
  | .clearAccessCallbacks => ret clearAccessCallbacks (fun _ => .unit)
  | .clearAllCallbacks => ret clearAllCallbacks (fun _ => .unit)
  | .write p v => ret (write p v) (fun _ => .unit)
  | .read p => ret (read p) .value

end Impl

end LRU
