import Verif.Model.World
import Verif.Spec.Environment
/-!
# What a user can observe of a cache, and which states are reachable

These definitions are only used to *state* properties. They read the data structures of the model directly
(`_order`, `_map`, `_capacity`) and use none of the operations under test.
-/

set_option autoImplicit false

namespace LRU

variable {K V : Type}

/-- The entries of a cache in the order of `_order`, least recently used first: every key reference is
followed into `_map`. (`Props.Iterators` shows that this is what ordered iteration visits.) -/
def elements (c : Cache K V) : List (MapNode K V) :=
  c.order.filterMap fun l => c.map.find? (fun n => n.addr == l.ref)

/-- Key and value of a node. -/
def MapNode.pair (n : MapNode K V) : K × V := (n.key, n.info.value)

/-- The key-value pairs in recency order, least recently used first. -/
def entries (c : Cache K V) : List (K × V) := (elements c).map MapNode.pair

/-- The keys in recency order, least recently used first. -/
def keys (c : Cache K V) : List K := (elements c).map (·.key)

/-- The entry stored for a key, if any. -/
def entryFor [KeyEqual K] (c : Cache K V) (k : K) : Option (MapNode K V) :=
  (elements c).find? (fun n => keq n.key k)

/-- `k` is stored in the cache. -/
def Stored [KeyEqual K] (c : Cache K V) (k : K) : Prop := ∃ n ∈ elements c, keq n.key k = true

/-- The entries stored under other keys than `k`, in recency order. -/
def others [KeyEqual K] (c : Cache K V) (k : K) : List (MapNode K V) :=
  (elements c).filter (fun n => !keq n.key k)

/-- The number of stored entries. -/
def count (c : Cache K V) : Nat := (elements c).length

/-- `op` is one of the two calls that store a value `v` for a key `k`. -/
def Op.Inserts (op : Op K V) (k : K) (v : V) : Prop := op = .insert k v ∨ op = .emplace k v

/-- `op` is one of the three calls that access key `k` (`operator[]` is `lookup`, `base-cache.hpp` 879-886). -/
def Op.Accesses (op : Op K V) (k : K) : Prop := op = .contains k ∨ op = .find k ∨ op = .lookup k

/-- A node that holds the given pair. -/
def Holds (x : MapNode K V) (k : K) (v : V) : Prop := x.key = k ∧ x.info.value = v

/-- The observable state of two caches is the same: entries (identity, key, value, time, order), capacity, class,
statistics object and callbacks. -/
structure SameCache (c d : Cache K V) : Prop where
  elements : elements d = elements c
  capacity : d.capacity = c.capacity
  kind : d.kind = c.kind
  obs : d.obs = c.obs

/-- The call changes neither capacity, class, statistics object and callbacks, nor anything outside the cache. -/
structure OnlyEntries (s s' : St (Cache K V) K V) : Prop where
  capacity : s'.c.capacity = s.c.capacity
  kind : s'.c.kind = s.c.kind
  obs : s'.c.obs = s.c.obs
  shared : s'.g = s.g

/-- The ordered iterator at list position `q` denotes the element `x`. -/
def At (c : Cache K V) (q : Ptr) (x : MapNode K V) : Prop := x ∈ elements c ∧ ⟨q, x.addr⟩ ∈ c.order

/-- The access `op` returned `r`, reporting that it found the element `x`. -/
def Hit (op : Op K V) (r : Res K V) (x : MapNode K V) : Prop :=
  match op with
  | .contains _ => r = .bool true
  | .find _ => r = .pos (some x.addr)
  | .lookup _ => r = .ref x.addr x.info.value
  | _ => False

/-- The access returned `r`, reporting that the key is not available (`lookup` throws instead). -/
def Miss (r : Res K V) : Prop := r = .bool false ∨ r = .pos none

/-- A public call on a cache returns normally: with result `r`, leaving state `s'` behind. -/
abbrev Returns [KeyEqual K] [DecidableEq K] (O : Oracle K V) (op : Op K V) (s : St (Cache K V) K V) (r : Res K V)
    (s' : St (Cache K V) K V) : Prop := Impl.step O op s = .ok r s'

/-- A public call on a cache throws `e`, leaving state `s'` behind. -/
abbrev Throws [KeyEqual K] [DecidableEq K] (O : Oracle K V) (op : Op K V) (s : St (Cache K V) K V) (e : Err)
    (s' : St (Cache K V) K V) : Prop := Impl.step O op s = .throw e s'

/-- Program steps that do not copy a cache. -/
def WOp.copies : WOp K V → Bool
  | .copyCtor _ => true
  | .copyAssign _ _ => true
  | _ => false

/-- A world a program can get into. Exceptions are caught by the program, which carries on. `ok` restricts
the steps the program makes. -/
inductive Reach [KeyEqual K] [DecidableEq K] [DecidableEq V] (O : Oracle K V) (ok : WOp K V → Prop) :
    World K V → Prop
  | init : Reach O ok Impl.initWorld
  | step {w w' r} (op : WOp K V) : Reach O ok w → ok op → Impl.wstep O op w = .ok r w' → Reach O ok w'
  | throw {w w' e} (op : WOp K V) : Reach O ok w → ok op → Impl.wstep O op w = .throw e w' → Reach O ok w'

/-- The state in which a member function of cache `i` of world `w` starts. -/
def viewOf (w : World K V) (i : Nat) (c : Cache K V) : St (Cache K V) K V :=
  ⟨c, { w.g with ext := Impl.allNodes (w.caches.set i none) }⟩

/-- Calls that first discard everything the cache holds. -/
def Op.discards : Op K V → Bool
  | .clear | .assignRange _ | .assignRangeMove _ => true
  | _ => false

/-- `own` with the answer for `i` changed to `b`. -/
def mark (own : Nat → Bool) (i : Nat) (b : Bool) : Nat → Bool := fun k => if k = i then b else own k

/-- Copying takes over internal iterators of the source (`Impl.copyOf`). `own k`: the contents of the cache object `k` do
not stem from copying. How this changes with a step made in world `w`: copies do not own their contents; swapping and
moving exchange contents; calls that discard the contents make the object its own master again. -/
def ownAfter (w : World K V) (own : Nat → Bool) : WOp K V → Nat → Bool
  | .create _ _ => mark own w.caches.length true
  | .copyCtor _ => mark own w.caches.length false
  | .copyAssign i j => if i = j then own else mark own i false
  | .moveCtor i => mark (mark own i true) w.caches.length (own i)
  | .swap i j | .moveAssign i j =>
    match w.caches[i]?, w.caches[j]? with
    | some (some a), some (some b) =>
      if Impl.sameType a.kind b.kind then mark (mark own i (own j)) j (own i) else own
    | _, _ => own
  | .swapBase i j =>
    match w.caches[i]?, w.caches[j]? with
    | some (some a), some (some b) =>
      if Impl.sameBase a.kind b.kind then mark (mark own i (own j)) j (own i) else own
    | _, _ => own
  | .op i o => if o.discards then mark own i true else own
  | _ => own

/-- A world a program can get into (as in `Reach`, without any restriction), with the caches that own their contents. -/
inductive Prog [KeyEqual K] [DecidableEq K] [DecidableEq V] (O : Oracle K V) : World K V → (Nat → Bool) → Prop
  | init : Prog O Impl.initWorld (fun _ => true)
  | step {w w' own r} (op : WOp K V) : Prog O w own → Impl.wstep O op w = .ok r w' → Prog O w' (ownAfter w own op)
  | throw {w w' own e} (op : WOp K V) : Prog O w own → Impl.wstep O op w = .throw e w' → Prog O w' (ownAfter w own op)

/-- A cache that is not a copy, with the shared state, as any program can produce it. The program may contain copies;
their use is just not what statements about `Reachable` states are about. -/
def Reachable [KeyEqual K] [DecidableEq K] [DecidableEq V] (O : Oracle K V) (s : St (Cache K V) K V) : Prop :=
  ∃ w own i c, Prog O w own ∧ own i = true ∧ w.caches[i]? = some (some c) ∧ s = viewOf w i c

/-- In a program that copies nothing every cache owns its contents. -/
theorem Reach.prog [KeyEqual K] [DecidableEq K] [DecidableEq V] {O : Oracle K V} {w : World K V}
    (h : Reach O (fun op => op.copies = false) w) : Prog O w (fun _ => true) := by
  have key : ∀ (w : World K V) (op : WOp K V), op.copies = false →
      ownAfter w (fun _ => true) op = fun _ => true := by
    intro w op hop
    have hm : ∀ i, mark (fun _ => true) i true = fun _ => true := by
      intro i; funext k; unfold mark; split <;> rfl
    cases op <;> first | cases hop | skip
    all_goals unfold ownAfter
    all_goals simp only [hm]
    all_goals (repeat' split) <;> rfl
  induction h with
  | init => exact .init
  | @step w w' r op _ hop hs ih =>
    have := Prog.step op ih hs
    rw [key w op hop] at this
    exact this
  | @throw w w' e op _ hop hs ih =>
    have := Prog.throw op ih hs
    rw [key w op hop] at this
    exact this

end LRU
