import Verif.Model.HashFault
import Verif.Spec.ListFault
/-!
# Interrupted calls
-/

set_option autoImplicit false

namespace LRU

variable {K V : Type}

/-- Forget how often the user's functions have been called. -/
def Out.plain {α : Type} : Out (FSt K V) α → Out (St (Cache K V) K V) α
  | .ok a t => .ok a t.s
  | .throw e t => .throw e t.s
  | .ub => .ub
  | .terminate => .terminate
  | .diverge => .diverge

/-- The program is terminated. -/
def Out.isTerminate {σ α : Type} : Out σ α → Bool
  | .terminate => true
  | _ => false

/-- Nothing happened, except that time may have been read and that objects may have been made and thrown away. -/
def Untouched (s s' : St (Cache K V) K V) : Prop :=
  s'.c = s.c ∧ ∃ i j, s'.g = { s.g with ticks := i, steps := j }

/-- `c'` is `c` without the list node of the entry `n`, whose map node is still there. -/
structure Unlisted (n : MapNode K V) (c c' : Cache K V) : Prop where
  entry : n ∈ elements c
  map : c'.map = c.map
  order : ∃ q, n.info.order = some q ∧ c'.order = c.order.filter (fun l => l.addr != q)
  last : c'.last = none
  capacity : c'.capacity = c.capacity
  kind : c'.kind = c.kind
  obs : c'.obs = c.obs

/-- An insertion of `k` into a full cache was interrupted when it looked for the entry to evict: the map node for `k` has been
added, and that is all. -/
def HalfInserted [KeyEqual K] (k : K) (v : V) (s s' : St (Cache K V) K V) : Prop :=
  ∃ n c, Orphaned k v n s.c s'.c ∧ n.addr = s.g.next ∧ ¬ Stored s.c k ∧ s.c.capacity = some c ∧ count s.c = c ∧ 0 < c

/-- The removal of `k` was interrupted after its list node was removed: the map node is still there. -/
def HalfErased [KeyEqual K] (k : K) (s s' : St (Cache K V) K V) : Prop :=
  ∃ n, Unlisted n s.c s'.c ∧ keq k n.key = true ∧ s.c.last = some n.addr ∧ s'.g = s.g

/-- Some of the least recently used entries are gone, and otherwise only time may have been read. -/
structure Trimmed (s s' : St (Cache K V) K V) : Prop where
  elements : ∃ j, elements s'.c = (elements s.c).drop j
  capacity : s'.c.capacity = s.c.capacity
  kind : s'.c.kind = s.c.kind
  obs : s'.c.obs = s.c.obs
  shared : ∃ i j, s'.g = { s.g with ticks := i, steps := j }

/-- How often the user's functions have been called after the call. -/
def Out.used {α : Type} : Out (FSt K V) α → Option Nat
  | .ok _ t => some t.uses
  | .throw _ t => some t.uses
  | _ => none

/-- Between use number `i` of the user's functions and use number `j` there was none at which either function throws. -/
def Faults.Spared (F : Faults) (i j : Nat) : Prop :=
  i ≤ j ∧ ∀ n, i ≤ n → n < j → ¬ (F.search n = true ∧ F.compare n = true)

/-- Calls that ask in a `noexcept` function whether an entry has expired, for which they search. -/
def Op.asksExpiry : Op K V → Bool
  | .hasExpired _ | .hasExpiredO _ | .isValidO _ | .oKey _ | .oValue _ | .eraseO _ => true
  | _ => false

/-- The call does what it does when nothing fails, and then no function has thrown; or it terminates the program, because a
function threw: the comparison with the last accessed key, or a search in a call that asks whether an entry has expired; or
it throws, because a search failed, the last one it made, and leaves behind a state that satisfies `P`. -/
def Interruptible [KeyEqual K] [DecidableEq K] (O : Oracle K V) (F : Faults) (op : Op K V) (t : FSt K V)
    (P : St (Cache K V) K V → Prop) : Prop :=
  ((Impl.fstep O F op t).plain = Impl.step O op t.s ∧ ∀ u, (Impl.fstep O F op t).used = some u → F.Spared t.uses u) ∨
    (Impl.fstep O F op t = .terminate ∧
      ∃ i, F.Spared t.uses i ∧ (F.compare i = true ∨ op.asksExpiry = true ∧ F.search i = true)) ∨
    ∃ t' i, Impl.fstep O F op t = .throw .hash t' ∧ P t'.s ∧ t'.uses = i + 1 ∧ F.Spared t.uses i ∧ F.search i = true

/-- Calls that add or remove entries in several steps, with a search between them. -/
def Op.gradual : Op K V → Bool
  | .insert .. | .emplace .. | .insertRange _ | .insertRangeMove _ | .assignRange _ | .assignRangeMove _ | .erase _ | .shrink _
  | .setCapacity _ | .clearExpired => true
  | _ => false

/-- The insertions of a range were interrupted: `l1` has been inserted (by `op l1`), and the insertion of the next pair was
interrupted before it had any effect, or half-way. -/
def RangeCut [KeyEqual K] [DecidableEq K] (O : Oracle K V) (op : List (K × V) → Op K V) (l : List (K × V))
    (s s' : St (Cache K V) K V) : Prop :=
  ∃ l1 k v l2 m s1, l = l1 ++ (k, v) :: l2 ∧ Returns O (op l1) s (.nat m) s1 ∧ (Untouched s1 s' ∨ HalfInserted k v s1 s')

/-- Neither function ever throws. -/
def Faults.none : Faults := ⟨fun _ => false, fun _ => false⟩

end LRU
