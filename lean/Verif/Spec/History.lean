import Verif.Spec.Observe
/-!
# Histories of calls on one cache

`History O s h s'`: starting in state `s`, the calls `h` were made on the cache (newest first) and led to `s'`. Each
call is recorded with its outcome and the states around it. In between, other caches may be used: they do not
touch this cache, but read the clock, allocate, and change the shared statistics objects and the log.
-/

set_option autoImplicit false

namespace LRU

variable {K V : Type}

/-- A call and its outcome. -/
structure Call (K V : Type) where
  op : Op K V
  res : Except Err (Res K V)
  before : St (Cache K V) K V
  after : St (Cache K V) K V

/-- Other caches were used between two calls. -/
structure Elsewhere [KeyEqual K] [DecidableEq K] [DecidableEq V] (O : Oracle K V) (s s' : St (Cache K V) K V) : Prop where
  reachable : Reachable O s'
  cache : s'.c = s.c
  ticks : s.g.ticks ≤ s'.g.ticks
  next : s.g.next ≤ s'.g.next

inductive History [KeyEqual K] [DecidableEq K] [DecidableEq V] (O : Oracle K V) (s : St (Cache K V) K V) :
    List (Call K V) → St (Cache K V) K V → Prop
  | nil : History O s [] s
  | ok {h s' s'' op r} : History O s h s' → Returns O op s' r s'' →
      History O s (⟨op, .ok r, s', s''⟩ :: h) s''
  | throw {h s' s'' op e} : History O s h s' → Throws O op s' e s'' →
      History O s (⟨op, .error e, s', s''⟩ :: h) s''
  | elsewhere {h s' s''} : History O s h s' → Elsewhere O s' s'' → History O s h s''

end LRU
