import Verif.Spec.Layers
import Verif.Spec.Record
import Verif.Spec.ReenterTrace
/-!
# What callbacks that use any caches were told and did
-/

set_option autoImplicit false

namespace LRU

variable {K V : Type} [KeyEqual K] [DecidableEq K] [DecidableEq V]

/-- Calls on caches and how they ended. -/
abbrev WCalls (K V : Type) := List (Nat × Op K V × Except Err (Res K V))

/-- The callback ran to its end and these are the calls it made. -/
def WScript.Did : WScript K V → WCalls K V → Prop
  | .done, l => l = []
  | .call j op next, l => ∃ r l', l = (j, op, r) :: l' ∧ (next r).Did l'

/-- Nothing happened, except that time passed. -/
structure Passes (w w' : World K V) : Prop where
  caches : w'.caches = w.caches
  log : w'.g.log = w.g.log
  stats : w'.g.stats = w.g.stats
  nextStat : w'.g.nextStat = w.g.nextStat
  next : w.g.next ≤ w'.g.next
  ticks : w.g.ticks ≤ w'.g.ticks

/-- These calls, and nothing else, led from one state to the other. -/
inductive WVia (O : Oracle K V) (F : Nat → Event K V → WScript K V) : World K V → WCalls K V → World K V → Prop
  | nil {w w'} : Passes w w' → WVia O F w [] w'
  | call {w w1 w2 w' j op res l} : Passes w w1 → LPerforms O F j op w1 res w2 → WVia O F w2 l w' →
      WVia O F w ((j, op, res) :: l) w'

/-- A callback is told something. -/
def World.tell (w : World K V) (e : Event K V) : World K V := ⟨w.caches, { w.g with log := w.g.log ++ [e] }⟩

/-- The callbacks of cache `i` were told these things, one after the other; each did what it does when told that; the
calls that it made meanwhile are given with it. Nothing else happened. -/
inductive Briefed (O : Oracle K V) (F : Nat → Event K V → WScript K V) (i : Nat) :
    World K V → List (Event K V × WCalls K V) → World K V → Prop
  | nil {w w'} : Passes w w' → Briefed O F i w [] w'
  | cons {w w1 w2 w' e l t} : Passes w w1 → (F i e).Did l → WVia O F (w1.tell e) l w2 → Briefed O F i w2 t w' →
      Briefed O F i w ((e, l) :: t) w'

/-- An access of `k` was counted, by the statistics object of cache `i` if it has one. Nothing else happened. -/
structure OneCounted (i : Nat) (k : K) (hit : Bool) (w w' : World K V) : Prop where
  caches : w'.caches = w.caches
  log : w'.g.log = w.g.log
  nextStat : w'.g.nextStat = w.g.nextStat
  next : w.g.next ≤ w'.g.next
  ticks : w.g.ticks ≤ w'.g.ticks
  counted : ∀ c n, w.caches[i]? = some (some c) → c.obs.stats = some n → Counted k hit (w.g.stats n) (w'.g.stats n)
  others : ∀ c n, w.caches[i]? = some (some c) → c.obs.stats ≠ some n → w'.g.stats n = w.g.stats n

end LRU
