import Verif.Model.Layers
import Verif.Spec.Reenter
/-!
# Programs whose callbacks use several caches
-/

set_option autoImplicit false

namespace LRU

variable {K V : Type} [KeyEqual K] [DecidableEq K] [DecidableEq V]

/-- The call on cache `i` returns `r` or throws. -/
def LPerforms (O : Oracle K V) (F : Nat → Event K V → WScript K V) (i : Nat) (op : Op K V) (w : World K V)
    (res : Except Err (Res K V)) (w' : World K V) : Prop :=
  ∃ depth, match res with
    | .ok r => Impl.stepL O F depth [] i op w = .ok r w'
    | .error e => Impl.stepL O F depth [] i op w = .throw e w'

/-- The behaviour of the call is undefined. -/
def LUndefined (O : Oracle K V) (F : Nat → Event K V → WScript K V) (i : Nat) (op : Op K V) (w : World K V) : Prop :=
  ∃ depth, Impl.stepL O F depth [] i op w = .ub

/-- The call never ends: the calls nested in it exceed every bound. -/
def LForever (O : Oracle K V) (F : Nat → Event K V → WScript K V) (i : Nat) (op : Op K V) (w : World K V) : Prop :=
  ∀ depth, Impl.stepL O F depth [] i op w = .diverge

/-- Programs: steps on caches as in `Prog`, and calls whose callbacks use caches. `own`: the caches that do not hold a copy. -/
inductive LProg (O : Oracle K V) (F : Nat → Event K V → WScript K V) : World K V → (Nat → Bool) → Prop
  | init : LProg O F Impl.initWorld (fun _ => true)
  | step {w w' own r} (op : WOp K V) : LProg O F w own → Impl.wstep O op w = .ok r w' → LProg O F w' (ownAfter w own op)
  | throw {w w' own e} (op : WOp K V) : LProg O F w own → Impl.wstep O op w = .throw e w' → LProg O F w' (ownAfter w own op)
  | call {w w' own i op res} : LProg O F w own → LPerforms O F i op w res w' → LProg O F w' own

/-- All calls the callback can make satisfy `P`. -/
def WScript.Only (P : Nat → Op K V → Prop) : WScript K V → Prop
  | .done => True
  | .call j op next => P j op ∧ ∀ r, (next r).Only P

/-- Layers: the callbacks of a cache use only caches of lower rank. -/
def Layered (rank : Nat → Nat) (F : Nat → Event K V → WScript K V) : Prop :=
  ∀ i e, (F i e).Only fun j _ => rank j < rank i

/-- Tiers: the callbacks of a cache use only that cache and caches of lower rank. -/
def Tiered (rank : Nat → Nat) (F : Nat → Event K V → WScript K V) : Prop :=
  ∀ i e, (F i e).Only fun j _ => j = i ∨ rank j < rank i

/-- The event tells of a hit. -/
def Event.Hits : Event K V → Prop
  | .hit .. | .access _ _ true => True
  | _ => False

/-- The same environment, but nothing fails, and the clock skips the `δ` readings after reading `t`. -/
def Oracle.lag (O : Oracle K V) (t δ : Nat) : Oracle K V :=
  { O with clock := fun n => O.clock (if n ≤ t then n else n + δ), fails := fun _ _ => false }

/-- Calls that take no iterators and no references and register no callbacks. -/
def Op.Plain (op : Op K V) : Prop := op.Manages ∨ ∃ k, op.Accesses k

/-- The call registers callbacks or clears them. -/
def Op.Registers (op : Op K V) : Prop := ∃ l, op.registers l = true

/-- The callbacks of the caches in `U` use caches in `U`: those of lower rank as they like (no iterators, no references),
their own cache on a miss to change it and on a hit to ask for facts about it. -/
def Orderly (U : Nat → Bool) (rank : Nat → Nat) (F : Nat → Event K V → WScript K V) : Prop :=
  ∀ i, U i = true → ∀ e,
    (e.Hits → (F i e).Only fun j op => U j = true ∧ (j = i ∧ op.Inspects ∨ rank j < rank i ∧ (op.Plain ∨ op.Registers))) ∧
    (¬ e.Hits → (F i e).Only fun j op => U j = true ∧ (j = i ∧ op.Manages ∨ rank j < rank i ∧ (op.Plain ∨ op.Registers)))

/-- A miss in cache `a` is looked up in cache `b`, and what is found there is stored in `a`. Other callbacks do nothing. -/
def readThrough (a b i : Nat) : Event K V → WScript K V
  | .miss _ k =>
    if i = a then
      .call b (.lookup k) fun r => match r with
        | .ok (.ref _ v) => .call a (.insert k v) fun _ => .done
        | _ => .done
    else .done
  | _ => .done

end LRU
