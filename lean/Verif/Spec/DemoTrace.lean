import Verif.Spec.Demo
import Verif.Spec.Trace
/-!
# Concrete runs and traces
-/

set_option autoImplicit false

namespace LRU

variable {K V : Type} [KeyEqual K] [DecidableEq K]

/-- Make the calls (oldest first), recording them (newest first) after `h`. -/
def runFrom (O : Oracle K V) : List (Op K V) → List (Call K V) → St (Cache K V) K V →
    Option (List (Call K V) × St (Cache K V) K V)
  | [], h, s => some (h, s)
  | op :: ops, h, s =>
    match Impl.step O op s with
    | .ok r s' => runFrom O ops (⟨op, .ok r, s, s'⟩ :: h) s'
    | .throw e s' => runFrom O ops (⟨op, .error e, s, s'⟩ :: h) s'
    | _ => none

theorem runFrom_run {O : Oracle K V} {ops : List (Op K V)} {h h' : List (Call K V)} {s0 s s' : St (Cache K V) K V}
    (he : runFrom O ops h s = some (h', s')) (hr : Run O s0 h s) : Run O s0 h' s' := by
  induction ops generalizing h s with
  | nil =>
    injection he with he
    injection he with h1 h2
    subst h1 h2
    exact hr
  | cons op ops ih =>
    unfold runFrom at he
    cases hs : Impl.step O op s with
    | ok r s1 => rw [hs] at he; exact ih he (hr.call (res := .ok r) hs)
    | throw e s1 => rw [hs] at he; exact ih he (hr.call (res := .error e) hs)
    | ub => rw [hs] at he; cases he
    | terminate => rw [hs] at he; cases he
    | diverge => rw [hs] at he; cases he

variable [DecidableEq V]

/-- Make the program steps (oldest first), recording them (newest first) after `h`. -/
def traceFrom (O : Oracle K V) : List (WOp K V) → List (WCall K V) → World K V → Option (List (WCall K V) × World K V)
  | [], h, w => some (h, w)
  | op :: ops, h, w =>
    match Impl.wstep O op w with
    | .ok r w' => traceFrom O ops (⟨op, .ok r, w, w'⟩ :: h) w'
    | .throw e w' => traceFrom O ops (⟨op, .error e, w, w'⟩ :: h) w'
    | _ => none

theorem traceFrom_trace {O : Oracle K V} {ops : List (WOp K V)} {h h' : List (WCall K V)} {w0 w w' : World K V}
    (he : traceFrom O ops h w = some (h', w')) (hr : Trace O w0 h w) : Trace O w0 h' w' := by
  induction ops generalizing h w with
  | nil =>
    injection he with he
    injection he with h1 h2
    subst h1 h2
    exact hr
  | cons op ops ih =>
    unfold traceFrom at he
    cases hs : Impl.wstep O op w with
    | ok r s1 => rw [hs] at he; exact ih he (hr.step (res := .ok r) hs)
    | throw e s1 => rw [hs] at he; exact ih he (hr.step (res := .error e) hs)
    | ub => rw [hs] at he; cases he
    | terminate => rw [hs] at he; cases he
    | diverge => rw [hs] at he; cases he

end LRU
