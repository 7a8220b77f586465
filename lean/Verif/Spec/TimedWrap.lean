import Verif.Spec.Wrap
import Verif.Spec.Time
/-!
# What later calls of wrapped functions find
-/

set_option autoImplicit false

namespace LRU

variable {K V : Type}

/-- A program went from `σ` to `σ'`: it made and destroyed objects, wrapped functions, and called wrappers. -/
inductive MPath [KeyEqual K] [DecidableEq K] [DecidableEq V] (O : Oracle K V) (σ : Memo K V) : Memo K V → Prop
  | refl : MPath O σ σ
  | newObject {τ τ' a} (v : Int) : MPath O σ τ → Impl.newObject v τ = .ok a τ' → MPath O σ τ'
  | setObject {τ τ' u} (a : Nat) (v : Int) : MPath O σ τ → Impl.setObject a v τ = .ok u τ' → MPath O σ τ'
  | endObject {τ τ' u} (a : Nat) : MPath O σ τ → Impl.endObject a τ = .ok u τ' → MPath O σ τ'
  | wrap {τ τ' a} (type : Nat) (fn : List (Nat × K) → K → Body K V) (args : CacheArgs) : MPath O σ τ →
      Impl.wrap type fn args τ = .ok a τ' → MPath O σ τ'
  | call {τ τ' v} (depth f : Nat) (k : K) : MPath O σ τ → Impl.callWrapper O depth f k τ = .ok v τ' → MPath O σ τ'
  | callThrow {τ τ' e} (depth f : Nat) (k : K) : MPath O σ τ → Impl.callWrapper O depth f k τ = .throw e τ' →
      MPath O σ τ'

theorem MPath.reach [KeyEqual K] [DecidableEq K] [DecidableEq V] {O : Oracle K V} {σ σ' : Memo K V}
    (h : MPath O σ σ') (hσ : MReach O σ) : MReach O σ' := by
  induction h with
  | refl => exact hσ
  | newObject v _ he ih => exact .newObject v ih he
  | setObject a v _ he ih => exact .setObject a v ih he
  | endObject a _ he ih => exact .endObject a ih he
  | wrap type fn args _ he ih => exact .wrap type fn args ih he
  | call d f k _ he ih => exact .call d f k ih he
  | callThrow d f k _ he ih => exact .callThrow d f k ih he

/-- At the `n`-th reading of the clock an entry for `k` is stored, and no older than the time to live. -/
def LiveFor [KeyEqual K] (O : Oracle K V) (ttl : Int) (res : Nat) (c : Cache K V) (n : Nat) (k : K) : Prop :=
  ∃ x, entryFor c k = some x ∧ elapsed O res x n ≤ ttl

end LRU
