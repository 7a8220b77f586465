import Verif.Model.Wrap
import Verif.Spec.Stack
/-!
# Programs with wrapped functions, and what is expected of them
-/

set_option autoImplicit false

namespace LRU

variable {K V : Type}

/-- The body, whenever it returns, returns `v`, provided that all nested calls return what `F` says or throw. -/
def Computes (F : Nat → K → V) (v : V) : Body K V → Prop
  | .ret u => u = v
  | .throw _ => True
  | .call f k next => Computes F v (next (.ok (F f k))) ∧ ∀ e, Computes F v (next (.error e))

/-- The body makes nested calls to the first `n` wrappers only. -/
def CallsBelow (n : Nat) : Body K V → Prop
  | .ret _ => True
  | .throw _ => True
  | .call f _ next => f < n ∧ ∀ r, CallsBelow n (next r)

/-- The body does not throw unless a nested call does, makes nested calls only to the first `n` wrappers and only with
smaller arguments (measured by `μ`). -/
def Settles (n : Nat) (μ : Nat → K → Nat) (m : Nat) : Body K V → Prop
  | .ret _ => True
  | .throw _ => False
  | .call f k next => f < n ∧ μ f k < m ∧ ∀ v, Settles n μ m (next (.ok v))

/-- The wrapped functions are deterministic: `F f k` is what the function wrapped by `f` returns for the arguments `k`.
Arguments that compare equal are not distinguished. All functions wrapped in closures of one type agree. -/
structure Deterministic [KeyEqual K] (F : Nat → K → V) (fs : List (Wrapper K V)) : Prop where
  computes : ∀ f x, fs[f]? = some x → ∀ h k, Computes F (F f k) (x.fn h k)
  respects : ∀ f x, fs[f]? = some x → ∀ k k', keq k k' = true → F f k = F f k'
  agree : ∀ f g x y, fs[f]? = some x → fs[g]? = some y → x.type = y.type → ∀ k, F f k = F g k

/-- The objects the references refer to exist. -/
def CacheArgs.Alive (mem : List (Option Int)) : CacheArgs → Prop
  | .basic => True
  | .sized a => ∃ n, mem[a]? = some (some n)
  | .timed _ d => ∃ t, mem[d]? = some (some t)
  | .timedSized _ d a => (∃ t, mem[d]? = some (some t)) ∧ ∃ n, mem[a]? = some (some n)

/-- Every wrapper can be called: the static cache of its closure type exists already, or the references it holds are
valid. -/
def Memo.Armed (σ : Memo K V) : Prop :=
  ∀ (f : Nat) (x : Wrapper K V), σ.wrappers[f]? = some x → σ.statics x.type ≠ none ∨ x.args.Alive σ.mem

/-- A state a program can get into. Exceptions that leave wrapped functions are caught somewhere. -/
inductive MReach [KeyEqual K] [DecidableEq K] [DecidableEq V] (O : Oracle K V) : Memo K V → Prop
  | init : MReach O Impl.initMemo
  | newObject {σ σ' a} (v : Int) : MReach O σ → Impl.newObject v σ = .ok a σ' → MReach O σ'
  | setObject {σ σ' u} (a : Nat) (v : Int) : MReach O σ → Impl.setObject a v σ = .ok u σ' → MReach O σ'
  | endObject {σ σ' u} (a : Nat) : MReach O σ → Impl.endObject a σ = .ok u σ' → MReach O σ'
  | wrap {σ σ' a} (type : Nat) (fn : List (Nat × K) → K → Body K V) (args : CacheArgs) : MReach O σ →
      Impl.wrap type fn args σ = .ok a σ' → MReach O σ'
  | call {σ σ' v} (depth f : Nat) (k : K) : MReach O σ → Impl.callWrapper O depth f k σ = .ok v σ' → MReach O σ'
  | callThrow {σ σ' e} (depth f : Nat) (k : K) : MReach O σ → Impl.callWrapper O depth f k σ = .throw e σ' → MReach O σ'

/-- The arguments of the calls of closures of type `τ` that returned, newest first. -/
def Memo.argsOf (σ : Memo K V) (τ : Nat) : List K := (σ.done.filter (fun d => d.1 == τ)).map (·.2)

/-- The cache used by closures of type `τ`, once it exists. -/
def Memo.cacheOf (σ : Memo K V) (τ : Nat) : Option (Cache K V) :=
  match σ.statics τ with
  | none => none
  | some i => match σ.world.caches[i]? with
    | some (some c) => some c
    | _ => none

/-- The class and capacity that the arguments ask for, as they are now. -/
def CacheArgs.asks (mem : List (Option Int)) : CacheArgs → Option (Kind × Nat)
  | .basic => some (.basic, DEFAULT_CAPACITY)
  | .sized a =>
    match mem[a]? with
    | some (some n) => some (.basic, Impl.toSizeT n)
    | _ => none
  | .timed res d =>
    match mem[d]? with
    | some (some t) => some (timedKind t res, DEFAULT_CAPACITY)
    | _ => none
  | .timedSized res d a =>
    match mem[d]?, mem[a]? with
    | some (some t), some (some n) => some (timedKind t res, Impl.toSizeT n)
    | _, _ => none

end LRU
