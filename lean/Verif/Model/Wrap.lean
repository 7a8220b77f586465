import Verif.Model.World
/-!
# Wrapped functions

`wrap.hpp` 36-95. A program that uses wrappers is modelled with the caches inside the wrappers only: they are static
variables of the lambda's call operator, which no other part of the program can refer to.

`K` is the type of tuples of (decayed) arguments, `V` the return type. Not modelled: arguments and return values that are
references, and calls from several threads at once.
-/

set_option autoImplicit false

namespace LRU

/-- A call of the original function, as seen by the wrapper: it returns, throws, or calls some wrapped function and goes on
with its result or exception. This covers recursive functions that call their own wrapper. -/
inductive Body (K V : Type) where
  | ret (v : V)
  | throw (e : Err)
  | call (f : Nat) (k : K) (next : Except Err V → Body K V)

/-- `wrap.hpp` 53 `cache_args = std::forward_as_tuple(std::forward<Args>(args)...)`: what the closure stores are
*references* to the arguments, here addresses of objects. Arguments of the constructors of `Cache` (`cache.hpp` 81-85) and
`TimedCache` (`timed-cache.hpp` 88-95), the latter with one unit of `Duration` being `res` ticks. -/
inductive CacheArgs where
  | basic
  | sized (capacity : Nat)
  | timed (res : Nat) (ttl : Nat)
  | timedSized (res : Nat) (ttl capacity : Nat)
  deriving DecidableEq

/-- `wrap.hpp` 51-78: a closure. `type` is its type: there is one for every combination of template arguments of `wrap`,
hence the same one for all functions of the same type. -/
structure Wrapper (K V : Type) where
  type : Nat
  /-- what a call of `original_function` does, given all evaluations so far: functions may keep a state -/
  fn : List (Nat × K) → K → Body K V
  args : CacheArgs

/-- The state of a program with wrapped functions. -/
structure Memo (K V : Type) where
  world : World K V
  /-- `wrap.hpp` 62-64 `static auto cache`: one per closure type, created by the first call -/
  statics : Nat → Option Nat
  /-- objects that were passed as `args` (`none`: destroyed) -/
  mem : List (Option Int)
  wrappers : List (Wrapper K V)
  /-- every evaluation of an original function, newest first: through which wrapper, with which arguments -/
  evals : List (Nat × K)
  /-- every call of a wrapper that returned, newest first: of which closure type, with which arguments -/
  done : List (Nat × K)

namespace Impl

variable {K V : Type}

/-- Act on the caches of the program. -/
def lift {α : Type} (m : M (World K V) α) : M (Memo K V) α := fun σ =>
  match m σ.world with
  | .ok a w => .ok a { σ with world := w }
  | .throw e w => .throw e { σ with world := w }
  | .ub => .ub
  | .terminate => .terminate
  | .diverge => .diverge

/-- Read an object through a reference; undefined behaviour if the object is gone. -/
def readRef (a : Nat) : M (Memo K V) Int := fun σ =>
  match σ.mem[a]? with
  | some (some v) => .ok v σ
  | _ => .ub

/-- Conversion to a 64-bit `std::size_t`. -/
def toSizeT (v : Int) : Nat := (v % 2 ^ 64).toNat

variable [KeyEqual K] [DecidableEq K] [DecidableEq V] (O : Oracle K V)

/-- `internal/utility.hpp` 47-60 `construct_from_tuple`: the arguments are read now. -/
def construct : CacheArgs → M (Memo K V) Unit
  | .basic => lift (create O .basic .default)
  | .sized a => do
    let n ← readRef a
    lift (create O .basic (.sized (toSizeT n)))
  | .timed res d => do
    let ttl ← readRef d
    lift (create O (timedKind ttl res) .default)
  | .timedSized res d a => do
    let ttl ← readRef d
    let n ← readRef a
    lift (create O (timedKind ttl res) (.sized (toSizeT n)))

/-- `wrap.hpp` 62-64: the static variable is initialised by the first call that gets here, whichever closure (of the type)
it is made through. -/
def staticCache (f : Wrapper K V) : M (Memo K V) Nat := fun σ =>
  match σ.statics f.type with
  | some i => .ok i σ
  | none => M.bind (construct O f.args) (fun _ σ' =>
      .ok σ.world.caches.length { σ' with
        statics := fun τ => if τ = f.type then some σ.world.caches.length else σ'.statics τ }) σ

/-- The closure object `f`. -/
def getWrapper (f : Nat) : M (Memo K V) (Wrapper K V) := fun σ =>
  match σ.wrappers[f]? with
  | some x => .ok x σ
  | none => .ub

/-- Note that the original function is being evaluated; returns the earlier evaluations. -/
def noteEval (f : Nat) (k : K) : M (Memo K V) (List (Nat × K)) := fun σ =>
  .ok σ.evals { σ with evals := (f, k) :: σ.evals }

/-- Note that a call returns. -/
def noteDone (type : Nat) (k : K) : M (Memo K V) Unit := M.modify fun σ => { σ with done := (type, k) :: σ.done }

/-- Run the original function; `call` performs calls of wrapped functions. -/
def evalBody (call : Nat → K → M (Memo K V) V) : Body K V → M (Memo K V) V
  | .ret v => pure v
  | .throw e => M.throw e
  | .call f k next => fun σ =>
    match call f k σ with
    | .ok v σ' => evalBody call (next (.ok v)) σ'
    | .throw e σ' => evalBody call (next (.error e)) σ'
    | .ub => .ub
    | .terminate => .terminate
    | .diverge => .diverge

/-- `wrap.hpp` 54-78: the call operator of wrapper `f` with arguments `k`. The first argument bounds the depth of nested
calls. `iterator->second` (70) is `base-iterator.hpp` 182-184, which does not check the iterator. -/
def callWrapper : Nat → Nat → K → M (Memo K V) V
  | 0, _, _ => M.diverge
  | depth + 1, f, k => do
    let self ← getWrapper f
    let cache ← staticCache O self
    let iterator ← lift (onCache cache (find O k))
    match iterator with
    | some p => do
      let value ← lift (onCache cache (read p))
      noteDone self.type k
      pure value
    | none => do
      let before ← noteEval f k
      let value ← evalBody (callWrapper depth) (self.fn before k)
      let _ ← lift (onCache cache (emplace O k value))
      noteDone self.type k
      pure value

/-- A new object, say a variable or a temporary; returns its address. -/
def newObject (v : Int) : M (Memo K V) Nat := fun σ => .ok σ.mem.length { σ with mem := σ.mem ++ [some v] }

/-- Assign to an object. -/
def setObject (a : Nat) (v : Int) : M (Memo K V) Unit := M.modify fun σ => { σ with mem := σ.mem.set a (some v) }

/-- The lifetime of an object ends. -/
def endObject (a : Nat) : M (Memo K V) Unit := M.modify fun σ => { σ with mem := σ.mem.set a none }

/-- `wrap.hpp` 47-79 `wrap(original_function, args...)`; returns the new closure. -/
def wrap (type : Nat) (fn : List (Nat × K) → K → Body K V) (args : CacheArgs) : M (Memo K V) Nat := fun σ =>
  .ok σ.wrappers.length { σ with wrappers := σ.wrappers ++ [⟨type, fn, args⟩] }

/-- The statement `auto f = LRU::wrap(fn, n);` with a literal or another temporary `n`. -/
def wrapTemporary (type : Nat) (fn : List (Nat × K) → K → Body K V) (n : Int) : M (Memo K V) Nat := do
  let a ← newObject n
  let f ← wrap type fn (.sized a)
  endObject a
  pure f

/-- `wrap.hpp` 91-95 `timed_wrap(original_function, duration)`: `duration` is a parameter of `timed_wrap`, passed on to
`wrap` as an lvalue; its lifetime ends when `timed_wrap` returns. -/
def timedWrap (type : Nat) (fn : List (Nat × K) → K → Body K V) (res : Nat) (duration : Int) : M (Memo K V) Nat := do
  let d ← newObject duration
  let f ← wrap type fn (.timed res d)
  endObject d
  pure f

/-- Before anything happened. -/
def initMemo : Memo K V := { world := initWorld, statics := fun _ => none, mem := [], wrappers := [], evals := [], done := [] }

end Impl

end LRU
