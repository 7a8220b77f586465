import Verif.Model.Ops
/-!
# The example programs of the repository

`README.md` 20-52, 56-82 and 160-186, `examples/fibonacci-basic.cpp`, `examples/fibonacci-timed.cpp`,
`examples/statistics.cpp` and `examples/callbacks.cpp`. These are programs that use a cache; they call the functions of
`Model.Cache`.

Numbers are natural numbers: the examples use `int` or `std::uint64_t`, and overflow is not modelled. For a negative `n`
the programs return 1 without using the cache.
-/

set_option autoImplicit false

namespace LRU

namespace Impl

/-- `fibonacci-basic.cpp` 28-43, `fibonacci-timed.cpp` 31-46, `statistics.cpp` and `callbacks.cpp` 28-43 and `README.md` 26-41,
62-70: `fibonacci(n, cache)`. All of them have the same text, except that the first `README.md` version calls `lookup(n)`
where the others say `cache[n]`; `operator[]` is `lookup` (`base-cache.hpp` 879-886).

`left` chooses which operand of `fibonacci(n - 1, cache) + fibonacci(n - 2, cache)` is evaluated first: C++ leaves that
open, and the choice need not always be the same. -/
def fibonacci (O : Oracle Nat Nat) [KeyEqual Nat] (left : St (Cache Nat Nat) Nat Nat → Nat → Bool) : Nat → CM Nat Nat Nat
  | 0 => pure 1
  | 1 => pure 1
  | n + 2 => do
    if ← contains O (n + 2) then do
      let r ← lookup O (n + 2)
      pure r.2
    else do
      let value ← fun s =>
        if left s (n + 2) then (do
          let a ← fibonacci O left (n + 1)
          let b ← fibonacci O left n
          pure (a + b) : CM Nat Nat Nat) s
        else (do
          let b ← fibonacci O left n
          let a ← fibonacci O left (n + 1)
          pure (a + b) : CM Nat Nat Nat) s
      let _ ← emplace O (n + 2) value
      pure value

variable {K V : Type} [KeyEqual K] [DecidableEq K]

/-- `README.md` 172-182 `MyWebServer::get`; `fetch` is `fetch_expensively`, which does not use the cache and does not
throw. -/
def get (O : Oracle K V) (fetch : K → V) (k : K) : CM K V V := do
  if ← contains O k then do
    let r ← lookup O k
    pure r.2
  else do
    let _ ← insert O k (fetch k)
    pure (fetch k)

end Impl

end LRU
