/-!
# The hash function for tuples

`internal/hash.hpp` 34-59: the specialisation of `std::hash` for `std::tuple`, which makes tuples of arguments usable as
keys (`wrap.hpp`).
-/

set_option autoImplicit false

namespace LRU

/-- A 64-bit `std::size_t`. -/
abbrev SizeT := BitVec 64

variable {n : Nat} {T : Fin n → Type}

/-- `internal/hash.hpp` 45-54 and 56-58 `hash_tuple`: recursion over the index sequence. `h i` is the hash function of the
`i`-th element type. (`0x9e3779b9` is an `unsigned int`, converted to `std::size_t` by the addition.) -/
def hashTuple (h : ∀ i, T i → SizeT) (t : ∀ i, T i) : List (Fin n) → SizeT
  | [] => 0#64
  | i :: is =>
    let current := h i (t i)
    let seed := hashTuple h t is
    current + 0x9e3779b9#64 + (seed <<< 6) + (seed >>> 2)

/-- `internal/hash.hpp` 40-42 `operator()`: all indices, in order. -/
def tupleHash (h : ∀ i, T i → SizeT) (t : ∀ i, T i) : SizeT := hashTuple h t (List.finRange n)

end LRU
