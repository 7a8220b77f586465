import Verif.Model.Types
/-!
# Durations with machine integers

`TimedCache` takes any `Duration` (`timed-cache.hpp` 70). `Kind.expired` has integers without bounds and a unit that is a
whole number of ticks of the clock. Here the conversions have the bounds of machine integers: the readings of
`std::chrono::steady_clock` are 64-bit numbers, `duration_cast` computes in the widest of the types involved, which is
`std::intmax_t` with 64 bits, and then converts to the type of the `Duration`, which has `w` bits.
-/

set_option autoImplicit false

namespace LRU

/-- The numbers of a signed type with 64 bits. -/
def fits64 (n : Int) : Bool := decide (-2 ^ 63 ≤ n ∧ n < 2 ^ 63)

/-- `static_cast` to a signed type with `w` bits: the number with the same last `w` bits (so the implementations, and the
standard since C++20). -/
def narrow (w : Nat) (n : Int) : Int := n.bmod (2 ^ w)

/-- `std::chrono::duration_cast` of `n` units to a duration with `w`-bit integers, where each of the units is `num / den` of
the new ones ([time.duration.cast]). `none` stands for signed overflow, which is undefined behaviour. -/
def wordCast (w num den : Nat) (n : Int) : Option Int :=
  if den = 1 then
    if num = 1 then some (narrow w n)
    else if fits64 (n * num) then some (narrow w (n * num)) else none
  else if num = 1 then some (narrow w (n.tdiv den))
  else if fits64 (n * num) then some (narrow w ((n * num).tdiv den)) else none

/-- `timed-cache.hpp` 375-378 `_has_expired`, `d` ticks of the clock after the insertion. -/
def wordExpired (w num den : Nat) (ttl d : Int) : Option Bool := (wordCast w num den d).map (fun e => decide (e > ttl))

end LRU
