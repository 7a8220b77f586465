import Verif.Model.Types
/-!
# Floating-point numbers

The library computes with floating-point numbers in two places: the default `Duration` of `TimedCache` is
`std::chrono::duration<double, std::milli>` (`timed-cache.hpp` 70), and `Statistics` has rates
(`statistics.hpp` 119-126). The rest of the model has whole numbers (`Kind.expired`) and exact quotients
(`Statistics.hitRate`) in these places. Here each operation is followed by a rounding `rnd`. `binary64` and `binary32`
are the roundings of `double` and `float` of IEEE 754 in the default mode, to nearest, ties to even; numbers so large
that they would be rounded to infinity do not occur below.
-/

set_option autoImplicit false

namespace LRU

/-- The nearest whole number; of two that are equally near, the even one. -/
def halfEven (w : Rat) : Int :=
  let f := w.floor
  if w - f < 1 / 2 then f
  else if 1 / 2 < w - f then f + 1
  else if f % 2 = 0 then f
  else f + 1

/-- How many of the binary digits of `x`, the last of which stands for `2 ^ -q`, are too many for `p` digits. -/
def surplus (p q : Nat) (x : Rat) : Nat := (x.abs * 2 ^ q).floor.toNat.log2 + 1 - p

/-- The nearest number with `p` binary digits, none of them less than `2 ^ -q`. -/
def nearest (p q : Nat) (x : Rat) : Rat :=
  (halfEven (x * 2 ^ q / 2 ^ surplus p q x) * 2 ^ surplus p q x : Int) / 2 ^ q

/-- `double`: 53 digits; the smallest positive number is `2 ^ -1074`. -/
def binary64 : Rat → Rat := nearest 53 1074

/-- `float`: 24 digits; the smallest positive number is `2 ^ -149`. -/
def binary32 : Rat → Rat := nearest 24 149

/-- `std::chrono::duration_cast` of `n` units to a duration with floating-point numbers, where each of the units is `num / den`
of the new ones (the standard, [time.duration.cast], distinguishes the same four cases). -/
def durationCast (rnd : Rat → Rat) (num den : Nat) (n : Int) : Rat :=
  if den = 1 then if num = 1 then rnd n else rnd (rnd n * num)
  else if num = 1 then rnd (rnd n / den)
  else rnd (rnd (rnd n * num) / den)

/-- `timed-cache.hpp` 375-378 `_has_expired` for a `Duration` with floating-point numbers, whose unit is `den / num` ticks
of the clock: `d` ticks have passed since the insertion. A tick of `std::chrono::steady_clock` is a nanosecond in the
usual libraries, so that `num = 1` and `den = 1000000` for the default, milliseconds. -/
def floatExpired (rnd : Rat → Rat) (num den : Nat) (ttl : Rat) (d : Int) : Bool := decide (durationCast rnd num den d > ttl)

/-- `statistics.hpp` 119-121 `hit_rate()`. -/
def floatHitRate (rnd : Rat → Rat) (hits total : Nat) : Rat := rnd (rnd hits / rnd total)

/-- `statistics.hpp` 124-126 `miss_rate()`. -/
def floatMissRate (rnd : Rat → Rat) (hits total : Nat) : Rat := rnd (1 - floatHitRate rnd hits total)

end LRU
