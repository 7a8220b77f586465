import Verif.Model.Monad
/-!
# Statistics

`include/lru/statistics.hpp`, `include/lru/key-statistics.hpp`,
`include/lru/internal/statistics-mutator.hpp`.
Counters are natural numbers (no `size_t` overflow).
-/

namespace LRU

/-- `key-statistics.hpp` 35-63: hits and misses of one key. -/
structure KeyStats where
  hits : Nat := 0
  misses : Nat := 0
  deriving DecidableEq, Repr

/-- `key-statistics.hpp` `accesses()`: hits plus misses. -/
def KeyStats.accesses (s : KeyStats) : Nat := s.hits + s.misses

/-- `statistics.hpp` 233-247: the members of a `Statistics` object. `_key_map` is a
`std::unordered_map<Key, KeyStatistics>` with the default key equality `==`; only its content matters. -/
structure Statistics (K : Type) where
  total : Nat := 0
  hits : Nat := 0
  keys : List (K × KeyStats) := []
  deriving DecidableEq

namespace Statistics

variable {K : Type} [DecidableEq K]

/-- `_key_map.find(key)`. -/
def find (s : Statistics K) (k : K) : Option KeyStats :=
  (s.keys.find? (fun p => p.1 = k)).map (·.2)

/-- Change the record of `k` in place, if there is one. -/
def updateKey (s : Statistics K) (k : K) (f : KeyStats → KeyStats) : Statistics K :=
  { s with keys := s.keys.map (fun p => if p.1 = k then (p.1, f p.2) else p) }

/-- `statistics.hpp` 172-175 `monitor(key)`: `emplace` does nothing if the key is present. -/
def monitor (s : Statistics K) (k : K) : Statistics K :=
  match s.find k with
  | some _ => s
  | none => { s with keys := s.keys ++ [(k, {})] }

/-- `statistics.hpp` 60-101: the constructors (default, keys, range, iterators, initializer list)
all start from zero and `monitor` each key in order. -/
def ofKeys (ks : List K) : Statistics K := ks.foldl monitor {}

/-- `statistics.hpp` 104-106. -/
def totalAccesses (s : Statistics K) : Nat := s.total

/-- `statistics.hpp` 109-111. -/
def totalHits (s : Statistics K) : Nat := s.hits

/-- `statistics.hpp` 114-116: `total_accesses() - total_hits()` on unsigned numbers. `none` stands
for wrap-around below zero. -/
def totalMisses (s : Statistics K) : Option Nat :=
  if s.hits ≤ s.total then some (s.total - s.hits) else none

/-- `statistics.hpp` 119-121: a floating-point division, modelled by the exact quotient.
`none` stands for the division by zero (NaN or infinity). -/
def hitRate (s : Statistics K) : Option Rat :=
  if s.total = 0 then none else some ((s.hits : Rat) / (s.total : Rat))

/-- `statistics.hpp` 124-126: `1 - hit_rate()`. -/
def missRate (s : Statistics K) : Option Rat := s.hitRate.map (fun r => 1 - r)

/-- `statistics.hpp` 152-159 `stats_for(key)`; `hits_for`, `misses_for`, `accesses_for` (131-147)
project it. -/
def statsFor (s : Statistics K) (k : K) : Except Err KeyStats :=
  match s.find k with
  | none => .error .unmonitoredKey
  | some x => .ok x

/-- `statistics.hpp` 182-189 `unmonitor(key)`. -/
def unmonitor (s : Statistics K) (k : K) : Except Err (Statistics K) :=
  match s.find k with
  | none => .error .unmonitoredKey
  | some _ => .ok { s with keys := s.keys.filter (fun p => p.1 ≠ k) }

/-- `statistics.hpp` 192-194 `unmonitor_all()`. -/
def unmonitorAll (s : Statistics K) : Statistics K := { s with keys := [] }

/-- `statistics.hpp` 199-206 `reset_key(key)`. -/
def resetKey (s : Statistics K) (k : K) : Except Err (Statistics K) :=
  match s.find k with
  | none => .error .unmonitoredKey
  | some _ => .ok (s.updateKey k (fun _ => {}))

/-- `statistics.hpp` 218-220 `is_monitoring(key)`. -/
def isMonitoring (s : Statistics K) (k : K) : Bool := (s.find k).isSome

/-- `statistics.hpp` 223-225. -/
def numberOfMonitoredKeys (s : Statistics K) : Nat := s.keys.length

/-- `statistics.hpp` 229-231. -/
def isMonitoringKeys (s : Statistics K) : Bool := !s.keys.isEmpty

/-- `internal/statistics-mutator.hpp` 79-89 `register_hit`. -/
def registerHit (s : Statistics K) (k : K) : Statistics K :=
  let s := { s with total := s.total + 1, hits := s.hits + 1 }
  s.updateKey k (fun x => { x with hits := x.hits + 1 })

/-- `internal/statistics-mutator.hpp` 94-103 `register_miss`. -/
def registerMiss (s : Statistics K) (k : K) : Statistics K :=
  let s := { s with total := s.total + 1 }
  s.updateKey k (fun x => { x with misses := x.misses + 1 })

end Statistics

end LRU
