import Verif.Model.Statistics
import Verif.Model.Hash
/-!
# Statistics with machine integers

`Model.Statistics` counts with natural numbers. The counters of `statistics.hpp` and `key-statistics.hpp` are of type
`std::size_t` and wrap around. Here is the same class with 64-bit words.
-/

set_option autoImplicit false

namespace LRU

/-- `key-statistics.hpp` 35-63: hits and misses of one key. -/
structure WordKeyStats where
  hits : SizeT := 0#64
  misses : SizeT := 0#64
  deriving DecidableEq, Repr

/-- `key-statistics.hpp` 48-50 `accesses()`. -/
def WordKeyStats.accesses (s : WordKeyStats) : SizeT := s.hits + s.misses

/-- `statistics.hpp` 233-247: the members of a `Statistics` object. -/
structure WordStatistics (K : Type) where
  total : SizeT := 0#64
  hits : SizeT := 0#64
  keys : List (K × WordKeyStats) := []
  deriving DecidableEq

/-- Calls that change a `Statistics` object: registrations by caches (`statistics-mutator.hpp` 79-103) and public calls
(`statistics.hpp` 172-206). -/
inductive StatCall (K : Type) where
  | hit (k : K) | miss (k : K) | monitor (k : K) | unmonitor (k : K) | unmonitorAll | resetKey (k : K)
  deriving DecidableEq

namespace WordStatistics

variable {K : Type} [DecidableEq K]

/-- `_key_map.find(key)`. -/
def find (s : WordStatistics K) (k : K) : Option WordKeyStats :=
  (s.keys.find? (fun p => p.1 = k)).map (·.2)

/-- Change the record of `k` in place, if there is one. -/
def updateKey (s : WordStatistics K) (k : K) (f : WordKeyStats → WordKeyStats) : WordStatistics K :=
  { s with keys := s.keys.map (fun p => if p.1 = k then (p.1, f p.2) else p) }

/-- `statistics.hpp` 172-175 `monitor(key)`. -/
def monitor (s : WordStatistics K) (k : K) : WordStatistics K :=
  match s.find k with
  | some _ => s
  | none => { s with keys := s.keys ++ [(k, {})] }

/-- `statistics.hpp` 60-101: the constructors. -/
def ofKeys (ks : List K) : WordStatistics K := ks.foldl monitor {}

/-- `statistics.hpp` 104-106. -/
def totalAccesses (s : WordStatistics K) : SizeT := s.total

/-- `statistics.hpp` 109-111. -/
def totalHits (s : WordStatistics K) : SizeT := s.hits

/-- `statistics.hpp` 114-116: the subtraction wraps around. -/
def totalMisses (s : WordStatistics K) : SizeT := s.totalAccesses - s.totalHits

/-- `statistics.hpp` 119-121, as an exact quotient; `none` stands for the division by zero. -/
def hitRate (s : WordStatistics K) : Option Rat :=
  if s.totalAccesses = 0#64 then none else some ((s.totalHits.toNat : Rat) / (s.totalAccesses.toNat : Rat))

/-- `statistics.hpp` 124-126. -/
def missRate (s : WordStatistics K) : Option Rat := s.hitRate.map (fun r => 1 - r)

/-- `statistics.hpp` 152-159 `stats_for(key)`. -/
def statsFor (s : WordStatistics K) (k : K) : Except Err WordKeyStats :=
  match s.find k with
  | none => .error .unmonitoredKey
  | some x => .ok x

/-- `statistics.hpp` 182-189 `unmonitor(key)`. -/
def unmonitor (s : WordStatistics K) (k : K) : Except Err (WordStatistics K) :=
  match s.find k with
  | none => .error .unmonitoredKey
  | some _ => .ok { s with keys := s.keys.filter (fun p => p.1 ≠ k) }

/-- `statistics.hpp` 192-194 `unmonitor_all()`. -/
def unmonitorAll (s : WordStatistics K) : WordStatistics K := { s with keys := [] }

/-- `statistics.hpp` 199-206 `reset_key(key)`. -/
def resetKey (s : WordStatistics K) (k : K) : Except Err (WordStatistics K) :=
  match s.find k with
  | none => .error .unmonitoredKey
  | some _ => .ok (s.updateKey k (fun _ => {}))

/-- `internal/statistics-mutator.hpp` 79-89 `register_hit`. -/
def registerHit (s : WordStatistics K) (k : K) : WordStatistics K :=
  let s := { s with total := s.total + 1#64, hits := s.hits + 1#64 }
  s.updateKey k (fun x => { x with hits := x.hits + 1#64 })

/-- `internal/statistics-mutator.hpp` 94-103 `register_miss`. -/
def registerMiss (s : WordStatistics K) (k : K) : WordStatistics K :=
  let s := { s with total := s.total + 1#64 }
  s.updateKey k (fun x => { x with misses := x.misses + 1#64 })

/-- A call; one that throws leaves the object alone. -/
def call (s : WordStatistics K) : StatCall K → WordStatistics K
  | .hit k => s.registerHit k
  | .miss k => s.registerMiss k
  | .monitor k => s.monitor k
  | .unmonitor k => match s.unmonitor k with | .ok s' => s' | .error _ => s
  | .unmonitorAll => s.unmonitorAll
  | .resetKey k => match s.resetKey k with | .ok s' => s' | .error _ => s

/-- Calls in a row. -/
def calls (s : WordStatistics K) (l : List (StatCall K)) : WordStatistics K := l.foldl call s

end WordStatistics

end LRU
