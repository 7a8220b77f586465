import Verif.Tests.Script
/-!
# `tests/statistics-test.cpp`
-/

set_option autoImplicit false

namespace LRU.Tests

/-! ### `StatisticsTest`: statistics objects alone -/

/-- Total accesses, hits and misses. -/
def totals (s : Statistics Nat) : Nat × Nat × Option Nat := (s.totalAccesses, s.totalHits, s.totalMisses)

/-- `hits_for`. -/
def hitsFor (s : Statistics Nat) (k : Nat) : Option Nat := (s.statsFor k).toOption.map (·.hits)

/-- `misses_for`. -/
def missesFor (s : Statistics Nat) (k : Nat) : Option Nat := (s.statsFor k).toOption.map (·.misses)

/-- `hit_rate`, `miss_rate`. -/
def rates (s : Statistics Nat) : Option Rat × Option Rat := (s.hitRate, s.missRate)

/-- A statistics object monitoring 1, 2 and 3. -/
def stats123 : Statistics Nat := .ofKeys [1, 2, 3]

/-- `ConstructsWellFrom…` (33-67), `EmptyPreconditions` (69-79). -/
example : [1, 2, 3].all stats123.isMonitoring = true := by decide +kernel
example :
    let s : Statistics Nat := .ofKeys []
    s.isMonitoringKeys = false ∧ s.numberOfMonitoredKeys = 0 ∧ s.isMonitoring 1 = false ∧ s.isMonitoring 2 = false ∧
      totals s = (0, 0, some 0) := by decide +kernel

/-- `StatisticsMutatorCanRegisterHits` (81-109). -/
example :
    let s1 := stats123.registerHit 1
    let s2 := s1.registerHit 1
    let s3 := s2.registerHit 2
    hitsFor s1 1 = some 1 ∧ totals s1 = (1, 1, some 0) ∧ rates s1 = (some 1, some 0) ∧
      hitsFor s2 1 = some 2 ∧ totals s2 = (2, 2, some 0) ∧ rates s2 = (some 1, some 0) ∧
      hitsFor s3 1 = some 2 ∧ hitsFor s3 2 = some 1 ∧ totals s3 = (3, 3, some 0) ∧ rates s3 = (some 1, some 0) := by
  decide +kernel

/-- `StatisticsMutatorCanRegisterMisses` (111-139). -/
example :
    let s1 := stats123.registerMiss 1
    let s2 := s1.registerMiss 1
    let s3 := s2.registerMiss 2
    missesFor s1 1 = some 1 ∧ totals s1 = (1, 0, some 1) ∧ rates s1 = (some 0, some 1) ∧
      missesFor s2 1 = some 2 ∧ totals s2 = (2, 0, some 2) ∧ rates s2 = (some 0, some 1) ∧
      missesFor s3 1 = some 2 ∧ missesFor s3 2 = some 1 ∧ totals s3 = (3, 0, some 3) ∧ rates s3 = (some 0, some 1) := by
  decide +kernel

/-- `CanDynamicallyMonitorAndUnmonitorKeys` (141-169). -/
example :
    let s0 : Statistics Nat := .ofKeys []
    let s1 := s0.monitor 1
    let s2 := s1.monitor 2
    let s3 := (s2.unmonitor 1).toOption.getD {}
    let s4 := s3.unmonitorAll
    s0.numberOfMonitoredKeys = 0 ∧
      s1.numberOfMonitoredKeys = 1 ∧ s1.isMonitoring 1 = true ∧ s1.isMonitoring 2 = false ∧
      s2.numberOfMonitoredKeys = 2 ∧ s2.isMonitoring 1 = true ∧ s2.isMonitoring 2 = true ∧
      s3.numberOfMonitoredKeys = 1 ∧ s3.isMonitoring 1 = false ∧ s3.isMonitoring 2 = true ∧
      s4.isMonitoringKeys = false ∧ s4.isMonitoring 1 = false ∧ s4.isMonitoring 2 = false := by decide +kernel

/-- `ThrowsForUnmonitoredKey` (171-178). -/
example : ∀ k ∈ [1, 2, 3, 4], (Statistics.ofKeys ([] : List Nat)).statsFor k = .error .unmonitoredKey := by
  intro k _
  rfl

/-- `RatesAreCalculatedCorrectly` (180-194). The test compares floating-point numbers; the model's rates are exact. -/
example :
    let s := (List.range 80).foldl (fun s _ => s.registerMiss 1) ((List.range 20).foldl (fun s _ => s.registerHit 1) stats123)
    rates s = (some (1 / 5), some (4 / 5)) := by decide +kernel

/-! ### Caches with statistics -/

/-- `expect_total_stats` for the statistics object 0. -/
def expectTotal (a h m : Nat) : Line := .check fun w => decide (totals (w.g.stats 0) = (a, h, some m))

/-- `CanShareStatistics` (196-228), with three caches in place of three mutators. -/
example : Pass [.call (.newStats [1, 2, 3]) (.is (.nat 0)), cache (.initList [(1, 1)]), cache (.initList [(1, 1)]),
    cache .default, on (.monitor (some 0)), on1 (.monitor (some 0)), .call (.op 2 (.monitor (some 0))) .any,
    on .sharedStats (.is (.optNat (some 0))), on1 .sharedStats (.is (.optNat (some 0))),
    .call (.op 2 .stats) (.is (.nat 0)),
    yes (.contains 1), expectTotal 1 1 0, .check (fun w => hitsFor (w.g.stats 0) 1 == some 1),
    on1 (.contains 1) (.is (.bool true)), expectTotal 2 2 0, .check (fun w => hitsFor (w.g.stats 0) 1 == some 2),
    .call (.op 2 (.contains 2)) (.is (.bool false)), expectTotal 3 2 1,
    .check (fun w => hitsFor (w.g.stats 0) 1 == some 2 && missesFor (w.g.stats 0) 1 == some 0 &&
      hitsFor (w.g.stats 0) 2 == some 0 && missesFor (w.g.stats 0) 2 == some 1)] = true := by decide +kernel

/-- `RequestForCacheStatisticsThrowsWhenNoneRegistered` (244-247). -/
example : Pass [cache .default, on .stats (.throws .notMonitoring)] = true := by decide +kernel

/-- `CanRegisterLValueStatistics`, `CanRegisterRValueStatistics` (249-286). -/
example : Pass [cache .default, .call (.newStats []) (.is (.nat 0)), on (.monitor (some 0)), yes .isMonitoring,
    on .stats (.is (.nat 0)), on (.contains 1), expectTotal 1 0 1, on (.emplace 1 2), on (.contains 1),
    expectTotal 2 1 1] = true := by decide +kernel

/-- `CanConstructItsOwnStatistics` (288-306). -/
example : Pass [cache .default, on (.monitorNew [1, 2, 3]), yes .isMonitoring,
    .check (fun w => [1, 2, 3].all (w.g.stats 0).isMonitoring), on (.contains 1), expectTotal 1 0 1, on (.emplace 1 2),
    on (.contains 1), expectTotal 2 1 1] = true := by decide +kernel

/-- `KnowsWhenItIsMonitoring` (308-318). -/
example : Pass [cache .default, no .isMonitoring, on (.monitorNew []), yes .isMonitoring, on .stopMonitoring,
    no .isMonitoring] = true := by decide +kernel

/-- `StatisticsWorkWithCache` (320-361). -/
example : Pass [cache .default, on (.monitorNew [1]), yes .isMonitoring, expectTotal 0 0 0, on (.contains 1),
    expectTotal 1 0 1, on (.emplace 1 1), expectTotal 1 0 1, on (.contains 1), expectTotal 2 1 1, on (.find 2),
    expectTotal 3 1 2, on (.emplace 2 2), on (.find 2), expectTotal 4 2 2, on (.lookup 3) (.throws .keyNotFound),
    expectTotal 5 2 3, on (.emplace 3 3), on (.lookup 3) (.value 3), expectTotal 6 3 3,
    on (.lookup 4) (.throws .keyNotFound), expectTotal 7 3 4, on (.emplace 4 4), on (.lookup 4) (.value 4),
    expectTotal 8 4 4] = true := by decide +kernel

/-- `StopsMonitoringWhenAsked` (363-375). -/
example : Pass [cache .default, .call (.newStats [1]) (.is (.nat 0)), on (.monitor (some 0)), on (.emplace 1 1),
    yes (.contains 1), .check (fun w => hitsFor (w.g.stats 0) 1 == some 1), on .stopMonitoring, yes (.contains 1),
    .check (fun w => hitsFor (w.g.stats 0) 1 == some 1)] = true := by decide +kernel

end LRU.Tests
