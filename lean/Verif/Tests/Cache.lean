import Verif.Tests.Script
/-!
# `tests/cache-test.cpp`

Strings are numbered: "one" is 1 and so on; the decimal numbers used as keys are their values plus 1000. The two tests of
custom hash functions and key equalities (117-151) are in `Tests/Counts.lean`.
-/

set_option autoImplicit false

namespace LRU.Tests

/-- {{"one", 1}, {"two", 2}, {"three", 3}} -/
def three : List (Nat × Nat) := [(1, 1), (2, 2), (3, 3)]

/-- `IsConstructibleFromInitializerList` (46-56). -/
example : Pass [cache (.initList three), no .isEmpty, num .size 3,
    on (.lookup 1) (.value 1), on (.lookup 2) (.value 2), on (.lookup 3) (.value 3)] = true := by decide +kernel

/-- `IsConstructibleFromInitializerListWithCapacity` (58-70). -/
example : Pass [cache (.sizedItems 2 three), no .isEmpty, num .size 2, no (.contains 1),
    on (.lookup 2) (.value 2), on (.lookup 3) (.value 3)] = true := by decide +kernel

/-- `IsConstructibleFromRange`, `IsConstructibleFromIterators` (72-96). -/
example : Pass [cache (.items three), no .isEmpty, num .size 3,
    on (.lookup 1) (.value 1), on (.lookup 2) (.value 2), on (.lookup 3) (.value 3)] = true := by decide +kernel

/-- `CapacityIsMaxOfInternalDefaultAndIteratorDistance` (98-115). The range has 131 elements when it is assigned and when it is used by the second constructor (its elements
have been moved from, but that makes strings empty, not the range shorter; the model does not say what the moved-from keys
are, so that the same range is used). -/
example :
    let range := three ++ (List.range 128).map (fun i => (i + 1000, i))
    Pass [cache (.items three), num .capacity 128, on (.assignRangeMove range), num .capacity 131,
      cache (.items range), on1 .capacity (.is (.nat 131))] = true := by decide +kernel

/-- `ContainsAfterInsertion`, `ContainsAfteEmplacement` (153-177). -/
example : Pass ([cache .default, yes .isEmpty] ++
    (List.range 100).flatMap (fun i => [on (.insert (i + 1001) (i + 1)), num .size (i + 1), yes (.contains (i + 1001))]) ++
    [no .isEmpty]) = true := by decide +kernel
example : Pass ([cache .default, yes .isEmpty] ++
    (List.range 100).flatMap (fun i => [on (.emplace (i + 1001) (i + 1)), num .size (i + 1), yes (.contains (i + 1001))]) ++
    [no .isEmpty]) = true := by decide +kernel

/-- `RemovesLRUElementWhenFull` (179-195). -/
example : Pass [cache .default, on (.setCapacity 2), num .capacity 2, on (.emplace 1 1), on (.emplace 2 2), num .size 2,
    yes (.contains 1), yes (.contains 2), on (.emplace 3 3), num .size 2, yes (.contains 2), yes (.contains 3),
    no (.contains 1)] = true := by decide +kernel

/-- `LookupReturnsTheRightValue` (197-205). -/
example : Pass ([cache .default] ++ (List.range 10).flatMap (fun i =>
    [on (.emplace (i + 1001) (i + 1)), num .size (i + 1), on (.lookup (i + 1001)) (.value (i + 1)),
      on (.lookup (i + 1001)) (.value (i + 1))])) = true := by decide +kernel

/-- `LookupOnlyThrowsWhenKeyNotFound` (207-218). -/
example : Pass [cache .default, on (.emplace 1 1), num .size 1, on (.lookup 1) (.value 1),
    on (.lookup 2) (.throws .keyNotFound), on (.lookup 3) (.throws .keyNotFound), on (.emplace 2 2),
    on (.lookup 2) (.value 2)] = true := by decide +kernel

/-- `SizeIsUpdatedProperly` (220-236). -/
example : Pass ([cache .default, num .size 0] ++
    (List.range 10).flatMap (fun i => [on (.emplace (i + 1001) (i + 1)), num .size (i + 1)]) ++
    (List.range 10).flatMap (fun i => [num .size (10 - i), on (.erase (1010 - i))]) ++ [num .size 0]) = true := by
  decide +kernel

/-- `SpaceLeftWorks` (238-248). -/
example : Pass ([cache .default, on (.setCapacity 10), num .size 0] ++
    (List.range 10).flatMap (fun i => [on .spaceLeft (.is (.optNat (some (10 - i)))), on (.emplace (1010 - i) (10 - i))]) ++
    [on .spaceLeft (.is (.optNat (some 0)))]) = true := by decide +kernel

/-- `IsEmptyWorks`, `ClearRemovesAllElements` (250-256, 319-327). -/
example : Pass [cache .default, yes .isEmpty, on (.emplace 1 1), no .isEmpty, on .clear, yes .isEmpty] = true := by
  decide +kernel

/-- `IsFullWorks` (258-271). -/
example : Pass [cache .default, no .isFull, on (.setCapacity 0), yes .isFull, on (.setCapacity 2), on (.emplace 1 1),
    no .isFull, on (.emplace 2 1), yes .isFull, on .clear, no .isFull] = true := by decide +kernel

/-- `CapacityCanBeAdjusted` (273-304). -/
example : Pass ([cache .default, on (.setCapacity 10), num .capacity 10] ++
    (List.range 10).map (fun i => on (.emplace (i + 1000) i)) ++
    [num .size 10, on (.emplace 51 7), num .size 10, on (.setCapacity 11), num .capacity 11, on (.emplace 52 7),
      num .size 11, on (.setCapacity 5), num .capacity 5, num .size 5, on (.setCapacity 0), num .capacity 0, num .size 0,
      on (.setCapacity 128), num .capacity 128, num .size 0]) = true := by decide +kernel

/-- `EraseErasesAndReturnsTrueWhenElementContained`, `EraseReturnsFalseWhenElementNotContained` (306-317). -/
example : Pass [cache .default, on (.emplace 1 1), yes (.contains 1), yes (.erase 1), no (.contains 1)] = true := by
  decide +kernel
example : Pass [cache .default, no (.contains 1), no (.erase 1)] = true := by decide +kernel

/-- `ShrinkAdjustsSizeWell` (329-351). -/
example : Pass [cache .default, on (.emplace 1 1), on (.emplace 2 2), num .size 2, on (.shrink 1), num .size 1,
    on (.emplace 3 2), on (.emplace 4 3), num .size 3, on (.shrink 1), num .size 1, on (.shrink 0), yes .isEmpty]
    = true := by decide +kernel

/-- `ShrinkDoesNothingWhenRequestedSizeIsGreaterThanCurrent` (353-362). -/
example : Pass [cache .default, on (.emplace 1 1), on (.emplace 2 2), num .size 2, on (.shrink 50), num .size 2]
    = true := by decide +kernel

/-- `ShrinkRemovesLRUElements` (364-384). -/
example : Pass [cache .default, on (.emplace 1 1), on (.emplace 2 2), on (.emplace 3 3), num .size 3, on (.shrink 2),
    num .size 2, no (.contains 1), yes (.contains 2), yes (.contains 3), on (.shrink 1), num .size 1, no (.contains 1),
    no (.contains 2), yes (.contains 3)] = true := by decide +kernel

/-- `CanInsertIterators` (386-401). -/
example : Pass [cache .default, num (.insertRange three) 3, contentIs 0 three, num (.insertRange [(1, 1), (4, 4)]) 1,
    contentIs 0 [(2, 2), (3, 3), (1, 1), (4, 4)]] = true := by decide +kernel

/-- `CanInsertRange`, `CanInsertList` (403-419). -/
example : Pass [cache .default, on (.insertRange three), contentIs 0 three] = true := by decide +kernel

/-- `CapacityIsSameAfterCopy`, `CapacityIsSameAfterMove` (453-465). Copies are made by copy-initialization, which does not consider the constructor taking a range. -/
example : Pass [cache .default, on (.setCapacity 100), .call (.copyCtor 0) .any, num .capacity 100,
    on1 .capacity (.is (.nat 100))] = true := by decide +kernel
example : Pass [cache .default, on (.setCapacity 100), .call (.moveCtor 0) .any, on1 .capacity (.is (.nat 100))]
    = true := by decide +kernel

/-- `ComparisonOperatorWorks` (467-483). -/
example : Pass [cache .default, .call (.eq 0 0) (.is (.bool true)), .call (.copyCtor 0) .any,
    .call (.eq 0 1) (.is (.bool true)), on (.emplace 1 1), on1 (.emplace 1 1), .call (.eq 0 1) (.is (.bool true)),
    on (.emplace 2 2), on1 (.emplace 2 2), .call (.eq 0 1) (.is (.bool true)), on (.erase 2),
    .call (.eq 0 1) (.is (.bool false))] = true := by decide +kernel

/-- `SwapWorks` (485-500). -/
example : Pass [cache .default, .call (.copyCtor 0) .any, on (.emplace 1 1), on1 (.emplace 2 2), yes (.contains 1),
    on1 (.contains 2) (.is (.bool true)), .call (.swap 0 1) .any, no (.contains 1), yes (.contains 2),
    on1 (.contains 2) (.is (.bool false)), on1 (.contains 1) (.is (.bool true))] = true := by decide +kernel

/-- `SizeStaysZeroWhenCapacityZero` (502-521). The iterator is `end()`. -/
example : Pass [cache .default, on (.setCapacity 0), num .capacity 0, num .size 0,
    on (.insert 1 1) (.is (.inserted false none)), num .capacity 0, num .size 0,
    on (.emplace 2 2) (.is (.inserted false none)), num .capacity 0, num .size 0] = true := by decide +kernel

/-- `ResultIsCorrectForInsert`, `ResultIsCorrectForEmplace` (421-451): `i == cache.begin()`. -/
example : IPass .basic .default [.call (.insert 0 1 1) (.inserted true), .call (.begin 1 false) .any,
    .call (.eq 0 1) (.is (.bool true)), .call (.insert 0 1 1) (.inserted false), .call (.begin 1 false) .any,
    .call (.eq 0 1) (.is (.bool true))] = true := by decide +kernel

/-- `LookupsMoveElementsToFront` (523-545). -/
example : IPass .basic .default [.call (.call (.setCapacity 2)) .any, .call (.call (.insertRange [(1, 1), (2, 2)])) .any,
    .call (.find 0 1) .any, .call (.convertMove 1 0) .any, .call (.call (.emplace 3 3)) .any,
    .call (.call (.contains 1)) (.is (.bool true)), .call (.call (.contains 2)) (.is (.bool false)),
    .call (.call (.contains 3)) (.is (.bool true)), .call (.fin 2 true) .any, .call (.dec 2) .any,
    .call (.key 2) (.is (.key 3)), .call (.call .front) (.is (.key 3)), .call (.call .back) (.is (.key 1)),
    .call (.call (.lookup 1)) (.value 1), .call (.fin 2 true) .any, .call (.dec 2) .any,
    .call (.key 2) (.is (.key 1)), .call (.begin 3 true) .any, .call (.key 3) (.is (.key 3)),
    .call (.call .front) (.is (.key 1)), .call (.call .back) (.is (.key 3))] = true := by decide +kernel

end LRU.Tests
