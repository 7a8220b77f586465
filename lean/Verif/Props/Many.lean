import Verif.Proofs.Many
import Verif.Props.Machine
/-!
# C76: programs with several plain caches

`Shelf.tells` (`Spec.Many`) computes what a program learns that uses several textbook LRU maps: it creates them in all ways,
calls them, swaps, moves, compares and destroys them. `World.tells` is what it learns from the caches. The answers include
undefined behaviour: the textbook says where a step has no meaning, and the caches have undefined behaviour exactly there.
Nothing fails (`Calm`). Copies are excluded: they share internal iterators with their source (C28).
-/

set_option linter.unusedSectionVars false
set_option autoImplicit false

namespace LRU

variable {K V : Type} [KeyEqual K] [DecidableEq K] [DecidableEq V] {O O' : Oracle K V} {w w' : World K V}

/-- C76. A program that uses several plain caches, from its start: it learns what several textbook LRU maps would tell. -/
theorem C76_same_answers (hC : Calm O) (ops : List (WOp K V)) (hops : ∀ op ∈ ops, op.plain = true) :
    Impl.initWorld.tells O ops = Shelf.tells [] ops :=
  tells_eq hC ops .init (fun i c h => by cases i <;> cases h) hops

/-- C76. The same for the rest of a program that has so far done anything but copy, and whose caches are plain: their
callbacks, statistics, addresses and shortcuts make no difference. -/
theorem C76_same_answers_later (hC : Calm O) (hw : Reach O (fun op => op.copies = false) w)
    (hp : ∀ (i : Nat) (c : Cache K V), w.caches[i]? = some (some c) → c.kind = .basic) (ops : List (WOp K V))
    (hops : ∀ op ∈ ops, op.plain = true) : w.tells O ops = w.shelf.tells ops := tells_eq hC ops hw hp hops

/-- C76. Two such programs in two environments that hold the same LRU maps cannot be told apart by what they do next. -/
theorem C76_contents_decide (hC : Calm O) (hC' : Calm O') (hw : Reach O (fun op => op.copies = false) w)
    (hw' : Reach O' (fun op => op.copies = false) w')
    (hp : ∀ (i : Nat) (c : Cache K V), w.caches[i]? = some (some c) → c.kind = .basic)
    (hp' : ∀ (i : Nat) (c : Cache K V), w'.caches[i]? = some (some c) → c.kind = .basic) (hs : w.shelf = w'.shelf)
    (ops : List (WOp K V)) (hops : ∀ op ∈ ops, op.plain = true) : w.tells O ops = w'.tells O' ops := by
  rw [tells_eq hC ops hw hp hops, tells_eq hC' ops hw' hp' hops, hs]

theorem Shelf.tells_ne_other (sh : Shelf K V) (ops : List (WOp K V)) : Tidings.other ∉ sh.tells ops := by
  induction ops generalizing sh with
  | nil => exact List.not_mem_nil
  | cons op ops ih =>
    rw [Shelf.tells]
    split
    · simp
    · simp
    · next a sh' _ _ =>
      intro h
      rcases List.mem_cons.1 h with h | h
      · cases h
      · exact ih sh' h

/-- C76. If the textbook gives every step of the program a meaning, no step has undefined behaviour; and in no case does a step
throw anything but `KeyNotFound` or fail to return. -/
theorem C76_no_surprises (hC : Calm O) (ops : List (WOp K V)) (hops : ∀ op ∈ ops, op.plain = true) :
    (.undefined ∈ Impl.initWorld.tells O ops ↔ .undefined ∈ Shelf.tells [] ops) ∧ .other ∉ Impl.initWorld.tells O ops := by
  rw [C76_same_answers hC ops hops]
  exact ⟨Iff.rfl, Shelf.tells_ne_other _ _⟩

/-- A program with four caches: all steps occur, a moved-from cache is used and revived, and a call on a moved-from cache that
needs its capacity ends the program. -/
def demoShelf : List (WOp Nat Nat) :=
  [.create .basic (.sized 2), .create .basic (.initList [(1, 10), (2, 20), (1, 11)]), .op 0 (.insert 5 50),
   .op 0 (.insert 6 60), .op 0 (.find 5), .op 0 (.insert 7 70), .eq 0 1, .swap 0 1, .op 0 (.lookup 1), .op 0 (.lookup 5),
   .op 1 (.contains 5), .moveCtor 0, .op 0 .size, .op 0 (.contains 1), .op 0 (.setCapacity 1),
   .op 0 (.insertRange [(3, 30), (4, 40)]), .op 2 .capacity, .moveAssign 0 2, .op 0 (.find 2), .op 2 .front, .swap 1 1, .eq 1 1,
   .create .basic (.items [(2, 20), (1, 11), (2, 20)]), .eq 3 0, .destroy 2, .op 3 .capacity, .moveCtor 3, .op 3 .isEmpty,
   .op 3 .capacity, .op 0 .size]

/-- What the textbook tells. -/
example : Shelf.tells [] demoShelf =
    [.says .unit, .says .unit, .says (.stored true (some (5, 50))), .says (.stored true (some (6, 60))),
     .says (.item (some (5, 50))), .says (.stored true (some (7, 70))), .says (.bool false), .says .unit, .says (.value 11),
     .says .notFound, .says (.bool true), .says .unit, .says (.nat 0), .says (.bool false), .says .unit, .says (.nat 2),
     .says (.nat 3), .says .unit, .says (.item (some (2, 20))), .says (.key 4), .says .unit, .says (.bool true), .says .unit,
     .says (.bool true), .says .unit, .says (.nat 128), .says .unit, .says (.bool true), .undefined] := by decide +kernel

/-- The hypotheses hold, and the caches tell the same. -/
example : Calm calmO ∧ (∀ op ∈ demoShelf, op.plain = true) ∧
    Impl.initWorld.tells calmO demoShelf = Shelf.tells [] demoShelf :=
  ⟨calmO_calm, by decide +kernel, by decide +kernel⟩

/-- A program that uses callbacks and statistics and moves a cache. -/
def demoObserved : List (WOp Nat Nat) :=
  [.create .basic (.sized 2), .op 0 (.addHitCallback 1), .op 0 (.monitorNew [1]), .op 0 (.insert 1 10), .op 0 (.find 1),
   .create .basic (.sized 3), .moveCtor 0]

/-- From then on it behaves like a shelf of LRU maps. -/
example : (∀ op ∈ demoObserved, op.copies = false) ∧
    (exec calmO demoObserved Impl.initWorld).map (fun w => w.shelf.map (Option.map fun l => (l.capacity, l.items))) =
      some [some (none, []), some (some 3, []), some (some 2, [(1, 10)])] ∧
    (exec calmO demoObserved Impl.initWorld).map (fun w => w.tells calmO [.op 2 (.find 1), .eq 0 1, .op 0 .isFull]) =
      some [.says (.item (some (1, 10))), .says (.bool true), .undefined] :=
  ⟨by decide +kernel, by decide +kernel, by decide +kernel⟩

/-- Copying is not covered, for a reason: a copy that is used has undefined behaviour. -/
example : (exec calmO ([.create .basic (.sized 2), .op 0 (.insert 1 10), .op 0 (.insert 2 20), .copyCtor 0, .destroy 0] :
      List (WOp Nat Nat)) Impl.initWorld).map (fun w => w.tells calmO [.op 1 .size, .op 1 (.find 1)]) =
    some [.says (.nat 2), .undefined] := by decide +kernel

end LRU
