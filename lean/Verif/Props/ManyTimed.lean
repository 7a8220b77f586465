import Verif.Proofs.ManyTimed
import Verif.Props.TimedMachine
import Verif.Props.Many
/-!
# C79: programs with several caches of both classes

`Library.tells` (`Spec.ManyTimed`) computes what a program learns that uses several textbook LRU maps, some of them plain and
some with expiry: it creates them in all ways, calls them, swaps, moves, compares and destroys them. Each step is made at one
point in time. `World.tellsTimed` is what the program learns from the caches. Nothing fails (`Calm`), the program compiles
(`compiles`), and the clock shows the time of the step while it runs (`Paced`; without that there need not be any explanation,
`C71_no_explanation`). Copies are excluded: they share internal iterators with their source (C28).
-/

set_option linter.unusedSectionVars false
set_option autoImplicit false

namespace LRU

variable {K V : Type} [KeyEqual K] [DecidableEq K] [DecidableEq V] {O O' : Oracle K V} {w w' : World K V}
  {types : List CacheType}

/-- C79. A program that uses several caches, from its start: it learns what several textbook LRU maps would tell. -/
theorem C79_same_answers (hC : Calm O) (prog : List (WOp K V × Int)) (hc : compiles [] (prog.map Prod.fst) = true)
    (hp : Impl.initWorld.Paced O prog) : Impl.initWorld.tellsTimed O (prog.map Prod.fst) = Library.tells [] prog :=
  tellsTimed_eq hC prog .init ⟨rfl, fun i c h => by cases i <;> cases h⟩ hc hp

/-- C79. The same for the rest of a program that has so far done anything but copy: callbacks, statistics, addresses and
shortcuts make no difference. -/
theorem C79_same_answers_later (hC : Calm O) (hw : Reach O (fun op => op.copies = false) w) (hT : w.HasTypes types)
    (prog : List (WOp K V × Int)) (hc : compiles types (prog.map Prod.fst) = true) (hp : w.Paced O prog) :
    w.tellsTimed O (prog.map Prod.fst) = w.library.tells prog := tellsTimed_eq hC prog hw hT hc hp

/-- C79. Two such programs in two environments that hold the same LRU maps, with the same times and times to live, cannot be
told apart by what they do next at the same times. -/
theorem C79_contents_decide (hC : Calm O) (hC' : Calm O') (hw : Reach O (fun op => op.copies = false) w)
    (hw' : Reach O' (fun op => op.copies = false) w') (hT : w.HasTypes types) (hT' : w'.HasTypes types)
    (hs : w.library = w'.library) (prog : List (WOp K V × Int)) (hc : compiles types (prog.map Prod.fst) = true)
    (hp : w.Paced O prog) (hp' : w'.Paced O' prog) :
    w.tellsTimed O (prog.map Prod.fst) = w'.tellsTimed O' (prog.map Prod.fst) := by
  rw [tellsTimed_eq hC prog hw hT hc hp, tellsTimed_eq hC' prog hw' hT' hc hp', hs]

theorem Library.tells_ne_other (lib : Library K V) (prog : List (WOp K V × Int)) : Tidings.other ∉ lib.tells prog := by
  induction prog generalizing lib with
  | nil => exact List.not_mem_nil
  | cons x prog ih =>
    obtain ⟨op, now⟩ := x
    rw [Library.tells]
    split
    · simp
    · simp
    · next a lib' _ _ =>
      intro h
      rcases List.mem_cons.1 h with h | h
      · cases h
      · exact ih lib' h

/-- C79. If the textbook gives every step of the program a meaning, no step has undefined behaviour; and in no case does a step
throw anything but `KeyNotFound` and `KeyExpired` or fail to return. -/
theorem C79_no_surprises (hC : Calm O) (prog : List (WOp K V × Int)) (hc : compiles [] (prog.map Prod.fst) = true)
    (hp : Impl.initWorld.Paced O prog) :
    (.undefined ∈ Impl.initWorld.tellsTimed O (prog.map Prod.fst) ↔ .undefined ∈ Library.tells [] prog) ∧
      .other ∉ Impl.initWorld.tellsTimed O (prog.map Prod.fst) := by
  rw [C79_same_answers hC prog hc hp]
  exact ⟨Iff.rfl, Library.tells_ne_other _ _⟩

/-! ### A program that meets the hypotheses -/

/-- Three timed caches, a plain one, and two that are move-constructed. The swap exchanges the times to live too, so what had
expired before it is expired after it. The move assignment gives both caches the time to live of the source. -/
def demoLibrary : List (WOp Nat Nat × Int) :=
  [(.create (.timed 2 10) (.sized 2), 0), (.create (.timed 5 10) (.initList [(1, 10), (2, 20)]), 10),
   (.create .basic (.items [(1, 10), (2, 20)]), 10), (.op 0 (.insert 1 10), 10), (.op 0 (.insert 2 20), 10), (.eq 0 1, 12),
   (.op 0 (.insert 2 20), 20), (.eq 0 1, 20), (.create (.timed 5 10) (.initList [(1, 10), (2, 20)]), 20), (.eq 1 3, 20),
   (.op 0 (.find 1), 39), (.op 0 (.find 1), 40), (.op 0 (.hasExpired 1), 40), (.op 1 (.find 1), 40), (.swap 0 1, 40),
   (.op 0 (.find 1), 40), (.op 1 (.lookup 1), 40), (.op 2 (.find 1), 40), (.moveAssign 0 1, 45), (.op 1 (.hasExpired 1), 45),
   (.op 0 .allExpired, 45), (.op 1 .clearExpired, 45), (.op 1 .size, 45), (.op 0 .capacity, 45), (.moveCtor 1, 50),
   (.op 1 (.setCapacity 1), 50), (.op 1 (.insert 7 70), 50), (.op 1 (.lookup 7), 79), (.op 1 (.lookup 7), 80),
   (.op 4 .isEmpty, 80), (.moveCtor 2, 80), (.destroy 0, 80), (.op 2 (.contains 1), 80), (.op 3 (.find 2), 81),
   (.op 2 (.insert 1 1), 81), (.op 3 .size, 82)]

/-- The clock shows those times while the program runs. -/
def libraryO : Oracle Nat Nat :=
  { calmO with clock := fun n =>
      [10, 10, 10, 10, 20, 20, 39, 40, 40, 40, 40, 40, 45, 45, 45, 45, 50, 79, 80, 81].getD n 81 }

theorem libraryO_calm : Calm libraryO := calmO_calm

/-- What the textbook tells. -/
example : Library.tells [] demoLibrary =
    [.says .unit, .says .unit, .says .unit, .says (.stored true (some (1, 10))), .says (.stored true (some (2, 20))),
     .says (.bool true), .says (.stored false (some (2, 20))), .says (.bool true), .says .unit, .says (.bool false),
     .says (.item (some (1, 10))), .says (.item none), .says (.bool true), .says (.item (some (1, 10))), .says .unit,
     .says (.item (some (1, 10))), .says .notFound, .says (.item (some (1, 10))), .says .unit, .says (.bool true),
     .says (.bool true), .says (.nat 2), .says (.nat 0), .says (.nat 2), .says .unit, .says .unit,
     .says (.stored true (some (7, 70))), .says (.value 70), .says .notFound, .says (.bool true), .says .unit, .says .unit,
     .says (.bool false), .says (.item none), .undefined] := by decide +kernel

/-- `World.Paced`, as a test. -/
def pacedWorldTest (O : Oracle Nat Nat) : World Nat Nat → List (WOp Nat Nat × Int) → Bool
  | _, [] => true
  | w, (op, now) :: ops =>
    match Impl.wstep O op w with
    | .ok _ w' | .throw _ w' =>
      (List.range w'.g.ticks).all (fun n => decide (n < w.g.ticks) || O.clock n == now) && pacedWorldTest O w' ops
    | _ => true

theorem paced_of_world_test {O : Oracle Nat Nat} {ops : List (WOp Nat Nat × Int)} {w : World Nat Nat}
    (h : pacedWorldTest O w ops = true) : w.Paced O ops := by
  induction ops generalizing w with
  | nil => trivial
  | cons x ops ih =>
    obtain ⟨op, now⟩ := x
    have key : ∀ w' : World Nat Nat,
        ((List.range w'.g.ticks).all (fun n => decide (n < w.g.ticks) || O.clock n == now) && pacedWorldTest O w' ops) = true →
        (∀ n, w.g.ticks ≤ n → n < w'.g.ticks → O.clock n = now) ∧ w'.Paced O ops := by
      intro w' h
      rw [Bool.and_eq_true_iff, List.all_eq_true] at h
      refine ⟨fun n h1 h2 => ?_, ih h.2⟩
      have h3 := h.1 n (List.mem_range.2 h2)
      rw [Bool.or_eq_true_iff, decide_eq_true_iff, beq_iff_eq] at h3
      rcases h3 with h3 | h3
      · omega
      · exact h3
    unfold pacedWorldTest at h
    unfold World.Paced
    cases hs : Impl.wstep O op w with
    | ok r w' => rw [hs] at h; exact key w' h
    | throw e w' => rw [hs] at h; exact key w' h
    | _ => trivial

/-- The hypotheses hold, and the caches tell the same. -/
example : Calm libraryO ∧ compiles [] (demoLibrary.map Prod.fst) = true ∧ Impl.initWorld.Paced libraryO demoLibrary ∧
    Impl.initWorld.tellsTimed libraryO (demoLibrary.map Prod.fst) = Library.tells [] demoLibrary :=
  ⟨libraryO_calm, by decide +kernel, paced_of_world_test (by decide +kernel), by decide +kernel⟩

/-- A program that adds callbacks and statistics and moves caches. -/
def demoObservedBoth : List (WOp Nat Nat) :=
  [.create (.timed 2 10) (.sized 2), .op 0 (.addHitCallback 1), .op 0 (.monitorNew [1]), .op 0 (.insert 1 10),
   .op 0 (.find 1), .create .basic (.sized 3), .moveCtor 0]

/-- The hypotheses of the other theorems hold for it: what the caches are, and what they tell next. -/
example : (∀ op ∈ demoObservedBoth, op.copies = false) ∧
    (exec libraryO demoObservedBoth Impl.initWorld).map (fun w => w.caches.map (Option.map fun c => c.kind.type)) =
      some [some (.timed 10), some .plain, some (.timed 10)] ∧
    compiles [.timed 10, .plain, .timed 10] ([.op 2 (.find 1), .eq 0 2, .op 0 .isFull] : List (WOp Nat Nat)) = true ∧
    (exec libraryO demoObservedBoth Impl.initWorld).map (fun w => pacedWorldTest libraryO w [(.op 2 (.find 1), 10), (.eq 0 2, 10)]) =
      some true ∧
    (exec libraryO demoObservedBoth Impl.initWorld).map (fun w => w.tellsTimed libraryO [.op 2 (.find 1), .eq 0 2, .op 0 .isFull]) =
      some [.says (.item (some (1, 10))), .says (.bool false), .undefined] :=
  ⟨by decide +kernel, by decide +kernel, by decide +kernel, by decide +kernel, by decide +kernel⟩

end LRU
