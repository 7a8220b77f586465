import Verif.Proofs.Watched
import Verif.Props.Machine
/-!
# C80: programs with several plain caches, their statistics and callbacks

`Gallery.hears` (`Spec.Watched`) computes what a program learns that uses several textbook LRU maps, has them report to
statistics objects, registers callbacks and asks the statistics objects; and what the callbacks are told at each step. A
statistics object of the textbook is a journal; its answers are counted from the journal. `World.hears` is what the program
learns from the caches and from the statistics objects, and what the callbacks of the caches are told. Nothing fails (`Calm`).
Copies are excluded: they share internal iterators with their source (C28).
-/

set_option linter.unusedSectionVars false
set_option autoImplicit false

namespace LRU

variable {K V : Type} [KeyEqual K] [DecidableEq K] [DecidableEq V] {O O' : Oracle K V}

/-- C80. A program that uses several plain caches with statistics and callbacks learns what the textbook tells, and its
callbacks are told what the textbook tells, step by step. -/
theorem C80_same_news (hC : Calm O) (ds : List (Deed K V)) (hds : wellNamed 0 ds = true) :
    Impl.initWorld.hears O ds = Gallery.hears ⟨[], []⟩ ds := hears_eq hC ds .init shows_init hds

/-- C80. Hence nothing else matters: not where nodes are placed, in which order the hash table enumerates them, or what the
clock says. -/
theorem C80_nothing_else_matters (hC : Calm O) (hC' : Calm O') (ds : List (Deed K V)) (hds : wellNamed 0 ds = true) :
    Impl.initWorld.hears O ds = Impl.initWorld.hears O' ds := by
  rw [C80_same_news hC ds hds, C80_same_news hC' ds hds]

theorem Gallery.hears_ne_other (g : Gallery K V) (ds : List (Deed K V)) (n : Nat) (hds : wellNamed n ds = true)
    (x : News K V × List (Event K V)) (hx : x ∈ g.hears ds) : x.1 ≠ .other := by
  induction ds generalizing g n with
  | nil => cases hx
  | cons d ds ih =>
    rw [wellNamed, Bool.and_eq_true, Bool.and_eq_true] at hds
    obtain ⟨⟨h1, -⟩, h3⟩ := hds
    cases hr : g.reply d with
    | none =>
      rw [Gallery.hears, hr] at hx
      simp only [List.mem_singleton] at hx
      rw [hx]
      exact fun h => by cases h
    | some y =>
      obtain ⟨a, evs, g'⟩ := y
      have ha : a ≠ .other := by
        have hinj : ∀ {y : News K V × List (Event K V) × Gallery K V}, some y = some (a, evs, g') → a = y.1 := by
          intro y hy
          injection hy with hy
          rw [hy]
        cases d with
        | ask id q =>
          have hr : g.journals[id]?.map _ = _ := hr
          cases hj : g.journals[id]? with
          | none => rw [hj] at hr; cases hr
          | some j =>
            rw [hj] at hr
            rw [hinj hr]
            show j.answer q ≠ .other
            cases q <;> first | (exact fun h => by cases h) | skip
            intro he
            have he : (match j.record _ with | some r => News.record r | none => .unmonitored) = _ := he
            split at he <;> cases he
        | use op =>
          cases op with
          | create kind ctor => rw [hinj hr]; exact fun h => by cases h
          | newStats ks => rw [hinj hr]; exact fun h => by cases h
          | copyCtor | copyAssign => cases hr
          | stat id o =>
            have hr : g.journals[id]?.map _ = _ := hr
            cases hj : g.journals[id]? with
            | none => rw [hj] at hr; cases hr
            | some j =>
              rw [hj] at hr
              rw [hinj hr]
              show (g.instruct id j o).1 ≠ .other
              cases o <;> unfold Gallery.instruct <;> dsimp only <;>
                first | (exact fun h => by cases h) | (split <;> exact fun h => by cases h)
          | destroy i | moveCtor i =>
            have hr : (g.map i).map _ = _ := hr
            cases hm : g.map i with
            | none => rw [hm] at hr; cases hr
            | some m => rw [hm] at hr; rw [hinj hr]; exact fun h => by cases h
          | swap i j | swapBase i j | moveAssign i j | eq i j =>
            have hr : ((g.map i).bind fun a => (g.map j).map fun b => _) = _ := hr
            cases hm : g.map i with
            | none => rw [hm] at hr; cases hr
            | some m =>
              cases hm' : g.map j with
              | none => rw [hm, hm'] at hr; cases hr
              | some m' => rw [hm, hm'] at hr; rw [hinj hr]; exact fun h => by cases h
          | op i o =>
            have hr : (g.map i).bind _ = _ := hr
            cases hm : g.map i with
            | none => rw [hm] at hr; cases hr
            | some m =>
              rw [hm, Option.bind_some] at hr
              cases hobs : o.observes with
              | true =>
                rw [if_pos hobs] at hr
                rw [hinj hr]
                show (g.observe i m o).1 ≠ .other
                cases o <;> first
                  | (cases hobs; done)
                  | (exact fun h => by cases h)
                  | (unfold Gallery.observe; dsimp only; split <;> exact fun h => by cases h)
              | false =>
                rw [if_neg (by rw [hobs]; exact fun h => by cases h)] at hr
                split at hr
                · cases hr
                · rw [hinj hr]
                  unfold Gallery.call
                  dsimp only
                  split <;> exact fun h => by cases h
      rw [Gallery.hears, hr] at hx
      split at hx
      · next h => cases h
      · simp only [List.mem_singleton] at hx
        rw [hx]
        exact fun h => by cases h
      · next a' evs' g'' _ h =>
        injection h with h
        injection h with h4 h
        injection h with h5 h6
        subst h4 h5 h6
        rcases List.mem_cons.1 hx with hx | hx
        · rw [hx]; exact ha
        · exact ih g' _ h3 hx

/-- C80. No step throws anything but `KeyNotFound`, `NotMonitoring` and `UnmonitoredKey`, no number of misses wraps around and
every step returns; steps with undefined behaviour are those without meaning in the textbook. -/
theorem C80_no_surprises (hC : Calm O) (ds : List (Deed K V)) (hds : wellNamed 0 ds = true) :
    (∀ x ∈ Impl.initWorld.hears O ds, x.1 ≠ .other) ∧
      ((∃ x ∈ Impl.initWorld.hears O ds, x.1 = .undefined) ↔ ∃ x ∈ Gallery.hears ⟨[], []⟩ ds, x.1 = .undefined) := by
  rw [C80_same_news hC ds hds]
  exact ⟨Gallery.hears_ne_other _ ds 0 hds, Iff.rfl⟩

/-- A program with three caches and two statistics objects. Two caches share one, callbacks are registered and cleared, caches
are swapped and moved, keys are watched, reset and forgotten. -/
def demoGallery : List (Deed Nat Nat) :=
  [.use (.create .basic (.sized 2)), .use (.create .basic (.initList [(1, 10), (2, 20)])), .use (.op 0 .stats),
   .use (.op 0 .sharedStats), .use (.op 0 (.monitorNew [1, 2])), .use (.op 1 (.monitor (some 0))),
   .use (.op 0 (.addHitCallback 7)), .use (.op 0 (.addAccessCallback 8)), .use (.op 1 (.addMissCallback 9)),
   .use (.op 0 (.find 1)), .use (.op 1 (.find 1)), .ask 0 .hitRate, .ask 0 (.recordOf 1), .use (.swap 0 1),
   .use (.op 0 (.lookup 1)), .use (.op 1 (.lookup 1)), .use (.stat 0 (.unmonitor 2)), .use (.stat 0 (.resetKey 2)),
   .ask 0 .monitoredKeys, .use (.newStats []), .use (.op 1 (.monitor (some 1))), .use (.op 1 (.contains 3)), .ask 1 .missRate,
   .ask 1 .isMonitoringKeys, .use (.stat 1 (.monitor 3)), .use (.op 1 (.contains 3)), .ask 1 (.recordOf 3),
   .use (.op 0 .clearHitCallbacks), .use (.op 0 (.contains 2)), .use (.moveCtor 0), .use (.op 2 .isMonitoring),
   .use (.op 2 (.find 1)), .use (.op 0 (.find 1)), .ask 0 .misses, .use (.stat 0 (.resetKey 1)), .ask 0 (.recordOf 1),
   .use (.op 0 .stopMonitoring), .use (.op 0 (.contains 1)), .ask 0 .accesses, .use (.op 2 .front), .use (.op 0 .back),
   .ask 0 .hits]

/-- What the textbook tells. -/
example : Gallery.hears ⟨[], []⟩ demoGallery =
    [(.says .unit, []), (.says .unit, []), (.notMonitoring, []), (.object none, []), (.object (some 0), []), (.says .unit, []),
     (.says .unit, []), (.says .unit, []), (.says .unit, []), (.says (.item none), [.access 8 1 false]),
     (.says (.item (some (1, 10))), []), (.rate (some (1 / 2)), []), (.record ⟨1, 1⟩, []), (.says .unit, []),
     (.says (.value 10), [.hit 7 1 10, .access 8 1 true]), (.says .notFound, [.miss 9 1]), (.says .unit, []),
     (.unmonitored, []), (.says (.nat 1), []), (.object (some 1), []), (.says .unit, []), (.says (.bool false), [.miss 9 3]),
     (.rate (some 1), []), (.says (.bool false), []), (.says .unit, []), (.says (.bool false), [.miss 9 3]),
     (.record ⟨0, 1⟩, []), (.says .unit, []), (.says (.bool true), [.access 8 2 true]), (.says .unit, []),
     (.says (.bool false), []), (.says (.item (some (1, 10))), []), (.says (.item none), [.access 8 1 false]),
     (.says (.nat 3), []), (.says .unit, []), (.record ⟨0, 0⟩, []), (.says .unit, []),
     (.says (.bool false), [.access 8 1 false]), (.says (.nat 6), []), (.says (.key 1), []), (.says .terminated, [])] := by
  decide +kernel

/-- The hypotheses hold, and caches, statistics objects and callbacks tell the same. -/
example : Calm calmO ∧ wellNamed 0 demoGallery = true ∧
    Impl.initWorld.hears calmO demoGallery = Gallery.hears ⟨[], []⟩ demoGallery :=
  ⟨calmO_calm, by decide +kernel, by decide +kernel⟩

/-- A step without meaning ends the program. -/
example : wellNamed 0 ([.use (.create .basic (.sized 2)), .use (.moveCtor 0), .use (.op 0 (.addHitCallback 1)),
      .use (.op 0 (.find 1)), .use (.op 0 .capacity), .use (.op 1 .size)] : List (Deed Nat Nat)) = true ∧
    Gallery.hears ⟨[], []⟩ ([.use (.create .basic (.sized 2)), .use (.moveCtor 0), .use (.op 0 (.addHitCallback 1)),
      .use (.op 0 (.find 1)), .use (.op 0 .capacity), .use (.op 1 .size)] : List (Deed Nat Nat)) =
      [(.says .unit, []), (.says .unit, []), (.says .unit, []), (.says (.item none), []), (.undefined, [])] :=
  ⟨by decide +kernel, by decide +kernel⟩

end LRU
