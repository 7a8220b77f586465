import Verif.Proofs.WatchedTimed
import Verif.Props.ManyTimed
import Verif.Props.Watched
/-!
# C84: programs with several caches of both classes, their statistics and callbacks

`Museum.hears` (`Spec.WatchedTimed`) computes what a program learns that uses several textbook LRU maps, plain ones and ones with
expiry, has them report to statistics objects, registers callbacks and asks the statistics objects; and what the callbacks are
told at each step. Each step is made at one point in time. `World.hears` is what the program learns from the caches and from the
statistics objects, and what the callbacks of the caches are told. Nothing fails (`Calm`), the program compiles (`admissible`),
and the clock shows the time of the step while it runs (`PacedDeeds`). Copies are excluded: they share internal iterators with
their source (C28).

The textbook has one rule that nobody would expect: an access to an expired key is registered as a miss, unless it is an access
by `contains` or `lookup` to the key that was found or stored last; then nothing is registered, and `lookup` throws `KeyExpired`
in place of `KeyNotFound` (C44).
-/

set_option linter.unusedSectionVars false
set_option autoImplicit false

namespace LRU

variable {K V : Type} [KeyEqual K] [DecidableEq K] [DecidableEq V] {O O' : Oracle K V}

/-- C84. A program that uses several caches of both classes with statistics and callbacks learns what the textbook tells, and its
callbacks are told what the textbook tells, step by step. -/
theorem C84_same_news (hC : Calm O) (prog : List (Deed K V × Int)) (ha : admissible [] 0 (prog.map Prod.fst) = true)
    (hp : Impl.initWorld.PacedDeeds O prog) : Impl.initWorld.hears O (prog.map Prod.fst) = Museum.hears ⟨[], []⟩ prog :=
  hearsAt_eq hC prog .init displays_init ha hp

/-- C84. Hence nothing else matters: not where nodes are placed, in which order the hash table enumerates them, or how often the
clock is read. -/
theorem C84_nothing_else_matters (hC : Calm O) (hC' : Calm O') (prog : List (Deed K V × Int))
    (ha : admissible [] 0 (prog.map Prod.fst) = true) (hp : Impl.initWorld.PacedDeeds O prog)
    (hp' : Impl.initWorld.PacedDeeds O' prog) :
    Impl.initWorld.hears O (prog.map Prod.fst) = Impl.initWorld.hears O' (prog.map Prod.fst) := by
  rw [C84_same_news hC prog ha hp, C84_same_news hC' prog ha hp']

theorem Museum.hears_ne_other (g : Museum K V) (ds : List (Deed K V × Int)) (types : List CacheType) (n : Nat)
    (hds : admissible types n (ds.map Prod.fst) = true)
    (x : News K V × List (Event K V)) (hx : x ∈ g.hears ds) : x.1 ≠ .other := by
  induction ds generalizing g types n with
  | nil => cases hx
  | cons d ds ih =>
    obtain ⟨d, now⟩ := d
    rw [List.map_cons, admissible, Bool.and_eq_true] at hds
    obtain ⟨-, h3⟩ := hds
    cases hty : d.typed types with
    | none => rw [show (d, now).fst = d from rfl, hty] at h3; cases h3
    | some types' =>
    rw [show (d, now).fst = d from rfl, hty] at h3
    cases hr : g.reply now d with
    | none =>
      rw [Museum.hears, hr] at hx
      simp only [List.mem_singleton] at hx
      rw [hx]
      exact fun h => by cases h
    | some y =>
      obtain ⟨a, evs, g'⟩ := y
      have ha : a ≠ .other := by
        have hinj : ∀ {y : News K V × List (Event K V) × Museum K V}, some y = some (a, evs, g') → a = y.1 := by
          intro y hy
          injection hy with hy
          rw [hy]
        cases d with
        | ask id q =>
          have hr : g.journals[id]?.map _ = _ := hr
          cases hj : g.journals[id]? with
          | none => rw [hj] at hr; cases hr
          | some j =>
            rw [hj] at hr
            rw [hinj hr]
            show j.answer q ≠ .other
            cases q <;> first | (exact fun h => by cases h) | skip
            intro he
            have he : (match j.record _ with | some r => News.record r | none => .unmonitored) = _ := he
            split at he <;> cases he
        | use op =>
          cases op with
          | create kind ctor => rw [hinj hr]; exact fun h => by cases h
          | newStats ks => rw [hinj hr]; exact fun h => by cases h
          | copyCtor | copyAssign => cases hr
          | stat id o =>
            have hr : g.journals[id]?.map _ = _ := hr
            cases hj : g.journals[id]? with
            | none => rw [hj] at hr; cases hr
            | some j =>
              rw [hj] at hr
              rw [hinj hr]
              show (g.instruct id j o).1 ≠ .other
              cases o <;> unfold Museum.instruct <;> dsimp only <;>
                first | (exact fun h => by cases h) | (split <;> exact fun h => by cases h)
          | destroy i | moveCtor i =>
            have hr : (g.map i).map _ = _ := hr
            cases hm : g.map i with
            | none => rw [hm] at hr; cases hr
            | some m => rw [hm] at hr; rw [hinj hr]; exact fun h => by cases h
          | swap i j | swapBase i j | moveAssign i j | eq i j =>
            have hr : ((g.map i).bind fun a => (g.map j).map fun b => _) = _ := hr
            cases hm : g.map i with
            | none => rw [hm] at hr; cases hr
            | some m =>
              cases hm' : g.map j with
              | none => rw [hm, hm'] at hr; cases hr
              | some m' => rw [hm, hm'] at hr; rw [hinj hr]; exact fun h => by cases h
          | op i o =>
            have hr : (g.map i).bind _ = _ := hr
            cases hm : g.map i with
            | none => rw [hm] at hr; cases hr
            | some m =>
              rw [hm, Option.bind_some] at hr
              cases hobs : o.observes with
              | true =>
                rw [if_pos hobs] at hr
                rw [hinj hr]
                show (g.observe i m o).1 ≠ .other
                cases o <;> first
                  | (cases hobs; done)
                  | (exact fun h => by cases h)
                  | (unfold Museum.observe; dsimp only; split <;> exact fun h => by cases h)
              | false =>
                rw [if_neg (by rw [hobs]; exact fun h => by cases h)] at hr
                split at hr
                · cases hr
                · rw [hinj hr]
                  unfold Museum.call
                  dsimp only
                  split
                  · exact fun h => by cases h
                  · split
                    · dsimp only
                      split <;> exact fun h => by cases h
                    · exact fun h => by cases h
      rw [Museum.hears, hr] at hx
      split at hx
      · next h => cases h
      · simp only [List.mem_singleton] at hx
        rw [hx]
        exact fun h => by cases h
      · next a' evs' g'' _ h =>
        injection h with h
        injection h with h4 h
        injection h with h5 h6
        subst h4 h5 h6
        rcases List.mem_cons.1 hx with hx | hx
        · rw [hx]; exact ha
        · exact ih g' _ _ h3 hx

/-- C84. No step throws anything but `KeyNotFound`, `KeyExpired`, `NotMonitoring` and `UnmonitoredKey`, no number of misses wraps
around and every step returns; steps with undefined behaviour are those without meaning in the textbook. -/
theorem C84_no_surprises (hC : Calm O) (prog : List (Deed K V × Int)) (ha : admissible [] 0 (prog.map Prod.fst) = true)
    (hp : Impl.initWorld.PacedDeeds O prog) :
    (∀ x ∈ Impl.initWorld.hears O (prog.map Prod.fst), x.1 ≠ .other) ∧
      ((∃ x ∈ Impl.initWorld.hears O (prog.map Prod.fst), x.1 = .undefined) ↔
        ∃ x ∈ Museum.hears ⟨[], []⟩ prog, x.1 = .undefined) := by
  rw [C84_same_news hC prog ha hp]
  exact ⟨Museum.hears_ne_other _ prog [] 0 ha, Iff.rfl⟩

/-! ### A program that meets the hypotheses -/

/-- Two timed caches, with different durations, and a plain one. Key 1 expires while it is the key found last: accesses to it by
`contains` and `lookup` are not registered, the one by `find` is. After key 2 was stored, key 1 is not the latest key any more,
and its accesses are registered. The swap through the base class takes the latest key along and leaves callbacks, statistics
objects and times to live. -/
def demoMuseum : List (Deed Nat Nat × Int) :=
  [(.use (.create (.timed 2 10) (.sized 2)), 0), (.use (.create (.timed 50 1) (.initList [(5, 50), (1, 11)])), 0),
   (.use (.create .basic (.initList [(1, 10)])), 0), (.use (.op 0 (.monitorNew [1])), 0), (.use (.op 1 (.monitor (some 0))), 0),
   (.use (.op 0 (.addMissCallback 7)), 0), (.use (.op 0 (.addAccessCallback 8)), 0), (.use (.op 1 (.addHitCallback 9)), 0),
   (.use (.op 0 (.insert 1 10)), 0), (.use (.op 0 (.find 1)), 29), (.use (.op 0 (.lookup 1)), 30),
   (.use (.op 0 (.contains 1)), 30), (.ask 0 .accesses, 30), (.use (.op 0 (.find 1)), 30), (.ask 0 .misses, 30),
   (.use (.op 0 (.insert 2 20)), 40), (.use (.op 0 (.lookup 1)), 40), (.use (.op 0 (.contains 1)), 40),
   (.ask 0 (.recordOf 1), 40), (.use (.op 1 (.lookup 1)), 50), (.use (.swapBase 0 1), 50), (.use (.op 0 (.contains 5)), 50),
   (.use (.op 0 (.contains 1)), 50), (.use (.op 1 (.lookup 2)), 91), (.use (.op 1 (.lookup 1)), 91), (.ask 0 .hitRate, 91),
   (.use (.op 1 .clearExpired), 91), (.use (.op 1 (.lookup 2)), 91), (.use (.op 0 .stats), 91),
   (.use (.op 2 .sharedStats), 91), (.use (.op 2 (.lookup 1)), 91), (.use (.moveCtor 0), 91),
   (.use (.op 3 (.lookup 1)), 91), (.use (.op 0 (.contains 1)), 91), (.ask 0 .misses, 91), (.use (.op 0 .spaceLeft), 91),
   (.use (.op 1 .size), 91)]

/-- What the textbook tells. -/
example : Museum.hears ⟨[], []⟩ demoMuseum =
    [(.says .unit, []), (.says .unit, []), (.says .unit, []), (.object (some 0), []), (.says .unit, []), (.says .unit, []),
     (.says .unit, []), (.says .unit, []), (.says (.stored true (some (1, 10))), []),
     (.says (.item (some (1, 10))), [.access 8 1 true]), (.expired, []), (.says (.bool false), []), (.says (.nat 1), []),
     (.says (.item none), [.miss 7 1, .access 8 1 false]), (.says (.nat 1), []), (.says (.stored true (some (2, 20))), []),
     (.says .notFound, [.miss 7 1, .access 8 1 false]), (.says (.bool false), [.miss 7 1, .access 8 1 false]),
     (.record ⟨1, 3⟩, []), (.says (.value 11), [.hit 9 1 11]), (.says .unit, []),
     (.says (.bool false), [.miss 7 5, .access 8 5 false]), (.says (.bool false), []), (.expired, []), (.says .notFound, []),
     (.rate (some (2 / 7)), []), (.says (.nat 2), []), (.says .notFound, []), (.object (some 0), []), (.object none, []),
     (.says (.value 10), []), (.says .unit, []), (.expired, []), (.says (.bool false), [.miss 7 1, .access 8 1 false]),
     (.says (.nat 7), []), (.undefined, [])] := by
  decide +kernel

/-- An environment in which nothing fails and the clock shows the times of the steps. -/
def museumO : Oracle Nat Nat :=
  { calmO with clock := fun n => [0, 0, 0, 29, 30, 30, 30, 40, 40, 40, 50, 50, 50].getD n 91 }

theorem museumO_calm : Calm museumO := calmO_calm

/-- `World.PacedDeeds`, as a test. -/
def pacedDeedsTest (O : Oracle Nat Nat) : World Nat Nat → List (Deed Nat Nat × Int) → Bool
  | _, [] => true
  | w, (.ask _ _, _) :: ds => pacedDeedsTest O w ds
  | w, (.use op, now) :: ds =>
    match Impl.wstep O op w with
    | .ok _ w' | .throw _ w' =>
      (List.range w'.g.ticks).all (fun n => decide (n < w.g.ticks) || O.clock n == now) && pacedDeedsTest O w' ds
    | _ => true

theorem paced_of_deeds_test {O : Oracle Nat Nat} {ds : List (Deed Nat Nat × Int)} {w : World Nat Nat}
    (h : pacedDeedsTest O w ds = true) : w.PacedDeeds O ds := by
  induction ds generalizing w with
  | nil => unfold World.PacedDeeds; trivial
  | cons x ds ih =>
    obtain ⟨d, now⟩ := x
    have key : ∀ w' : World Nat Nat,
        ((List.range w'.g.ticks).all (fun n => decide (n < w.g.ticks) || O.clock n == now) && pacedDeedsTest O w' ds) = true →
        (∀ n, w.g.ticks ≤ n → n < w'.g.ticks → O.clock n = now) ∧ w'.PacedDeeds O ds := by
      intro w' h
      rw [Bool.and_eq_true_iff, List.all_eq_true] at h
      refine ⟨fun n h1 h2 => ?_, ih h.2⟩
      have h3 := h.1 n (List.mem_range.2 h2)
      rw [Bool.or_eq_true_iff, decide_eq_true_iff, beq_iff_eq] at h3
      rcases h3 with h3 | h3
      · omega
      · exact h3
    cases d with
    | ask id o =>
      unfold pacedDeedsTest at h
      unfold World.PacedDeeds
      exact ih h
    | use op =>
      unfold pacedDeedsTest at h
      unfold World.PacedDeeds
      cases hs : Impl.wstep O op w with
      | ok r w' => rw [hs] at h; exact key w' h
      | throw e w' => rw [hs] at h; exact key w' h
      | _ => trivial

/-- The hypotheses hold, and caches, statistics objects and callbacks tell the same. -/
example : Calm museumO ∧ admissible [] 0 (demoMuseum.map Prod.fst) = true ∧ Impl.initWorld.PacedDeeds museumO demoMuseum ∧
    Impl.initWorld.hears museumO (demoMuseum.map Prod.fst) = Museum.hears ⟨[], []⟩ demoMuseum :=
  ⟨museumO_calm, by decide +kernel, paced_of_deeds_test (by decide +kernel), by decide +kernel⟩

end LRU
