import Verif.Proofs.Asserts
import Verif.Spec.Demo
/-!
# C93: no assertion of the library ever fails

`Impl.Debug` is the library with its assertions; `A` is what a failed one does. If an assertion could fail, what a call does
would depend on `A`.
-/

set_option autoImplicit false
set_option linter.unusedSectionVars false

namespace LRU

variable {K V : Type} [KeyEqual K] [DecidableEq K] [DecidableEq V] (O : Oracle K V)

/-- C93. No call of a member function evaluates an assertion that fails, in any state of the cache, reachable or not: whatever
a failed assertion does, a build with assertions does what a build without them does. -/
theorem C93_calls (A : Impl.CM K V Unit) (op : Op K V) (s : St (Cache K V) K V) :
    Impl.Debug.step O A op s = Impl.step O op s := congrFun (Impl.Debug.step_eq O A op) s

/-- C93. The same for every step of a program that uses several caches, constructions included. -/
theorem C93_programs (A : Impl.CM K V Unit) (op : WOp K V) (w : World K V) :
    Impl.Debug.wstep O A op w = Impl.wstep O op w := congrFun (Impl.Debug.wstep_eq O A op) w

/-- The results of the steps of a program that catches exceptions, and whether it ran to its end. -/
def results (step : WOp K V → M (World K V) (Res K V)) : List (WOp K V) → World K V → List (Except Err (Res K V)) × Option (World K V)
  | [], w => ([], some w)
  | op :: ops, w =>
    match step op w with
    | .ok r w' => let x := results step ops w'; (.ok r :: x.1, x.2)
    | .throw e w' => let x := results step ops w'; (.error e :: x.1, x.2)
    | _ => ([], none)

/-- C93. Programs have the same results and end in the same state with and without assertions, copies of caches included. -/
theorem C93_runs (A : Impl.CM K V Unit) (ops : List (WOp K V)) (w : World K V) :
    results (Impl.Debug.wstep O A) ops w = results (Impl.wstep O) ops w := by
  have e : Impl.Debug.wstep O A = Impl.wstep O := funext fun op => Impl.Debug.wstep_eq O A op
  rw [e]

/-- C93. The assertions are not void: what is asserted in `LastAccessed` and after `_map.emplace` does not hold of every
cache. It does hold of the caches and at the places the library evaluates it. -/
theorem C93_not_void (A : Impl.CM K V Unit) (s : St (Cache K V) K V) (k : K) (v : V) (t : Int) :
    (s.c.last = none → Impl.Debug.lastNode A s = (A >>= fun _ => M.ub) s) ∧
    (∀ n ∈ s.c.map, keq n.key k = true → O.fails .mapNode s.g.steps = false →
      ∃ p s', Impl.Debug.mapEmplace O k v t s = .ok (p, false) s') := by
  refine ⟨fun h => ?_, fun n hn hk hf => ?_⟩
  · show (Impl.Debug.assert A s.c.last.isSome >>= fun _ => match s.c.last with | none => M.ub | some p => Impl.deref p) s = _
    rw [h]
    rfl
  · have hs : (s.c.map.find? (fun n => keq n.key k)).isSome = true := List.find?_isSome.2 ⟨n, hn, hk⟩
    obtain ⟨m, hm⟩ := Option.isSome_iff_exists.1 hs
    refine ⟨m.addr, ⟨s.c, { s.g with steps := s.g.steps + 1, next := s.g.next + 1 }⟩, ?_⟩
    show M.bind (attempt O .mapNode) _ s = _
    simp only [M.bind, attempt, hf]
    show (match s.c.map.find? (fun n => keq n.key k) with
      | some n => pure (n.addr, false)
      | none => _ : Impl.CM K V (Ptr × Bool)) _ = _
    rw [hm]
    rfl

/-- A program that evaluates assertions of each kind: in `insert` and `emplace`, of the last accessed element (found again, expired,
erased), of the statistics, and of iterators. With assertions that abort it runs to its end. A function that reads the last accessed
element of a cache that has none would abort. -/
example :
    let abort : Impl.CM Nat Nat Unit := fun _ => .terminate
    let ops : List (WOp Nat Nat) := [.create (timedKind 5 1) (.sizedItems 3 [(1, 10), (2, 20)]), .op 0 (.monitorNew [1]),
      .op 0 (.insert 3 30), .op 0 (.emplace 4 40), .op 0 (.lookup 4), .op 0 (.contains 4), .op 0 (.find 3), .op 0 (.contains 9),
      .op 0 (.hasExpiredO none), .op 0 (.oKey (some 1)), .op 0 .stats, .op 0 (.erase 3), .copyCtor 0, .op 1 (.contains 9)]
    (results (Impl.Debug.wstep calmO abort) ops Impl.initWorld).1.length = ops.length ∧
    (match Impl.Debug.lastNode abort ⟨Impl.emptyCache .basic 3, (Impl.initWorld (K := Nat) (V := Nat)).g⟩ with
      | .terminate => true | _ => false) = true := by decide +kernel

end LRU
